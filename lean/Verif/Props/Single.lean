import Verif.Mcts.Values
import Verif.Props.Alpha

/-!
# C43, partial: the steps of the single-game search

`alpha_mcts` as a whole panics (`C43_panics`).  Here: what each of its steps does when called on a well-formed tree.
-/

namespace DieE.Props.Sg
open DieE DieE.Mcts DieE.Props.S DieE.Props.A

variable {G : Game} {Fl : Floats}

open Classical in
/-- One iteration of the loop, when it returns: it picks a leaf below the root, and records one value along the path from
the leaf to the root, and nothing elsewhere.  The value is the network's for an unfinished leaf, and 0 or 1 for a finished one, by
the winner of the *searched* position.  Missing for the full C43: the iteration is never reached when a move exists. -/
theorem C43_iteration_partial {net : Net Fl} {root : Nat} {state : G.S} {st st' : Store G Fl} {t t' : Tape}
    (w : WellFormed st) (hr : root < st.length) (h : alphaIteration net root state st t = .ok (st', t')) :
    ∃ (k : Nat) (leaf : Node G Fl) (v : Fl.F), st[k]? = some leaf ∧ leaf.children = [] ∧ Anc st root k ∧
      (G.winner leaf.state = none → ∃ x, G.tensor leaf.state = .ok x ∧ v = net.eval x 0) ∧
      (G.winner leaf.state ≠ none → ∃ p, G.winner state = some p ∧ v = Fl.ofInt ((p + 1) / 2)) ∧
      ∀ (j : Nat) (n : Node G Fl), st[j]? = some n → ∃ n', st'[j]? = some n' ∧
        n'.visits = (if Anc st j k then vinc n.visits else n.visits) ∧
        n'.value = (if Anc st j k then Fl.add n.value v else n.value) ∧ n'.policy = n.policy := by
  unfold alphaIteration at h
  obtain ⟨k, leaf, h1, h2, h3, h4⟩ := alphaLeafNode_spec w root hr
  rw [h1, M.bind_eq (M.lift_ok.2 ⟨rfl, rfl⟩), getNode_ok.2 h2, M.bind_eq (M.lift_ok.2 ⟨rfl, rfl⟩)] at h
  have hkl := (List.getElem?_eq_some_iff.1 h2).1
  have hterm : leaf.isTerminal = (G.winner leaf.state).isSome := rfl
  cases hw : G.winner leaf.state with
  | none =>
    rw [hterm, hw] at h
    simp only [Option.isSome_none, Bool.not_false, if_true] at h
    obtain ⟨x, t1, e1, h⟩ := M.bind_ok.1 h
    obtain ⟨probs, t2, -, h⟩ := M.bind_ok.1 h
    obtain ⟨⟨st1, n1⟩, t3, e3, h⟩ := M.bind_ok.1 h
    obtain ⟨v, t4, e4, h⟩ := M.bind_ok.1 h
    have h := (M.lift_ok.1 h).1
    have hv : v = net.eval x 0 := by
      have e4 := (M.lift_ok.1 e4).1
      unfold Tensor.value at e4
      split at e4
      · cases e4; rfl
      · cases e4
    obtain ⟨w1, hup, -, hlen, -⟩ := alphaExpand_wf w h2 rfl e3
    obtain ⟨st2, b1, -, b3⟩ := backpropagate_spec v k st1 w1.upLt (by omega)
    rw [b1] at h
    cases Except.ok.inj h
    refine ⟨k, leaf, v, h2, h4, h3, fun _ => ⟨x, (M.lift_ok.1 e1).1, hv⟩, fun h => absurd hw h, ?_⟩
    intro j n hj
    have hki : leaf.idx = k := w.idx k leaf h2
    obtain ⟨m', c1, c2, c3, c4⟩ := alphaExpandWith_old e3 hj (by
      intro e
      rw [e, hki, h2] at hj
      exact (Option.some.inj hj).symm)
    refine ⟨_, b3 j m' c1, ?_⟩
    have : Anc st1 j k ↔ Anc st j k := anc_iff w.upLt hup hkl
    by_cases hjk : Anc st j k
    · rw [if_pos (this.2 hjk), if_pos hjk, if_pos hjk]
      exact ⟨by rw [← c2]; rfl, by rw [← c3]; rfl, c4⟩
    · rw [if_neg (fun e => hjk (this.1 e)), if_neg hjk, if_neg hjk]
      exact ⟨c2, c3, c4⟩
  | some p =>
    rw [hterm, hw] at h
    simp only [Option.isSome_some, Bool.not_true, Bool.false_eq_true, if_false] at h
    cases hs : G.winner state with
    | none => rw [hs] at h; exact absurd h (by simp [M.fail])
    | some q =>
      rw [hs] at h
      have h := (M.lift_ok.1 h).1
      obtain ⟨st2, b1, -, b3⟩ := backpropagate_spec (Fl.ofInt (halfWin q)) k st w.upLt hkl
      rw [b1] at h
      cases Except.ok.inj h
      refine ⟨k, leaf, _, h2, h4, h3, fun h => (by rw [hw] at h; cases h), fun _ => ⟨q, rfl, rfl⟩, ?_⟩
      intro j n hj
      refine ⟨_, b3 j n hj, ?_⟩
      split <;> exact ⟨rfl, rfl, rfl⟩

/-! ## Noise on the children -/

theorem noise_fold {mix : Fl.F → Nat → Fl.F} (l : List (Nat × Nat)) (st : Store G Fl) (hlt : ∀ p ∈ l, p.1 < st.length)
    (hnd : (l.map Prod.fst).Nodup) :
    ∃ st', l.foldlM (fun st p => modifyNode st p.1 fun m => { m with policy := mix m.policy p.2 }) st = Except.ok st' ∧
      st'.length = st.length ∧
      (∀ p ∈ l, ∀ m : Node G Fl, st[p.1]? = some m → st'[p.1]? = some { m with policy := mix m.policy p.2 }) ∧
      ∀ j, (∀ p ∈ l, p.1 ≠ j) → st'[j]? = st[j]? := by
  induction l generalizing st with
  | nil => exact ⟨st, rfl, rfl, by simp, by simp⟩
  | cons p l ih =>
    have hp := hlt p (List.mem_cons_self ..)
    obtain ⟨m0, hm0⟩ : ∃ m, st[p.1]? = some m := ⟨_, List.getElem?_eq_getElem hp⟩
    have hmod : (modifyNode st p.1 fun m => { m with policy := mix m.policy p.2 }) =
        Except.ok (st.set p.1 { m0 with policy := mix m0.policy p.2 }) := by
      unfold modifyNode
      rw [hm0]
    rw [List.map_cons, List.nodup_cons] at hnd
    obtain ⟨st', h1, h2, h3, h4⟩ := ih (st.set p.1 { m0 with policy := mix m0.policy p.2 })
      (fun q hq => by rw [List.length_set]; exact hlt q (List.mem_cons_of_mem _ hq)) hnd.2
    have hne : ∀ q ∈ l, q.1 ≠ p.1 := fun q hq e => hnd.1 (List.mem_map.2 ⟨q, hq, e⟩)
    refine ⟨st', ?_, by rw [h2, List.length_set], ?_, ?_⟩
    · rw [List.foldlM_cons, hmod]
      exact h1
    · intro q hq m hm
      rcases List.mem_cons.1 hq with rfl | hq
      · rw [h4 q.1 hne, List.getElem?_set_self hp]
        rw [hm0] at hm
        cases Option.some.inj hm
        rfl
      · have := hne q hq
        refine h3 q hq m ?_
        rw [List.getElem?_set_ne (Ne.symm this)]
        exact hm
    · intro j hj
      have := hj p (List.mem_cons_self ..)
      rw [h4 j fun q hq => hj q (List.mem_cons_of_mem _ hq), List.getElem?_set_ne this]

/-- Mixing noise into a node (noise.rs:9-22): for a visited node with at least two children and a valid `alpha` it
returns, changes the prior of the k-th child to its mix with the k-th entry of one sample, and nothing else. -/
theorem C43_noise_partial {net : Net Fl} {st : Store G Fl} (w : WellFormed st) {i : Nat} {n n0 : Node G Fl}
    (hi : st[i]? = some n0) (hc : n.children = n0.children) (hv : 0 < n.visits) (h2 : 2 ≤ n.children.length)
    (ha : net.alphaOk = true) (t : Tape) :
    ∃ st' t' r, applyDirichletNode net n st t = .ok (st', t') ∧ st'.length = st.length ∧
      (∀ (k c : Nat) (m : Node G Fl), n.children[k]? = some c → st[c]? = some m →
        st'[c]? = some { m with policy := net.mixChild m.policy (net.noise r k) }) ∧
      ∀ j, j ∉ n.children → st'[j]? = st[j]? := by
  have hlt : ∀ c ∈ n.children, c < st.length := by
    intro c hcm
    rw [hc] at hcm
    exact w.child_lt hi hcm
  have hnd : n.children.Nodup := by rw [hc]; exact w.nodup i n0 hi
  obtain ⟨st', e1, e2, e3, e4⟩ := noise_fold (G := G) (Fl := Fl) (mix := fun p k => net.mixChild p (net.noise (t 0) k))
    n.children.zipIdx st (fun p hp => hlt p.1 (List.fst_mem_of_mem_zipIdx hp)) (by rw [List.zipIdx_map_fst]; exact hnd)
  refine ⟨st', fun n => t (n + 1), t 0, ?_, e2, ?_, ?_⟩
  · unfold applyDirichletNode
    have : assert (decide (0 < n.visits)) = .ok () := by unfold assert; rw [if_pos (by simpa using hv)]
    rw [this, M.bind_eq (M.lift_ok.2 ⟨rfl, rfl⟩)]
    have hs : sampleDirichlet net n.children.length t = .ok (net.noise (t 0), fun n => t (n + 1)) := by
      unfold sampleDirichlet
      rw [if_pos ⟨h2, ha⟩]
      rfl
    rw [M.bind_eq hs]
    exact M.lift_ok.2 ⟨e1, rfl⟩
  · intro k c m hk hm
    exact e3 (c, k) (List.mem_zipIdx_iff_getElem?.2 hk) m hm
  · intro j hj
    exact e4 j fun p hp e => hj (e ▸ List.fst_mem_of_mem_zipIdx hp)

/-! ## The vector of priors -/

/-- The loop of `turn_policy_to_probs`: if every move has a code with an entry in the policy, it succeeds exactly if all
codes are below 1352, and then returns the codes in order. -/
theorem C43_codes_partial {policy : Tensor Fl.F} {s : G.S} (as : List G.Mv) (code : G.Mv → Nat)
    (hcode : ∀ a ∈ as, G.encode s a = .ok (code a)) (hpol : ∀ a ∈ as, ∃ v, policy.value [code a] = .ok v) :
    (∀ a ∈ as, code a < 1352) → probsVecLoop policy s as = .ok (as.map code) := by
  induction as with
  | nil => intro _; rfl
  | cons a as ih =>
    intro h
    unfold probsVecLoop
    obtain ⟨v, hv⟩ := hpol a (List.mem_cons_self ..)
    rw [hcode a (List.mem_cons_self ..)]
    simp only [bind, Except.bind]
    rw [hv]
    simp only
    rw [if_pos (h a (List.mem_cons_self ..)), ih (fun b hb => hcode b (List.mem_cons_of_mem _ hb))
      (fun b hb => hpol b (List.mem_cons_of_mem _ hb)) (fun b hb => h b (List.mem_cons_of_mem _ hb))]
    rfl

/-- and fails otherwise. -/
theorem C43_codes_panic_partial {policy : Tensor Fl.F} {s : G.S} (as : List G.Mv) (code : G.Mv → Nat)
    (hcode : ∀ a ∈ as, G.encode s a = .ok (code a)) (hpol : ∀ a ∈ as, ∃ v, policy.value [code a] = .ok v)
    (h : ∃ a ∈ as, 1352 ≤ code a) : probsVecLoop policy s as = .error .indexOutOfBounds := by
  induction as with
  | nil => obtain ⟨a, ha, -⟩ := h; cases ha
  | cons a as ih =>
    unfold probsVecLoop
    obtain ⟨v, hv⟩ := hpol a (List.mem_cons_self ..)
    rw [hcode a (List.mem_cons_self ..)]
    simp only [bind, Except.bind]
    rw [hv]
    simp only
    by_cases ha : code a < 1352
    · rw [if_pos ha, ih (fun b hb => hcode b (List.mem_cons_of_mem _ hb)) (fun b hb => hpol b (List.mem_cons_of_mem _ hb))]
      obtain ⟨b, hb, hb'⟩ := h
      rcases List.mem_cons.1 hb with rfl | hb
      · omega
      · exact ⟨b, hb, hb'⟩
    · rw [if_neg ha]

/-! ## Expanding with the vector -/

/-- `alpha_expand` with a vector of 1352 priors (node.rs:139-155): on a node of a well-formed tree it returns, for every
game with at most 1352 codes (both games), and the child made for a move carries the entry at the code of the move. -/
theorem C43_expand_partial {R : G.S → Prop} (hs : SafeNet G R) (hN : G.actionSpace ≤ 1352) {st : Store G Fl}
    (w : WellFormed st) (hR : AllR R st) {i : Nat} {n : Node G Fl} (hi : st[i]? = some n) (policy : Nat → Fl.F) (t : Tape) :
    ∃ st' n' t', alphaExpandVec n policy st t = .ok ((st', n'), t') ∧
      n'.children.length = n.children.length + n.expandable.length ∧ n'.expandable = [] ∧
      ∀ (j : Nat) (a : G.Mv), n.expandable[j]? = some a →
        ∃ (m : Node G Fl) (code : Nat), st'[st.length + j]? = some m ∧ m.action = some a ∧
          G.encode n.state a = .ok code ∧ m.policy = policy code := by
  obtain ⟨st', n', t', h, -⟩ := alphaExpandWith_progress hs
    (prior := fun c => if c < 1352 then .ok (policy c) else .error .indexOutOfBounds)
    (fun c hc => ⟨policy c, if_pos (by omega)⟩) w hR hi rfl t
  obtain ⟨news, h1, -, h3, -⟩ := alphaExpandWith_ok h
  refine ⟨st', n', t', h, ?_, ?_, fun j a hj => ?_⟩
  · rw [h1]
    simp
  · rw [h1]
  · obtain ⟨m, code, k1, k2, k3, k4⟩ := alphaExpandWith_policy
      (by rw [w.idx i n hi]; exact (List.getElem?_eq_some_iff.1 hi).1) h j a hj
    refine ⟨m, code, k1, k2, k3, ?_⟩
    split at k4
    · injection k4 with k4
      exact k4.symm
    · cases k4

/-- Both games have at most 1352 codes; the last code of Backgammon is that of the empty move, see C19. -/
example : (BG.game .debug).actionSpace ≤ 1352 ∧ (TTT.game .debug).actionSpace ≤ 1352 :=
  ⟨show (1352 : Nat) ≤ 1352 by decide, show (9 : Nat) ≤ 1352 by decide⟩

/-! ## The hypotheses are met -/

/-- A finished position, won by 1. -/
def wonTTT : TTT.State := { player := -1, board := #v[1, 1, 1, -1, -1, 0, 0, 0, 0], id := 0 }

/-- The store with the finished position only: an iteration returns and records the value 1. -/
example : ∃ st, addNode (G := TTT.game .debug) (Fl := demoFloats) [] wonTTT none none (0 : Int) = .ok (st, 0) ∧
    (alphaIteration demoNet 0 wonTTT st demoTape).toOption.map (fun r => r.1.map fun n => ((n.visits : Nat), (n.value : Int)))
      = some [(1, 1)] :=
  ⟨_, rfl, by decide +kernel⟩

/-- The tree of the initial position before the first iteration: the root has been visited and has nine children. -/
example : (parallelStart (G := TTT.game .debug) demoNet [TTT.new] [] demoTape).toOption.map
    (fun r => r.1.map fun n => ((n.visits : Nat), n.children.length)) =
    some ((1, 9) :: List.replicate 9 (0, 0)) := by decide +kernel

end DieE.Props.Sg
