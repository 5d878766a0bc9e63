import Verif.Mcts.RootPriors
import Verif.Mcts.Path

/-!
# Finished and unfinished nodes of a batched search

A finished node only ever gets the result of its position recorded (`parallelIteration_rest`).  An unfinished node gets
its first value from the network, everything else later (`parallelIteration_f`).
-/

namespace DieE.Mcts
variable {G : Game} {Fl : Floats}

/-! ## Nodes not selected -/

/-- The expansion phase changes no node that is not on the path to one of the expanded nodes. -/
theorem expandPhase_rest {net : Net Fl} {states : List G.S} {policy eval : Tensor Fl.F} (l : List (Nat × Nat))
    {st st' : Store G Fl} {t t' : Tape} (f : Forest states st) (hl : ∀ p ∈ l, p.2 < st.length)
    (h : expandPhase net policy eval l st t = .ok (st', t')) {j : Nat} (hj : j < st.length)
    (hno : ∀ p ∈ l, ¬ Anc st j p.2) : st'[j]? = st[j]? := by
  induction l generalizing st t with
  | nil =>
    cases M.pure_ok.1 h
    rfl
  | cons p l ih =>
    obtain ⟨row, i⟩ := p
    unfold expandPhase at h
    obtain ⟨node, t1, h1, h⟩ := M.bind_ok.1 h
    rw [M.lift_ok, getNode_ok] at h1
    obtain ⟨p, t2, -, h⟩ := M.bind_ok.1 h
    obtain ⟨e, t3, -, h⟩ := M.bind_ok.1 h
    obtain ⟨probs, t4, -, h⟩ := M.bind_ok.1 h
    obtain ⟨⟨st1, node1⟩, t5, h5, h⟩ := M.bind_ok.1 h
    simp only at h
    obtain ⟨value, t6, -, h⟩ := M.bind_ok.1 h
    obtain ⟨st2, t7, h7, h8⟩ := M.bind_ok.1 h
    rw [M.lift_ok] at h7
    have f1 := f.expand h1.1 rfl h5
    obtain ⟨w1, hup1, hidx, hlen1, hself, hvself, hv, hpar, hold⟩ := alphaExpand_wf f.wf h1.1 rfl h5
    have hil : i < st.length := (List.getElem?_eq_some_iff.1 h1.1).1
    rw [hidx] at h7
    obtain ⟨st2', h9, h10, h11⟩ := backpropagate_spec value i st1 w1.upLt (by omega)
    rw [h9] at h7
    cases Except.ok.inj h7.1
    have hlen2 := h10.length
    have hup2 : SameUp st st2 := hup1.trans h10.up
    have hl' : ∀ p ∈ l, p.2 < st.length := fun p hp => hl p (List.mem_cons_of_mem _ hp)
    have hni : ¬ Anc st j i := hno _ (List.mem_cons_self ..)
    have hji : j ≠ i := fun he => hni (he ▸ .refl)
    rw [ih (f1.shape h10) (fun p hp => by have := hl' p hp; omega) h8 (by omega) fun p hp ha =>
      hno p (List.mem_cons_of_mem _ hp) (ha.of_up f.wf.upLt hup2 (hl' p hp))]
    have hn : st1[j]? = some st[j] := by rw [hold j hji hj]; exact List.getElem?_eq_getElem hj
    rw [h11 j _ hn, if_neg fun ha => hni (ha.of_up f.wf.upLt hup1 hil)]
    exact (List.getElem?_eq_getElem hj).symm

open Classical in
/-- In one iteration a node that is not on the path to one of the selected nodes changes only if the selection of its game
ended at a finished node below it; then it gets the result of that position recorded. -/
theorem parallelIteration_rest {net : Net Fl} {states : List G.S} {order : List Nat} {st st' : Store G Fl}
    {sel sel' : List Nat} {t t' : Tape} (f : Forest states st) (hs : SelOk states st sel) (hnd : order.Nodup)
    (ho : ∀ g, g ∈ order ↔ g < states.length)
    (h : parallelIteration net order st sel t = .ok ((st', sel'), t')) {r i k : Nat} {s : G.S} {n kn : Node G Fl}
    (hr : states[r]? = some s) (hi : Anc st r i) (hn : st[i]? = some n) (hl : Leaf st r k kn)
    (hno : ∀ x ∈ sel', ¬ Anc st i x) :
    st'[i]? = some (match G.winner kn.state with
      | some w => if Anc st i k then n.record (Fl.ofInt (outcome w (G.player s))) else n
      | none => n) := by
  have hmem := (parallelIteration_ok f hs hnd ho h).2.2.2.2.1
  unfold parallelIteration at h
  obtain ⟨st1, sel1, flag1, h1, h2⟩ := selectPhase_spec order f hnd (fun g hg => (ho g).1 hg) sel hs.len false
  rw [h1] at h
  obtain ⟨x, t1, h3, h⟩ := M.bind_ok.1 h
  rw [M.lift_ok] at h3
  obtain ⟨h3, rfl⟩ := h3
  cases Except.ok.inj h3
  simp only at h
  have hro : r ∈ order := (ho r).2 (List.getElem?_eq_some_iff.1 hr).1
  have htree := h2.tree r i k s n kn hr hi hn hl
  simp only [hro, true_and] at htree
  have hil := (List.getElem?_eq_some_iff.1 hn).1
  have hlen := h2.shape.length
  cases hf : flag1 with
  | false =>
    rw [hf] at h
    cases M.pure_ok.1 h
    exact htree
  | true =>
    rw [hf] at h
    simp only [Bool.not_true, Bool.false_eq_true, if_false] at h
    obtain ⟨ts, t2, -, h⟩ := M.bind_ok.1 h
    obtain ⟨x, t3, -, h⟩ := M.bind_ok.1 h
    obtain ⟨st2, t4, h4, h⟩ := M.bind_ok.1 h
    cases M.pure_ok.1 h
    rw [expandPhase_rest _ (f.shape h2.shape) ?_ h4 (by omega) ?_]
    · exact htree
    · intro p hp
      have := hmem p.2 (List.of_mem_zip (a := p.1) (b := p.2) hp).2
      omega
    · intro p hp ha
      exact hno p.2 (List.of_mem_zip (a := p.1) (b := p.2) hp).2 (ha.mono h2.shape.symm.up)

/-! ## Unfinished nodes -/

/-- Nodes with children were visited, and unfinished visited nodes satisfy `F`. -/
def AllF (F : Nat → Fl.F → Prop) (st : Store G Fl) : Prop :=
  ∀ n ∈ st, (n.children ≠ [] → 0 < n.visits) ∧ (G.winner n.state = none → 0 < n.visits → F n.visits n.value)

/-- Unvisited nodes have the value 0. -/
def Blank (v : Nat) (x : Fl.F) : Prop := v = 0 → x = Fl.ofInt 0

theorem vinc_pos (v : Nat) : 0 < vinc v := by unfold vinc; split <;> omega

theorem blank_keeps (V : Fl.F → Prop) : Keeps (Blank (Fl := Fl)) V := fun v _ _ _ _ h => absurd h (Nat.ne_of_gt (vinc_pos v))

theorem blank_zero : Blank (Fl := Fl) 0 (Fl.ofInt 0) := fun _ => rfl

/-- Results satisfying `V` may be recorded at a visited node, results satisfying `N` at an unvisited one. -/
structure KeepsF (F : Nat → Fl.F → Prop) (V N : Fl.F → Prop) : Prop where
  first : ∀ r, N r → F 1 (Fl.add (Fl.ofInt 0) r)
  later : ∀ v x r, 0 < v → F v x → V r → F (vinc v) (Fl.add x r)
  sub : ∀ r, N r → V r

variable {F : Nat → Fl.F → Prop} {V N : Fl.F → Prop}

/-- A proper ancestor has children. -/
theorem anc_children {st : Store G Fl} (w : WellFormed st) {i k : Nat} {n : Node G Fl} (hn : st[i]? = some n) (ha : Anc st i k)
    (hne : i ≠ k) : n.children ≠ [] := by
  obtain ⟨c, hc, -⟩ := ha.through w hn (Ne.symm hne)
  exact List.ne_nil_of_mem hc

theorem selectGame_f (hk : KeepsF F V N) (hV : Outcomes V) {states : List G.S} {st : Store G Fl} (f : Forest states st) {g : Nat}
    (hg : g < states.length) {sel : List Nat} (hsel : sel.length = states.length) {flag : Bool}
    {r : Store G Fl × List Nat × Bool} (h : AllF F st) (e : selectGame g st sel flag = .ok r) :
    AllF F r.1 ∧ SameShape st r.1 ∧ r.2.1.length = sel.length := by
  obtain ⟨k, kn, hl, -, h1, h2⟩ := selectGame_spec f (List.getElem?_eq_getElem hg) sel hsel flag
  cases hw : G.winner kn.state with
  | none =>
    rw [h2 hw] at e
    cases Except.ok.inj e
    exact ⟨h, rfl, by simp⟩
  | some w =>
    obtain ⟨st', e1, e2, e3⟩ := h1 w hw
    rw [e1] at e
    cases Except.ok.inj e
    refine ⟨?_, e2, rfl⟩
    intro n' hn'
    obtain ⟨i, hi⟩ := List.getElem?_of_mem hn'
    have hi : st'[i]? = some n' := hi
    have hil : i < st.length := by have := (List.getElem?_eq_some_iff.1 hi).1; have := e2.length; omega
    have hn := List.getElem?_eq_getElem hil
    have hp := h _ (List.getElem_mem hil)
    rw [e3 i _ hn] at hi
    by_cases ha : Anc st i k
    · rw [if_pos ha] at hi
      cases Option.some.inj hi
      refine ⟨fun _ => vinc_pos _, fun hwn _ => ?_⟩
      have hik : i ≠ k := by
        intro he
        subst he
        have := hl.2
        rw [hn] at this
        cases Option.some.inj this
        rw [show (Node.record _ st[i]).state = st[i].state from rfl, hw] at hwn
        cases hwn
      have hpos := hp.1 (anc_children f.wf hn ha hik)
      exact hk.later _ _ _ hpos (hp.2 hwn hpos) (hV.of (outcome_range _ _))
    · rw [if_neg ha] at hi
      cases Option.some.inj hi
      exact hp

theorem selectPhase_f (hk : KeepsF F V N) (hV : Outcomes V) {states : List G.S} (order : List Nat) {st : Store G Fl}
    (f : Forest states st) (ho : ∀ g ∈ order, g < states.length) {sel : List Nat} (hsel : sel.length = states.length)
    {flag : Bool} {r : Store G Fl × List Nat × Bool} (h : AllF F st) (e : selectPhase order st sel flag = .ok r) :
    AllF F r.1 := by
  unfold selectPhase at e
  induction order generalizing st sel flag with
  | nil => cases e; exact h
  | cons g gs ih =>
    rw [List.foldlM_cons] at e
    obtain ⟨⟨st1, sel1, flag1⟩, h1, e⟩ := Res.bind_ok.1 e
    obtain ⟨a1, a2, a3⟩ := selectGame_f hk hV f (ho g (List.mem_cons_self ..)) hsel h h1
    exact ih (f.shape a2) (fun g hg => ho g (List.mem_cons_of_mem _ hg)) (a3.trans hsel) a1 e

theorem expandPhase_f (hk : KeepsF F V N) {net : Net Fl} {states : List G.S} {policy eval : Tensor Fl.F}
    (he : ∀ idx, N (eval.at' idx)) (l : List (Nat × Nat)) {st st' : Store G Fl} {t t' : Tape} (f : Forest states st)
    (hl : ∀ p ∈ l, p.2 < st.length) (h : AllF F st) (hb : AllQ (Blank (Fl := Fl)) st)
    (e : expandPhase net policy eval l st t = .ok (st', t')) : AllF F st' := by
  induction l generalizing st t with
  | nil => cases M.pure_ok.1 e; exact h
  | cons p l ih =>
    obtain ⟨row, i⟩ := p
    unfold expandPhase at e
    obtain ⟨node, t1, h1, e⟩ := M.bind_ok.1 e
    rw [M.lift_ok, getNode_ok] at h1
    obtain ⟨p, t2, -, e⟩ := M.bind_ok.1 e
    obtain ⟨ev, t3, h3, e⟩ := M.bind_ok.1 e
    obtain ⟨probs, t4, -, e⟩ := M.bind_ok.1 e
    obtain ⟨⟨st1, node1⟩, t5, h5, e⟩ := M.bind_ok.1 e
    simp only at e
    obtain ⟨value, t6, h6, e⟩ := M.bind_ok.1 e
    obtain ⟨st2, t7, h7, e⟩ := M.bind_ok.1 e
    have hval : N value := by
      obtain ⟨idx, hidx⟩ := value_mem (M.lift_ok.1 h6).1
      have h3 := (M.lift_ok.1 h3).1
      unfold Tensor.get at h3
      split at h3
      · split at h3
        · cases h3
          rw [← hidx]; exact he _
        · cases h3
      · cases h3
    have hb1 := alphaExpandWith_q (Q := Blank) blank_zero hb (hb.get h1.1) h5
    rw [M.lift_ok] at h7
    have hb2 := backpropagate_q (blank_keeps N) hval hb1 h7.1
    have f1 := f.expand h1.1 rfl h5
    obtain ⟨w1, hup1, hidx, hlen1, hself, hvself, hv, hpar, hold⟩ := alphaExpand_wf f.wf h1.1 rfl h5
    obtain ⟨news, hn1, hst1, hnl, hnlt, hfresh, hzero⟩ := alphaExpandWith_ok h5
    have hil : i < st.length := (List.getElem?_eq_some_iff.1 h1.1).1
    rw [hidx] at h7
    obtain ⟨st2', h9, h10, h11⟩ := backpropagate_spec value i st1 w1.upLt (by omega)
    rw [h9] at h7
    cases Except.ok.inj h7.1
    have hlen2 := h10.length
    refine ih (f1.shape h10) (fun p hp => by have := hl p (List.mem_cons_of_mem _ hp); omega) ?_ hb2 e
    intro n' hn'
    obtain ⟨j, hj⟩ := List.getElem?_of_mem hn'
    have hjl : j < st1.length := by have := (List.getElem?_eq_some_iff.1 hj).1; omega
    have hn := List.getElem?_eq_getElem hjl
    rw [h11 j _ hn] at hj
    -- what holds before the value is recorded
    by_cases hji : j = i
    · subst hji
      rw [if_pos .refl] at hj
      rw [hself] at hn
      cases Option.some.inj hj
      rw [← Option.some.inj hn]
      refine ⟨fun _ => vinc_pos _, fun hw _ => ?_⟩
      have hw : G.winner node1.state = none := hw
      have hold' := h _ (List.mem_of_getElem? h1.1)
      show F (vinc node1.visits) (Fl.add node1.value value)
      have ev : node1.value = node.value := by rw [hn1]
      have es : node1.state = node.state := by rw [hn1]
      rw [hvself, ev]
      rw [es] at hw
      rcases Nat.eq_zero_or_pos node.visits with h0 | h0
      · have := hb.get h1.1 h0
        rw [this, h0]
        exact hk.first _ hval
      · exact hk.later _ _ _ h0 (hold'.2 hw h0) (hk.sub _ hval)
    · by_cases hjs : j < st.length
      · have hn0 : st[j]? = some st1[j] := by rw [← hold j hji hjs]; exact hn
        have hp := h _ (List.mem_of_getElem? hn0)
        by_cases ha : Anc st1 j i
        · rw [if_pos ha] at hj
          cases Option.some.inj hj
          refine ⟨fun _ => vinc_pos _, fun hw _ => ?_⟩
          have hpos := hp.1 (anc_children f.wf hn0 (ha.of_up f.wf.upLt hup1 hil) hji)
          exact hk.later _ _ _ hpos (hp.2 hw hpos) (hk.sub _ hval)
        · rw [if_neg ha] at hj
          cases Option.some.inj hj
          exact hp
      · have ha : ¬ Anc st1 j i := fun ha => by have := ha.le w1.upLt; omega
        rw [if_neg ha] at hj
        cases Option.some.inj hj
        have hnm : st1[j]? = news[j - st.length]? := by
          rw [hst1, List.getElem?_set_ne, List.getElem?_append_right (by omega)]
          intro heq
          have : node.idx = i := f.wf.idx i node h1.1
          omega
        rw [hn] at hnm
        have hm : st1[j] ∈ news := List.mem_of_getElem? hnm.symm
        have hz := hzero _ hm
        have hjn := (List.getElem?_eq_some_iff.1 hnm.symm).1
        have hfr := hfresh (j - st.length) _ (node.expandable[j - st.length]'(by omega)) hnm.symm (List.getElem?_eq_getElem _)
        refine ⟨fun hc => absurd hfr.children hc, fun _ h0 => ?_⟩
        rw [hz] at h0
        exact absurd h0 (Nat.lt_irrefl _)

/-- One iteration keeps `AllF`. -/
theorem parallelIteration_f (hk : KeepsF F V N) (hV : Outcomes V) {net : Net Fl} (he : ∀ x row, N (net.eval x row))
    {states : List G.S} {order : List Nat} {st st' : Store G Fl} {sel sel' : List Nat} {t t' : Tape} (f : Forest states st)
    (hs : SelOk states st sel) (hnd : order.Nodup) (ho : ∀ g, g ∈ order ↔ g < states.length)
    (h : AllF F st) (hb : AllQ (Blank (Fl := Fl)) st)
    (e : parallelIteration net order st sel t = .ok ((st', sel'), t')) : AllF F st' := by
  have hmem := (parallelIteration_ok f hs hnd ho e).2.2.2.2.1
  obtain ⟨sx, selx, flagx, hx, hsp⟩ := selectPhase_spec order f hnd (fun g hg => (ho g).1 hg) sel hs.len false
  unfold parallelIteration at e
  obtain ⟨⟨st1, sel1, flag1⟩, t1, h1, e⟩ := M.bind_ok.1 e
  have h1 := (M.lift_ok.1 h1).1
  have hq := selectPhase_f hk hV order f (fun g hg => (ho g).1 hg) hs.len h h1
  have hb1 := selectPhase_q (blank_keeps (fun _ => True)) ⟨trivial, trivial, trivial⟩ order hb h1
  rw [hx] at h1
  cases Except.ok.inj h1
  simp only at e
  split at e
  · cases M.pure_ok.1 e; exact hq
  · obtain ⟨ts, t2, -, e⟩ := M.bind_ok.1 e
    obtain ⟨x, t3, -, e⟩ := M.bind_ok.1 e
    obtain ⟨st2, t4, h4, e⟩ := M.bind_ok.1 e
    cases M.pure_ok.1 e
    refine expandPhase_f hk (fun idx => he _ _) _ (f.shape hsp.shape) ?_ hq hb1 h4
    intro p hp
    have := hmem p.2 (List.of_mem_zip (a := p.1) (b := p.2) hp).2
    have := hsp.shape.length
    omega

/-! ## The start -/

theorem expandRoots_children {probs : Tensor Fl.F} {states : List G.S} (is : List Nat) {st st' : Store G Fl} {t t' : Tape}
    (f : Forest states st) (h : ∀ n ∈ st, n.children ≠ [] → 0 < n.visits) (e : expandRoots probs is st t = .ok (st', t')) :
    ∀ n ∈ st', n.children ≠ [] → 0 < n.visits := by
  induction is generalizing st t with
  | nil => cases M.pure_ok.1 e; exact h
  | cons i is ih =>
    unfold expandRoots at e
    obtain ⟨root, t1, h1, e⟩ := M.bind_ok.1 e
    rw [M.lift_ok, getNode_ok] at h1
    obtain ⟨row, t2, -, e⟩ := M.bind_ok.1 e
    obtain ⟨⟨st1, n1⟩, t3, h3, e⟩ := M.bind_ok.1 e
    refine ih (f.expand h1.1 (n := { root with visits := 1 }) rfl h3) ?_ e
    obtain ⟨news, hn1, hst1, hnl, hnlt, hfresh, hzero⟩ := alphaExpandWith_ok h3
    rw [hst1]
    intro n hn hc
    rcases List.mem_or_eq_of_mem_set hn with hn | rfl
    · rcases List.mem_append.1 hn with hn | hn
      · exact h n hn hc
      · obtain ⟨j, hj⟩ := List.getElem?_of_mem hn
        have hjn := (List.getElem?_eq_some_iff.1 hj).1
        have hfr := hfresh j _ (root.expandable[j]'(by rw [← show _ = root.expandable.length from hnl]; exact hjn)) hj
          (List.getElem?_eq_getElem _)
        exact absurd hfr.children hc
    · rw [hn1]
      exact Nat.one_pos

/-- Before the first iteration only roots have children and visits. -/
theorem parallelStart_f {net : Net Fl} {states : List G.S} {st st' : Store G Fl} {t t' : Tape} (h1 : F 1 (Fl.ofInt 0))
    (e : parallelStart net states st t = .ok (st', t')) : AllF F st' := by
  have hq := parallelStart_q e
  unfold parallelStart at e
  obtain ⟨u, t1, h2, e⟩ := M.bind_ok.1 e
  have hst : st = [] := by
    have h2 := (M.lift_ok.1 h2).1
    unfold assert at h2
    split at h2
    · rename_i hc; simpa using hc
    · cases h2
  subst hst
  obtain ⟨ts, t2, -, e⟩ := M.bind_ok.1 e
  obtain ⟨x, t3, -, e⟩ := M.bind_ok.1 e
  obtain ⟨pol, t4, -, e⟩ := M.bind_ok.1 e
  obtain ⟨st1, t5, h5, e⟩ := M.bind_ok.1 e
  obtain ⟨probs, t6, -, e⟩ := M.bind_ok.1 e
  obtain ⟨f, -⟩ := addRoots_ok states (M.lift_ok.1 h5).1 [] forest_nil rfl
  simp only [List.nil_append] at f
  have hch : ∀ n ∈ st1, n.children ≠ [] → 0 < n.visits := by
    obtain ⟨-, hlen⟩ := addRoots_ok states (M.lift_ok.1 h5).1 [] forest_nil rfl
    intro n hn hc
    obtain ⟨i, hi⟩ := List.getElem?_of_mem hn
    obtain ⟨c, hcm⟩ := List.exists_mem_of_ne_nil _ hc
    obtain ⟨cn, g1, g2⟩ := f.wf.down i n c hi hcm
    have hcl := (List.getElem?_eq_some_iff.1 g1).1
    have := (f.roots c cn g1).2 (by simp at hlen; omega)
    rw [g2] at this
    cases this
  intro n hn
  refine ⟨expandRoots_children _ f hch e n hn, fun _ hpos => ?_⟩
  obtain ⟨a1, a2⟩ := hq n hn
  rw [a2, show n.visits = 1 by omega]
  exact h1

end DieE.Mcts
