import Verif.Mcts.Search

/-! # Runs whose random numbers can be chosen -/

namespace DieE

/-- Some random numbers make `m` return `a`, whatever numbers follow. -/
def M.Free {α : Type} (m : M α) (a : α) : Prop := ∀ rest : Tape, ∃ t : Tape, m t = .ok (a, rest)

namespace M.Free
variable {α β : Type}

theorem pure (a : α) : Free (Pure.pure a : M α) a := fun rest => ⟨rest, rfl⟩

theorem lift {x : Res α} {a : α} (h : x = .ok a) : Free (M.lift x) a := fun rest => ⟨rest, M.lift_ok.2 ⟨h, rfl⟩⟩

theorem bind {m : M α} {f : α → M β} {a : α} {b : β} (h1 : Free m a) (h2 : Free (f a) b) : Free (m >>= f) b := by
  intro rest
  obtain ⟨t1, e1⟩ := h2 rest
  obtain ⟨t, e⟩ := h1 t1
  exact ⟨t, M.bind_ok.2 ⟨a, t1, e, e1⟩⟩

theorem draw (k : Nat) : Free M.draw k := fun rest => ⟨fun n => match n with | 0 => k | n + 1 => rest n, rfl⟩

theorem die {d : Int} (h1 : 1 ≤ d) (h2 : d ≤ 6) : Free M.die d := by
  refine (draw (d - 1).toNat).bind ?_
  have : (((d - 1).toNat % 6 : Nat) : Int) + 1 = d := by omega
  rw [this]
  exact pure d

theorem choose_nil : Free (M.choose ([] : List α)) none := pure none

theorem choose {l : List α} {a : α} (h : a ∈ l) : Free (M.choose l) (some a) := by
  cases l with
  | nil => cases h
  | cons b l =>
    obtain ⟨i, hi, e⟩ := List.getElem_of_mem h
    refine (draw i).bind ?_
    have h1 : i % (l.length + 1) = i := Nat.mod_eq_of_lt hi
    have h2 : (b :: l).getD (i % (l.length + 1)) b = a := by
      rw [h1, List.getD_eq_getElem?_getD, List.getElem?_eq_getElem hi]
      exact e
    rw [h2]
    exact pure (some a)

end M.Free

namespace Mcts
variable {G : Game} {Fl : Floats}

/-- Rolls can be chosen such that `R` is kept by random play. -/
def FreePlay (G : Game) (R : G.S → Prop) : Prop :=
  ∀ s, R s → ∃ ms, G.moves s = .ok ms ∧ (∀ a ∈ ms, ∃ s', R s' ∧ M.Free (G.apply s a) s') ∧
    (ms = [] → ∃ s', R s' ∧ M.Free (G.skip s) s')

theorem simulate_free {R : G.S → Prop} (hs : FreePlay G R) (start : G.S) (player : Int) (n : Nat) (curr : G.S) (hc : R curr) :
    ∃ v, M.Free (simulateLoop start player n curr) v := by
  induction n generalizing curr with
  | zero => exact ⟨0, .pure 0⟩
  | succ n ih =>
    unfold simulateLoop
    cases hw : G.winner start with
    | some w => exact ⟨_, .pure _⟩
    | none =>
      simp only
      obtain ⟨ms, hm, happ, hskip⟩ := hs curr hc
      cases ms with
      | nil =>
        obtain ⟨s', h1, h2⟩ := hskip rfl
        obtain ⟨v, h3⟩ := ih s' h1
        exact ⟨v, (M.Free.lift hm).bind (M.Free.choose_nil.bind (h2.bind h3))⟩
      | cons a ms =>
        obtain ⟨s', h1, h2⟩ := happ a (List.mem_cons_self ..)
        obtain ⟨v, h3⟩ := ih s' h1
        exact ⟨v, (M.Free.lift hm).bind ((M.Free.choose (List.mem_cons_self ..)).bind (h2.bind h3))⟩

/-- Rolls can be chosen such that `Q` holds at every node. -/
def FreeTree (G : Game) (Q : G.S → Prop) : Prop :=
  ∀ s, Q s → G.winner s = none → ∃ ms, G.moves s = .ok ms ∧ ms ≠ [] ∧ ∀ a ∈ ms, ∃ s', Q s' ∧ M.Free (G.apply s a) s'

theorem iteration_free {R Q : G.S → Prop} (hp : FreePlay G R) (hQR : ∀ s, Q s → R s) (ht : FreeTree G Q)
    {st : Store G Fl} (w : WellFormed st) (hQ : AllR Q st) {r : Nat} (hr : r < st.length) (player : Int) (limit : Nat) :
    ∃ st' k, M.Free (iteration player limit r st) (st', k) ∧ AllR Q st' := by
  obtain ⟨i, n, h1, h2, h3, h4⟩ := selectLeafNode_spec w r hr
  have hil : i < st.length := (List.getElem?_eq_some_iff.1 h2).1
  cases hw : G.winner n.state with
  | some wn =>
    obtain ⟨st', h5, h6, -⟩ := backpropagate_spec (Fl.ofInt (outcome wn player)) i st w.upLt hil
    refine ⟨st', i, ?_, hQ.shape h6⟩
    unfold iteration
    refine (M.Free.lift h1).bind ((M.Free.lift (getNode_ok.2 h2)).bind ?_)
    simp only [hw]
    exact (M.Free.lift h5).bind (.pure _)
  | none =>
    obtain ⟨ms, hm, hne, happ⟩ := ht n.state (hQ i n h2) hw
    obtain ⟨ms', h5, h6⟩ := w.part i n h2
    rw [hm] at h5
    cases Except.ok.inj h5
    have hex : n.expandable ≠ [] := by
      intro he
      rcases h4 with hch | hch
      · unfold childActions at h6
        rw [he, hch] at h6
        exact hne (List.nil_perm.1 h6)
      · exact hch he
    obtain ⟨a, ha⟩ : ∃ a, n.expandable.getLast? = some a := by
      cases h : n.expandable.getLast? with
      | none => exact absurd (List.getLast?_eq_none_iff.1 h) hex
      | some a => exact ⟨a, rfl⟩
    obtain ⟨next, q1, q2⟩ := happ a (h6.subset (List.mem_append_left _ (List.mem_of_getLast? ha)))
    obtain ⟨ms2, hm2, -⟩ := hp next (hQR next q1)
    have hidx := w.idx i n h2
    have he : ∃ st1, M.Free (expand n st) (st1, st.length) ∧ AllR Q st1 := by
      refine ⟨(st ++ [freshNode next st.length (some n.idx) (some a) (Fl.ofInt 0) ms2]).set n.idx
        { n with expandable := n.expandable.dropLast, children := n.children ++ [st.length] }, ?_, ?_⟩
      · unfold expand
        rw [ha]
        simp only
        refine q2.bind ((M.Free.lift (addNode_ok.2 ⟨ms2, hm2, rfl, rfl⟩)).bind ((M.Free.lift ?_).bind (.pure _)))
        unfold setNode
        rw [if_pos (by simp [hidx]; omega)]
      · intro j m hj
        rw [List.getElem?_set] at hj
        split at hj
        · split at hj
          · cases Option.some.inj hj
            exact hQ i n h2
          · cases hj
        · by_cases hjl : j < st.length
          · rw [List.getElem?_append_left hjl] at hj
            exact hQ j m hj
          · rw [List.getElem?_append_right (by omega)] at hj
            have hj0 : j - st.length = 0 := by
              have := (List.getElem?_eq_some_iff.1 hj).1
              simp at this
              omega
            rw [hj0] at hj
            cases Option.some.inj hj
            exact q1
    obtain ⟨st1, he1, he2⟩ := he
    obtain ⟨t0, ht0⟩ := he1 (fun _ => 0)
    have w1 := expand_wf w h2 ht0
    obtain ⟨-, hlen1, ⟨m, hm1, -⟩, -, -⟩ := expand_frame w h2 ht0
    obtain ⟨v, hv⟩ := simulate_free hp m.state player limit m.state (hQR _ (he2 _ m hm1))
    obtain ⟨st2, h8, h9, -⟩ := backpropagate_spec (Fl.ofInt v) st.length st1 w1.upLt (by omega)
    refine ⟨st2, st.length, ?_, he2.shape h9⟩
    unfold iteration
    refine (M.Free.lift h1).bind ((M.Free.lift (getNode_ok.2 h2)).bind ?_)
    simp only [hw]
    exact he1.bind ((M.Free.lift (getNode_ok.2 hm1)).bind (hv.bind ((M.Free.lift h8).bind (.pure _))))

theorem iterate_free {R Q : G.S → Prop} (hp : FreePlay G R) (hQR : ∀ s, Q s → R s) (ht : FreeTree G Q) (n : Nat)
    {st : Store G Fl} {tr : List Nat} {r : Nat} (v : RunInv r st tr) (hQ : AllR Q st) (player : Int) (limit : Nat) :
    ∃ st' tr', M.Free (iterate player limit r n st tr) (st', tr') ∧ AllR Q st' := by
  induction n generalizing st tr with
  | zero => exact ⟨st, tr, .pure _, hQ⟩
  | succ n ih =>
    obtain ⟨st1, k, h1, h2⟩ := iteration_free hp hQR ht v.wf hQ v.root player limit
    obtain ⟨t, e⟩ := h1 (fun _ => 0)
    obtain ⟨st', tr', h3, h4⟩ := ih (v.step e) h2
    exact ⟨st', tr', h1.bind h3, h4⟩

end Mcts
end DieE
