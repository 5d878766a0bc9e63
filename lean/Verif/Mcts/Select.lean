import Verif.Mcts.AlphaFacts

/-! # Selection returns a child of maximal score -/

namespace DieE.Mcts
variable {G : Game} {Fl : Floats}

/-- `max_by` returns a maximum if the comparison agrees with a preorder. -/
theorem maxBy_le {α : Type} {cmp : α → α → Res Ordering} (le : α → α → Prop) (hrefl : ∀ a, le a a)
    (htrans : ∀ a b c, le a b → le b c → le a c) {l : List α} {m : α}
    (h : ∀ a ∈ l, ∀ b ∈ l, ∀ o, cmp a b = .ok o → (o = .gt → le b a) ∧ (o ≠ .gt → le a b))
    (e : maxBy cmp l = .ok (some m)) : m ∈ l ∧ ∀ x ∈ l, le x m := by
  cases l with
  | nil => cases e
  | cons a l =>
    unfold maxBy at e
    obtain ⟨m', e1, e2⟩ := Res.bind_ok.1 e
    cases e2
    have step : ∀ (r : List α) (acc : α), acc ∈ a :: l → (∀ x ∈ r, x ∈ a :: l) → r.foldlM (fun acc x => do
        let o ← cmp acc x
        pure (if o = Ordering.gt then acc else x)) acc = .ok m → (m = acc ∨ m ∈ r) ∧ le acc m ∧ ∀ x ∈ r, le x m := by
      intro r
      induction r with
      | nil =>
        intro acc _ _ e
        cases e
        exact ⟨.inl rfl, hrefl _, by simp⟩
      | cons x r ih =>
        intro acc hacc hr e
        rw [List.foldlM_cons] at e
        obtain ⟨b, e1, e⟩ := Res.bind_ok.1 e
        obtain ⟨o, e2, e3⟩ := Res.bind_ok.1 e1
        cases e3
        have hx := hr x (List.mem_cons_self ..)
        have hr' : ∀ y ∈ r, y ∈ a :: l := fun y hy => hr y (List.mem_cons_of_mem _ hy)
        obtain ⟨h1, h2⟩ := h acc hacc x hx o e2
        by_cases ho : o = .gt
        · rw [if_pos ho] at e
          obtain ⟨g1, g2, g3⟩ := ih acc hacc hr' e
          refine ⟨g1.imp_right (List.mem_cons_of_mem _), g2, ?_⟩
          intro y hy
          rcases List.mem_cons.1 hy with rfl | hy
          · exact htrans _ _ _ (h1 ho) g2
          · exact g3 y hy
        · rw [if_neg ho] at e
          obtain ⟨g1, g2, g3⟩ := ih x hx hr' e
          refine ⟨?_, htrans _ _ _ (h2 ho) g2, ?_⟩
          · rcases g1 with rfl | g1
            · exact .inr (List.mem_cons_self ..)
            · exact .inr (List.mem_cons_of_mem _ g1)
          · intro y hy
            rcases List.mem_cons.1 hy with rfl | hy
            · exact g2
            · exact g3 y hy
    obtain ⟨g1, g2, g3⟩ := step l a (List.mem_cons_self ..) (fun x hx => List.mem_cons_of_mem _ hx) e1
    refine ⟨?_, ?_⟩
    · rcases g1 with rfl | g1
      · exact List.mem_cons_self ..
      · exact List.mem_cons_of_mem _ g1
    · intro x hx
      rcases List.mem_cons.1 hx with rfl | hx
      · exact g2
      · exact g3 x hx

theorem ucb_child {st : Store G Fl} (w : WellFormed st) {i c : Nat} {n m : Node G Fl} (hi : st[i]? = some n)
    (hc : c ∈ n.children) (hm : st[c]? = some m) : m.ucb st = .ok (Fl.ucb m.value m.visits n.visits) ∧
      m.alphaUcb st = .ok (Fl.alphaUcb m.value m.visits m.policy n.visits) := by
  obtain ⟨m', hm', hp⟩ := w.down i n c hi hc
  rw [hm] at hm'
  cases Option.some.inj hm'
  unfold Node.ucb Node.alphaUcb
  rw [hp]
  simp only
  rw [getNode_ok.2 hi]
  exact ⟨rfl, rfl⟩

/-- `select_ucb` returns a child of maximal score; the comparison only has to agree with the order on the scores of the
children. -/
theorem selectUcb_best {st : Store G Fl} (w : WellFormed st) {i : Nat} {n m : Node G Fl} (hi : st[i]? = some n)
    (le : Fl.F → Fl.F → Prop) (hrefl : ∀ a, le a a) (htrans : ∀ a b c, le a b → le b c → le a c)
    (hcmp : ∀ (c d : Nat) (x y : Node G Fl), c ∈ n.children → d ∈ n.children → st[c]? = some x → st[d]? = some y →
      (Fl.cmp (Fl.ucb x.value x.visits n.visits) (Fl.ucb y.value y.visits n.visits) = .gt →
        le (Fl.ucb y.value y.visits n.visits) (Fl.ucb x.value x.visits n.visits)) ∧
      (Fl.cmp (Fl.ucb x.value x.visits n.visits) (Fl.ucb y.value y.visits n.visits) ≠ .gt →
        le (Fl.ucb x.value x.visits n.visits) (Fl.ucb y.value y.visits n.visits))) (h : selectUcb i st = .ok m) :
    ∃ c ∈ n.children, st[c]? = some m ∧ ∀ d ∈ n.children, ∀ dn : Node G Fl, st[d]? = some dn →
      le (Fl.ucb dn.value dn.visits n.visits) (Fl.ucb m.value m.visits n.visits) := by
  obtain ⟨cs, h1, h2, h3⟩ := childNodes_spec w hi
  unfold selectUcb at h
  rw [getNode_ok.2 hi] at h
  obtain ⟨cs', h4, h⟩ := Res.bind_ok.1 (show (childNodes st n >>= _) = _ from h)
  rw [h1] at h4
  cases Except.ok.inj h4
  obtain ⟨best, h5, h⟩ := Res.bind_ok.1 h
  cases best with
  | none => cases h
  | some b =>
    cases Except.ok.inj h
    obtain ⟨g1, g2⟩ := maxBy_le (fun a b : Node G Fl => le (Fl.ucb a.value a.visits n.visits) (Fl.ucb b.value b.visits n.visits))
      (fun _ => hrefl _) (fun _ _ _ => htrans _ _ _) (by
        intro a ha b hb o ho
        obtain ⟨ca, hca, hca'⟩ := (h2 a).1 ha
        obtain ⟨cb, hcb, hcb'⟩ := (h2 b).1 hb
        rw [(ucb_child w hi hca hca').1, (ucb_child w hi hcb hcb').1] at ho
        cases ho
        exact hcmp ca cb a b hca hcb hca' hcb') h5
    obtain ⟨c, hc1, hc2⟩ := (h2 m).1 g1
    exact ⟨c, hc1, hc2, fun d hd dn hdn => g2 dn ((h2 dn).2 ⟨d, hd, hdn⟩)⟩

theorem selectUcb_max {st : Store G Fl} (w : WellFormed st) {i : Nat} {n m : Node G Fl} (hi : st[i]? = some n)
    (le : Fl.F → Fl.F → Prop) (hrefl : ∀ a, le a a) (htrans : ∀ a b c, le a b → le b c → le a c)
    (hcmp : ∀ a b, (Fl.cmp a b = .gt → le b a) ∧ (Fl.cmp a b ≠ .gt → le a b)) (h : selectUcb i st = .ok m) :
    ∃ c ∈ n.children, st[c]? = some m ∧ ∀ d ∈ n.children, ∀ dn : Node G Fl, st[d]? = some dn →
      le (Fl.ucb dn.value dn.visits n.visits) (Fl.ucb m.value m.visits n.visits) :=
  selectUcb_best w hi le hrefl htrans (fun _ _ _ _ _ _ _ _ => hcmp _ _) h

theorem selectAlpha_max {st : Store G Fl} (w : WellFormed st) {i : Nat} {n m : Node G Fl} (hi : st[i]? = some n)
    (le : Fl.F → Fl.F → Prop) (hrefl : ∀ a, le a a) (htrans : ∀ a b c, le a b → le b c → le a c)
    (hcmp : ∀ a b, (Fl.cmp a b = .gt → le b a) ∧ (Fl.cmp a b ≠ .gt → le a b)) (h : selectAlpha i st = .ok m) :
    ∃ c ∈ n.children, st[c]? = some m ∧ ∀ d ∈ n.children, ∀ dn : Node G Fl, st[d]? = some dn →
      le (Fl.alphaUcb dn.value dn.visits dn.policy n.visits) (Fl.alphaUcb m.value m.visits m.policy n.visits) := by
  obtain ⟨cs, h1, h2, h3⟩ := childNodes_spec w hi
  unfold selectAlpha at h
  rw [getNode_ok.2 hi] at h
  obtain ⟨cs', h4, h⟩ := Res.bind_ok.1 (show (childNodes st n >>= _) = _ from h)
  rw [h1] at h4
  cases Except.ok.inj h4
  obtain ⟨best, h5, h⟩ := Res.bind_ok.1 h
  cases best with
  | none => cases h
  | some b =>
    cases Except.ok.inj h
    obtain ⟨g1, g2⟩ := maxBy_le (fun a b : Node G Fl =>
        le (Fl.alphaUcb a.value a.visits a.policy n.visits) (Fl.alphaUcb b.value b.visits b.policy n.visits))
      (fun _ => hrefl _) (fun _ _ _ => htrans _ _ _) (by
        intro a ha b hb o ho
        obtain ⟨ca, hca, hca'⟩ := (h2 a).1 ha
        obtain ⟨cb, hcb, hcb'⟩ := (h2 b).1 hb
        rw [(ucb_child w hi hca hca').2, (ucb_child w hi hcb hcb').2] at ho
        cases ho
        exact hcmp _ _) h5
    obtain ⟨c, hc1, hc2⟩ := (h2 m).1 g1
    exact ⟨c, hc1, hc2, fun d hd dn hdn => g2 dn ((h2 dn).2 ⟨d, hd, hdn⟩)⟩

/-- `select_win_pct` returns the action of a child with a maximal mean value. -/
theorem selectWinPct_max {st : Store G Fl} (w : WellFormed st) {i : Nat} {n : Node G Fl} (hi : st[i]? = some n)
    (hc : n.children ≠ []) (le : Fl.F → Fl.F → Prop) (hrefl : ∀ a, le a a) (htrans : ∀ a b c, le a b → le b c → le a c)
    (hcmp : ∀ a b, (Fl.cmp a b = .gt → le b a) ∧ (Fl.cmp a b ≠ .gt → le a b)) :
    ∃ (c : Nat) (cn : Node G Fl) (a : G.Mv), c ∈ n.children ∧ st[c]? = some cn ∧ cn.action = some a ∧
      selectWinPct i st = .ok a ∧ ∀ d ∈ n.children, ∀ dn : Node G Fl, st[d]? = some dn →
        le (Fl.winPct dn.value dn.visits) (Fl.winPct cn.value cn.visits) := by
  obtain ⟨cs, h1, h2, h3⟩ := childNodes_spec w hi
  have hne : cs ≠ [] := by
    intro h
    rw [h] at h3
    exact hc (List.length_eq_zero_iff.1 h3.symm)
  obtain ⟨m, hm, he⟩ := maxBy_mem (cmp := fun a b : Node G Fl => .ok (Fl.cmp a.winPct b.winPct)) (fun a _ b _ => ⟨_, rfl⟩) hne
  obtain ⟨-, g2⟩ := maxBy_le (fun a b : Node G Fl => le a.winPct b.winPct) (fun _ => hrefl _) (fun _ _ _ => htrans _ _ _)
    (by
      intro a ha b hb o ho
      cases ho
      exact hcmp _ _) he
  obtain ⟨c, hc1, hc2⟩ := (h2 m).1 hm
  obtain ⟨a, ms, h4, -⟩ := child_legal w hi hc1 hc2
  refine ⟨c, m, a, hc1, hc2, h4, ?_, fun d hd dn hdn => g2 dn ((h2 dn).2 ⟨d, hd, hdn⟩)⟩
  unfold selectWinPct
  rw [getNode_ok.2 hi]
  show (childNodes st n >>= _) = _
  rw [h1]
  show (maxBy _ cs >>= _) = _
  rw [he]
  simp only [bind, Except.bind]
  rw [h4]
  rfl

end DieE.Mcts
