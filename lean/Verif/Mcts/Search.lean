import Verif.Mcts.Facts

/-! # Lemmas about the plain search: selection, one iteration, the loop -/

namespace DieE.Mcts
variable {G : Game} {Fl : Floats}

/-! ## `max_by` -/

theorem maxBy_mem {α : Type} {cmp : α → α → Res Ordering} {l : List α}
    (h : ∀ a ∈ l, ∀ b ∈ l, ∃ o, cmp a b = .ok o) (hl : l ≠ []) : ∃ m ∈ l, maxBy cmp l = .ok (some m) := by
  cases l with
  | nil => exact absurd rfl hl
  | cons a l =>
    have key : ∀ (r : List α) (acc : α), acc ∈ a :: l → (∀ x ∈ r, x ∈ a :: l) →
        ∃ m ∈ a :: l, r.foldlM (fun acc x => (do
          let o ← cmp acc x
          pure (if o = .gt then acc else x) : Res α)) acc = .ok m := by
      intro r
      induction r with
      | nil => intro acc ha _; exact ⟨acc, ha, rfl⟩
      | cons x r ih =>
        intro acc ha hr
        obtain ⟨o, ho⟩ := h acc ha x (hr x (List.mem_cons_self ..))
        have hx := hr x (List.mem_cons_self ..)
        rw [List.foldlM_cons, ho]
        have hacc : (if o = .gt then acc else x) ∈ a :: l := by split <;> assumption
        obtain ⟨m, hm, he⟩ := ih _ hacc (fun y hy => hr y (List.mem_cons_of_mem _ hy))
        exact ⟨m, hm, he⟩
    obtain ⟨m, hm, he⟩ := key l a (List.mem_cons_self ..) (fun x hx => List.mem_cons_of_mem _ hx)
    refine ⟨m, hm, ?_⟩
    simp only [maxBy, he]
    rfl

/-- Comparing by a number: the result is a maximum. -/
theorem maxBy_compare {α : Type} (key : α → Nat) {l : List α} {m : α}
    (h : maxBy (fun a b => .ok (compare (key a) (key b))) l = .ok (some m)) : m ∈ l ∧ ∀ x ∈ l, key x ≤ key m := by
  cases l with
  | nil => simp [maxBy] at h
  | cons a l =>
    have step : ∀ (r : List α) (acc : α), ∃ m, r.foldlM (fun acc x => (do
          let o ← (Except.ok (compare (key acc) (key x)) : Res Ordering)
          pure (if o = .gt then acc else x) : Res α)) acc = .ok m ∧ (m = acc ∨ m ∈ r) ∧ key acc ≤ key m ∧
          ∀ x ∈ r, key x ≤ key m := by
      intro r
      induction r with
      | nil => intro acc; exact ⟨acc, rfl, .inl rfl, Nat.le_refl _, by simp⟩
      | cons x r ih =>
        intro acc
        rw [List.foldlM_cons]
        by_cases hc : compare (key acc) (key x) = .gt
        · obtain ⟨m, h1, h2, h3, h4⟩ := ih acc
          refine ⟨m, ?_, ?_, h3, ?_⟩
          · rw [← h1]
            show (fun y => List.foldlM _ y r) (if compare (key acc) (key x) = .gt then acc else x) = _
            rw [if_pos hc]
          · rcases h2 with h2 | h2
            · exact .inl h2
            · exact .inr (List.mem_cons_of_mem _ h2)
          · rw [Nat.compare_eq_gt] at hc
            intro y hy
            rcases List.mem_cons.1 hy with rfl | hy
            · omega
            · exact h4 y hy
        · obtain ⟨m, h1, h2, h3, h4⟩ := ih x
          rw [Nat.compare_eq_gt] at hc
          refine ⟨m, ?_, ?_, by omega, ?_⟩
          · rw [← h1]
            show (fun y => List.foldlM _ y r) (if compare (key acc) (key x) = .gt then acc else x) = _
            rw [if_neg (by rw [Nat.compare_eq_gt]; exact hc)]
          · rcases h2 with h2 | h2
            · exact .inr (h2 ▸ List.mem_cons_self ..)
            · exact .inr (List.mem_cons_of_mem _ h2)
          · intro y hy
            rcases List.mem_cons.1 hy with rfl | hy
            · exact h3
            · exact h4 y hy
    obtain ⟨m', h1, h2, h3, h4⟩ := step l a
    simp only [maxBy, h1] at h
    simp [bind, Except.bind, pure, Except.pure] at h
    subst h
    refine ⟨?_, ?_⟩
    · rcases h2 with rfl | h2
      · exact List.mem_cons_self ..
      · exact List.mem_cons_of_mem _ h2
    · intro x hx
      rcases List.mem_cons.1 hx with rfl | hx
      · exact h3
      · exact h4 x hx

/-! ## Children -/

theorem mapM_getNode (st : Store G Fl) (l : List Nat) (h : ∀ c ∈ l, c < st.length) :
    ∃ cs, l.mapM (getNode st) = .ok cs ∧ (∀ m, m ∈ cs ↔ ∃ c ∈ l, st[c]? = some m) ∧ cs.length = l.length ∧
      ∀ j : Nat, cs[j]? = (l[j]?).bind (fun c => st[c]?) := by
  induction l with
  | nil => exact ⟨[], rfl, by simp, rfl, by simp⟩
  | cons c l ih =>
    obtain ⟨cs, h1, h2, h3, h4⟩ := ih fun d hd => h d (List.mem_cons_of_mem _ hd)
    have hc := h c (List.mem_cons_self ..)
    have hg : getNode st c = .ok st[c] := getNode_ok.2 (List.getElem?_eq_getElem hc)
    refine ⟨st[c] :: cs, ?_, ?_, by simp [h3], ?_⟩
    · rw [List.mapM_cons, hg, h1]; rfl
    · intro m
      rw [List.mem_cons, h2]
      constructor
      · rintro (rfl | ⟨d, hd, h5⟩)
        · exact ⟨c, List.mem_cons_self .., List.getElem?_eq_getElem hc⟩
        · exact ⟨d, List.mem_cons_of_mem _ hd, h5⟩
      · rintro ⟨d, hd, h5⟩
        rcases List.mem_cons.1 hd with rfl | hd
        · rw [List.getElem?_eq_getElem hc] at h5
          injection h5 with h5
          exact .inl h5.symm
        · exact .inr ⟨d, hd, h5⟩
    · intro j
      cases j with
      | zero => simp [List.getElem?_eq_getElem hc]
      | succ j => simpa using h4 j

theorem WellFormed.child_lt {st : Store G Fl} (w : WellFormed st) {i : Nat} {n : Node G Fl} (hi : st[i]? = some n)
    {c : Nat} (hc : c ∈ n.children) : c < st.length := by
  obtain ⟨cn, h, -⟩ := w.down i n c hi hc
  exact (List.getElem?_eq_some_iff.1 h).1

theorem childNodes_spec {st : Store G Fl} (w : WellFormed st) {i : Nat} {n : Node G Fl} (hi : st[i]? = some n) :
    ∃ cs, childNodes st n = .ok cs ∧ (∀ m, m ∈ cs ↔ ∃ c ∈ n.children, st[c]? = some m) ∧
      cs.length = n.children.length := by
  obtain ⟨cs, h1, h2, h3, -⟩ := mapM_getNode st n.children fun c hc => w.child_lt hi hc
  exact ⟨cs, h1, h2, h3⟩

/-! ## Selection -/

theorem ucb_ok {st : Store G Fl} (w : WellFormed st) {i : Nat} {n : Node G Fl} (hi : st[i]? = some n) :
    ∃ x, n.ucb st = .ok x := by
  unfold Node.ucb
  cases hp : n.parent with
  | none => exact ⟨_, rfl⟩
  | some p =>
    obtain ⟨-, pn, a, h1, -⟩ := w.up i n p hi hp
    simp only
    rw [getNode_ok.2 h1]
    exact ⟨_, rfl⟩

theorem selectUcb_spec {st : Store G Fl} (w : WellFormed st) {i : Nat} {n : Node G Fl} (hi : st[i]? = some n)
    (hc : n.children ≠ []) : ∃ c m, selectUcb i st = .ok m ∧ c ∈ n.children ∧ st[c]? = some m := by
  obtain ⟨cs, h1, h2, h3⟩ := childNodes_spec w hi
  have hne : cs ≠ [] := by
    intro h
    rw [h] at h3
    exact hc (List.length_eq_zero_iff.1 h3.symm)
  have hcmp : ∀ a ∈ cs, ∀ b ∈ cs, ∃ o, (do
      let x ← a.ucb st
      let y ← b.ucb st
      pure (Fl.cmp x y) : Res Ordering) = .ok o := by
    intro a ha b hb
    obtain ⟨ca, -, hca⟩ := (h2 a).1 ha
    obtain ⟨cb, -, hcb⟩ := (h2 b).1 hb
    obtain ⟨x, hx⟩ := ucb_ok w hca
    obtain ⟨y, hy⟩ := ucb_ok w hcb
    rw [hx, hy]
    exact ⟨_, rfl⟩
  obtain ⟨m, hm, he⟩ := maxBy_mem hcmp hne
  obtain ⟨c, hc1, hc2⟩ := (h2 m).1 hm
  refine ⟨c, m, ?_, hc1, hc2⟩
  unfold selectUcb
  rw [getNode_ok.2 hi]
  show (childNodes st n >>= _) = _
  rw [h1]
  show (maxBy _ cs >>= _) = _
  rw [he]
  rfl

theorem selectLeaf_spec {st : Store G Fl} (w : WellFormed st) (f i : Nat) (hi : i < st.length)
    (hf : st.length ≤ f + i) : ∃ k n, selectLeaf st f i = .ok k ∧ st[k]? = some n ∧ Anc st i k ∧
      (n.children = [] ∨ n.expandable ≠ []) := by
  induction f generalizing i with
  | zero => omega
  | succ f ih =>
    obtain ⟨n, hn⟩ : ∃ n, st[i]? = some n := ⟨_, List.getElem?_eq_getElem hi⟩
    have hstep : selectLeaf st (f + 1) i = (if n.children.isEmpty || !n.isFullyExpanded then pure n.idx
        else do
          let c ← selectUcb i st
          selectLeaf st f c.idx) := by
      show (getNode st i >>= _) = _
      rw [getNode_ok.2 hn]
      rfl
    rw [hstep]
    by_cases hc : (n.children.isEmpty || !n.isFullyExpanded) = true
    · rw [if_pos hc]
      refine ⟨i, n, by rw [w.idx i n hn]; rfl, hn, .refl, ?_⟩
      simpa [Node.isFullyExpanded] using hc
    · rw [if_neg hc]
      have hch : n.children ≠ [] := by
        intro h; simp [h] at hc
      obtain ⟨c, m, h1, h2, h3⟩ := selectUcb_spec w hn hch
      rw [h1]
      show ∃ k n, selectLeaf st f m.idx = .ok k ∧ _
      rw [w.idx c m h3]
      obtain ⟨cn, h4, h5⟩ := w.down i n c hn h2
      have hic : i < c := (w.up c cn i h4 h5).1
      obtain ⟨k, kn, h6, h7, h8, h9⟩ := ih c (List.getElem?_eq_some_iff.1 h3).1 (by omega)
      exact ⟨k, kn, h6, h7, (Anc.step h4 h5 .refl).trans h8, h9⟩

theorem selectLeafNode_spec {st : Store G Fl} (w : WellFormed st) (i : Nat) (hi : i < st.length) :
    ∃ k n, selectLeafNode i st = .ok k ∧ st[k]? = some n ∧ Anc st i k ∧ (n.children = [] ∨ n.expandable ≠ []) :=
  selectLeaf_spec w st.length i hi (by omega)

/-! ## One iteration -/

/-- Visit count at a position, 0 if there is no node. -/
def visitsAt (st : Store G Fl) (i : Nat) : Nat := ((st[i]?).map Node.visits).getD 0

/-- What an expansion does to the store, beyond well-formedness. -/
theorem expand_frame {n : Node G Fl} {st st' : Store G Fl} {i c : Nat} {t t' : Tape} (w : WellFormed st)
    (hi : st[i]? = some n) (h : expand n st t = .ok ((st', c), t')) :
    c = st.length ∧ st'.length = st.length + 1 ∧ (∃ m : Node G Fl, st'[c]? = some m ∧ m.parent = some i) ∧ SameUp st st' ∧
      ∀ j, visitsAt st' j = visitsAt st j := by
  obtain ⟨a, next, ms, h1, h2, h3, rfl, -, rfl⟩ := expand_ok h
  have hidx : n.idx = i := w.idx i n hi
  have hil : i < st.length := (List.getElem?_eq_some_iff.1 hi).1
  rw [hidx]
  refine ⟨rfl, by simp, ?_, ?_, ?_⟩
  · refine ⟨freshNode next st.length (some i) (some a) (Fl.ofInt 0) ms, ?_, rfl⟩
    rw [List.getElem?_set_ne (by omega), List.getElem?_append_right (by omega)]
    simp
  · intro j m hj
    by_cases hji : j = i
    · subst hji
      rw [hi] at hj
      injection hj with hj
      subst hj
      refine ⟨_, List.getElem?_set_self (by simp; omega), rfl, rfl⟩
    · refine ⟨m, ?_, rfl, rfl⟩
      rw [List.getElem?_set_ne (Ne.symm hji), List.getElem?_append_left (List.getElem?_eq_some_iff.1 hj).1, hj]
  · intro j
    unfold visitsAt
    by_cases hji : j = i
    · subst hji
      rw [List.getElem?_set_self (by simp; omega), hi]
      rfl
    · rw [List.getElem?_set_ne (Ne.symm hji)]
      by_cases hjl : j < st.length
      · rw [List.getElem?_append_left hjl]
      · rw [List.getElem?_append_right (by omega), List.getElem?_eq_none (by omega : st.length ≤ j)]
        cases hj : j - st.length with
        | zero => rfl
        | succ q => rfl

open Classical in
theorem visitsAt_back {st st' : Store G Fl} {k : Nat} {r : Fl.F} (hs : SameShape st st')
    (h : ∀ (i : Nat) (n : Node G Fl), st[i]? = some n → st'[i]? = some (if Anc st i k then n.record r else n))
    {i : Nat} (hi : i < st.length) :
    visitsAt st' i = if Anc st' i k then vinc (visitsAt st i) else visitsAt st i := by
  obtain ⟨n, hn⟩ : ∃ n, st[i]? = some n := ⟨_, List.getElem?_eq_getElem hi⟩
  unfold visitsAt
  rw [h i n hn, hn]
  have : Anc st' i k ↔ Anc st i k := ⟨Anc.mono hs.symm.up, Anc.mono hs.up⟩
  by_cases ha : Anc st i k
  · rw [if_pos ha, if_pos (this.2 ha)]; rfl
  · rw [if_neg ha, if_neg (fun h => ha (this.1 h))]

open Classical in
/-- One iteration: the tree stays well formed, one node `k` below the root is chosen (the root only if it is
terminal), and the visit counts of exactly the nodes from `k` to the root grow. -/
theorem iteration_spec {player : Int} {limit r : Nat} {st st' : Store G Fl} {k : Nat} {t t' : Tape} (w : WellFormed st)
    (hr : r < st.length) (h : iteration player limit r st t = .ok ((st', k), t')) :
    WellFormed st' ∧ SameUp st st' ∧ (st'.length = st.length ∨ st'.length = st.length + 1 ∧ k = st.length) ∧
      k < st'.length ∧ Anc st' r k ∧
      (∀ rn : Node G Fl, st[r]? = some rn → G.winner rn.state = none → k ≠ r) ∧
      (∀ i, i < st'.length → visitsAt st' i = if Anc st' i k then vinc (visitsAt st i) else visitsAt st i) := by
  unfold iteration at h
  obtain ⟨i, t1, h1, h⟩ := M.bind_ok.1 h
  rw [M.lift_ok] at h1
  obtain ⟨i', n, h2, h3, h4, h5⟩ := selectLeafNode_spec w r hr
  rw [h2] at h1
  obtain ⟨h1, rfl⟩ := h1
  injection h1 with h1
  subst h1
  obtain ⟨sel, t2, h6, h⟩ := M.bind_ok.1 h
  rw [M.lift_ok, getNode_ok, h3] at h6
  obtain ⟨h6, rfl⟩ := h6
  injection h6 with h6
  subst h6
  have hil : i' < st.length := (List.getElem?_eq_some_iff.1 h3).1
  cases hw : G.winner n.state with
  | some wn =>
    rw [hw] at h
    simp only at h
    obtain ⟨st1, t3, h7, h⟩ := M.bind_ok.1 h
    rw [M.lift_ok] at h7
    have h8 := M.pure_ok.1 h
    simp only [Prod.mk.injEq] at h8
    obtain ⟨⟨rfl, rfl⟩, -⟩ := h8
    obtain ⟨st2, h9, h10, h11⟩ := backpropagate_spec (Fl.ofInt (outcome wn player)) k st w.upLt hil
    rw [h9] at h7
    have h7 := h7.1
    injection h7 with h7
    subst h7
    have hlen := h10.length
    refine ⟨h10.wellFormed w, h10.up, .inl (by omega), by omega, h4.mono h10.up, ?_, ?_⟩
    · rintro rn hrn hrw rfl
      rw [h3] at hrn
      injection hrn with hrn
      subst hrn
      rw [hw] at hrw
      cases hrw
    · intro j hj
      exact visitsAt_back h10 h11 (by omega)
  | none =>
    rw [hw] at h
    simp only at h
    obtain ⟨⟨st1, c⟩, t3, h7, h⟩ := M.bind_ok.1 h
    simp only at h
    have w1 := expand_wf w h3 h7
    obtain ⟨rfl, hlen1, ⟨m, hm, hmp⟩, hup1, hv1⟩ := expand_frame w h3 h7
    obtain ⟨nn, t4, h8, h⟩ := M.bind_ok.1 h
    obtain ⟨v, t5, h9, h⟩ := M.bind_ok.1 h
    obtain ⟨st2, t6, h10, h⟩ := M.bind_ok.1 h
    rw [M.lift_ok] at h10
    have h11 := M.pure_ok.1 h
    simp only [Prod.mk.injEq] at h11
    obtain ⟨⟨rfl, rfl⟩, -⟩ := h11
    obtain ⟨st2', h12, h13, h14⟩ := backpropagate_spec (Fl.ofInt v) st.length st1 w1.upLt (by omega)
    rw [h12] at h10
    have h10 := h10.1
    injection h10 with h10
    subst h10
    have hlen2 := h13.length
    have hup : SameUp st st2' := hup1.trans h13.up
    refine ⟨h13.wellFormed w1, hup, .inr ⟨by omega, rfl⟩, by omega, ?_, ?_, ?_⟩
    · obtain ⟨m2, hm2, hp2, -⟩ := h13.up _ m hm
      exact .step hm2 (hp2.trans hmp) (h4.mono hup)
    · intro rn _ _; omega
    · intro j hj
      rw [visitsAt_back h13 h14 (by omega), hv1 j]

/-! ## The loop -/

theorem countOf_append {α : Type} (P : α → Prop) (l : List α) (x : α) :
    countOf P (l ++ [x]) = countOf P l + (@ite _ (P x) (Classical.propDecidable _) 1 0) := by
  unfold countOf
  rw [List.countP_append, List.countP_singleton]
  by_cases h : P x <;> simp [h]

theorem countOf_congr {α : Type} {P Q : α → Prop} {l : List α} (h : ∀ x ∈ l, P x ↔ Q x) : countOf P l = countOf Q l := by
  unfold countOf
  apply List.countP_congr
  intro x hx
  simp [h x hx]

theorem countOf_zero {α : Type} {P : α → Prop} {l : List α} (h : ∀ x ∈ l, ¬ P x) : countOf P l = 0 := by
  unfold countOf
  rw [List.countP_eq_zero]
  intro x hx
  simp [h x hx]

theorem countOf_all {α : Type} {P : α → Prop} {l : List α} (h : ∀ x ∈ l, P x) : countOf P l = l.length := by
  unfold countOf
  rw [List.countP_eq_length]
  intro x hx
  simp [h x hx]

/-- What holds after any number of iterations; `tr` lists the nodes from which results were propagated. -/
structure RunInv (r : Nat) (st : Store G Fl) (tr : List Nat) : Prop where
  wf : WellFormed st
  root : r < st.length
  mem : ∀ k ∈ tr, k < st.length ∧ Anc st r k
  visits : ∀ i, i < st.length → visitsAt st i = min (countOf (fun k => Anc st i k) tr) 16777216
  conn : ∀ i, i < st.length → Anc st r i
  below : ∀ rn : Node G Fl, st[r]? = some rn → G.winner rn.state = none → ∀ k ∈ tr, k ≠ r

theorem RunInv.step {player : Int} {limit r : Nat} {st st' : Store G Fl} {tr : List Nat} {k : Nat} {t t' : Tape}
    (v : RunInv r st tr) (h : iteration player limit r st t = .ok ((st', k), t')) : RunInv r st' (tr ++ [k]) := by
  obtain ⟨w', hup, hlen, hk, hanc, hne, hvis⟩ := iteration_spec v.wf v.root h
  refine ⟨w', by have := v.root; omega, ?_, ?_, ?_, ?_⟩
  · intro q hq
    rcases List.mem_append.1 hq with hq | hq
    · obtain ⟨h1, h2⟩ := v.mem q hq
      exact ⟨by omega, h2.mono hup⟩
    · rw [List.mem_singleton.1 hq]; exact ⟨hk, hanc⟩
  · intro i hi
    rw [hvis i hi, countOf_append]
    have hold : countOf (fun k => Anc st' i k) tr = countOf (fun k => Anc st i k) tr :=
      countOf_congr fun q hq => anc_iff v.wf.upLt hup (v.mem q hq).1
    have hprev : visitsAt st i = min (countOf (fun k => Anc st' i k) tr) 16777216 := by
      by_cases hil : i < st.length
      · rw [hold]; exact v.visits i hil
      · rw [countOf_zero (fun q hq a => by
          have := Anc.le w'.upLt a
          have := (v.mem q hq).1
          omega)]
        unfold visitsAt
        rw [List.getElem?_eq_none (by omega)]
        rfl
    rw [hprev]
    by_cases ha : Anc st' i k
    · rw [if_pos ha, if_pos ha]
      unfold vinc
      split <;> omega
    · rw [if_neg ha, if_neg ha]; rfl
  · intro i hi
    by_cases hil : i < st.length
    · exact (v.conn i hil).mono hup
    · have : i = k := by omega
      rw [this]; exact hanc
  · intro rn hrn hw q hq
    obtain ⟨rn0, hrn0⟩ : ∃ n, st[r]? = some n := ⟨_, List.getElem?_eq_getElem v.root⟩
    obtain ⟨n', h1, -, h2⟩ := hup r rn0 hrn0
    rw [hrn] at h1
    injection h1 with h1
    subst h1
    rw [h2] at hw
    rcases List.mem_append.1 hq with hq | hq
    · exact v.below rn0 hrn0 hw q hq
    · rw [List.mem_singleton.1 hq]; exact hne rn0 hrn0 hw

theorem iterate_inv {player : Int} {limit r : Nat} (n : Nat) {st st' : Store G Fl} {tr tr' : List Nat} {t t' : Tape}
    (v : RunInv r st tr) (h : iterate player limit r n st tr t = .ok ((st', tr'), t')) :
    RunInv r st' tr' ∧ SameUp st st' ∧ tr'.length = tr.length + n := by
  induction n generalizing st tr t with
  | zero =>
    have := M.pure_ok.1 h
    simp only [Prod.mk.injEq] at this
    obtain ⟨⟨rfl, rfl⟩, -⟩ := this
    exact ⟨v, fun i n hn => ⟨n, hn, rfl, rfl⟩, rfl⟩
  | succ n ih =>
    obtain ⟨⟨st1, k⟩, t1, h1, h2⟩ := M.bind_ok.1 h
    obtain ⟨h3, h4, h5⟩ := ih (v.step h1) h2
    have := (iteration_spec v.wf v.root h1).2.1
    exact ⟨h3, this.trans h4, by rw [h5]; simp; omega⟩

theorem buildTree_inv {state : G.S} {player : Int} {iterations limit : Nat} {st : Store G Fl} {tr : List Nat}
    {t t' : Tape} (h : buildTree Fl state player iterations limit t = .ok ((st, tr), t')) :
    RunInv 0 st tr ∧ tr.length = iterations ∧
      ∃ rn : Node G Fl, st[0]? = some rn ∧ rn.state = state ∧ rn.parent = none := by
  unfold buildTree at h
  obtain ⟨⟨st0, r⟩, t1, h1, h2⟩ := M.bind_ok.1 h
  rw [M.lift_ok, addNode_ok] at h1
  obtain ⟨⟨ms, hm, rfl, rfl⟩, rfl⟩ := h1
  have w := wf_root (Fl := Fl) wf_nil hm (Fl.ofInt 0)
  have v : RunInv 0 ([] ++ [freshNode state ([] : Store G Fl).length none none (Fl.ofInt 0) ms]) [] := by
    refine ⟨w, by simp, by simp, ?_, ?_, by simp⟩
    · intro i hi
      have : i = 0 := by simp at hi; omega
      subst this
      simp [visitsAt, freshNode, countOf]
    · intro i hi
      have : i = 0 := by simp at hi; omega
      subst this
      exact .refl
  obtain ⟨h3, h4, h5⟩ := iterate_inv iterations v h2
  obtain ⟨rn, h6, h7, h8⟩ := h4 0 _ (by rfl)
  exact ⟨h3, by simpa using h5, rn, h6, h8, h7⟩

/-! ## Legal children -/

theorem child_legal {st : Store G Fl} (w : WellFormed st) {p c : Nat} {pn cn : Node G Fl} (hp : st[p]? = some pn)
    (hc : c ∈ pn.children) (hcn : st[c]? = some cn) :
    ∃ a ms, cn.action = some a ∧ G.moves pn.state = .ok ms ∧ a ∈ ms ∧ Plays G pn.state a cn.state := by
  obtain ⟨cn', h1, h2⟩ := w.down p pn c hp hc
  rw [hcn] at h1
  injection h1 with h1
  subst h1
  obtain ⟨-, pn', a, h3, -, h4, h5⟩ := w.up c cn p hcn h2
  rw [hp] at h3
  injection h3 with h3
  subst h3
  obtain ⟨ms, h6, h7⟩ := w.part p pn hp
  refine ⟨a, ms, h4, h6, ?_, h5⟩
  apply h7.subset
  apply List.mem_append_right
  unfold childActions
  rw [List.mem_filterMap]
  exact ⟨c, hc, by rw [hcn]; exact h4⟩

/-! ## Progress -/

/-- In the positions satisfying `R` the game methods do not panic on legal input, and `R` is kept. -/
structure Safe (G : Game) (R : G.S → Prop) : Prop where
  moves : ∀ s, R s → ∃ ms, G.moves s = .ok ms
  apply : ∀ s ms a, R s → G.moves s = .ok ms → a ∈ ms → ∀ t, ∃ s' t', G.apply s a t = .ok (s', t')
  closed : ∀ s ms a s', R s → G.moves s = .ok ms → a ∈ ms → Plays G s a s' → R s'
  skip : ∀ s, R s → ∀ t, ∃ s' t', G.skip s t = .ok (s', t') ∧ R s'

theorem choose_spec {α : Type} (l : List α) (t : Tape) :
    (l = [] ∧ M.choose l t = .ok (none, t)) ∨ ∃ a t', a ∈ l ∧ M.choose l t = .ok (some a, t') := by
  cases l with
  | nil => exact .inl ⟨rfl, rfl⟩
  | cons a l =>
    right
    refine ⟨(a :: l).getD (t 0 % (l.length + 1)) a, fun n => t (n + 1), ?_, rfl⟩
    have hlt : t 0 % (l.length + 1) < (a :: l).length := Nat.mod_lt _ (Nat.succ_pos _)
    rw [List.getD_eq_getElem?_getD, List.getElem?_eq_getElem hlt]
    exact List.getElem_mem hlt

theorem simulate_ok {R : G.S → Prop} (hs : Safe G R) (start : G.S) (player : Int) (n : Nat) (curr : G.S) (hc : R curr)
    (t : Tape) : ∃ v t', simulateLoop start player n curr t = .ok (v, t') := by
  induction n generalizing curr t with
  | zero => exact ⟨_, _, rfl⟩
  | succ n ih =>
    unfold simulateLoop
    cases hw : G.winner start with
    | some w => exact ⟨_, _, rfl⟩
    | none =>
      simp only
      obtain ⟨ms, hm⟩ := hs.moves curr hc
      rcases choose_spec ms t with ⟨-, hch⟩ | ⟨a, t1, ha, hch⟩
      · obtain ⟨s', t2, h1, h2⟩ := hs.skip curr hc t
        obtain ⟨v, t3, h3⟩ := ih s' h2 t2
        exact ⟨v, t3, M.bind_ok.2 ⟨ms, t, M.lift_ok.2 ⟨hm, rfl⟩, M.bind_ok.2 ⟨none, t, hch,
          M.bind_ok.2 ⟨s', t2, h1, h3⟩⟩⟩⟩
      · obtain ⟨s', t2, h1⟩ := hs.apply curr ms a hc hm ha t1
        obtain ⟨v, t3, h3⟩ := ih s' (hs.closed curr ms a s' hc hm ha ⟨_, _, h1⟩) t2
        exact ⟨v, t3, M.bind_ok.2 ⟨ms, t, M.lift_ok.2 ⟨hm, rfl⟩, M.bind_ok.2 ⟨some a, t1, hch,
          M.bind_ok.2 ⟨s', t2, h1, h3⟩⟩⟩⟩

/-- All positions of the tree satisfy `R`. -/
def AllR (R : G.S → Prop) (st : Store G Fl) : Prop := ∀ (i : Nat) (n : Node G Fl), st[i]? = some n → R n.state

theorem AllR.shape {R : G.S → Prop} {st st' : Store G Fl} (h : AllR R st) (hs : SameShape st st') : AllR R st' := by
  intro i n hi
  obtain ⟨n', h1, -, h2⟩ := hs.symm.up i n hi
  rw [← h2]; exact h i n' h1

theorem expand_progress {R : G.S → Prop} (hs : Safe G R) {st : Store G Fl} (w : WellFormed st) (hR : AllR R st)
    {i : Nat} {n : Node G Fl} (hi : st[i]? = some n) (hne : n.expandable ≠ []) (t : Tape) :
    ∃ st' c t', expand n st t = .ok ((st', c), t') ∧ AllR R st' := by
  obtain ⟨ms, hm, hperm⟩ := w.part i n hi
  obtain ⟨a, ha⟩ : ∃ a, n.expandable.getLast? = some a := by
    cases h : n.expandable.getLast? with
    | none => exact absurd (List.getLast?_eq_none_iff.1 h) hne
    | some a => exact ⟨a, rfl⟩
  have hmem : a ∈ ms := hperm.subset (List.mem_append_left _ (List.mem_of_getLast? ha))
  have hRn := hR i n hi
  obtain ⟨next, t1, h1⟩ := hs.apply n.state ms a hRn hm hmem t
  have hRnext := hs.closed n.state ms a next hRn hm hmem ⟨_, _, h1⟩
  obtain ⟨ms', hm'⟩ := hs.moves next hRnext
  have hidx := w.idx i n hi
  have hil : i < st.length := (List.getElem?_eq_some_iff.1 hi).1
  have he : ∃ st' c t', expand n st t = .ok ((st', c), t') := by
    unfold expand
    rw [ha]
    have h2 : addNode (Fl := Fl) st next (some n.idx) (some a) (Fl.ofInt 0) =
        .ok (st ++ [freshNode next st.length (some n.idx) (some a) (Fl.ofInt 0) ms'], st.length) :=
      addNode_ok.2 ⟨ms', hm', rfl, rfl⟩
    simp only
    rw [M.bind_eq h1, M.bind_eq (M.lift_ok.2 ⟨h2, rfl⟩)]
    simp only [setNode]
    rw [if_pos (by simp [hidx]; omega)]
    exact ⟨_, _, _, rfl⟩
  obtain ⟨st', c, t', he⟩ := he
  refine ⟨st', c, t', he, ?_⟩
  obtain ⟨b, next', ms2, h2, h3, h4, h5, h6, rfl⟩ := expand_ok he
  intro j m hj
  rw [List.getElem?_set] at hj
  split at hj
  · injection hj with hj
    subst hj
    exact hRn
  · by_cases hjl : j < st.length
    · rw [List.getElem?_append_left hjl] at hj
      exact hR j m hj
    · rw [List.getElem?_append_right (by omega)] at hj
      have hj0 : j - st.length = 0 := by
        have := (List.getElem?_eq_some_iff.1 hj).1
        simp at this
        omega
      rw [hj0] at hj
      simp at hj
      subst hj
      have hbm : b ∈ ms := hperm.subset (List.mem_append_left _ (by rw [h2]; simp))
      exact hs.closed n.state ms b next' hRn hm hbm h3

/-- Either an iteration succeeds, or it stopped at a position without winner and without legal moves. -/
theorem iteration_progress {R : G.S → Prop} (hs : Safe G R) {st : Store G Fl} (w : WellFormed st) (hR : AllR R st)
    {r : Nat} (hr : r < st.length) (player : Int) (limit : Nat) (t : Tape) :
    (∃ st' k t', iteration player limit r st t = .ok ((st', k), t') ∧ AllR R st') ∨
    (iteration player limit r st t = .error .explicitPanic ∧
      ∃ s, R s ∧ G.winner s = none ∧ G.moves s = .ok []) := by
  obtain ⟨i, n, h1, h2, h3, h4⟩ := selectLeafNode_spec w r hr
  have hil : i < st.length := (List.getElem?_eq_some_iff.1 h2).1
  have hstart : iteration player limit r st t = (match G.winner n.state with
      | some w => (do
        let st ← M.lift (backpropagate i (Fl.ofInt (outcome w player)) st)
        pure (st, i) : M (Store G Fl × Nat))
      | none => do
        let (st, c) ← expand n st
        let new ← M.lift (getNode st c)
        let value ← simulate new player limit
        let st ← M.lift (backpropagate c (Fl.ofInt value) st)
        pure (st, c)) t := by
    unfold iteration
    rw [h1]
    show (M.lift (getNode st i) >>= _) t = _
    rw [getNode_ok.2 h2]
    rfl
  rw [hstart]
  cases hw : G.winner n.state with
  | some wn =>
    left
    obtain ⟨st', h5, h6, -⟩ := backpropagate_spec (Fl.ofInt (outcome wn player)) i st w.upLt hil
    exact ⟨st', i, t, M.bind_ok.2 ⟨st', t, M.lift_ok.2 ⟨h5, rfl⟩, rfl⟩, hR.shape h6⟩
  | none =>
    by_cases hne : n.expandable = []
    · right
      refine ⟨?_, n.state, hR i n h2, hw, ?_⟩
      · simp only [expand, hne]
        rfl
      · obtain ⟨ms, h5, h6⟩ := w.part i n h2
        have hch : n.children = [] := by
          rcases h4 with h4 | h4
          · exact h4
          · exact absurd hne h4
        rw [h5]
        congr 1
        unfold childActions at h6
        rw [hne, hch] at h6
        exact List.nil_perm.1 h6
    · left
      obtain ⟨st1, c, t1, h5, h6⟩ := expand_progress hs w hR h2 hne t
      have w1 := expand_wf w h2 h5
      obtain ⟨rfl, hlen1, ⟨m, hm, hmp⟩, hup1, -⟩ := expand_frame w h2 h5
      obtain ⟨v, t2, h7⟩ := simulate_ok hs m.state player limit m.state (h6 _ m hm) t1
      obtain ⟨st2, h8, h9, -⟩ := backpropagate_spec (Fl.ofInt v) st.length st1 w1.upLt (by omega)
      refine ⟨st2, st.length, t2, M.bind_ok.2 ⟨(st1, st.length), t1, h5, M.bind_ok.2 ⟨m, t1, M.lift_ok.2 ⟨getNode_ok.2 hm, rfl⟩,
        M.bind_ok.2 ⟨v, t2, h7, M.bind_ok.2 ⟨st2, t2, M.lift_ok.2 ⟨h8, rfl⟩, rfl⟩⟩⟩⟩, h6.shape h9⟩

theorem iterate_progress {R : G.S → Prop} (hs : Safe G R) (n : Nat) {st : Store G Fl} {tr : List Nat} {r : Nat}
    (v : RunInv r st tr) (hR : AllR R st) (player : Int) (limit : Nat) (t : Tape) :
    (∃ st' tr' t', iterate player limit r n st tr t = .ok ((st', tr'), t')) ∨
    (iterate player limit r n st tr t = .error .explicitPanic ∧ ∃ s, R s ∧ G.winner s = none ∧ G.moves s = .ok []) := by
  induction n generalizing st tr t with
  | zero => exact .inl ⟨_, _, _, rfl⟩
  | succ n ih =>
    rcases iteration_progress hs v.wf hR v.root player limit t with ⟨st1, k, t1, h1, h2⟩ | ⟨h1, h2⟩
    · rcases ih (v.step h1) h2 t1 with ⟨st', tr', t', h3⟩ | ⟨h3, h4⟩
      · exact .inl ⟨st', tr', t', M.bind_ok.2 ⟨(st1, k), t1, h1, h3⟩⟩
      · refine .inr ⟨?_, h4⟩
        unfold iterate
        rw [M.bind_eq h1]
        exact h3
    · refine .inr ⟨?_, h2⟩
      unfold iterate
      exact M.bind_err h1

end DieE.Mcts
