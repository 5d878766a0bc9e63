import Verif.Mcts.Path

/-!
# The plain search while all positions of its tree are unfinished

Then every value is zero, and the children of each node are visited in turn.
-/

namespace DieE.Mcts
open DieE
variable {G : Game} {Fl : Floats}

/-! ## The last best element -/

theorem foldlM_stay {α : Type} {cmp : α → α → Res Ordering} {key : α → Int} {m : α} (r : List α)
    (h : ∀ x ∈ r, ∃ o, cmp m x = .ok o ∧ (o = .gt ↔ key m < key x)) (hr : ∀ x ∈ r, key m < key x) :
    r.foldlM (fun acc x => do
      let o ← cmp acc x
      pure (if o = Ordering.gt then acc else x)) m = (.ok m : Res α) := by
  induction r with
  | nil => rfl
  | cons x r ih =>
    obtain ⟨o, h1, h2⟩ := h x (List.mem_cons_self ..)
    rw [List.foldlM_cons, h1]
    show List.foldlM _ (if o = .gt then m else x) r = _
    rw [if_pos (h2.2 (hr x (List.mem_cons_self ..)))]
    exact ih (fun y hy => h y (List.mem_cons_of_mem _ hy)) fun y hy => hr y (List.mem_cons_of_mem _ hy)

theorem foldlM_come {α : Type} {cmp : α → α → Res Ordering} {key : α → Int} {m : α} {l : List α} (hm : m ∈ l)
    (h : ∀ a ∈ l, ∀ b ∈ l, ∃ o, cmp a b = .ok o ∧ (o = .gt ↔ key a < key b)) (hmin : ∀ x ∈ l, key m ≤ key x) (r : List α)
    (hsub : ∀ x ∈ r, x ∈ l) {acc : α} (hacc : acc ∈ l) {j : Nat} (hj : r[j]? = some m)
    (hlast : ∀ i x, j < i → r[i]? = some x → key m < key x) :
    r.foldlM (fun acc x => do
      let o ← cmp acc x
      pure (if o = Ordering.gt then acc else x)) acc = (.ok m : Res α) := by
  induction r generalizing acc j with
  | nil => cases hj
  | cons x r ih =>
    have hx := hsub x (List.mem_cons_self ..)
    have hsub' : ∀ y ∈ r, y ∈ l := fun y hy => hsub y (List.mem_cons_of_mem _ hy)
    obtain ⟨o, h1, h2⟩ := h acc hacc x hx
    rw [List.foldlM_cons, h1]
    show List.foldlM _ (if o = .gt then acc else x) r = _
    cases j with
    | zero =>
      cases hj
      rw [if_neg fun ho => by have := h2.1 ho; have := hmin acc hacc; omega]
      refine foldlM_stay r (fun y hy => h _ hm y (hsub' y hy)) fun y hy => ?_
      obtain ⟨i, hi, rfl⟩ := List.mem_iff_getElem.1 hy
      exact hlast (i + 1) _ (by omega) (by simp)
    | succ j =>
      refine ih hsub' ?_ hj fun i y hi hy => hlast (i + 1) y (by omega) hy
      split
      · exact hacc
      · exact hx

/-- `max_by` finds the last of the best elements. -/
theorem maxBy_last {α : Type} {cmp : α → α → Res Ordering} {key : α → Int} {l : List α}
    (h : ∀ a ∈ l, ∀ b ∈ l, ∃ o, cmp a b = .ok o ∧ (o = .gt ↔ key a < key b)) {j : Nat} {m : α} (hj : l[j]? = some m)
    (hmin : ∀ x ∈ l, key m ≤ key x) (hlast : ∀ i x, j < i → l[i]? = some x → key m < key x) : maxBy cmp l = .ok (some m) := by
  cases l with
  | nil => cases hj
  | cons a l =>
    have hm : m ∈ a :: l := List.mem_of_getElem? hj
    refine Res.bind_ok.2 ⟨m, ?_, rfl⟩
    cases j with
    | zero =>
      cases hj
      refine foldlM_stay (key := key) l (fun y hy => h _ hm y (List.mem_cons_of_mem _ hy)) fun y hy => ?_
      obtain ⟨i, hi, rfl⟩ := List.mem_iff_getElem.1 hy
      exact hlast (i + 1) _ (by omega) (by simp)
    | succ j =>
      exact foldlM_come (key := key) hm h hmin l (fun y hy => List.mem_cons_of_mem _ hy) (List.mem_cons_self ..) hj
        fun i y hi hy => hlast (i + 1) y (by omega) hy

/-! ## One iteration -/

theorem simulateLoop_open {start : G.S} (hw : G.winner start = none) {player : Int} {limit : Nat} {curr : G.S} {t t' : Tape} {v : Int}
    (h : simulateLoop start player limit curr t = .ok (v, t')) : v = 0 := by
  induction limit generalizing curr t with
  | zero => cases M.pure_ok.1 h; rfl
  | succ k ih =>
    unfold simulateLoop at h
    rw [hw] at h
    simp only at h
    obtain ⟨ms, t1, -, h⟩ := M.bind_ok.1 h
    obtain ⟨o, t2, -, h⟩ := M.bind_ok.1 h
    cases o with
    | some a =>
      obtain ⟨s', t3, -, h⟩ := M.bind_ok.1 h
      exact ih h
    | none =>
      obtain ⟨s', t3, -, h⟩ := M.bind_ok.1 h
      exact ih h

/-- All positions of the tree are unfinished. -/
def Open (st : Store G Fl) : Prop := ∀ (i : Nat) (n : Node G Fl), st[i]? = some n → G.winner n.state = none

open Classical in
/-- One iteration in a tree of unfinished positions. -/
theorem iteration_grows {player : Int} {limit : Nat} {st st' : Store G Fl} {k : Nat} {t t' : Tape} (w : WellFormed st)
    (ho : Open st) (hr : 0 < st.length) (h : iteration player limit 0 st t = .ok ((st', k), t')) :
    ∃ (i : Nat) (n : Node G Fl) (a : G.Mv) (next : G.S) (ms : List G.Mv) (v : Fl.F), selectLeafNode 0 st = .ok i ∧ st[i]? = some n ∧
      Anc st 0 i ∧ (n.children = [] ∨ n.expandable ≠ []) ∧ n.expandable = n.expandable.dropLast ++ [a] ∧ Plays G n.state a next ∧
      G.moves next = .ok ms ∧ (G.winner next = none → v = Fl.ofInt 0) ∧ st'.length = st.length + 1 ∧
      st'[st.length]? = some ((freshNode next st.length (some i) (some a) (Fl.ofInt 0) ms).record v) ∧
      ∀ (j : Nat) (m : Node G Fl), st[j]? = some m →
        st'[j]? = some (if Anc st j i then (if j = i then m.grown st.length else m).record v else m) := by
  unfold iteration at h
  obtain ⟨i, t1, h1, h⟩ := M.bind_ok.1 h
  rw [M.lift_ok] at h1
  obtain ⟨i', n, h2, h3, h4, h5⟩ := selectLeafNode_spec w 0 hr
  rw [h2] at h1
  obtain ⟨h1, rfl⟩ := h1
  injection h1 with h1
  subst h1
  obtain ⟨sel, t2, h6, h⟩ := M.bind_ok.1 h
  rw [M.lift_ok, getNode_ok, h3] at h6
  obtain ⟨h6, rfl⟩ := h6
  injection h6 with h6
  subst h6
  have hil : i' < st.length := (List.getElem?_eq_some_iff.1 h3).1
  rw [ho i' n h3] at h
  simp only at h
  obtain ⟨⟨st1, c⟩, t3, h7, ha⟩ := M.bind_ok.1 h
  simp only at ha
  have w1 := expand_wf w h3 h7
  obtain ⟨-, hlen1, -, hup1, -⟩ := expand_frame w h3 h7
  obtain ⟨a, next, ms, g1, g2, g3, rfl, -, rfl⟩ := expand_ok h7
  have hidx : i' = n.idx := (w.idx i' n h3).symm
  subst hidx
  obtain ⟨nn, t4, h8, hb⟩ := M.bind_ok.1 ha
  obtain ⟨v, t5, h9, hc⟩ := M.bind_ok.1 hb
  obtain ⟨st2, t6, h10, hd⟩ := M.bind_ok.1 hc
  rw [M.lift_ok] at h10
  have h11 := M.pure_ok.1 hd
  simp only [Prod.mk.injEq] at h11
  obtain ⟨⟨rfl, rfl⟩, -⟩ := h11
  have hf : ((st ++ [freshNode (Fl := Fl) next st.length (some n.idx) (some a) (Fl.ofInt 0) ms]).set n.idx
      { n with expandable := n.expandable.dropLast, children := n.children ++ [st.length] })[st.length]? =
      some (freshNode next st.length (some n.idx) (some a) (Fl.ofInt 0) ms) := by
    rw [List.getElem?_set_ne (by omega), List.getElem?_append_right (by omega)]
    simp
  rw [M.lift_ok, getNode_ok, hf] at h8
  obtain ⟨h8, rfl⟩ := h8
  injection h8 with h8
  subst h8
  obtain ⟨st2', h12, h13, h14⟩ := backpropagate_spec (Fl.ofInt v) st.length _ w1.upLt (by rw [hlen1]; omega)
  rw [h12] at h10
  have h10 := h10.1
  injection h10 with h10
  subst h10
  have hlen2 := h13.length
  refine ⟨n.idx, n, a, next, ms, Fl.ofInt v, h2, h3, h4, h5, g1, g2, g3, fun hw => ?_, ?_, ?_, ?_⟩
  · rw [show v = 0 from simulateLoop_open hw h9]
  · rw [← hlen2, hlen1]
  · rw [h14 _ _ hf, if_pos .refl]
  · intro j m hj
    have hjl : j < st.length := (List.getElem?_eq_some_iff.1 hj).1
    have hanc : Anc ((st ++ [freshNode (Fl := Fl) next st.length (some n.idx) (some a) (Fl.ofInt 0) ms]).set n.idx
        { n with expandable := n.expandable.dropLast, children := n.children ++ [st.length] }) j st.length ↔
        Anc st j n.idx := by
      rw [anc_cases hf]
      constructor
      · rintro (h | ⟨p, hp, h⟩)
        · omega
        · cases Option.some.inj hp
          exact (anc_iff w.upLt hup1 hil).1 h
      · intro h
        exact .inr ⟨n.idx, rfl, (anc_iff w.upLt hup1 hil).2 h⟩
    by_cases hji : j = n.idx
    · subst hji
      rw [h3] at hj
      cases Option.some.inj hj
      rw [h14 n.idx _ (List.getElem?_set_self (by simp only [List.length_append]; omega))]
      congr 1
      by_cases ha : Anc st n.idx n.idx
      · rw [if_pos ha, if_pos (hanc.2 ha), if_pos rfl]; rfl
      · exact absurd .refl ha
    · rw [h14 j m (by rw [List.getElem?_set_ne (Ne.symm hji), List.getElem?_append_left hjl, hj])]
      congr 1
      by_cases ha : Anc st j n.idx
      · rw [if_pos ha, if_pos (hanc.2 ha), if_neg hji]
      · rw [if_neg ha, if_neg (fun h => ha (hanc.1 h))]

theorem selectLeaf_stop {st : Store G Fl} (w : WellFormed st) (f j : Nat) (hj : j < st.length) (hf : st.length ≤ f + j)
    {i : Nat} (h : selectLeaf st f j = .ok i) {x : Nat} {n : Node G Fl} (hx : st[x]? = some n) (h1 : Anc st j x)
    (h2 : Anc st x i) (hc : n.children = [] ∨ n.expandable ≠ []) : x = i := by
  induction f generalizing j with
  | zero => omega
  | succ f ih =>
    obtain ⟨jn, hjn⟩ : ∃ n, st[j]? = some n := ⟨_, List.getElem?_eq_getElem hj⟩
    have hstep : selectLeaf st (f + 1) j = (if jn.children.isEmpty || !jn.isFullyExpanded then pure jn.idx
        else do
          let c ← selectUcb j st
          selectLeaf st f c.idx) := by
      show (getNode st j >>= _) = _
      rw [getNode_ok.2 hjn]
      rfl
    rw [hstep] at h
    by_cases hl : (jn.children.isEmpty || !jn.isFullyExpanded) = true
    · rw [if_pos hl] at h
      cases Except.ok.inj h
      rw [w.idx j jn hjn] at h2 ⊢
      have := h1.le w.upLt
      have := h2.le w.upLt
      omega
    · rw [if_neg hl] at h
      have hch : jn.children ≠ [] := by
        intro h; simp [h] at hl
      obtain ⟨c, m, e1, e2, e3⟩ := selectUcb_spec w hjn hch
      rw [e1] at h
      have h : selectLeaf st f m.idx = .ok i := h
      rw [w.idx c m e3] at h
      have hcl := (List.getElem?_eq_some_iff.1 e3).1
      obtain ⟨cn, e4, e5⟩ := w.down j jn c hjn e2
      have hjc := w.upLt c cn j e4 e5
      have hf' : st.length ≤ f + c := by omega
      obtain ⟨i', n', f1, f2, f3, -⟩ := selectLeaf_spec w f c hcl hf'
      rw [f1] at h
      cases Except.ok.inj h
      have hne : x ≠ j := by
        rintro rfl
        rw [hx] at hjn
        cases Option.some.inj hjn
        rcases hc with hc | hc
        · exact hch hc
        · simp [Node.isFullyExpanded, hc] at hl
      refine ih c hcl hf' f1 ?_
      rcases anc_total h2 f3 with h | h
      · rcases (anc_cases e4).1 h with h | ⟨q, hq, h⟩
        · subst h
          exact .refl
        · rw [e5] at hq
          cases Option.some.inj hq
          have := h.le w.upLt
          have := h1.le w.upLt
          omega
      · exact h

/-! ## The children take turns -/

theorem share {k T q : Nat} (hk : 0 < k) (hq : q < k) : (T + q) / k = T / k + if k - 1 - T % k < q then 1 else 0 := by
  have h1 := Nat.div_add_mod T k
  have h2 := Nat.mod_lt T hk
  split
  · next h =>
    rw [Nat.div_eq_iff hk, Nat.add_mul, Nat.mul_comm (T / k) k]
    omega
  · next h =>
    rw [Nat.div_eq_iff hk, Nat.add_zero, Nat.mul_comm (T / k) k]
    omega

theorem share_succ {k T q : Nat} (hk : 0 < k) (hq : q < k) : (T + 1 + q) / k = (T + q) / k + if q = k - 1 - T % k then 1 else 0 := by
  have h1 := Nat.div_add_mod T k
  have h2 := Nat.mod_lt T hk
  rw [share (T := T) hk hq]
  by_cases h : q = k - 1 - T % k
  · rw [if_neg (by omega), if_pos h, Nat.div_eq_iff hk, Nat.add_mul, Nat.add_mul, Nat.mul_comm (T / k) k]
    omega
  · rw [if_neg h]
    split
    · rw [Nat.div_eq_iff hk, Nat.add_mul, Nat.add_mul, Nat.mul_comm (T / k) k]
      omega
    · rw [Nat.div_eq_iff hk, Nat.add_mul, Nat.add_mul, Nat.mul_comm (T / k) k]
      omega

/-- Scores of moves without results: a move with one visit less scores higher, up to `B` visits of the parent. -/
structure Explores (Fl : Floats) (B : Nat) : Prop where
  zero : Fl.add (Fl.ofInt 0) (Fl.ofInt 0) = Fl.ofInt 0
  less : ∀ v p, 0 < v → v + 1 ≤ p → p < B → Fl.cmp (Fl.ucb (Fl.ofInt 0) v p) (Fl.ucb (Fl.ofInt 0) (v + 1) p) = .gt
  more : ∀ v p, 0 < v → v + 1 ≤ p → p < B → Fl.cmp (Fl.ucb (Fl.ofInt 0) (v + 1) p) (Fl.ucb (Fl.ofInt 0) v p) ≠ .gt
  same : ∀ v p, 0 < v → v ≤ p → p < B → Fl.cmp (Fl.ucb (Fl.ofInt 0) v p) (Fl.ucb (Fl.ofInt 0) v p) ≠ .gt

/-- The children of a node have been visited in turn, `T` times together. -/
structure Turns (st : Store G Fl) (n : Node G Fl) (T : Nat) : Prop where
  visits : n.visits = T + (if n.parent = none then 0 else 1)
  many : n.children.length ≤ T
  once : n.expandable ≠ [] → T = n.children.length
  none : n.children = [] → T = 0
  share : ∀ q c, n.children[q]? = some c → ∃ m : Node G Fl, st[c]? = some m ∧ m.visits = (T + q) / n.children.length

/-- The state of a search whose tree is unfinished. -/
structure Even (st : Store G Fl) : Prop where
  wf : WellFormed st
  root : 0 < st.length
  opn : Open st
  zero : ∀ (i : Nat) (n : Node G Fl), st[i]? = some n → n.value = Fl.ofInt 0
  order : ∀ (i : Nat) (n : Node G Fl), st[i]? = some n → G.moves n.state = .ok (n.expandable ++ (childActions st n).reverse)
  turns : ∀ (i : Nat) (n : Node G Fl), st[i]? = some n → ∃ T, Turns st n T

/-- The child visited next. -/
theorem selectUcb_turn {B : Nat} (hE : Explores Fl B) {st : Store G Fl} (e : Even st) {i : Nat} {n : Node G Fl} (hi : st[i]? = some n)
    {T : Nat} (hT : Turns st n T) (hc : n.children ≠ []) (hB : n.visits < B) :
    ∃ (c : Nat) (m : Node G Fl), n.children[n.children.length - 1 - T % n.children.length]? = some c ∧ st[c]? = some m ∧
      selectUcb i st = .ok m := by
  have hk : 0 < n.children.length := List.length_pos_iff.2 hc
  have hTk := hT.many
  obtain ⟨cs, h1, h2, h3, h4⟩ := mapM_getNode st n.children fun c hc => e.wf.child_lt hi hc
  obtain ⟨c, hcq⟩ : ∃ c, n.children[n.children.length - 1 - T % n.children.length]? = some c :=
    ⟨_, List.getElem?_eq_getElem (by omega)⟩
  obtain ⟨m, hm, hv⟩ := hT.share _ _ hcq
  refine ⟨c, m, hcq, hm, ?_⟩
  have hpos : 0 < T / n.children.length := Nat.div_pos hTk hk
  have hle : ∀ q, q < n.children.length → (T + q) / n.children.length ≤ n.visits := by
    intro q hq
    have h5 := hT.visits
    have : (T + q) / n.children.length ≤ T := by
      rw [Nat.div_le_iff_le_mul_add_pred hk]
      have : T + (n.children.length - 1) ≤ n.children.length * T + (n.children.length - 1) :=
        Nat.add_le_add_right (Nat.le_mul_of_pos_left T hk) _
      omega
    omega
  have hmem : ∀ x ∈ cs, ∃ q d, q < n.children.length ∧ cs[q]? = some x ∧ n.children[q]? = some d ∧ st[d]? = some x ∧
      x.visits = T / n.children.length + if n.children.length - 1 - T % n.children.length < q then 1 else 0 := by
    intro x hx
    obtain ⟨q, hq⟩ := List.mem_iff_getElem?.1 hx
    have hq' := hq
    rw [h4 q] at hq
    cases hd : n.children[q]? with
    | none => rw [hd] at hq; cases hq
    | some d =>
      rw [hd] at hq
      have hql := (List.getElem?_eq_some_iff.1 hd).1
      obtain ⟨x', e1, e2⟩ := hT.share q d hd
      have hq : st[d]? = some x := hq
      rw [hq] at e1
      cases Option.some.inj e1
      exact ⟨q, d, hql, hq', hd, hq, by rw [e2, share hk hql]⟩
  have hbest : maxBy (fun a b : Node G Fl => do
      let x ← a.ucb st
      let y ← b.ucb st
      pure (Fl.cmp x y)) cs = .ok (some m) := by
    refine maxBy_last (key := fun x : Node G Fl => (x.visits : Int)) ?_ (j := n.children.length - 1 - T % n.children.length) ?_ ?_ ?_
    · intro a ha b hb
      obtain ⟨q, d, g1, -, g2, g3, g4⟩ := hmem a ha
      obtain ⟨q', d', g1', -, g2', g3', g4'⟩ := hmem b hb
      have va : a.visits ≤ n.visits := by rw [g4, ← share hk g1]; exact hle q g1
      have vb : b.visits ≤ n.visits := by rw [g4', ← share hk g1']; exact hle q' g1'
      refine ⟨_, Res.bind_ok.2 ⟨_, (ucb_child e.wf hi (List.mem_of_getElem? g2) g3).1, Res.bind_ok.2
        ⟨_, (ucb_child e.wf hi (List.mem_of_getElem? g2') g3').1, rfl⟩⟩, ?_⟩
      rw [e.zero _ _ g3, e.zero _ _ g3']
      generalize hx : a.visits = x at *
      generalize hy : b.visits = y at *
      have hcase : x = y ∨ y = x + 1 ∨ x = y + 1 := by
        split at g4 <;> split at g4' <;> omega
      have hx0 : 0 < x := by omega
      have hy0 : 0 < y := by omega
      rcases hcase with h | h | h
      · subst h
        exact iff_of_false (hE.same x _ hx0 va hB) (by omega)
      · subst h
        exact iff_of_true (hE.less x _ hx0 vb hB) (by omega)
      · subst h
        exact iff_of_false (hE.more y _ hy0 va hB) (by omega)
    · rw [h4, hcq]
      exact hm
    · intro x hx
      obtain ⟨q, d, g1, -, -, -, g4⟩ := hmem x hx
      have hv' := hv
      rw [share hk (by omega), if_neg (by omega)] at hv'
      show (m.visits : Int) ≤ x.visits
      omega
    · intro q x hq hx
      obtain ⟨q', d, g1, g2, -, -, g4⟩ := hmem x (List.mem_of_getElem? hx)
      have hql := (List.getElem?_eq_some_iff.1 hx).1
      have hdx : x.visits = T / n.children.length + 1 := by
        have h5 := hx
        rw [h4 q] at h5
        cases hd : n.children[q]? with
        | none => rw [hd] at h5; cases h5
        | some d =>
          rw [hd] at h5
          obtain ⟨x', e1, e2⟩ := hT.share q d hd
          have h5 : st[d]? = some x := h5
          rw [h5] at e1
          cases Option.some.inj e1
          rw [e2, share hk (by omega), if_pos (by omega)]
      have hv' := hv
      rw [share hk (by omega), if_neg (by omega)] at hv'
      show (m.visits : Int) < x.visits
      omega
  unfold selectUcb
  rw [getNode_ok.2 hi]
  refine Res.bind_ok.2 ⟨n, rfl, Res.bind_ok.2 ⟨cs, h1, Res.bind_ok.2 ⟨some m, hbest, rfl⟩⟩⟩

theorem child_actions_eq {st st' : Store G Fl} {n n' : Node G Fl} (hc : n'.children = n.children)
    (h : ∀ c ∈ n.children, ∃ m m' : Node G Fl, st[c]? = some m ∧ st'[c]? = some m' ∧ m'.action = m.action) :
    childActions st' n' = childActions st n := by
  unfold childActions
  rw [hc]
  refine filterMap_congr' fun c hc => ?_
  obtain ⟨m, m', h1, h2, h3⟩ := h c hc
  rw [h1, h2]
  exact h3

/-- One iteration. -/
theorem Even.step {B N : Nat} (hE : Explores Fl B) (hB : B ≤ 16777216) {player : Int} {limit : Nat} {st st' : Store G Fl} {k : Nat} {t t' : Tape}
    (e : Even st) (hv : ∀ (i : Nat) (n : Node G Fl), st[i]? = some n → n.visits ≤ N) (hN : N < B)
    (h : iteration player limit 0 st t = .ok ((st', k), t')) (ho : Open st') :
    Even st' ∧ ∀ (i : Nat) (n : Node G Fl), st'[i]? = some n → n.visits ≤ N + 1 := by
  have w' := (iteration_spec e.wf e.root h).1
  obtain ⟨i, n, a, next, ms, v, h1, h2, h3, h4, h5, -, h7, h8, h9, h10, h11⟩ := iteration_grows e.wf e.opn e.root h
  obtain rfl : v = Fl.ofInt 0 := h8 (ho _ _ h10)
  have hil := (List.getElem?_eq_some_iff.1 h2).1
  have hvinc : ∀ x, x ≤ N → vinc x = x + 1 := fun x hx => by unfold vinc; rw [if_pos (by omega)]
  -- every node of the new store
  have hcases : ∀ (j : Nat) (m' : Node G Fl), st'[j]? = some m' →
      (j = st.length ∧ m' = (freshNode next st.length (some i) (some a) (Fl.ofInt 0) ms).record (Fl.ofInt 0)) ∨
      ∃ m : Node G Fl, st[j]? = some m := by
    intro j m' hj
    have hjl := (List.getElem?_eq_some_iff.1 hj).1
    by_cases hjs : j = st.length
    · subst hjs
      rw [h10] at hj
      exact .inl ⟨rfl, (Option.some.inj hj).symm⟩
    · exact .inr ⟨_, List.getElem?_eq_getElem (by omega)⟩
  have hold : ∀ (j : Nat) (m : Node G Fl), st[j]? = some m → ∃ m' : Node G Fl, st'[j]? = some m' ∧ m'.action = m.action ∧
      m'.parent = m.parent ∧ m'.state = m.state ∧ (Anc st j i → m'.visits = m.visits + 1) ∧ (¬ Anc st j i → m' = m) ∧
      (j ≠ i → m'.children = m.children ∧ m'.expandable = m.expandable) ∧ m'.value = Fl.ofInt 0 := by
    intro j m hj
    refine ⟨_, h11 j m hj, ?_⟩
    by_cases ha : Anc st j i
    · rw [if_pos ha]
      by_cases hji : j = i
      · rw [if_pos hji]
        refine ⟨rfl, rfl, rfl, fun _ => hvinc _ (hv j m hj), fun h => absurd ha h, fun h => absurd hji h, ?_⟩
        show Fl.add m.value _ = _
        rw [e.zero j m hj]
        exact hE.zero
      · rw [if_neg hji]
        refine ⟨rfl, rfl, rfl, fun _ => hvinc _ (hv j m hj), fun h => absurd ha h, fun _ => ⟨rfl, rfl⟩, ?_⟩
        show Fl.add m.value _ = _
        rw [e.zero j m hj]
        exact hE.zero
    · rw [if_neg ha]
      exact ⟨rfl, rfl, rfl, fun h => absurd h ha, fun _ => rfl, fun _ => ⟨rfl, rfl⟩, e.zero j m hj⟩
  have hkids : ∀ (j : Nat) (m : Node G Fl), st[j]? = some m → ∀ c ∈ m.children, ∃ d d' : Node G Fl, st[c]? = some d ∧ st'[c]? = some d' ∧
      d'.action = d.action := by
    intro j m hj c hc
    obtain ⟨d, g1, -⟩ := e.wf.down j m c hj hc
    obtain ⟨d', g2, g3, -⟩ := hold c d g1
    exact ⟨d, d', g1, g2, g3⟩
  refine ⟨⟨w', by omega, ho, ?_, ?_, ?_⟩, ?_⟩
  · intro j m' hj
    rcases hcases j m' hj with ⟨-, rfl⟩ | ⟨m, hm⟩
    · exact hE.zero
    · obtain ⟨m'', g1, -, -, -, -, -, -, g2⟩ := hold j m hm
      rw [hj] at g1
      cases Option.some.inj g1
      exact g2
  · intro j m' hj
    rcases hcases j m' hj with ⟨-, rfl⟩ | ⟨m, hm⟩
    · show G.moves next = .ok (ms ++ [])
      rw [h7, List.append_nil]
    · obtain ⟨m'', g1, -, -, g2, -, -, g3, -⟩ := hold j m hm
      rw [hj] at g1
      cases Option.some.inj g1
      rw [g2, e.order j m hm]
      by_cases hji : j = i
      · subst hji
        rw [h2] at hm
        cases Option.some.inj hm
        have hg := h11 j n h2
        rw [if_pos .refl, if_pos rfl, hj] at hg
        cases Option.some.inj hg
        have hca : childActions st' ((n.grown st.length).record (Fl.ofInt 0)) = childActions st n ++ [a] := by
          unfold childActions
          show List.filterMap _ (n.children ++ [st.length]) = _
          rw [List.filterMap_append]
          congr 1
          · refine filterMap_congr' fun c hc => ?_
            obtain ⟨d, d', k1, k2, k3⟩ := hkids j n h2 c hc
            rw [k1, k2]
            exact k3
          · rw [List.filterMap_cons, h10]
            rfl
        rw [hca]
        show Except.ok (n.expandable ++ _) = Except.ok (n.expandable.dropLast ++ _)
        rw [List.reverse_append, ← List.append_assoc]
        show Except.ok (n.expandable ++ _) = Except.ok (n.expandable.dropLast ++ [a] ++ _)
        rw [← h5]
      · obtain ⟨g4, g5⟩ := g3 hji
        rw [g5, child_actions_eq g4 (hkids j m hm)]
  · intro j m' hj
    rcases hcases j m' hj with ⟨-, rfl⟩ | ⟨m, hm⟩
    · refine ⟨0, ?_, Nat.zero_le _, fun _ => rfl, fun _ => rfl, fun q c hc => ?_⟩
      · show vinc 0 = 0 + (if some i = none then 0 else 1)
        rfl
      · cases hc
    · obtain ⟨m'', g1, -, g2, g3, g4, g5, g6, -⟩ := hold j m hm
      rw [hj] at g1
      cases Option.some.inj g1
      obtain ⟨T, hT⟩ := e.turns j m hm
      by_cases ha : Anc st j i
      · by_cases hji : j = i
        · subst hji
          rw [h2] at hm
          cases Option.some.inj hm
          have hg := h11 j n h2
          rw [if_pos .refl, if_pos rfl, hj] at hg
          cases Option.some.inj hg
          have hTc : T = n.children.length := hT.once (by rw [h5]; simp)
          have hlen : ((n.grown st.length).record (Fl.ofInt 0)).children.length = n.children.length + 1 := by
            show (n.children ++ [st.length]).length = _
            rw [List.length_append]
            rfl
          refine ⟨T + 1, ?_, ?_, fun _ => ?_, fun h => ?_, fun q c hc => ?_⟩
          · rw [g4 ha, hT.visits, g2]
            omega
          · omega
          · omega
          · rw [h] at hlen
            simp at hlen
          · rw [hlen]
            have hq : q < n.children.length + 1 := hlen ▸ (List.getElem?_eq_some_iff.1 hc).1
            have hc : (n.children ++ [st.length])[q]? = some c := hc
            have h1' : (T + 1 + q) / (n.children.length + 1) = 1 := by
              rw [Nat.div_eq_iff (by omega)]
              omega
            rw [h1']
            by_cases hql : q < n.children.length
            · rw [List.getElem?_append_left hql] at hc
              obtain ⟨d, d1, d2⟩ := hT.share q c hc
              obtain ⟨d', d3, -, -, -, -, d4, -⟩ := hold c d d1
              have hcm := List.mem_of_getElem? hc
              have hn : ¬ Anc st c j := by
                intro hcj
                have := hcj.le e.wf.upLt
                obtain ⟨cn, c1, c2⟩ := e.wf.down j n c h2 hcm
                have := e.wf.upLt c cn j c1 c2
                omega
              rw [d4 hn] at d3
              refine ⟨d, d3, ?_⟩
              rw [d2, Nat.div_eq_iff (by omega)]
              omega
            · rw [List.getElem?_append_right (by omega), show q - n.children.length = 0 by omega] at hc
              cases hc
              exact ⟨_, h10, rfl⟩
        · -- an inner node of the path
          have hroot : Anc st 0 j := by
            rcases anc_total h3 ha with h | h
            · exact h
            · have := h.le e.wf.upLt
              obtain rfl : j = 0 := by omega
              exact .refl
          have hfull : m.children ≠ [] ∧ m.expandable = [] := by
            constructor
            · intro hc
              exact hji (selectLeaf_stop e.wf st.length 0 e.root (by omega) h1 hm hroot ha (.inl hc))
            · refine Classical.byContradiction fun hc => ?_
              exact hji (selectLeaf_stop e.wf st.length 0 e.root (by omega) h1 hm hroot ha (.inr hc))
          obtain ⟨c, cm, s1, s2, s3, s4⟩ := selectLeaf_path e.wf st.length 0 e.root (by omega) h1 hm hroot ha hfull.1 hfull.2
          obtain ⟨c', cm', u1, u2, u3⟩ := selectUcb_turn hE e hm hT hfull.1 (Nat.lt_of_le_of_lt (hv j m hm) hN)
          rw [s1] at u3
          cases Except.ok.inj u3
          obtain rfl : c = c' := (e.wf.idx c cm s3).symm.trans (e.wf.idx c' cm u2)
          have hk : 0 < m.children.length := List.length_pos_iff.2 hfull.1
          obtain ⟨g7, g8⟩ := g6 hji
          refine ⟨T + 1, ?_, ?_, fun h => absurd hfull.2 (g8 ▸ h), fun h => absurd h (g7 ▸ hfull.1), fun q d hd => ?_⟩
          · rw [g4 ha, hT.visits, g2]
            omega
          · rw [g7]
            have := hT.many
            omega
          · rw [g7] at hd ⊢
            have hq := (List.getElem?_eq_some_iff.1 hd).1
            obtain ⟨x, x1, x2⟩ := hT.share q d hd
            obtain ⟨x', x3, -, -, -, x4, x5, -⟩ := hold d x x1
            refine ⟨x', x3, ?_⟩
            rw [share_succ hk hq, ← x2]
            by_cases hqe : q = m.children.length - 1 - T % m.children.length
            · rw [if_pos hqe]
              subst hqe
              rw [u1] at hd
              cases Option.some.inj hd
              exact x4 s4
            · rw [if_neg hqe, x5]
              · rfl
              · intro hanc
                have := anc_sibling e.wf hm (List.mem_of_getElem? hd) s2 hanc s4
                subst this
                have hnd := e.wf.nodup j m hm
                exact hqe ((List.getElem?_inj (by omega) hnd).1 (hd.trans u1.symm))
      · -- off the path
        have hmm := g5 ha
        subst hmm
        refine ⟨T, hT.visits, hT.many, hT.once, hT.none, fun q c hc => ?_⟩
        obtain ⟨x, x1, x2⟩ := hT.share q c hc
        obtain ⟨x', x3, -, -, -, -, x5, -⟩ := hold c x x1
        have hn : ¬ Anc st c i := by
          intro hci
          obtain ⟨cn, c1, c2⟩ := e.wf.down j m' c hm (List.mem_of_getElem? hc)
          exact ha (Anc.trans (.step c1 c2 .refl) hci)
        rw [x5 hn] at x3
        exact ⟨x, x3, x2⟩
  · intro j m' hj
    rcases hcases j m' hj with ⟨-, rfl⟩ | ⟨m, hm⟩
    · show vinc 0 ≤ N + 1
      show 1 ≤ N + 1
      omega
    · obtain ⟨m'', g1, -, -, -, g4, g5, -⟩ := hold j m hm
      rw [hj] at g1
      cases Option.some.inj g1
      have := hv j m hm
      by_cases ha : Anc st j i
      · rw [g4 ha]
        omega
      · rw [g5 ha]
        omega

/-! ## The whole search -/

theorem Open.of_sameUp {st st' : Store G Fl} (h : SameUp st st') (ho : Open st') : Open st := by
  intro i n hi
  obtain ⟨n', h1, -, h2⟩ := h i n hi
  rw [← h2]
  exact ho i n' h1

theorem iterate_even {B : Nat} (hE : Explores Fl B) (hB : B ≤ 16777216) {player : Int} {limit : Nat} (n : Nat) {st st' : Store G Fl}
    {tr tr' : List Nat} {t t' : Tape} (r : RunInv 0 st tr) (e : Even st) {N : Nat}
    (hv : ∀ (i : Nat) (n : Node G Fl), st[i]? = some n → n.visits ≤ N) (hN : N + n ≤ B)
    (h : iterate player limit 0 n st tr t = .ok ((st', tr'), t')) (ho : Open st') : Even st' := by
  induction n generalizing st tr t N with
  | zero =>
    have := M.pure_ok.1 h
    simp only [Prod.mk.injEq] at this
    obtain ⟨⟨rfl, rfl⟩, -⟩ := this
    exact e
  | succ n ih =>
    obtain ⟨⟨st1, k⟩, t1, h1, h2⟩ := M.bind_ok.1 h
    have r1 := r.step h1
    obtain ⟨e1, hv1⟩ := e.step hE hB hv (by omega) h1 (ho.of_sameUp (iterate_inv n r1 h2).2.1)
    exact ih r1 e1 hv1 (by omega) h2

theorem Even.start {state : G.S} {ms : List G.Mv} (hw : G.winner state = none) (hm : G.moves state = .ok ms) :
    Even ([freshNode state 0 none none (Fl.ofInt 0) ms] : Store G Fl) := by
  have one : ∀ (i : Nat) (n : Node G Fl), ([freshNode state 0 none none (Fl.ofInt 0) ms] : Store G Fl)[i]? = some n →
      n = freshNode state 0 none none (Fl.ofInt 0) ms := by
    intro i n hi
    cases i with
    | zero => exact (Option.some.inj hi).symm
    | succ i => cases hi
  refine ⟨wf_root (Fl := Fl) wf_nil hm (Fl.ofInt 0), Nat.zero_lt_one, ?_, ?_, ?_, ?_⟩
  · intro i n hi
    rw [one i n hi]
    exact hw
  · intro i n hi
    rw [one i n hi]
    rfl
  · intro i n hi
    rw [one i n hi]
    show G.moves state = .ok (ms ++ [])
    rw [hm, List.append_nil]
  · intro i n hi
    rw [one i n hi]
    exact ⟨0, rfl, Nat.zero_le _, fun _ => rfl, fun _ => rfl, fun q c hc => by cases hc⟩

/-- The search before its first iteration. -/
theorem buildTree_begin {state : G.S} {player : Int} {N limit : Nat} {st : Store G Fl} {tr : List Nat} {t t' : Tape}
    (h : buildTree Fl state player N limit t = .ok ((st, tr), t')) :
    ∃ ms, G.moves state = .ok ms ∧
      iterate player limit 0 N ([freshNode state 0 none none (Fl.ofInt 0) ms] : Store G Fl) [] t = .ok ((st, tr), t') ∧
      RunInv 0 ([freshNode state 0 none none (Fl.ofInt 0) ms] : Store G Fl) [] := by
  unfold buildTree at h
  obtain ⟨⟨st0, r⟩, t1, h1, h2⟩ := M.bind_ok.1 h
  rw [M.lift_ok, addNode_ok] at h1
  obtain ⟨⟨ms, hm, rfl, rfl⟩, rfl⟩ := h1
  refine ⟨ms, hm, h2, ?_⟩
  refine ⟨wf_root (Fl := Fl) wf_nil hm (Fl.ofInt 0), by simp, by simp, ?_, ?_, by simp⟩
  · intro i hi
    have : i = 0 := by simp at hi; omega
    subst this
    simp [visitsAt, freshNode, countOf]
  · intro i hi
    have : i = 0 := by simp at hi; omega
    subst this
    exact .refl

theorem buildTree_even {B : Nat} (hE : Explores Fl B) (hB : B ≤ 16777216) {state : G.S} {player : Int} {N limit : Nat}
    {st : Store G Fl} {tr : List Nat} {t t' : Tape} (hw : G.winner state = none) (hN : N ≤ B)
    (h : buildTree Fl state player N limit t = .ok ((st, tr), t')) (ho : Open st) : Even st := by
  obtain ⟨ms, hm, h2, r⟩ := buildTree_begin h
  refine iterate_even hE hB N r (Even.start hw hm) (N := 0) ?_ (by omega) h2 ho
  intro i n hi
  cases i with
  | zero => cases hi; exact Nat.le_refl _
  | succ i => cases hi

/-- The action of every child. -/
theorem WellFormed.actions_map {st : Store G Fl} (w : WellFormed st) {i : Nat} {n : Node G Fl} (hi : st[i]? = some n) :
    (childActions st n).map some = n.children.map fun c => (st[c]?).bind fun m => m.action := by
  unfold childActions
  have h : ∀ c ∈ n.children, ∃ a, ((st[c]?).bind fun m => m.action) = some a := by
    intro c hc
    obtain ⟨m, h1, h2⟩ := w.down i n c hi hc
    obtain ⟨-, pn, a, -, -, h3, -⟩ := w.up c m i h1 h2
    exact ⟨a, by rw [h1]; exact h3⟩
  revert h
  generalize n.children = l
  intro h
  induction l with
  | nil => rfl
  | cons c l ih =>
    obtain ⟨a, ha⟩ := h c (List.mem_cons_self ..)
    rw [List.filterMap_cons, ha, List.map_cons, List.map_cons, ih fun c hc => h c (List.mem_cons_of_mem _ hc), ha]

theorem WellFormed.actions_length {st : Store G Fl} (w : WellFormed st) {i : Nat} {n : Node G Fl} (hi : st[i]? = some n) :
    (childActions st n).length = n.children.length := by
  have := congrArg List.length (w.actions_map hi)
  rwa [List.length_map, List.length_map] at this

theorem WellFormed.actions_get {st : Store G Fl} (w : WellFormed st) {i : Nat} {n : Node G Fl} (hi : st[i]? = some n) {q c : Nat}
    (hq : n.children[q]? = some c) {m : Node G Fl} (hc : st[c]? = some m) {a : G.Mv} (ha : m.action = some a) :
    (childActions st n)[q]? = some a := by
  have := congrArg (fun l => l[q]?) (w.actions_map hi)
  simp only [List.getElem?_map, hq] at this
  have h2 : ((childActions st n)[q]?).map some = some (some a) := by
    rw [this]
    show some ((st[c]?).bind _) = _
    rw [hc]
    exact congrArg some ha
  cases h3 : (childActions st n)[q]? with
  | none => rw [h3] at h2; cases h2
  | some b => rw [h3] at h2; exact Option.some.inj h2

/-- The number of children is the number of moves, or that of the iterations if it is smaller. -/
theorem Even.kids {st : Store G Fl} (e : Even st) {i : Nat} {n : Node G Fl} (hi : st[i]? = some n) {T : Nat} (hT : Turns st n T)
    {ms : List G.Mv} (hm : G.moves n.state = .ok ms) : n.children.length = min T ms.length := by
  have ho := e.order i n hi
  rw [hm] at ho
  have hl : ms.length = n.expandable.length + n.children.length := by
    rw [Except.ok.inj ho, List.length_append, List.length_reverse, e.wf.actions_length hi]
  have hT1 := hT.many
  by_cases hx : n.expandable = []
  · rw [hx] at hl
    simp at hl
    omega
  · have := hT.once hx
    omega

/-- The move found. -/
theorem Even.found {st : Store G Fl} (e : Even st) {i : Nat} {n : Node G Fl} (hi : st[i]? = some n) {T : Nat} (hT : Turns st n T)
    {ms : List G.Mv} (hm : G.moves n.state = .ok ms) (hT0 : 0 < T) (hms : ms ≠ []) :
    ∃ a, ms[ms.length - min T ms.length]? = some a ∧ selectMostVisits i st = .ok a := by
  have hlen := e.kids hi hT hm
  have hk : 0 < n.children.length := by
    have := List.length_pos_iff.2 hms
    omega
  obtain ⟨cs, h1, h2, h3, h4⟩ := mapM_getNode st n.children fun c hc => e.wf.child_lt hi hc
  obtain ⟨c, hcq⟩ : ∃ c, n.children[n.children.length - 1]? = some c := ⟨_, List.getElem?_eq_getElem (by omega)⟩
  obtain ⟨m, hmc, hv⟩ := hT.share _ _ hcq
  have hbest : maxBy (fun a b : Node G Fl => .ok (compare a.visits b.visits)) cs = .ok (some m) := by
    refine maxBy_last (key := fun x : Node G Fl => -(x.visits : Int)) ?_ (j := n.children.length - 1) ?_ ?_ ?_
    · intro a _ b _
      refine ⟨_, rfl, ?_⟩
      rw [Nat.compare_eq_gt]
      omega
    · rw [h4, hcq]
      exact hmc
    · intro x hx
      obtain ⟨q, hq⟩ := List.mem_iff_getElem?.1 hx
      rw [h4 q] at hq
      cases hd : n.children[q]? with
      | none => rw [hd] at hq; cases hq
      | some d =>
        rw [hd] at hq
        have hql := (List.getElem?_eq_some_iff.1 hd).1
        obtain ⟨x', e1, e2⟩ := hT.share q d hd
        have hq : st[d]? = some x := hq
        rw [hq] at e1
        cases Option.some.inj e1
        have : (T + q) / n.children.length ≤ (T + (n.children.length - 1)) / n.children.length :=
          Nat.div_le_div_right (by omega)
        show -(m.visits : Int) ≤ -(x.visits : Int)
        omega
    · intro q x hq hx
      have := (List.getElem?_eq_some_iff.1 hx).1
      omega
  obtain ⟨a, ha⟩ : ∃ a, m.action = some a := by
    obtain ⟨m', g1, g2⟩ := e.wf.down i n c hi (List.mem_of_getElem? hcq)
    rw [hmc] at g1
    cases Option.some.inj g1
    obtain ⟨-, pn, a, -, -, h3, -⟩ := e.wf.up c m i hmc g2
    exact ⟨a, h3⟩
  refine ⟨a, ?_, ?_⟩
  · have ho := e.order i n hi
    rw [hm] at ho
    have hal := e.wf.actions_length hi
    have hl : ms.length = n.expandable.length + n.children.length := by
      rw [Except.ok.inj ho, List.length_append, List.length_reverse, hal]
    rw [← hlen, show ms.length - n.children.length = n.expandable.length by omega, Except.ok.inj ho,
      List.getElem?_append_right (Nat.le_refl _), Nat.sub_self, List.getElem?_reverse (by omega), hal]
    exact e.wf.actions_get hi hcq hmc ha
  · unfold selectMostVisits
    rw [getNode_ok.2 hi]
    refine Res.bind_ok.2 ⟨n, rfl, Res.bind_ok.2 ⟨cs, h1, Res.bind_ok.2 ⟨some m, hbest, ?_⟩⟩⟩
    show Except.ok (m.action.getD G.emptyMove) = _
    rw [ha]
    rfl

/-- The visits of the nodes on the path of the next iteration. -/
theorem Even.path {B : Nat} (hE : Explores Fl B) {st : Store G Fl} (e : Even st) {i : Nat} (h : selectLeafNode 0 st = .ok i)
    {x c : Nat} {n m : Node G Fl} (hx : st[x]? = some n) (hxi : Anc st x i) (hc : c ∈ n.children) (hm : st[c]? = some m)
    (hci : Anc st c i) {T : Nat} (hT : Turns st n T) (hB : n.visits < B) {ms : List G.Mv} (hms : G.moves n.state = .ok ms) :
    ms.length ≤ T ∧ m.visits = T / ms.length := by
  have hroot : Anc st 0 i := by
    obtain ⟨i', n', h2, h3, h4, h5⟩ := selectLeafNode_spec e.wf 0 e.root
    rw [h2] at h
    cases Except.ok.inj h
    exact h4
  have hr : Anc st 0 x := by
    rcases anc_total hroot hxi with h | h
    · exact h
    · have := h.le e.wf.upLt
      obtain rfl : x = 0 := by omega
      exact .refl
  have hne : n.children ≠ [] := List.ne_nil_of_mem hc
  have hxne : x ≠ i := by
    rintro rfl
    have := hci.le e.wf.upLt
    obtain ⟨cn, c1, c2⟩ := e.wf.down x n c hx hc
    have := e.wf.upLt c cn x c1 c2
    omega
  have hex : n.expandable = [] := by
    refine Classical.byContradiction fun hc => ?_
    exact hxne (selectLeaf_stop e.wf st.length 0 e.root (by omega) h hx hr hxi (.inr hc))
  obtain ⟨c', cm, s1, s2, s3, s4⟩ := selectLeaf_path e.wf st.length 0 e.root (by omega) h hx hr hxi hne hex
  obtain ⟨c'', cm', u1, u2, u3⟩ := selectUcb_turn hE e hx hT hne hB
  rw [s1] at u3
  cases Except.ok.inj u3
  obtain rfl : c' = c'' := (e.wf.idx c' cm s3).symm.trans (e.wf.idx c'' cm u2)
  obtain rfl := anc_sibling e.wf hx hc s2 hci s4
  rw [hm] at u2
  cases Option.some.inj u2
  have ho := e.order x n hx
  rw [hms, hex, List.nil_append] at ho
  have hl : ms.length = n.children.length := by
    rw [Except.ok.inj ho, List.length_reverse, e.wf.actions_length hx]
  have hk : 0 < n.children.length := List.length_pos_iff.2 hne
  obtain ⟨m', g1, g2⟩ := hT.share _ _ u1
  rw [hm] at g1
  cases Option.some.inj g1
  rw [hl]
  refine ⟨hT.many, ?_⟩
  rw [g2, DieE.Mcts.share hk (by omega), if_neg (by omega)]
  rfl

end DieE.Mcts
