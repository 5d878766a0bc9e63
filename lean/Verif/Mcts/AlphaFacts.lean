import Verif.Mcts.Alpha
import Verif.Mcts.Search

/-! # Lemmas about the network-guided searches -/

namespace DieE.Mcts
variable {G : Game} {Fl : Floats}

/-! ## Expansion -/

theorem alphaExpandLoop_ok {n : Node G Fl} {prior : Nat → Res Fl.F} (as : List G.Mv) {st st' : Store G Fl}
    {ch ch' : List Nat} {t t' : Tape} (h : alphaExpandLoop n prior as st ch t = .ok ((st', ch'), t')) :
    ∃ news : List (Node G Fl), st' = st ++ news ∧ news.length = as.length ∧
      ch' = ch ++ List.range' st.length as.length ∧
      (∀ (j : Nat) (m : Node G Fl) (a : G.Mv), news[j]? = some m → as[j]? = some a →
        FreshChild n n.idx (st.length + j) a m) ∧
      (∀ m ∈ news, m.visits = 0) := by
  induction as generalizing st ch t with
  | nil =>
    have := M.pure_ok.1 h
    simp only [Prod.mk.injEq] at this
    obtain ⟨⟨rfl, rfl⟩, -⟩ := this
    exact ⟨[], by simp, rfl, by simp, by simp, by simp⟩
  | cons a as ih =>
    unfold alphaExpandLoop at h
    obtain ⟨code, t1, h1, h⟩ := M.bind_ok.1 h
    obtain ⟨value, t2, h2, h⟩ := M.bind_ok.1 h
    obtain ⟨next, t3, h3, h⟩ := M.bind_ok.1 h
    obtain ⟨⟨st1, c⟩, t4, h4, hrest⟩ := M.bind_ok.1 h
    rw [M.lift_ok, addNode_ok] at h4
    obtain ⟨⟨ms, hm, rfl, rfl⟩, rfl⟩ := h4
    obtain ⟨news, h5, h6, h7, h8, h9⟩ := ih hrest
    refine ⟨freshNode next st.length (some n.idx) (some a) value ms :: news, ?_, ?_, ?_, ?_, ?_⟩
    · rw [h5]; simp
    · simp [h6]
    · rw [h7]
      simp [List.range'_succ]
    · intro j m b hj hb
      cases j with
      | zero =>
        simp at hj hb
        subst hj hb
        exact ⟨rfl, rfl, rfl, rfl, hm, ⟨_, _, h3⟩⟩
      | succ j =>
        have := h8 j m b (by simpa using hj) (by simpa using hb)
        refine ⟨?_, this.parent, this.children, this.action, this.moves, this.plays⟩
        rw [this.idx]
        simp
        omega
    · intro m hm
      rcases List.mem_cons.1 hm with rfl | hm
      · rfl
      · exact h9 m hm

/-- What an expansion leaves behind: the node gets children for all its expandable moves and keeps everything else;
the children are appended to the store. -/
theorem alphaExpandWith_ok {n n' : Node G Fl} {prior : Nat → Res Fl.F} {st st' : Store G Fl} {t t' : Tape}
    (h : alphaExpandWith n prior st t = .ok ((st', n'), t')) :
    ∃ news : List (Node G Fl),
      n' = { n with children := n.children ++ List.range' st.length n.expandable.length, expandable := [] } ∧
      st' = (st ++ news).set n.idx n' ∧ news.length = n.expandable.length ∧
      n.idx < (st ++ news).length ∧
      (∀ (j : Nat) (m : Node G Fl) (a : G.Mv), news[j]? = some m → n.expandable[j]? = some a →
        FreshChild n n.idx (st.length + j) a m) ∧
      (∀ m ∈ news, m.visits = 0) := by
  unfold alphaExpandWith at h
  obtain ⟨⟨st1, ch⟩, t1, h1, h⟩ := M.bind_ok.1 h
  obtain ⟨news, rfl, h2, rfl, h3, h4⟩ := alphaExpandLoop_ok _ h1
  obtain ⟨st2, t2, h5, h⟩ := M.bind_ok.1 h
  rw [M.lift_ok] at h5
  have h6 := M.pure_ok.1 h
  simp only [Prod.mk.injEq] at h6
  obtain ⟨⟨rfl, rfl⟩, -⟩ := h6
  have h5 := h5.1
  unfold setNode at h5
  split at h5
  · rename_i hlt
    injection h5 with h5
    refine ⟨news, by simp, ?_, h2, hlt, h3, h4⟩
    rw [← h5]
  · cases h5

/-- Expansion of a node of a well-formed forest (`n` is a copy of node `i` up to its numbers). -/
theorem alphaExpand_wf {n n0 n' : Node G Fl} {prior : Nat → Res Fl.F} {st st' : Store G Fl} {i : Nat} {t t' : Tape}
    (w : WellFormed st) (hi : st[i]? = some n0) (hn : n.shape = n0.shape)
    (h : alphaExpandWith n prior st t = .ok ((st', n'), t')) :
    WellFormed st' ∧ SameUp st st' ∧ n'.idx = i ∧ st.length ≤ st'.length ∧ st'[i]? = some n' ∧ n'.visits = n.visits ∧
      (∀ j, j ≠ i → visitsAt st' j = visitsAt st j) ∧
      (∀ (j : Nat) (m : Node G Fl), st.length ≤ j → st'[j]? = some m → m.parent = some i) ∧
      (∀ j, j ≠ i → j < st.length → st'[j]? = st[j]?) := by
  obtain ⟨news, hn', hst, hlen, hlt, hfresh, hzero⟩ := alphaExpandWith_ok h
  have hs := hn
  simp only [Node.shape, Prod.mk.injEq] at hs
  obtain ⟨h1, h2, h3, h4, h5, h6⟩ := hs
  have hidx : n.idx = i := h2.trans (w.idx i n0 hi)
  have hil : i < st.length := (List.getElem?_eq_some_iff.1 hi).1
  rw [hidx] at hst hfresh
  have hself : st'[i]? = some n' := by rw [hst, List.getElem?_set_self (by simp; omega)]
  have hold : ∀ j, j ≠ i → j < st.length → st'[j]? = st[j]? := by
    intro j hj hjl
    rw [hst, List.getElem?_set_ne (Ne.symm hj), List.getElem?_append_left hjl]
  have hnew : ∀ j, st.length ≤ j → st'[j]? = news[j - st.length]? := by
    intro j hj
    rw [hst, List.getElem?_set_ne (by omega), List.getElem?_append_right hj]
  refine ⟨?_, ?_, by rw [hn']; exact hidx, by rw [hst]; simp, hself, by rw [hn'], ?_, ?_, hold⟩
  · rw [hst]
    refine wf_extend w hi news n.expandable [] hlen ?_ (by rw [h6]; exact List.Perm.refl _) ?_
    · intro j m a hm ha
      have hf := hfresh j m a hm ha
      exact ⟨hf.idx, hf.parent, hf.children, hf.action, hf.moves, by rw [← h1]; exact hf.plays⟩
    · rw [hn']
      simp [Node.shape, h1, h2, h3, h4, h5]
  · intro j m hj
    by_cases hji : j = i
    · subst hji
      rw [hi] at hj
      injection hj with hj
      subst hj
      exact ⟨n', hself, by rw [hn']; exact h3, by rw [hn']; exact h1⟩
    · exact ⟨m, by rw [hold j hji (List.getElem?_eq_some_iff.1 hj).1]; exact hj, rfl, rfl⟩
  · intro j hji
    unfold visitsAt
    by_cases hjl : j < st.length
    · rw [hold j hji hjl]
    · rw [hnew j (by omega), List.getElem?_eq_none (by omega : st.length ≤ j)]
      cases hm : news[j - st.length]? with
      | none => rfl
      | some m => exact hzero m (List.mem_of_getElem? hm)
  · intro j m hj hm
    rw [hnew j hj] at hm
    have hq : j - st.length < n.expandable.length := by
      rw [← hlen]; exact (List.getElem?_eq_some_iff.1 hm).1
    exact (hfresh _ m _ hm (List.getElem?_eq_getElem hq)).parent

/-! ## Selection -/

theorem alphaUcb_ok {st : Store G Fl} (w : WellFormed st) {i : Nat} {n : Node G Fl} (hi : st[i]? = some n) :
    ∃ x, n.alphaUcb st = .ok x := by
  unfold Node.alphaUcb
  cases hp : n.parent with
  | none => exact ⟨_, rfl⟩
  | some p =>
    obtain ⟨-, pn, a, h1, -⟩ := w.up i n p hi hp
    simp only
    rw [getNode_ok.2 h1]
    exact ⟨_, rfl⟩

theorem selectAlpha_spec {st : Store G Fl} (w : WellFormed st) {i : Nat} {n : Node G Fl} (hi : st[i]? = some n)
    (hc : n.children ≠ []) : ∃ c m, selectAlpha i st = .ok m ∧ c ∈ n.children ∧ st[c]? = some m := by
  obtain ⟨cs, h1, h2, h3⟩ := childNodes_spec w hi
  have hne : cs ≠ [] := by
    intro h
    rw [h] at h3
    exact hc (List.length_eq_zero_iff.1 h3.symm)
  have hcmp : ∀ a ∈ cs, ∀ b ∈ cs, ∃ o, (do
      let x ← a.alphaUcb st
      let y ← b.alphaUcb st
      pure (Fl.cmp x y) : Res Ordering) = .ok o := by
    intro a ha b hb
    obtain ⟨ca, -, hca⟩ := (h2 a).1 ha
    obtain ⟨cb, -, hcb⟩ := (h2 b).1 hb
    obtain ⟨x, hx⟩ := alphaUcb_ok w hca
    obtain ⟨y, hy⟩ := alphaUcb_ok w hcb
    rw [hx, hy]
    exact ⟨_, rfl⟩
  obtain ⟨m, hm, he⟩ := maxBy_mem hcmp hne
  obtain ⟨c, hc1, hc2⟩ := (h2 m).1 hm
  refine ⟨c, m, ?_, hc1, hc2⟩
  unfold selectAlpha
  rw [getNode_ok.2 hi]
  show (childNodes st n >>= _) = _
  rw [h1]
  show (maxBy _ cs >>= _) = _
  rw [he]
  rfl

theorem alphaLeaf_step {st : Store G Fl} {f i : Nat} {n : Node G Fl} (hn : st[i]? = some n) :
    alphaLeaf st (f + 1) i = (if n.children.isEmpty then pure n.idx else do
      let c ← selectAlpha i st
      alphaLeaf st f c.idx) := by
  show (getNode st i >>= _) = _
  rw [getNode_ok.2 hn]
  rfl

/-- Selection ends at a node without children below the starting node. -/
theorem alphaLeaf_spec {st : Store G Fl} (w : WellFormed st) (f i : Nat) (hi : i < st.length)
    (hf : st.length ≤ f + i) : ∃ k n, alphaLeaf st f i = .ok k ∧ st[k]? = some n ∧ Anc st i k ∧ n.children = [] := by
  induction f generalizing i with
  | zero => omega
  | succ f ih =>
    obtain ⟨n, hn⟩ : ∃ n, st[i]? = some n := ⟨_, List.getElem?_eq_getElem hi⟩
    rw [alphaLeaf_step hn]
    by_cases hc : n.children.isEmpty = true
    · rw [if_pos hc]
      exact ⟨i, n, by rw [w.idx i n hn]; rfl, hn, .refl, by simpa using hc⟩
    · rw [if_neg hc]
      have hch : n.children ≠ [] := by
        intro h; simp [h] at hc
      obtain ⟨c, m, h1, h2, h3⟩ := selectAlpha_spec w hn hch
      rw [h1]
      show ∃ k n, alphaLeaf st f m.idx = .ok k ∧ _
      rw [w.idx c m h3]
      obtain ⟨cn, h4, h5⟩ := w.down i n c hn h2
      have hic : i < c := (w.up c cn i h4 h5).1
      obtain ⟨k, kn, h6, h7, h8, h9⟩ := ih c (List.getElem?_eq_some_iff.1 h3).1 (by omega)
      exact ⟨k, kn, h6, h7, (Anc.step h4 h5 .refl).trans h8, h9⟩

theorem alphaLeafNode_spec {st : Store G Fl} (w : WellFormed st) (i : Nat) (hi : i < st.length) :
    ∃ k n, alphaLeafNode i st = .ok k ∧ st[k]? = some n ∧ Anc st i k ∧ n.children = [] :=
  alphaLeaf_spec w st.length i hi (by omega)

/-! ## Selection looks only at the tree below the starting node -/

theorem mapM_congr' {α β : Type} {f g : α → Res β} {l : List α} (h : ∀ x ∈ l, f x = g x) : l.mapM f = l.mapM g := by
  induction l with
  | nil => rfl
  | cons a l ih =>
    rw [List.mapM_cons, List.mapM_cons, h a (List.mem_cons_self ..), ih fun x hx => h x (List.mem_cons_of_mem _ hx)]

theorem foldlM_congr' {α β : Type} {f g : β → α → Res β} {P : β → Prop} {l : List α}
    (h : ∀ b x, P b → x ∈ l → f b x = g b x) (hp : ∀ b x b', P b → x ∈ l → g b x = .ok b' → P b') (b : β) (hb : P b) :
    l.foldlM f b = l.foldlM g b := by
  induction l generalizing b with
  | nil => rfl
  | cons a l ih =>
    rw [List.foldlM_cons, List.foldlM_cons, h b a hb (List.mem_cons_self ..)]
    cases hg : g b a with
    | error e => rfl
    | ok b' =>
      exact ih (fun c x hc hx => h c x hc (List.mem_cons_of_mem _ hx))
        (fun c x c' hc hx => hp c x c' hc (List.mem_cons_of_mem _ hx)) b'
        (hp b a b' hb (List.mem_cons_self ..) hg)

theorem maxBy_congr {α : Type} {f g : α → α → Res Ordering} {l : List α} (h : ∀ a ∈ l, ∀ b ∈ l, f a b = g a b) :
    maxBy f l = maxBy g l := by
  cases l with
  | nil => rfl
  | cons a l =>
    simp only [maxBy]
    rw [foldlM_congr' (P := fun x => x ∈ a :: l) (g := fun acc x => do
      let o ← g acc x
      pure (if o = .gt then acc else x))]
    · intro b x hb hx
      rw [h b hb x (List.mem_cons_of_mem _ hx)]
    · intro b x b' hb hx hg
      obtain ⟨o, -, ho⟩ := Res.bind_ok.1 hg
      have := Res.pure_ok.1 ho
      subst this
      split
      · exact hb
      · exact List.mem_cons_of_mem _ hx
    · exact List.mem_cons_self ..

theorem selectAlpha_congr {st st' : Store G Fl} (w : WellFormed st) {g i : Nat}
    (heq : ∀ j, Anc st g j → st'[j]? = st[j]?) (ha : Anc st g i) (hi : i < st.length) :
    selectAlpha i st' = selectAlpha i st := by
  obtain ⟨n, hn⟩ : ∃ n, st[i]? = some n := ⟨_, List.getElem?_eq_getElem hi⟩
  have hn' : st'[i]? = some n := by rw [heq i ha]; exact hn
  obtain ⟨cs, h1, h2, -⟩ := childNodes_spec w hn
  have hchild : ∀ c ∈ n.children, Anc st g c := by
    intro c hc
    obtain ⟨cn, h3, h4⟩ := w.down i n c hn hc
    exact .step h3 h4 ha
  have hcs : childNodes st' n = childNodes st n := by
    unfold childNodes
    apply mapM_congr'
    intro c hc
    unfold getNode
    rw [heq c (hchild c hc)]
  have hucb : ∀ m ∈ cs, m.alphaUcb st' = m.alphaUcb st := by
    intro m hm
    obtain ⟨c, hc, hcm⟩ := (h2 m).1 hm
    obtain ⟨cn, h3, h4⟩ := w.down i n c hn hc
    rw [hcm] at h3
    injection h3 with h3
    subst h3
    unfold Node.alphaUcb
    rw [h4]
    simp only
    rw [getNode_ok.2 hn, getNode_ok.2 hn']
  unfold selectAlpha
  rw [getNode_ok.2 hn, getNode_ok.2 hn']
  show (childNodes st' n >>= _) = (childNodes st n >>= _)
  rw [hcs, h1]
  show (maxBy _ cs >>= _) = (maxBy _ cs >>= _)
  rw [maxBy_congr (fun a hca b hcb => by rw [hucb a hca, hucb b hcb])]

theorem alphaLeaf_congr {st st' : Store G Fl} (w : WellFormed st) {g : Nat}
    (heq : ∀ j, Anc st g j → st'[j]? = st[j]?) (f i : Nat) (ha : Anc st g i) (hi : i < st.length) :
    alphaLeaf st' f i = alphaLeaf st f i := by
  induction f generalizing i with
  | zero => rfl
  | succ f ih =>
    obtain ⟨n, hn⟩ : ∃ n, st[i]? = some n := ⟨_, List.getElem?_eq_getElem hi⟩
    have hn' : st'[i]? = some n := by rw [heq i ha]; exact hn
    rw [alphaLeaf_step hn, alphaLeaf_step hn']
    by_cases hc : n.children.isEmpty = true
    · rw [if_pos hc, if_pos hc]
    · rw [if_neg hc, if_neg hc, selectAlpha_congr w heq ha hi]
      have hch : n.children ≠ [] := by
        intro h; simp [h] at hc
      obtain ⟨c, m, h1, h2, h3⟩ := selectAlpha_spec w hn hch
      rw [h1]
      show alphaLeaf st' f m.idx = alphaLeaf st f m.idx
      rw [w.idx c m h3]
      obtain ⟨cn, h4, h5⟩ := w.down i n c hn h2
      exact ih c (.step h4 h5 ha) (List.getElem?_eq_some_iff.1 h3).1

theorem alphaLeafNode_congr {st st' : Store G Fl} (w : WellFormed st) {g : Nat}
    (heq : ∀ j, Anc st g j → st'[j]? = st[j]?) (hlen : st'.length = st.length) (hg : g < st.length) :
    alphaLeafNode g st' = alphaLeafNode g st := by
  unfold alphaLeafNode
  rw [hlen]
  exact alphaLeaf_congr w heq st.length g .refl hg

end DieE.Mcts
