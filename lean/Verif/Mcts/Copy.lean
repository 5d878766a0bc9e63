import Verif.Mcts.BatchSafe

/-!
# One search inside another

A store may contain the tree of another store under other indices.  The operations of the batched search on such a
copy do what they do on the original, and leave everything else alone.
-/

namespace DieE.Mcts
variable {G : Game} {Fl : Floats}

/-- The node with all its indices renamed. -/
def Node.move (φ : Nat → Nat) (n : Node G Fl) : Node G Fl :=
  { n with idx := φ n.idx, parent := n.parent.map φ, children := n.children.map φ }

/-- The store `b` contains the store `a`, node `q` of `a` being node `φ q` of `b`. -/
structure Copy (a b : Store G Fl) (φ : Nat → Nat) : Prop where
  inj : ∀ q q', q < a.length → q' < a.length → φ q = φ q' → q = q'
  get : ∀ (q : Nat) (n : Node G Fl), a[q]? = some n → b[φ q]? = some (n.move φ)
  len : a.length ≤ b.length

/-- What is left alone when `b` becomes `b'` while its part `a` becomes `a'`. -/
structure Local (a a' b b' : Store G Fl) (φ ψ : Nat → Nat) : Prop where
  lenA : a.length ≤ a'.length
  grow : b'.length + a.length = b.length + a'.length
  keep : ∀ j, j < b.length → (∀ q, q < a.length → φ q ≠ j) → b'[j]? = b[j]?
  ext : ∀ q, q < a.length → ψ q = φ q
  new : ∀ q, a.length ≤ q → q < a'.length → ψ q = b.length + (q - a.length)

theorem Copy.lt {a b : Store G Fl} {φ : Nat → Nat} (h : Copy a b φ) {q : Nat} (hq : q < a.length) : φ q < b.length :=
  (List.getElem?_eq_some_iff.1 (h.get q _ (List.getElem?_eq_getElem hq))).1

theorem Local.trans {a a' a'' b b' b'' : Store G Fl} {φ ψ χ : Nat → Nat} (h : Local a a' b b' φ ψ)
    (h' : Local a' a'' b' b'' ψ χ) : Local a a'' b b'' φ χ := by
  have l1 := h.lenA; have l2 := h.grow; have l3 := h'.lenA; have l4 := h'.grow
  refine ⟨by omega, by omega, ?_, ?_, ?_⟩
  · intro j hj hq
    rw [h'.keep j (by omega), h.keep j hj hq]
    intro q hqa
    by_cases hq1 : q < a.length
    · rw [h.ext q hq1]; exact hq q hq1
    · have := h.new q (by omega) hqa
      omega
  · intro q hq
    rw [h'.ext q (by omega), h.ext q hq]
  · intro q h1 h2
    by_cases hq1 : q < a'.length
    · rw [h'.ext q hq1]; exact h.new q h1 hq1
    · have := h'.new q (by omega) h2
      omega

/-! ## Selection -/

theorem mapM_map' {α β γ δ : Type} {f : α → Res γ} {g : β → Res δ} {F : α → β} {H : γ → δ} (l : List α)
    {r : List γ} (hr : l.mapM f = .ok r) (h : ∀ x ∈ l, ∀ y, f x = .ok y → g (F x) = .ok (H y)) :
    (l.map F).mapM g = .ok (r.map H) := by
  induction l generalizing r with
  | nil =>
    have : r = [] := by simpa [pure, Except.pure] using hr.symm
    subst this
    rfl
  | cons x l ih =>
    rw [List.mapM_cons] at hr
    obtain ⟨y, hy, hr⟩ := Res.bind_ok.1 hr
    obtain ⟨ys, hys, hr⟩ := Res.bind_ok.1 hr
    have : r = y :: ys := by simpa [pure, Except.pure] using hr.symm
    subst this
    rw [List.map_cons, List.mapM_cons, h x (List.mem_cons_self ..) y hy,
      ih hys fun z hz => h z (List.mem_cons_of_mem _ hz)]
    rfl

theorem foldlM_max_map {α β : Type} {f : α → α → Res Ordering} {g : β → β → Res Ordering} {F : α → β} (l : List α)
    (s : α) {r : α} (h : ∀ x ∈ s :: l, ∀ y ∈ s :: l, g (F x) (F y) = f x y)
    (hr : l.foldlM (fun acc x => do
      let o ← f acc x
      pure (if o = Ordering.gt then acc else x)) s = .ok r) :
    (l.map F).foldlM (fun acc x => do
      let o ← g acc x
      pure (if o = Ordering.gt then acc else x)) (F s) = .ok (F r) := by
  induction l generalizing s with
  | nil =>
    have : s = r := by simpa [pure, Except.pure] using hr
    subst this
    rfl
  | cons x l ih =>
    rw [List.foldlM_cons] at hr
    obtain ⟨s', h1, h2⟩ := Res.bind_ok.1 hr
    obtain ⟨o, ho, h1⟩ := Res.bind_ok.1 h1
    have hs' : (if o = .gt then s else x) = s' := by simpa [pure, Except.pure] using h1
    rw [List.map_cons, List.foldlM_cons, h s (by simp) x (by simp), ho]
    show ((l.map F).foldlM _ (if o = .gt then F s else F x)) = _
    have : (if o = .gt then F s else F x) = F s' := by
      rw [← hs']; split <;> rfl
    rw [this]
    refine ih s' ?_ h2
    intro y hy z hz
    have key : ∀ u ∈ s' :: l, u ∈ s :: x :: l := by
      intro u hu
      rcases List.mem_cons.1 hu with rfl | hu
      · rw [← hs']; split <;> simp
      · simp [hu]
    exact h y (key y hy) z (key z hz)

theorem maxBy_map {α β : Type} {f : α → α → Res Ordering} {g : β → β → Res Ordering} {F : α → β} (l : List α)
    {r : Option α} (h : ∀ x ∈ l, ∀ y ∈ l, g (F x) (F y) = f x y) (hr : maxBy f l = .ok r) :
    maxBy g (l.map F) = .ok (r.map F) := by
  cases l with
  | nil =>
    simp only [maxBy] at hr
    injection hr with hr
    subst hr
    rfl
  | cons s l =>
    unfold maxBy at hr
    obtain ⟨m, h1, h2⟩ := Res.bind_ok.1 hr
    have : r = some m := by simpa [pure, Except.pure] using h2.symm
    subst this
    show ((l.map F).foldlM _ (F s) >>= _) = _
    rw [foldlM_max_map l s h h1]
    rfl

theorem Copy.child {a b : Store G Fl} {φ : Nat → Nat} (h : Copy a b φ) (w : WellFormed a) {q : Nat} {n : Node G Fl}
    (hq : a[q]? = some n) {cs : List (Node G Fl)} (hcs : childNodes a n = .ok cs) :
    childNodes b (n.move φ) = .ok (cs.map (Node.move φ)) := by
  unfold childNodes at *
  refine mapM_map' (F := φ) n.children hcs ?_
  intro c hc y hy
  rw [getNode_ok] at hy ⊢
  exact h.get c y hy

theorem Copy.ucb {a b : Store G Fl} {φ : Nat → Nat} (h : Copy a b φ) (w : WellFormed a) {q : Nat} {n : Node G Fl}
    (hq : a[q]? = some n) : (n.move φ).alphaUcb b = n.alphaUcb a := by
  unfold Node.alphaUcb
  cases hp : n.parent with
  | none => simp [Node.move, hp]
  | some p =>
    obtain ⟨-, pn, x, h1, -⟩ := w.up q n p hq hp
    have : (n.move φ).parent = some (φ p) := by simp [Node.move, hp]
    rw [this]
    simp only
    rw [getNode_ok.2 h1, getNode_ok.2 (h.get p pn h1)]
    rfl

theorem Copy.select {a b : Store G Fl} {φ : Nat → Nat} (h : Copy a b φ) (w : WellFormed a) {q : Nat} {m : Node G Fl}
    (hs : selectAlpha q a = .ok m) : selectAlpha (φ q) b = .ok (m.move φ) := by
  unfold selectAlpha at hs
  obtain ⟨n, h1, hs⟩ := Res.bind_ok.1 hs
  rw [getNode_ok] at h1
  obtain ⟨cs, h2, hs⟩ := Res.bind_ok.1 hs
  obtain ⟨best, h3, hs⟩ := Res.bind_ok.1 hs
  unfold selectAlpha
  rw [getNode_ok.2 (h.get q n h1)]
  show (childNodes b (n.move φ) >>= _) = _
  rw [h.child w h1 h2]
  show (maxBy _ (cs.map (Node.move φ)) >>= _) = _
  obtain ⟨cs', h4, h5, -⟩ := childNodes_spec w h1
  rw [h2] at h4
  injection h4 with h4
  subst h4
  rw [maxBy_map cs ?_ h3]
  · show (match best.map (Node.move φ) with | some c => pure c | none => .error .explicitPanic : Res (Node G Fl)) = _
    cases best with
    | none => cases hs
    | some c =>
      have : c = m := by simpa [pure, Except.pure] using hs
      subst this
      rfl
  · intro x hx y hy
    obtain ⟨cx, -, hcx⟩ := (h5 x).1 hx
    obtain ⟨cy, -, hcy⟩ := (h5 y).1 hy
    rw [h.ucb w hcx, h.ucb w hcy]

theorem alphaLeaf_mono {a : Store G Fl} {f f' q k : Nat} (h : alphaLeaf a f q = .ok k) (hf : f ≤ f') :
    alphaLeaf a f' q = .ok k := by
  induction f generalizing q f' with
  | zero => cases h
  | succ f ih =>
    obtain ⟨f', rfl⟩ : ∃ m, f' = m + 1 := ⟨f' - 1, by omega⟩
    unfold alphaLeaf at h ⊢
    obtain ⟨n, h1, h⟩ := Res.bind_ok.1 h
    rw [h1]
    show (if n.children.isEmpty then _ else _) = _
    split at h
    · rename_i hc
      rw [if_pos hc]
      exact h
    · rename_i hc
      rw [if_neg hc]
      obtain ⟨c, h2, h⟩ := Res.bind_ok.1 h
      rw [h2]
      exact ih h (by omega)

theorem Copy.leafFuel {a b : Store G Fl} {φ : Nat → Nat} (h : Copy a b φ) (w : WellFormed a) {f q k : Nat}
    (hl : alphaLeaf a f q = .ok k) : alphaLeaf b f (φ q) = .ok (φ k) := by
  induction f generalizing q with
  | zero => cases hl
  | succ f ih =>
    unfold alphaLeaf at hl ⊢
    obtain ⟨n, h1, hl⟩ := Res.bind_ok.1 hl
    rw [getNode_ok] at h1
    rw [getNode_ok.2 (h.get q n h1)]
    show (if (n.move φ).children.isEmpty then _ else _) = _
    have hc : (n.move φ).children.isEmpty = n.children.isEmpty := by simp [Node.move]
    rw [hc]
    split at hl
    · rename_i he
      rw [if_pos he]
      have : n.idx = k := by simpa [pure, Except.pure] using hl
      subst this
      rfl
    · rename_i he
      rw [if_neg he]
      obtain ⟨m, h2, hl⟩ := Res.bind_ok.1 hl
      rw [h.select w h2]
      exact ih hl

/-- Selection in the copy finds the copy of what it finds in the original. -/
theorem Copy.leaf {a b : Store G Fl} {φ : Nat → Nat} (h : Copy a b φ) (w : WellFormed a) {q k : Nat}
    (hl : alphaLeafNode q a = .ok k) : alphaLeafNode (φ q) b = .ok (φ k) :=
  h.leafFuel w (alphaLeaf_mono hl h.len)

/-! ## Backpropagation -/

theorem Copy.ancBack {a b : Store G Fl} {φ : Nat → Nat} (h : Copy a b φ) (w : WellFormed a) {j x : Nat}
    (hx : Anc b j x) : ∀ k, k < a.length → x = φ k → ∃ i, i < a.length ∧ φ i = j ∧ Anc a i k := by
  induction hx with
  | refl =>
    intro k hk hjk
    exact ⟨k, hk, hjk.symm, .refl⟩
  | @step k' p n h1 h2 h3 ih =>
    intro k hk hjk
    obtain ⟨m, hm⟩ : ∃ m, a[k]? = some m := ⟨_, List.getElem?_eq_getElem hk⟩
    have := h.get k m hm
    rw [← hjk, h1] at this
    injection this with this
    rw [this] at h2
    have h2' : m.parent.map φ = some p := h2
    cases hp : m.parent with
    | none => rw [hp] at h2'; cases h2'
    | some p0 =>
      rw [hp] at h2'
      have h4 : φ p0 = p := by simpa using h2'
      have hlt := (w.up k m p0 hm hp).1
      obtain ⟨i, g1, g2, g3⟩ := ih p0 (by omega) h4.symm
      exact ⟨i, g1, g2, .step hm hp g3⟩

theorem Copy.anc {a b : Store G Fl} {φ : Nat → Nat} (h : Copy a b φ) {i k : Nat} (ha : Anc a i k) :
    Anc b (φ i) (φ k) := by
  induction ha with
  | refl => exact .refl
  | @step k p n h1 h2 h3 ih =>
    exact .step (h.get k n h1) (by simp [Node.move, h2]) ih

open Classical in
/-- Backpropagation in the copy. -/
theorem Copy.back {a b a' : Store G Fl} {φ : Nat → Nat} (h : Copy a b φ) (w : WellFormed a) (wb : WellFormed b)
    {k : Nat} (hk : k < a.length) {v : Fl.F} (ha : backpropagate k v a = .ok a') :
    ∃ b', backpropagate (φ k) v b = .ok b' ∧ Copy a' b' φ ∧ Local a a' b b' φ φ ∧ WellFormed a' ∧ WellFormed b' := by
  obtain ⟨a2, h1, h2, h3⟩ := backpropagate_spec v k a w.upLt hk
  rw [ha] at h1
  cases Except.ok.inj h1
  obtain ⟨b', g1, g2, g3⟩ := backpropagate_spec v (φ k) b wb.upLt (h.lt hk)
  have hla := h2.length
  have hlb := g2.length
  refine ⟨b', g1, ⟨?_, ?_, ?_⟩, ⟨by omega, by omega, ?_, fun _ _ => rfl, fun q h5 h6 => by omega⟩, h2.wellFormed w,
    g2.wellFormed wb⟩
  · intro q q' hq hq' hh
    exact h.inj q q' (by omega) (by omega) hh
  · intro q n' hq
    have hqa : q < a.length := by
      have := (List.getElem?_eq_some_iff.1 hq).1
      omega
    obtain ⟨n, hn⟩ : ∃ n, a[q]? = some n := ⟨_, List.getElem?_eq_getElem hqa⟩
    have e1 := h3 q n hn
    rw [hq] at e1
    injection e1 with e1
    have e2 := g3 (φ q) (n.move φ) (h.get q n hn)
    rw [e2, e1]
    by_cases hanc : Anc a q k
    · rw [if_pos hanc, if_pos (h.anc hanc)]
      rfl
    · rw [if_neg hanc, if_neg]
      intro hb
      obtain ⟨i, g4, g5, g6⟩ := h.ancBack w hb k hk rfl
      rw [h.inj i q g4 hqa g5] at g6
      exact hanc g6
  · have := h.len
    omega
  · intro j hj hq
    obtain ⟨n, hn⟩ : ∃ n, b[j]? = some n := ⟨_, List.getElem?_eq_getElem hj⟩
    rw [hn, g3 j n hn, if_neg]
    intro hb
    obtain ⟨i, g4, g5, -⟩ := h.ancBack w hb k hk rfl
    exact hq i g4 g5

/-! ## Expansion -/

/-- Playing a move draws nothing from the random source. -/
def Plain (G : Game) : Prop := ∀ (s : G.S) (a : G.Mv), ∃ r : Res G.S, ∀ t, G.apply s a t = M.lift r t

/-- The same node at another place. -/
def Node.place (i p : Nat) (m : Node G Fl) : Node G Fl := { m with idx := i, parent := some p }

theorem loop_copy (hpl : Plain G) {n n2 : Node G Fl} {prior prior2 : Nat → Res Fl.F} (hs : n2.state = n.state)
    (hprior : ∀ c v, prior c = .ok v → prior2 c = .ok v) (as : List G.Mv) {st st' : Store G Fl}
    {ch ch' : List Nat} {t t' : Tape} (h : alphaExpandLoop n prior as st ch t = .ok ((st', ch'), t'))
    (b : Store G Fl) (ch2 : List Nat) (t2 : Tape) :
    t' = t ∧ ∃ news news2 : List (Node G Fl), st' = st ++ news ∧ news.length = as.length ∧
      news2.length = as.length ∧
      alphaExpandLoop n2 prior2 as b ch2 t2 = .ok ((b ++ news2, ch2 ++ List.range' b.length as.length), t2) ∧
      ∀ (j : Nat) (m : Node G Fl), news[j]? = some m → news2[j]? = some (m.place (b.length + j) n2.idx) := by
  induction as generalizing st ch t b ch2 with
  | nil =>
    have := M.pure_ok.1 h
    simp only [Prod.mk.injEq] at this
    obtain ⟨⟨rfl, rfl⟩, rfl⟩ := this
    exact ⟨rfl, [], [], by simp, rfl, rfl, M.pure_ok.2 (by simp), by simp⟩
  | cons a as ih =>
    unfold alphaExpandLoop at h
    obtain ⟨code, t1, h1, h⟩ := M.bind_ok.1 h
    obtain ⟨value, t2', h2, h⟩ := M.bind_ok.1 h
    obtain ⟨next, t3, h3, h⟩ := M.bind_ok.1 h
    obtain ⟨⟨st1, c⟩, t4, h4, hrest⟩ := M.bind_ok.1 h
    rw [M.lift_ok, addNode_ok] at h4
    obtain ⟨⟨ms, hm, rfl, rfl⟩, rfl⟩ := h4
    rw [M.lift_ok] at h1 h2
    obtain ⟨h1, rfl⟩ := h1
    obtain ⟨h2, rfl⟩ := h2
    obtain ⟨r, hr⟩ := hpl n.state a
    rw [hr, M.lift_ok] at h3
    obtain ⟨rfl, rfl⟩ := h3
    obtain ⟨e, news, news2, g1, g2, g3, g4, g5⟩ := ih hrest (b ++ [freshNode next b.length (some n2.idx) (some a) value ms])
      (ch2 ++ [b.length])
    refine ⟨e, freshNode next st.length (some n.idx) (some a) value ms :: news,
      freshNode next b.length (some n2.idx) (some a) value ms :: news2, by rw [g1]; simp, by simp [g2], by simp [g3],
      ?_, ?_⟩
    · unfold alphaExpandLoop
      refine M.bind_ok.2 ⟨code, t2, M.lift_ok.2 ⟨by rw [hs]; exact h1, rfl⟩, ?_⟩
      refine M.bind_ok.2 ⟨value, t2, M.lift_ok.2 ⟨hprior code value h2, rfl⟩, ?_⟩
      refine M.bind_ok.2 ⟨next, t2, by rw [hs, hr]; rfl, ?_⟩
      refine M.bind_ok.2 ⟨(_, _), t2, M.lift_ok.2 ⟨addNode_ok.2 ⟨ms, hm, rfl, rfl⟩, rfl⟩, ?_⟩
      refine Eq.trans g4 ?_
      simp [List.range'_succ]
    · intro j m hj
      cases j with
      | zero =>
        simp only [List.getElem?_cons_zero, Option.some.injEq] at hj ⊢
        subst hj
        rfl
      | succ j =>
        rw [List.getElem?_cons_succ] at hj ⊢
        rw [g5 j m hj]
        congr 2
        simp
        omega

theorem move_congr {a : Store G Fl} (w : WellFormed a) {q : Nat} {n : Node G Fl} (hq : a[q]? = some n) {φ ψ : Nat → Nat}
    (h : ∀ i, i < a.length → ψ i = φ i) : n.move ψ = n.move φ := by
  have hql := (List.getElem?_eq_some_iff.1 hq).1
  have h1 : ψ n.idx = φ n.idx := h _ (by rw [w.idx q n hq]; exact hql)
  have h2 : n.parent.map ψ = n.parent.map φ := by
    cases hp : n.parent with
    | none => rfl
    | some p =>
      have := (w.up q n p hq hp).1
      simp only [Option.map_some]
      rw [h p (by omega)]
  have h3 : n.children.map ψ = n.children.map φ := by
    apply List.map_congr_left
    intro c hc
    obtain ⟨cn, h4, -⟩ := w.down q n c hq hc
    exact h c (List.getElem?_eq_some_iff.1 h4).1
  unfold Node.move
  rw [h1, h2, h3]

/-- Expansion of the copy of a node (`n` is a copy of node `q` of `a` up to its numbers). -/
theorem Copy.expand (hpl : Plain G) {a b a' : Store G Fl} {φ : Nat → Nat} (h : Copy a b φ) (w : WellFormed a)
    (wb : WellFormed b) {q : Nat} {n0 n n' : Node G Fl} (hq : a[q]? = some n0) (hn : n.shape = n0.shape)
    {prior prior2 : Nat → Res Fl.F} (hprior : ∀ c v, prior c = .ok v → prior2 c = .ok v) {t t' : Tape}
    (ha : alphaExpandWith n prior a t = .ok ((a', n'), t')) :
    t' = t ∧ ∃ b' ψ, (∀ t2, alphaExpandWith (n.move φ) prior2 b t2 = .ok ((b', n'.move ψ), t2)) ∧ Copy a' b' ψ ∧
      Local a a' b b' φ ψ ∧ WellFormed a' ∧ WellFormed b' ∧ n'.idx = q ∧ a'[q]? = some n' := by
  have wa' := alphaExpand_wf w hq hn ha
  obtain ⟨wa1, wup, widx, wlen, wself, wvis, -, -, -⟩ := wa'
  have hs := hn
  simp only [Node.shape, Prod.mk.injEq] at hs
  obtain ⟨s1, s2, s3, s4, s5, s6⟩ := hs
  have hidx : n.idx = q := s2.trans (w.idx q n0 hq)
  have hql : q < a.length := (List.getElem?_eq_some_iff.1 hq).1
  have ha0 := ha
  unfold alphaExpandWith at ha
  obtain ⟨⟨st1, ch⟩, t1, h1, ha⟩ := M.bind_ok.1 ha
  obtain ⟨st2, t2, h5, ha⟩ := M.bind_ok.1 ha
  have h6 := M.pure_ok.1 ha
  simp only [Prod.mk.injEq] at h6
  obtain ⟨⟨rfl, rfl⟩, rfl⟩ := h6
  rw [M.lift_ok] at h5
  obtain ⟨h5, rfl⟩ := h5
  have key := fun t2 => loop_copy hpl (n := n) (n2 := n.move φ) rfl hprior _ h1 b [] t2
  obtain ⟨rfl, news, news2, k1, k2, k3, -, k5⟩ := key t'
  have hch : ch = List.range' a.length n.expandable.length := by
    obtain ⟨-, -, -, e, -⟩ := alphaExpandLoop_ok _ h1
    simpa using e
  have hrun : ∀ t2, alphaExpandLoop (n.move φ) prior2 (n.move φ).expandable b [] t2 =
      .ok ((b ++ news2, List.range' b.length n.expandable.length), t2) := by
    intro t3
    obtain ⟨-, news', news2', e1, e2, e3, e4, e5⟩ := key t3
    have : news2' = news2 := by
      have hnn : news' = news := by
        rw [k1] at e1
        exact (List.append_cancel_left e1).symm
      subst hnn
      apply List.ext_getElem?
      intro j
      cases hj : news'[j]? with
      | none =>
        have hjl := List.getElem?_eq_none_iff.1 hj
        rw [List.getElem?_eq_none (by omega), List.getElem?_eq_none (by omega)]
      | some m => rw [e5 j m hj, k5 j m hj]
    subst this
    have : (n.move φ).expandable = n.expandable := rfl
    rw [this, e4]
    simp
  generalize hN : ({ n with children := n.children ++ ch, expandable := [] } : Node G Fl) = N at *
  have hNidx : N.idx = q := by rw [← hN]; exact hidx
  unfold setNode at h5
  rw [hNidx, k1, if_pos (by simp; omega)] at h5
  injection h5 with h5
  have hφq := h.lt hql
  let ψ : Nat → Nat := fun i => if i < a.length then φ i else b.length + (i - a.length)
  have hψ1 : ∀ i, i < a.length → ψ i = φ i := fun i hi => if_pos hi
  have hψ2 : ∀ j, ψ (a.length + j) = b.length + j := by
    intro j
    show (if a.length + j < a.length then _ else _) = _
    rw [if_neg (by omega)]
    omega
  have hmove : N.move ψ = { n.move φ with
      children := (n.move φ).children ++ List.range' b.length n.expandable.length, expandable := [] } := by
    have m0 := move_congr w hq hψ1
    have e1 : ψ n.idx = φ n.idx := by rw [hidx]; exact hψ1 q hql
    have e2 : n.parent.map ψ = n.parent.map φ := by
      have := congrArg Node.parent m0
      simp only [Node.move] at this
      rw [s3]; exact this
    have e3 : n.children.map ψ = n.children.map φ := by
      have := congrArg Node.children m0
      simp only [Node.move] at this
      rw [s4]; exact this
    have e4 : ch.map ψ = List.range' b.length n.expandable.length := by
      rw [hch]
      apply List.ext_getElem?
      intro j
      by_cases hj : j < n.expandable.length
      · rw [List.getElem?_map, List.getElem?_range' hj, List.getElem?_range' hj]
        simp only [Option.map_some, Nat.one_mul]
        rw [hψ2]
      · rw [List.getElem?_eq_none (by simp; omega), List.getElem?_eq_none (by simp; omega)]
    rw [← hN]
    unfold Node.move
    simp only [List.map_append]
    rw [e1, e2, e3, e4]
  have hrun2 : ∀ t3, alphaExpandWith (n.move φ) prior2 b t3 = .ok (((b ++ news2).set (φ q) (N.move ψ), N.move ψ), t3) := by
    intro t3
    unfold alphaExpandWith
    refine M.bind_ok.2 ⟨(_, _), t3, hrun t3, ?_⟩
    refine M.bind_ok.2 ⟨(b ++ news2).set (φ q) (N.move ψ), t3, M.lift_ok.2 ⟨?_, rfl⟩, ?_⟩
    · refine Eq.trans (congrArg (setNode (b ++ news2)) hmove.symm) ?_
      unfold setNode
      have e : (N.move ψ).idx = φ q := by
        show ψ N.idx = _
        rw [hNidx, hψ1 q hql]
      rw [e, if_pos (by simp; omega)]
    · rw [hmove]
      rfl
  refine ⟨rfl, (b ++ news2).set (φ q) (N.move ψ), ψ, ?_, ?_, ?_, wa1, ?_, hNidx, wself⟩
  · exact hrun2
  · refine ⟨?_, ?_, ?_⟩
    · intro i i' hi hi' hh
      rw [← h5] at hi hi'
      simp only [List.length_set, List.length_append] at hi hi'
      by_cases c1 : i < a.length
      · by_cases c2 : i' < a.length
        · rw [hψ1 i c1, hψ1 i' c2] at hh
          exact h.inj i i' c1 c2 hh
        · have := hψ2 (i' - a.length)
          rw [show a.length + (i' - a.length) = i' by omega] at this
          rw [hψ1 i c1, this] at hh
          have := h.lt c1
          omega
      · have e1 := hψ2 (i - a.length)
        rw [show a.length + (i - a.length) = i by omega] at e1
        by_cases c2 : i' < a.length
        · rw [hψ1 i' c2, e1] at hh
          have := h.lt c2
          omega
        · have e2 := hψ2 (i' - a.length)
          rw [show a.length + (i' - a.length) = i' by omega] at e2
          omega
    · intro i m hi
      rw [← h5] at hi
      by_cases c0 : i = q
      · subst c0
        rw [List.getElem?_set_self (by simp; omega)] at hi
        injection hi with hi
        subst hi
        rw [hψ1 i hql, List.getElem?_set_self (by simp; omega)]
      · rw [List.getElem?_set_ne (Ne.symm c0)] at hi
        by_cases c1 : i < a.length
        · rw [List.getElem?_append_left c1] at hi
          rw [hψ1 i c1, List.getElem?_set_ne (fun e => c0 (h.inj q i hql c1 e).symm),
            List.getElem?_append_left (h.lt c1), h.get i m hi, move_congr w hi hψ1]
        · rw [List.getElem?_append_right (by omega)] at hi
          have e1 := hψ2 (i - a.length)
          rw [show a.length + (i - a.length) = i by omega] at e1
          have g := k5 _ m hi
          rw [e1, List.getElem?_set_ne (by omega), List.getElem?_append_right (by omega),
            show b.length + (i - a.length) - b.length = i - a.length by omega, g]
          congr 1
          have hjl : i - a.length < n.expandable.length := by
            rw [← k2]; exact (List.getElem?_eq_some_iff.1 hi).1
          obtain ⟨news', e2, -, -, hf, -⟩ := alphaExpandLoop_ok _ h1
          have hnn : news' = news := by
            rw [k1] at e2
            exact (List.append_cancel_left e2).symm
          subst hnn
          have f := hf _ m _ hi (List.getElem?_eq_getElem hjl)
          unfold Node.place Node.move
          have e3 : m.idx = i := by rw [f.idx]; omega
          rw [f.parent, f.children, e3, e1]
          simp only [Option.map_some, List.map_nil, hidx]
          rw [hψ1 q hql]
    · rw [← h5]
      have := h.len
      simp [k2, k3]
      omega
  · refine ⟨by rw [← h5]; simp, by rw [← h5]; simp [k2, k3]; omega, ?_, hψ1, ?_⟩
    · intro j hj hno
      rw [List.getElem?_set_ne (hno q hql), List.getElem?_append_left hj]
    · intro i hi _
      have e1 := hψ2 (i - a.length)
      rw [show a.length + (i - a.length) = i by omega] at e1
      omega
  · exact (alphaExpand_wf wb (h.get q n0 hq) (by
      simp only [Node.shape, Node.move, Prod.mk.injEq]
      rw [s1, s2, s3, s4, s5, s6]
      simp) (hrun2 t')).1

end DieE.Mcts
