import Mathlib.Tactic.Ring
import Verif.Mcts.Batch

/-!
# The size of the search trees

How many nodes the searches store, how many moves the nodes hold, and how many nodes are on the way from a node to its
root.  The last number bounds the depth of the recursions of the selection and of `backpropagate`.
-/

namespace DieE.Mcts
variable {G : Game} {Fl : Floats}

/-! ## Depth -/

/-- There are `d` nodes on the way from node `i` to its root, both included. -/
inductive Depth (st : Store G Fl) : Nat → Nat → Prop
  | root {i : Nat} {n : Node G Fl} : st[i]? = some n → n.parent = none → Depth st 1 i
  | step {d i p : Nat} {n : Node G Fl} : st[i]? = some n → n.parent = some p → Depth st d p → Depth st (d + 1) i

/-- No node has more than `D` nodes on the way to its root. -/
def Shallow (st : Store G Fl) (D : Nat) : Prop := ∀ i, i < st.length → ∃ d, d ≤ D ∧ Depth st d i

theorem Depth.unique {st : Store G Fl} {d e i : Nat} (h : Depth st d i) (h' : Depth st e i) : d = e := by
  induction h generalizing e with
  | root h1 h2 =>
    cases h' with
    | root => rfl
    | step h3 h4 _ =>
      rw [h1] at h3
      cases Option.some.inj h3
      rw [h2] at h4
      cases h4
  | step h1 h2 _ ih =>
    cases h' with
    | root h3 h4 =>
      rw [h1] at h3
      cases Option.some.inj h3
      rw [h2] at h4
      cases h4
    | step h3 h4 h5 =>
      rw [h1] at h3
      cases Option.some.inj h3
      rw [h2] at h4
      cases Option.some.inj h4
      rw [ih h5]

theorem Depth.up {st st' : Store G Fl} (h : SameUp st st') {d i : Nat} (a : Depth st d i) : Depth st' d i := by
  induction a with
  | root h1 h2 =>
    obtain ⟨n', h3, h4, -⟩ := h _ _ h1
    exact .root h3 (h4.trans h2)
  | step h1 h2 _ ih =>
    obtain ⟨n', h3, h4, -⟩ := h _ _ h1
    exact .step h3 (h4.trans h2) ih

theorem Depth.pos {st : Store G Fl} {d i : Nat} (a : Depth st d i) : 1 ≤ d := by
  cases a <;> omega

theorem Depth.lt {st : Store G Fl} {d i : Nat} (a : Depth st d i) : i < st.length := by
  cases a with
  | root h1 _ => exact (List.getElem?_eq_some_iff.1 h1).1
  | step h1 _ _ => exact (List.getElem?_eq_some_iff.1 h1).1

/-- Every node has at most as many nodes on the way to its root as there are nodes up to it. -/
theorem depth_exists {st : Store G Fl} (w : UpLt st) (i : Nat) (hi : i < st.length) : ∃ d, d ≤ i + 1 ∧ Depth st d i := by
  induction i using Nat.strong_induction_on with
  | _ i ih =>
    obtain ⟨n, hn⟩ : ∃ n, st[i]? = some n := ⟨_, List.getElem?_eq_getElem hi⟩
    cases hp : n.parent with
    | none => exact ⟨1, by omega, .root hn hp⟩
    | some p =>
      have := w i n p hn hp
      obtain ⟨d, h1, h2⟩ := ih p this (by omega)
      exact ⟨d + 1, by omega, .step hn hp h2⟩

theorem Shallow.of_length {st : Store G Fl} (w : UpLt st) : Shallow st st.length := by
  intro i hi
  obtain ⟨d, h1, h2⟩ := depth_exists w i hi
  exact ⟨d, by omega, h2⟩

theorem Shallow.mono {st : Store G Fl} {D E : Nat} (h : Shallow st D) (hd : D ≤ E) : Shallow st E := by
  intro i hi
  obtain ⟨d, h1, h2⟩ := h i hi
  exact ⟨d, by omega, h2⟩

theorem Shallow.shape {st st' : Store G Fl} {D : Nat} (h : Shallow st D) (hs : SameShape st st') : Shallow st' D := by
  intro i hi
  obtain ⟨d, h1, h2⟩ := h i (by rw [hs.length]; exact hi)
  exact ⟨d, h1, h2.up hs.up⟩

/-- With a number that legal moves lower, trees are at most as deep as that number at the root allows. -/
theorem shallow_of_measure {st : Store G Fl} (w : WellFormed st) (μ : G.S → Nat) (D : Nat)
    (hμ : ∀ s ms a s', G.moves s = .ok ms → a ∈ ms → Plays G s a s' → μ s' < μ s)
    (hD : ∀ (i : Nat) (n : Node G Fl), st[i]? = some n → n.parent = none → μ n.state < D) : Shallow st D := by
  have key : ∀ (i d : Nat), Depth st d i → ∀ n : Node G Fl, st[i]? = some n → μ n.state + d ≤ D := by
    intro i d hd
    induction hd with
    | root h1 h2 =>
      intro n hn
      rw [h1] at hn
      cases Option.some.inj hn
      have := hD _ _ h1 h2
      omega
    | step h1 h2 h3 ih =>
      intro n hn
      rw [h1] at hn
      cases Option.some.inj hn
      obtain ⟨-, pn, a, h4, h5, -⟩ := w.up _ _ _ h1 h2
      obtain ⟨b, ms, -, h6, h7, h8⟩ := child_legal w h4 h5 h1
      have := hμ _ _ _ _ h6 h7 h8
      have := ih pn h4
      omega
  intro i hi
  obtain ⟨d, -, h1⟩ := depth_exists w.upLt i hi
  obtain ⟨n, hn⟩ : ∃ n, st[i]? = some n := ⟨_, List.getElem?_eq_getElem hi⟩
  have := key i d h1 n hn
  exact ⟨d, by omega, h1⟩

/-! ## Depth of the recursions -/

theorem backLoop_shape {r : Fl.F} (f k : Nat) {st st' : Store G Fl} (h : backLoop r f k st = .ok st') :
    SameShape st st' := by
  induction f generalizing k st with
  | zero => cases h
  | succ f ih =>
    unfold backLoop at h
    obtain ⟨st1, h1, h⟩ := Res.bind_ok.1 h
    obtain ⟨n, h2, h⟩ := Res.bind_ok.1 h
    unfold modifyNode at h1
    split at h1
    · rename_i m hm
      injection h1 with h1
      have hs : SameShape st st1 := h1 ▸ set_record_shape r hm
      split at h
      · exact hs.trans (ih _ h)
      · have := Res.pure_ok.1 h
        subst this
        exact hs
    · cases h1

theorem backpropagate_shape {r : Fl.F} {k : Nat} {st st' : Store G Fl} (h : backpropagate k r st = .ok st') :
    SameShape st st' := backLoop_shape _ _ h

theorem backLoop_mono {r : Fl.F} (f k : Nat) {st st' : Store G Fl} (h : backLoop r f k st = .ok st') (e : Nat) :
    backLoop r (f + e) k st = .ok st' := by
  induction f generalizing k st with
  | zero => cases h
  | succ f ih =>
    rw [Nat.succ_add]
    unfold backLoop at h ⊢
    obtain ⟨st1, h1, h⟩ := Res.bind_ok.1 h
    obtain ⟨n, h2, h⟩ := Res.bind_ok.1 h
    refine Res.bind_ok.2 ⟨st1, h1, Res.bind_ok.2 ⟨n, h2, ?_⟩⟩
    split at h
    · exact ih _ h
    · exact h

theorem backLoop_depth {r : Fl.F} (f k d : Nat) {st : Store G Fl} (hd : Depth st d k) (hf : d ≤ f) :
    ∃ st', backLoop r f k st = .ok st' := by
  induction f generalizing k d st with
  | zero => have := hd.pos; omega
  | succ f ih =>
    obtain ⟨n, hn⟩ : ∃ n, st[k]? = some n := ⟨_, List.getElem?_eq_getElem hd.lt⟩
    have h1 : modifyNode st k (Node.record r) = .ok (st.set k (n.record r)) := by
      unfold modifyNode
      rw [hn]
    have hs := set_record_shape r hn
    have h2 : getNode (st.set k (n.record r)) k = .ok (n.record r) := by
      rw [getNode_ok, List.getElem?_set_self hd.lt]
    cases hp : n.parent with
    | none =>
      refine ⟨st.set k (n.record r), ?_⟩
      unfold backLoop
      refine Res.bind_ok.2 ⟨_, h1, Res.bind_ok.2 ⟨_, h2, ?_⟩⟩
      have : (n.record r).parent = none := hp
      rw [this]
      rfl
    | some p =>
      cases hd with
      | root h3 h4 =>
        rw [hn] at h3
        cases Option.some.inj h3
        rw [hp] at h4
        cases h4
      | step h3 h4 h5 =>
        rw [hn] at h3
        cases Option.some.inj h3
        rw [hp] at h4
        cases Option.some.inj h4
        obtain ⟨st', h6⟩ := ih _ _ (h5.up hs.up) (by omega)
        refine ⟨st', ?_⟩
        unfold backLoop
        refine Res.bind_ok.2 ⟨_, h1, Res.bind_ok.2 ⟨_, h2, ?_⟩⟩
        have : (n.record r).parent = some p := hp
        rw [this]
        exact h6

/-- `D` levels of recursion are enough for `backpropagate`. -/
theorem backpropagate_depth {st : Store G Fl} (w : UpLt st) {D : Nat} (hD : Shallow st D) (r : Fl.F) {k : Nat}
    (hk : k < st.length) : backLoop r D k st = backpropagate k r st := by
  obtain ⟨d, h1, h2⟩ := hD k hk
  obtain ⟨st1, h3⟩ := backLoop_depth (r := r) D k d h2 h1
  obtain ⟨st2, h4, -⟩ := backpropagate_spec r k st w hk
  have h5 := backLoop_mono D k h3 st.length
  have h6 := backLoop_mono st.length k h4 D
  rw [Nat.add_comm, h5] at h6
  rw [h3, h4]
  exact h6

theorem selectLeaf_mono {st : Store G Fl} (f i : Nat) {k : Nat} (h : selectLeaf st f i = .ok k) (e : Nat) :
    selectLeaf st (f + e) i = .ok k := by
  induction f generalizing i with
  | zero => cases h
  | succ f ih =>
    rw [Nat.succ_add]
    unfold selectLeaf at h ⊢
    obtain ⟨n, h1, h⟩ := Res.bind_ok.1 h
    refine Res.bind_ok.2 ⟨n, h1, ?_⟩
    split at h
    · rename_i hc
      rw [if_pos hc]
      exact h
    · rename_i hc
      rw [if_neg hc]
      obtain ⟨c, h2, h⟩ := Res.bind_ok.1 h
      exact Res.bind_ok.2 ⟨c, h2, ih _ h⟩

theorem selectLeaf_depth {st : Store G Fl} (w : WellFormed st) {D : Nat} (hD : Shallow st D) (f i d : Nat)
    (hd : Depth st d i) (hf : D < f + d) : ∃ k, selectLeaf st f i = .ok k := by
  induction f generalizing i d with
  | zero =>
    obtain ⟨e, h1, h2⟩ := hD i hd.lt
    have := hd.unique h2
    omega
  | succ f ih =>
    obtain ⟨n, hn⟩ : ∃ n, st[i]? = some n := ⟨_, List.getElem?_eq_getElem hd.lt⟩
    unfold selectLeaf
    by_cases hc : (n.children.isEmpty || !n.isFullyExpanded) = true
    · exact ⟨n.idx, Res.bind_ok.2 ⟨n, getNode_ok.2 hn, by rw [if_pos hc]; rfl⟩⟩
    · have hch : n.children ≠ [] := by
        intro h; simp [h] at hc
      obtain ⟨c, m, h1, h2, h3⟩ := selectUcb_spec w hn hch
      obtain ⟨cn, h4, h5⟩ := w.down i n c hn h2
      obtain ⟨k, hk⟩ := ih c (d + 1) (.step h4 h5 hd) (by omega)
      refine ⟨k, Res.bind_ok.2 ⟨n, getNode_ok.2 hn, ?_⟩⟩
      rw [if_neg hc]
      refine Res.bind_ok.2 ⟨m, h1, ?_⟩
      rw [w.idx c m h3]
      exact hk

/-- `D` levels of recursion are enough for `select_leaf_node` from a root. -/
theorem selectLeafNode_depth {st : Store G Fl} (w : WellFormed st) {D : Nat} (hD : Shallow st D) {i : Nat} {n : Node G Fl}
    (hi : st[i]? = some n) (hp : n.parent = none) : selectLeaf st D i = selectLeafNode i st := by
  obtain ⟨k, h1⟩ := selectLeaf_depth w hD D i 1 (.root hi hp) (by omega)
  obtain ⟨k', n', h2, -⟩ := selectLeafNode_spec w i (List.getElem?_eq_some_iff.1 hi).1
  have h5 := selectLeaf_mono D i h1 st.length
  have h6 := selectLeaf_mono st.length i h2 D
  rw [Nat.add_comm, h5] at h6
  rw [h1, h2]
  exact h6

theorem alphaLeaf_more {st : Store G Fl} (f i : Nat) {k : Nat} (h : alphaLeaf st f i = .ok k) (e : Nat) :
    alphaLeaf st (f + e) i = .ok k := by
  induction f generalizing i with
  | zero => cases h
  | succ f ih =>
    rw [Nat.succ_add]
    unfold alphaLeaf at h ⊢
    obtain ⟨n, h1, h⟩ := Res.bind_ok.1 h
    refine Res.bind_ok.2 ⟨n, h1, ?_⟩
    split at h
    · rename_i hc
      rw [if_pos hc]
      exact h
    · rename_i hc
      rw [if_neg hc]
      obtain ⟨c, h2, h⟩ := Res.bind_ok.1 h
      exact Res.bind_ok.2 ⟨c, h2, ih _ h⟩

theorem alphaLeaf_depth {st : Store G Fl} (w : WellFormed st) {D : Nat} (hD : Shallow st D) (f i d : Nat)
    (hd : Depth st d i) (hf : D < f + d) : ∃ k, alphaLeaf st f i = .ok k := by
  induction f generalizing i d with
  | zero =>
    obtain ⟨e, h1, h2⟩ := hD i hd.lt
    have := hd.unique h2
    omega
  | succ f ih =>
    obtain ⟨n, hn⟩ : ∃ n, st[i]? = some n := ⟨_, List.getElem?_eq_getElem hd.lt⟩
    rw [alphaLeaf_step hn]
    by_cases hc : n.children.isEmpty = true
    · exact ⟨n.idx, by rw [if_pos hc]; rfl⟩
    · have hch : n.children ≠ [] := by
        intro h; simp [h] at hc
      obtain ⟨c, m, h1, h2, h3⟩ := selectAlpha_spec w hn hch
      obtain ⟨cn, h4, h5⟩ := w.down i n c hn h2
      obtain ⟨k, hk⟩ := ih c (d + 1) (.step h4 h5 hd) (by omega)
      refine ⟨k, ?_⟩
      rw [if_neg hc]
      refine Res.bind_ok.2 ⟨m, h1, ?_⟩
      rw [w.idx c m h3]
      exact hk

/-- `D` levels of recursion are enough for the selection of the network searches from a root. -/
theorem alphaLeafNode_depth {st : Store G Fl} (w : WellFormed st) {D : Nat} (hD : Shallow st D) {i : Nat} {n : Node G Fl}
    (hi : st[i]? = some n) (hp : n.parent = none) : alphaLeaf st D i = alphaLeafNode i st := by
  obtain ⟨k, h1⟩ := alphaLeaf_depth w hD D i 1 (.root hi hp) (by omega)
  obtain ⟨k', n', h2, -⟩ := alphaLeafNode_spec w i (List.getElem?_eq_some_iff.1 hi).1
  have h5 := alphaLeaf_more D i h1 st.length
  have h6 := alphaLeaf_more st.length i h2 D
  rw [Nat.add_comm, h5] at h6
  rw [h1, h2]
  exact h6

/-! ## The plain search -/

theorem iterate_length {player : Int} {limit r : Nat} (n : Nat) {st st' : Store G Fl} {tr tr' : List Nat} {t t' : Tape}
    (w : WellFormed st) (hr : r < st.length) (h : iterate player limit r n st tr t = .ok ((st', tr'), t')) :
    st'.length ≤ st.length + n := by
  induction n generalizing st tr t with
  | zero =>
    have := M.pure_ok.1 h
    simp only [Prod.mk.injEq] at this
    obtain ⟨⟨rfl, rfl⟩, -⟩ := this
    exact Nat.le_refl _
  | succ n ih =>
    obtain ⟨⟨st1, k⟩, t1, h1, h2⟩ := M.bind_ok.1 h
    obtain ⟨w1, -, h3, -⟩ := iteration_spec w hr h1
    have := ih w1 (by omega) h2
    omega

theorem buildTree_length {state : G.S} {player : Int} {iterations limit : Nat} {st : Store G Fl} {tr : List Nat}
    {t t' : Tape} (h : buildTree Fl state player iterations limit t = .ok ((st, tr), t')) : st.length ≤ iterations + 1 := by
  unfold buildTree at h
  obtain ⟨⟨st0, r⟩, t1, h1, h2⟩ := M.bind_ok.1 h
  rw [M.lift_ok, addNode_ok] at h1
  obtain ⟨⟨ms, hm, rfl, rfl⟩, rfl⟩ := h1
  have := iterate_length iterations (wf_root (Fl := Fl) wf_nil hm (Fl.ofInt 0)) (by simp) h2
  simp at this
  omega

/-! ## The batched search -/

/-- The nodes of the store are in positions satisfying `R`, know their place, and hold at most `W` moves, all legal. -/
def Room (R : G.S → Prop) (W : Nat) (st : Store G Fl) : Prop :=
  ∀ (i : Nat) (n : Node G Fl), st[i]? = some n → R n.state ∧ n.idx = i ∧ n.expandable.length ≤ W ∧
    ∃ ms, G.moves n.state = .ok ms ∧ ∀ a ∈ n.expandable, a ∈ ms

theorem Room.shape {R : G.S → Prop} {W : Nat} {st st' : Store G Fl} (h : Room R W st) (hs : SameShape st st') :
    Room R W st' := by
  intro i n hn
  obtain ⟨n', h1, h2⟩ := hs.symm.get hn
  simp only [Node.shape, Prod.mk.injEq] at h2
  obtain ⟨e1, e2, -, -, -, e6⟩ := h2
  have := h i n' h1
  rw [e1, e2, e6] at this
  exact this

/-- `st` has the nodes of `st0` and besides only children of nodes of `st0`. -/
def Over (st0 st : Store G Fl) : Prop :=
  SameUp st0 st ∧ ∀ (i : Nat) (n : Node G Fl), st[i]? = some n → st0.length ≤ i → ∃ p, n.parent = some p ∧ p < st0.length

theorem Over.shape {st0 st st' : Store G Fl} (h : Over st0 st) (hs : SameShape st st') : Over st0 st' := by
  refine ⟨h.1.trans hs.up, fun i n hn hi => ?_⟩
  obtain ⟨n', h1, h2⟩ := hs.symm.get hn
  simp only [Node.shape, Prod.mk.injEq] at h2
  obtain ⟨p, h3, h4⟩ := h.2 i n' h1 hi
  exact ⟨p, h2.2.2.1.symm.trans h3, h4⟩

theorem Over.shallow {st0 st : Store G Fl} {D : Nat} (h : Over st0 st) (hD : Shallow st0 D) : Shallow st (D + 1) := by
  intro i hi
  by_cases hi0 : i < st0.length
  · obtain ⟨d, h1, h2⟩ := hD i hi0
    exact ⟨d, by omega, h2.up h.1⟩
  · obtain ⟨n, hn⟩ : ∃ n, st[i]? = some n := ⟨_, List.getElem?_eq_getElem hi⟩
    obtain ⟨p, h1, h2⟩ := h.2 i n hn (by omega)
    obtain ⟨d, h3, h4⟩ := hD p h2
    exact ⟨d + 1, by omega, .step hn h1 (h4.up h.1)⟩

theorem Over.refl (st : Store G Fl) : Over st st :=
  ⟨fun _ n hn => ⟨n, hn, rfl, rfl⟩, fun _ _ hn hi => absurd (List.getElem?_eq_some_iff.1 hn).1 (by omega)⟩

/-- The expansion of a node adds one node for each of its moves. -/
theorem alphaExpand_room {R : G.S → Prop} {W : Nat} (hs : Safe G R)
    (hW : ∀ s ms, R s → G.moves s = .ok ms → ms.length ≤ W) {st0 st st' : Store G Fl} {i : Nat} {n n0 n' : Node G Fl}
    {prior : Nat → Res Fl.F} {t t' : Tape} (hR : Room R W st) (ho : Over st0 st) (hi : st[i]? = some n0)
    (hi0 : i < st0.length)
    (e : n.state = n0.state ∧ n.idx = n0.idx ∧ n.parent = n0.parent ∧ n.expandable = n0.expandable)
    (h : alphaExpandWith n prior st t = .ok ((st', n'), t')) :
    Room R W st' ∧ Over st0 st' ∧ st'.length ≤ st.length + W := by
  obtain ⟨e1, e2, e3, e4⟩ := e
  obtain ⟨r1, r2, r3, ms, r4, r5⟩ := hR i n0 hi
  obtain ⟨news, h1, rfl, h3, h4, h5, -⟩ := alphaExpandWith_ok h
  rw [e2, r2] at h4 h5 ⊢
  have hlen : ((st ++ news).set i n').length = st.length + n0.expandable.length := by
    rw [List.length_set, List.length_append, h3, e4]
  have hil : i < st.length := (List.getElem?_eq_some_iff.1 hi).1
  have hcase : ∀ (j : Nat) (m : Node G Fl), ((st ++ news).set i n')[j]? = some m →
      (j = i ∧ m = n') ∨ (j ≠ i ∧ st[j]? = some m) ∨
        (st.length ≤ j ∧ ∃ a, a ∈ n.expandable ∧ FreshChild n i j a m) := by
    intro j m hj
    by_cases hji : j = i
    · subst hji
      rw [List.getElem?_set_self (by rw [List.length_append]; omega)] at hj
      exact .inl ⟨rfl, (Option.some.inj hj).symm⟩
    · rw [List.getElem?_set_ne (Ne.symm hji)] at hj
      by_cases hjl : j < st.length
      · rw [List.getElem?_append_left hjl] at hj
        exact .inr (.inl ⟨hji, hj⟩)
      · rw [List.getElem?_append_right (by omega)] at hj
        have hlt := (List.getElem?_eq_some_iff.1 hj).1
        rw [h3] at hlt
        have := h5 (j - st.length) m _ hj (List.getElem?_eq_getElem hlt)
        rw [show st.length + (j - st.length) = j by omega] at this
        exact .inr (.inr ⟨by omega, _, List.getElem_mem hlt, this⟩)
  refine ⟨?_, ⟨?_, ?_⟩, by rw [hlen]; omega⟩
  · intro j m hj
    rcases hcase j m hj with ⟨rfl, rfl⟩ | ⟨-, hj⟩ | ⟨-, a, ha, f⟩
    · subst h1
      refine ⟨by show R n.state; rw [e1]; exact r1, by show n.idx = _; rw [e2, r2], Nat.zero_le _, ms, ?_, fun a ha => ?_⟩
      · show G.moves n.state = _
        rw [e1]
        exact r4
      · exact absurd ha (List.not_mem_nil)
    · exact hR j m hj
    · have hRm : R m.state := hs.closed n0.state ms a m.state r1 r4 (r5 a (e4 ▸ ha)) (e1 ▸ f.plays)
      exact ⟨hRm, f.idx, hW _ _ hRm f.moves, _, f.moves, fun b hb => hb⟩
  · intro j m hj
    obtain ⟨m1, g1, g2, g3⟩ := ho.1 j m hj
    by_cases hji : j = i
    · subst hji
      rw [hi] at g1
      cases Option.some.inj g1
      refine ⟨n', by rw [List.getElem?_set_self (by rw [List.length_append]; omega)], ?_, ?_⟩
      · rw [h1]
        exact e3.trans g2
      · rw [h1]
        exact e1.trans g3
    · refine ⟨m1, ?_, g2, g3⟩
      rw [List.getElem?_set_ne (Ne.symm hji), List.getElem?_append_left (List.getElem?_eq_some_iff.1 g1).1]
      exact g1
  · intro j m hj hj0
    rcases hcase j m hj with ⟨rfl, -⟩ | ⟨-, hj⟩ | ⟨-, a, -, f⟩
    · omega
    · exact ho.2 j m hj hj0
    · exact ⟨i, f.parent, hi0⟩

theorem expandRoots_room {R : G.S → Prop} {W : Nat} (hs : Safe G R)
    (hW : ∀ s ms, R s → G.moves s = .ok ms → ms.length ≤ W) {probs : Tensor Fl.F} (is : List Nat)
    {st0 st st' : Store G Fl} {t t' : Tape} (hR : Room R W st) (ho : Over st0 st) (hi0 : ∀ i ∈ is, i < st0.length)
    (h : expandRoots probs is st t = .ok (st', t')) :
    Room R W st' ∧ Over st0 st' ∧ st'.length ≤ st.length + W * is.length := by
  induction is generalizing st t with
  | nil =>
    have := M.pure_ok.1 h
    simp only [Prod.mk.injEq] at this
    obtain ⟨rfl, -⟩ := this
    exact ⟨hR, ho, Nat.le_add_right _ _⟩
  | cons i is ih =>
    unfold expandRoots at h
    obtain ⟨n, t1, h1, h⟩ := M.bind_ok.1 h
    rw [M.lift_ok, getNode_ok] at h1
    simp only at h
    obtain ⟨row, t2, h2, h⟩ := M.bind_ok.1 h
    obtain ⟨⟨st1, n1⟩, t3, h3, h⟩ := M.bind_ok.1 h
    obtain ⟨g1, g2, g3⟩ := alphaExpand_room hs hW hR ho h1.1 (hi0 i (List.mem_cons_self ..))
      (n := { n with visits := 1 }) ⟨rfl, rfl, rfl, rfl⟩ (show alphaExpandWith _ _ st t2 = _ from h3)
    obtain ⟨k1, k2, k3⟩ := ih g1 g2 (fun j hj => hi0 j (List.mem_cons_of_mem _ hj)) h
    refine ⟨k1, k2, ?_⟩
    rw [List.length_cons, Nat.mul_succ]
    omega

theorem expandPhase_room {R : G.S → Prop} {W : Nat} (hs : Safe G R)
    (hW : ∀ s ms, R s → G.moves s = .ok ms → ms.length ≤ W) {net : Net Fl} {policy eval : Tensor Fl.F}
    (l : List (Nat × Nat)) {st0 st st' : Store G Fl} {t t' : Tape} (hR : Room R W st) (ho : Over st0 st)
    (hi0 : ∀ p ∈ l, p.2 < st0.length) (h : expandPhase net policy eval l st t = .ok (st', t')) :
    Room R W st' ∧ Over st0 st' ∧ st'.length ≤ st.length + W * l.length := by
  induction l generalizing st t with
  | nil =>
    have := M.pure_ok.1 h
    simp only [Prod.mk.injEq] at this
    obtain ⟨rfl, -⟩ := this
    exact ⟨hR, ho, Nat.le_add_right _ _⟩
  | cons p l ih =>
    obtain ⟨row, i⟩ := p
    unfold expandPhase at h
    obtain ⟨n, t1, h1, h⟩ := M.bind_ok.1 h
    rw [M.lift_ok, getNode_ok] at h1
    obtain ⟨p, t2, h2, h⟩ := M.bind_ok.1 h
    obtain ⟨e, t3, h3, h⟩ := M.bind_ok.1 h
    obtain ⟨pr, t4, h4, h⟩ := M.bind_ok.1 h
    obtain ⟨⟨st1, n1⟩, t5, h5, h⟩ := M.bind_ok.1 h
    simp only at h
    obtain ⟨v, t6, h6, h⟩ := M.bind_ok.1 h
    obtain ⟨st2, t7, h7, h⟩ := M.bind_ok.1 h
    rw [M.lift_ok] at h7
    have hsh := backpropagate_shape h7.1
    obtain ⟨g1, g2, g3⟩ := alphaExpand_room hs hW hR ho h1.1 (hi0 _ (List.mem_cons_self ..)) ⟨rfl, rfl, rfl, rfl⟩ h5
    obtain ⟨k1, k2, k3⟩ := ih (g1.shape hsh) (g2.shape hsh) (fun j hj => hi0 j (List.mem_cons_of_mem _ hj)) h
    refine ⟨k1, k2, ?_⟩
    have := hsh.length
    rw [List.length_cons, Nat.mul_succ]
    omega

theorem selectGame_shape {g : Nat} {st st' : Store G Fl} {sel sel' : List Nat} {flag flag' : Bool}
    (h : selectGame g st sel flag = .ok (st', sel', flag')) : SameShape st st' ∧ sel'.length = sel.length := by
  unfold selectGame at h
  obtain ⟨i, h1, h⟩ := Res.bind_ok.1 h
  obtain ⟨n, h2, h⟩ := Res.bind_ok.1 h
  split at h
  · obtain ⟨rn, h3, h⟩ := Res.bind_ok.1 h
    obtain ⟨st1, h4, h⟩ := Res.bind_ok.1 h
    have := Res.pure_ok.1 h
    simp only [Prod.mk.injEq] at this
    obtain ⟨rfl, rfl, -⟩ := this
    exact ⟨backpropagate_shape h4, rfl⟩
  · split at h
    · have := Res.pure_ok.1 h
      simp only [Prod.mk.injEq] at this
      obtain ⟨rfl, rfl, -⟩ := this
      exact ⟨rfl, List.length_set⟩
    · cases h

theorem selectPhase_shape (order : List Nat) {st st' : Store G Fl} {sel sel' : List Nat} {flag flag' : Bool}
    (h : selectPhase order st sel flag = .ok (st', sel', flag')) : SameShape st st' ∧ sel'.length = sel.length := by
  induction order generalizing st sel flag with
  | nil =>
    have := Res.pure_ok.1 h
    simp only [Prod.mk.injEq] at this
    obtain ⟨rfl, rfl, -⟩ := this
    exact ⟨rfl, rfl⟩
  | cons g order ih =>
    unfold selectPhase at h
    rw [List.foldlM_cons] at h
    obtain ⟨⟨st1, sel1, flag1⟩, h1, h⟩ := Res.bind_ok.1 h
    obtain ⟨g1, g2⟩ := selectGame_shape h1
    obtain ⟨k1, k2⟩ := ih h
    exact ⟨g1.trans k1, k2.trans g2⟩

theorem mapM_each {α β : Type} {f : α → Res β} (l : List α) {l' : List β} (h : l.mapM f = .ok l') :
    ∀ x ∈ l, ∃ y, f x = .ok y := by
  induction l generalizing l' with
  | nil => intro x hx; cases hx
  | cons a l ih =>
    rw [List.mapM_cons] at h
    obtain ⟨y, h1, h⟩ := Res.bind_ok.1 h
    obtain ⟨ys, h2, -⟩ := Res.bind_ok.1 h
    intro x hx
    rcases List.mem_cons.1 hx with rfl | hx
    · exact ⟨y, h1⟩
    · exact ih h2 x hx

theorem parallelIteration_room {R : G.S → Prop} {W : Nat} (hs : Safe G R)
    (hW : ∀ s ms, R s → G.moves s = .ok ms → ms.length ≤ W) {net : Net Fl} {order : List Nat} {st st' : Store G Fl}
    {sel sel' : List Nat} {t t' : Tape} {D : Nat} (hR : Room R W st) (hD : Shallow st D)
    (h : parallelIteration net order st sel t = .ok ((st', sel'), t')) :
    Room R W st' ∧ Shallow st' (D + 1) ∧ st'.length ≤ st.length + W * sel.length ∧ sel'.length = sel.length := by
  unfold parallelIteration at h
  obtain ⟨⟨st1, sel1, flag⟩, t1, h1, h⟩ := M.bind_ok.1 h
  rw [M.lift_ok] at h1
  obtain ⟨g1, g2⟩ := selectPhase_shape order h1.1
  have hl := g1.length
  simp only at h
  split at h
  · have := M.pure_ok.1 h
    simp only [Prod.mk.injEq] at this
    obtain ⟨⟨rfl, rfl⟩, -⟩ := this
    exact ⟨hR.shape g1, (hD.shape g1).mono (by omega), by omega, g2⟩
  · obtain ⟨ts, t2, h2, h⟩ := M.bind_ok.1 h
    rw [M.lift_ok] at h2
    obtain ⟨x, t3, h3, h⟩ := M.bind_ok.1 h
    obtain ⟨st2, t4, h4, h⟩ := M.bind_ok.1 h
    have := M.pure_ok.1 h
    simp only [Prod.mk.injEq] at this
    obtain ⟨⟨rfl, rfl⟩, -⟩ := this
    have hsel : ∀ p ∈ (List.range sel'.length).zip sel', p.2 < st1.length := by
      rintro ⟨a, b⟩ hp
      have hb := (List.of_mem_zip hp).2
      obtain ⟨y, hy⟩ := mapM_each sel' h2.1 b hb
      obtain ⟨n, hn, -⟩ := Res.bind_ok.1 hy
      exact (List.getElem?_eq_some_iff.1 (getNode_ok.1 hn)).1
    obtain ⟨k1, k2, k3⟩ := expandPhase_room hs hW _ (hR.shape g1) (Over.refl st1) hsel h4
    refine ⟨k1, k2.shallow (hD.shape g1), ?_, g2⟩
    rw [List.length_zip, List.length_range, Nat.min_self, g2] at k3
    omega

theorem parallelIterate_room {R : G.S → Prop} {W : Nat} (hs : Safe G R)
    (hW : ∀ s ms, R s → G.moves s = .ok ms → ms.length ≤ W) {net : Net Fl} {order : List Nat} (k : Nat)
    {st st' : Store G Fl} {sel sel' : List Nat} {t t' : Tape} {D : Nat} (hR : Room R W st) (hD : Shallow st D)
    (h : parallelIterate net order k st sel t = .ok ((st', sel'), t')) :
    Room R W st' ∧ Shallow st' (D + k) ∧ st'.length ≤ st.length + W * sel.length * k := by
  induction k generalizing st sel t D with
  | zero =>
    have := M.pure_ok.1 h
    simp only [Prod.mk.injEq] at this
    obtain ⟨⟨rfl, rfl⟩, -⟩ := this
    exact ⟨hR, hD, Nat.le_add_right _ _⟩
  | succ k ih =>
    unfold parallelIterate at h
    obtain ⟨⟨st1, sel1⟩, t1, h1, h⟩ := M.bind_ok.1 h
    obtain ⟨g1, g2, g3, g4⟩ := parallelIteration_room hs hW hR hD h1
    obtain ⟨k1, k2, k3⟩ := ih g1 g2 h
    refine ⟨k1, k2.mono (by omega), ?_⟩
    rw [g4] at k3
    rw [Nat.mul_succ]
    omega

theorem addRoots_room {R : G.S → Prop} {W : Nat} (hW : ∀ s ms, R s → G.moves s = .ok ms → ms.length ≤ W)
    (ss : List G.S) {st st' : Store G Fl} (hss : ∀ s ∈ ss, R s) (hR : Room R W st) (hD : Shallow st 1)
    (h : addRoots ss st = .ok st') : Room R W st' ∧ Shallow st' 1 ∧ st'.length = st.length + ss.length := by
  induction ss generalizing st with
  | nil =>
    simp only [addRoots] at h
    injection h with h
    subst h
    exact ⟨hR, hD, rfl⟩
  | cons s ss ih =>
    unfold addRoots at h
    obtain ⟨⟨st1, k⟩, h1, h2⟩ := Res.bind_ok.1 h
    obtain ⟨ms, hm, rfl, rfl⟩ := addNode_ok.1 h1
    have hcase : ∀ (i : Nat) (m : Node G Fl), (st ++ [freshNode s st.length none none (Fl.ofInt 0) ms])[i]? = some m →
        st[i]? = some m ∨ (i = st.length ∧ m = freshNode s st.length none none (Fl.ofInt 0) ms) := by
      intro i m hi
      by_cases hil : i < st.length
      · rw [List.getElem?_append_left hil] at hi
        exact .inl hi
      · have hlt := (List.getElem?_eq_some_iff.1 hi).1
        rw [List.length_append, List.length_singleton] at hlt
        have : i = st.length := by omega
        subst this
        rw [List.getElem?_append_right (Nat.le_refl _), Nat.sub_self] at hi
        exact .inr ⟨rfl, (Option.some.inj hi).symm⟩
    have hRs : R s := hss s (List.mem_cons_self ..)
    obtain ⟨k1, k2, k3⟩ := ih (fun x hx => hss x (List.mem_cons_of_mem _ hx))
      (fun i m hi => by
        rcases hcase i m hi with hi | ⟨rfl, rfl⟩
        · exact hR i m hi
        · exact ⟨hRs, rfl, hW s ms hRs hm, ms, hm, fun a ha => ha⟩)
      (fun i hi => by
        obtain ⟨m, hm⟩ : ∃ m, (st ++ [freshNode (Fl := Fl) s st.length none none (Fl.ofInt 0) ms])[i]? = some m :=
          ⟨_, List.getElem?_eq_getElem hi⟩
        rcases hcase i m hm with hm' | ⟨rfl, rfl⟩
        · obtain ⟨d, h3, h4⟩ := hD i (List.getElem?_eq_some_iff.1 hm').1
          refine ⟨d, h3, h4.up fun j n hj => ⟨n, ?_, rfl, rfl⟩⟩
          rw [List.getElem?_append_left (List.getElem?_eq_some_iff.1 hj).1]
          exact hj
        · exact ⟨1, Nat.le_refl _, .root hm rfl⟩) h2
    refine ⟨k1, k2, ?_⟩
    rw [k3, List.length_append, List.length_singleton, List.length_cons]
    omega

/-- The size of the store of the batched search. -/
theorem alphaMctsParallel_room {R : G.S → Prop} {W : Nat} (hs : Safe G R)
    (hW : ∀ s ms, R s → G.moves s = .ok ms → ms.length ≤ W) {net : Net Fl} {order : List Nat} {states : List G.S}
    {iterations : Nat} {st : Store G Fl} {t t' : Tape} (hstates : ∀ s ∈ states, R s)
    (h : alphaMctsParallel net order states iterations ([] : Store G Fl) t = .ok (st, t')) :
    Room R W st ∧ Shallow st (iterations + 2) ∧ st.length ≤ states.length * (1 + W * (iterations + 1)) := by
  unfold alphaMctsParallel at h
  obtain ⟨st1, t1, h1, h⟩ := M.bind_ok.1 h
  obtain ⟨⟨st2, sel2⟩, t2, h2, h⟩ := M.bind_ok.1 h
  have := M.pure_ok.1 h
  simp only [Prod.mk.injEq] at this
  obtain ⟨rfl, -⟩ := this
  unfold parallelStart at h1
  obtain ⟨-, t3, -, h1⟩ := M.bind_ok.1 h1
  obtain ⟨ts, t4, -, h1⟩ := M.bind_ok.1 h1
  obtain ⟨x, t5, -, h1⟩ := M.bind_ok.1 h1
  obtain ⟨pol, t6, -, h1⟩ := M.bind_ok.1 h1
  obtain ⟨st3, t7, h3, h1⟩ := M.bind_ok.1 h1
  rw [M.lift_ok] at h3
  obtain ⟨pr, t8, -, h1⟩ := M.bind_ok.1 h1
  obtain ⟨a1, a2, a3⟩ := addRoots_room hW states hstates (fun i n hn => by simp at hn) (fun i hi => by simp at hi) h3.1
  rw [List.length_nil, Nat.zero_add] at a3
  obtain ⟨b1, b2, b3⟩ := expandRoots_room hs hW _ a1 (Over.refl st3)
    (fun i hi => by rw [a3]; exact List.mem_range.1 hi) h1
  obtain ⟨c1, c2, c3⟩ := parallelIterate_room hs hW iterations b1 (b2.shallow a2) h2
  refine ⟨c1, c2.mono (by omega), ?_⟩
  rw [List.length_range, a3] at b3
  rw [List.length_replicate] at c3
  calc st.length ≤ states.length + W * states.length + W * states.length * iterations := by omega
    _ = states.length * (1 + W * (iterations + 1)) := by ring

end DieE.Mcts
