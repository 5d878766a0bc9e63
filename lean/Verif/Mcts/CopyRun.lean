import Verif.Mcts.CopyBatch
import Verif.TensorFacts

/-! # The batched search as many searches of one game: the whole search -/

namespace DieE.Mcts
variable {G : Game} {Fl : Floats}

/-! ## Rows -/

theorem policy_get {net : Net Fl} {x y : Tensor Int} {m g : Nat} {sh sh' : List Nat} (hx : x.shape = m :: sh) (hg : g < m)
    (hy : y.shape = 1 :: sh') (h : ∀ c, net.policy x g c = net.policy y 0 c) :
    (net.policyTensor G x).get g = (net.policyTensor G y).get 0 := by
  rw [Tensor.get_ok (by unfold Net.policyTensor; rw [hx]; rfl) hg,
    Tensor.get_ok (by unfold Net.policyTensor; rw [hy]; rfl) Nat.zero_lt_one]
  congr 2
  funext idx
  show net.policy x g _ = net.policy y 0 _
  exact h _

theorem eval_get {net : Net Fl} {x y : Tensor Int} {m g : Nat} {sh sh' : List Nat} (hx : x.shape = m :: sh) (hg : g < m)
    (hy : y.shape = 1 :: sh') (h : net.eval x g = net.eval y 0) :
    (net.evalTensor x).get g = (net.evalTensor y).get 0 := by
  rw [Tensor.get_ok (by unfold Net.evalTensor; rw [hx]; rfl) hg,
    Tensor.get_ok (by unfold Net.evalTensor; rw [hy]; rfl) Nat.zero_lt_one]
  congr 2
  funext idx
  exact h

theorem mapM_map {α β : Type} {f : α → Res β} {v : α → β} (l : List α) (h : ∀ x ∈ l, f x = .ok (v x)) :
    l.mapM f = .ok (l.map v) := by
  induction l with
  | nil => rfl
  | cons x l ih =>
    rw [List.mapM_cons, h x (List.mem_cons_self ..), ih fun y hy => h y (List.mem_cons_of_mem _ hy)]
    rfl

/-- The batch of the tensors of some states. -/
theorem RowWise.batch {net : Net Fl} (hr : RowWise net G) {n : Nat} (hn : 0 < n) {s : Nat → G.S} {u y : Nat → Tensor Int}
    (hu : ∀ g, g < n → G.tensor (s g) = .ok (u g)) (hy : ∀ g, g < n → batchTensor [u g] = .ok (y g)) :
    ∃ x, batchTensor ((List.range n).map u) = .ok x ∧ (∃ sh, x.shape = n :: sh) ∧ ∀ g, g < n →
      (∃ sh, (y g).shape = 1 :: sh) ∧ (∀ c, net.policy x g c = net.policy (y g) 0 c) ∧ net.eval x g = net.eval (y g) 0 ∧
      (net.policyTensor G x).get g = (net.policyTensor G (y g)).get 0 ∧
      (net.evalTensor x).get g = (net.evalTensor (y g)).get 0 := by
  obtain ⟨sh, hsh⟩ := hr.shape
  obtain ⟨x, h1, h2⟩ := batchTensor_ok (sh := sh) (ts := (List.range n).map u)
    (by intro h; have := congrArg List.length h; simp at this; omega) (by
      intro v hv
      simp only [List.mem_map, List.mem_range] at hv
      obtain ⟨g, hg, rfl⟩ := hv
      exact hsh _ _ (hu g hg))
  simp only [List.length_map, List.length_range] at h2
  have hts : ((List.range n).map s).mapM G.tensor = .ok ((List.range n).map u) := by
    have := mapM_map' (f := fun g => (.ok (u g) : Res (Tensor Int))) (g := G.tensor) (F := s) (H := id) (List.range n)
      (mapM_map (v := u) _ fun _ _ => rfl) (by
        intro g hg v hv
        injection hv with hv
        subst hv
        exact hu g (List.mem_range.1 hg))
    simpa using this
  refine ⟨x, h1, ⟨sh, h2⟩, ?_⟩
  intro g hg
  have hyg : (y g).shape = 1 :: sh := by
    obtain ⟨z, h3, h4⟩ := batchTensor_ok (sh := sh) (ts := [u g]) (by simp) (by
      intro v hv
      simp only [List.mem_singleton] at hv
      subst hv
      exact hsh _ _ (hu g hg))
    rw [hy g hg] at h3
    injection h3 with h3
    subst h3
    exact h4
  obtain ⟨h5, h6⟩ := hr.rows _ _ x hts h1 g (u g) (y g) (by simp [hg]) (hy g hg)
  exact ⟨⟨sh, hyg⟩, h5, h6, policy_get h2 hg hyg h5, eval_get h2 hg hyg h6⟩

/-! ## An iteration -/

/-- What an iteration does for a single game. -/
theorem single_iteration {net : Net Fl} {a a' : Store G Fl} (w : WellFormed a) (hp : 0 < a.length) {x : Nat}
    {sel' : List Nat} {t t' : Tape} (h : parallelIteration net [0] a [x] t = .ok ((a', sel'), t')) :
    ∃ k kn rn, Leaf a 0 k kn ∧ a[0]? = some rn ∧ sel'.length = 1 ∧
      ((∃ wn, G.winner kn.state = some wn ∧ backpropagate k (Fl.ofInt (outcome wn (G.player rn.state))) a = .ok a' ∧
          t' = t) ∨
        (G.winner kn.state = none ∧ ∃ u y, G.tensor kn.state = .ok u ∧ batchTensor [u] = .ok y ∧
          expandPhase net (net.policyTensor G y) (net.evalTensor y) [(0, k)] a t = .ok (a', t'))) := by
  obtain ⟨k, kn, h1, h2, -, -⟩ := alphaLeafNode_spec w 0 hp
  obtain ⟨rn, hrn⟩ : ∃ rn, a[0]? = some rn := ⟨_, List.getElem?_eq_getElem hp⟩
  unfold parallelIteration at h
  obtain ⟨⟨st1, sel1, flag1⟩, t1, h3, h4⟩ := M.bind_ok.1 h
  rw [M.lift_ok] at h3
  obtain ⟨h3, rfl⟩ := h3
  have h5 : selectGame 0 a [x] false = .ok (st1, sel1, flag1) := by
    unfold selectPhase at h3
    rw [List.foldlM_cons] at h3
    obtain ⟨r, h5, h6⟩ := Res.bind_ok.1 h3
    have : r = (st1, sel1, flag1) := by simpa [pure, Except.pure] using h6
    subst this
    exact h5
  unfold selectGame at h5
  rw [h1] at h5
  replace h5 : (getNode a k >>= _) = _ := h5
  rw [getNode_ok.2 h2] at h5
  replace h5 : (match G.winner kn.state with | some w => _ | none => _) = _ := h5
  cases hw : G.winner kn.state with
  | some wn =>
    rw [hw] at h5
    simp only at h5
    rw [getNode_ok.2 hrn] at h5
    replace h5 : (backpropagate k (Fl.ofInt (outcome wn (G.player rn.state))) a >>= _) = _ := h5
    obtain ⟨st2, h6, h7⟩ := Res.bind_ok.1 h5
    have h8 : (st2, [x], false) = (st1, sel1, flag1) := by simpa [pure, Except.pure] using h7
    simp only [Prod.mk.injEq] at h8
    obtain ⟨rfl, rfl, rfl⟩ := h8
    have h9 := M.pure_ok.1 h4
    simp only [Prod.mk.injEq] at h9
    obtain ⟨⟨rfl, rfl⟩, rfl⟩ := h9
    exact ⟨k, kn, rn, ⟨h1, h2⟩, hrn, rfl, .inl ⟨wn, hw, h6, rfl⟩⟩
  | none =>
    rw [hw] at h5
    simp only at h5
    rw [if_pos (by simp), w.idx k kn h2] at h5
    have h8 : (a, [k], true) = (st1, sel1, flag1) := by simpa [pure, Except.pure] using h5
    simp only [Prod.mk.injEq] at h8
    obtain ⟨rfl, rfl, rfl⟩ := h8
    simp only at h4
    rw [if_neg (by simp)] at h4
    obtain ⟨ts, t2, h6, h7⟩ := M.bind_ok.1 h4
    rw [M.lift_ok] at h6
    obtain ⟨h6, rfl⟩ := h6
    obtain ⟨y, t3, h8, h9⟩ := M.bind_ok.1 h7
    rw [M.lift_ok] at h8
    obtain ⟨h8, rfl⟩ := h8
    obtain ⟨st3, t4, h10, h11⟩ := M.bind_ok.1 h9
    have h12 := M.pure_ok.1 h11
    simp only [Prod.mk.injEq] at h12
    obtain ⟨⟨rfl, rfl⟩, rfl⟩ := h12
    rw [List.mapM_cons, getNode_ok.2 h2] at h6
    replace h6 : (G.tensor kn.state >>= _) = _ := h6
    obtain ⟨u, h13, h14⟩ := Res.bind_ok.1 h6
    have : [u] = ts := by simpa [pure, Except.pure, bind, Except.bind] using h14
    subst this
    exact ⟨k, kn, rn, ⟨h1, h2⟩, hrn, rfl,   .inr ⟨hw, u, y, h13, h8, h10⟩⟩

/-- An iteration of the batched search when either all or none of its games end in a finished position. -/
theorem Copies.iteration (hpl : Plain G) {net : Net Fl} (hr : RowWise net G) {n : Nat} (hn : 0 < n) {order : List Nat}
    (ho : order.Perm (List.range n)) {a a' : Nat → Store G Fl} {b : Store G Fl} {φ : Nat → Nat → Nat}
    (h : Copies n a b φ) {t : Tape} {x : Nat → Nat} {sel1 : Nat → List Nat} {t' : Nat → Tape}
    (hx : ∀ g, g < n → parallelIteration net [0] (a g) [x g] t = .ok ((a' g, sel1 g), t' g))
    (hall : (∀ g, g < n → ∀ k kn, Leaf (a g) 0 k kn → G.winner kn.state = none) ∨
      (∀ g, g < n → ∀ k kn, Leaf (a g) 0 k kn → G.winner kn.state ≠ none)) (sel : List Nat) (hsel : sel.length = n) :
    ∃ b' φ' sel', parallelIteration net order b sel t = .ok ((b', sel'), t) ∧ Copies n a' b' φ' ∧ sel'.length = n ∧
      ∀ g, g < n → t' g = t ∧ (sel1 g).length = 1 := by
  have hnd : order.Nodup := ho.nodup_iff.2 List.nodup_range
  have hmem : ∀ g, g ∈ order ↔ g < n := fun g => by rw [ho.mem_iff, List.mem_range]
  have key := fun g (hg : g < n) => single_iteration (h.wfA g hg) (h.pos g hg) (hx g hg)
  rcases hall with hopen | hends
  · have key2 : ∀ g, ∃ k kn u y, g < n → Leaf (a g) 0 k kn ∧ G.winner kn.state = none ∧ (sel1 g).length = 1 ∧
        G.tensor kn.state = .ok u ∧ batchTensor [u] = .ok y ∧
        expandPhase net (net.policyTensor G y) (net.evalTensor y) [(0, k)] (a g) t = .ok (a' g, t' g) := by
      intro g
      by_cases hg : g < n
      · obtain ⟨k, kn, rn, h1, h2, h2', ⟨w, h3, -⟩ | ⟨h3, u, y, h4, h5, h6⟩⟩ := key g hg
        · have := hopen g hg k kn h1
          rw [this] at h3
          cases h3
        · exact ⟨k, kn, u, y, fun _ => ⟨h1, h3, h2', h4, h5, h6⟩⟩
      · obtain ⟨k, kn, rn, h1, -, -, h6⟩ := key 0 hn
        exact ⟨k, kn, ⟨[], fun _ => 0⟩, ⟨[], fun _ => 0⟩, fun h => absurd h hg⟩
    choose k kn u y hk using key2
    obtain ⟨sel', h1, h2, h3⟩ := h.selectOpen (k := k) order (fun g hg => (hmem g).1 hg)
      (fun g hg => ⟨kn g, (hk g ((hmem g).1 hg)).1, (hk g ((hmem g).1 hg)).2.1⟩) sel hsel false
    have hsel' : sel' = (List.range n).map fun g => φ g (k g) := by
      apply List.ext_getElem?
      intro g
      by_cases hg : g < n
      · rw [h3 g hg, if_pos ((hmem g).2 hg)]
        simp [hg]
      · rw [List.getElem?_eq_none (by omega), List.getElem?_eq_none (by simp; omega)]
    obtain ⟨xb, h4, ⟨sh, h5⟩, h6⟩ := hr.batch hn (s := fun g => (kn g).state) (u := u) (y := y)
      (fun g hg => (hk g hg).2.2.2.1) (fun g hg => (hk g hg).2.2.2.2.1)
    have ht : ∀ g, g < n → t' g = t := by
      intro g hg
      obtain ⟨-, -, -, -, -, h7⟩ := hk g hg
      exact (expandStep_copy hpl (h.copy g hg) (h.wfA g hg) h.wfB (row := g) (h6 g hg).2.2.2.1 (h6 g hg).2.2.2.2 h7).1
    obtain ⟨b', φ', h7, h8⟩ := Copies.expandAll hpl (net := net) (P2 := net.policyTensor G xb) (E2 := net.evalTensor xb)
      (P1 := fun g => net.policyTensor G (y g)) (E1 := fun g => net.evalTensor (y g)) (a' := a') (t := t) (k := k)
      (List.range n) List.nodup_range (fun g hg => List.mem_range.1 hg)
      (fun g hg => (h6 g (List.mem_range.1 hg)).2.2.2.1) (fun g hg => (h6 g (List.mem_range.1 hg)).2.2.2.2)
      (i := fun g => φ g (k g)) h (fun _ _ => rfl)
      (fun g hg => by
        have hg := List.mem_range.1 hg
        obtain ⟨-, -, -, -, -, h7⟩ := hk g hg
        rw [ht g hg] at h7
        exact h7)
    refine ⟨b', φ', sel', ?_, h8.congr fun g hg => by simp [hg], h2, fun g hg => ⟨ht g hg, (hk g hg).2.2.1⟩⟩
    have hne : (false || !order.isEmpty) = true := by
      cases order with
      | nil => have := (hmem 0).2 hn; cases this
      | cons _ _ => rfl
    rw [hne] at h1
    unfold parallelIteration
    refine (M.run (M.lift_ok.2 ⟨h1, rfl⟩)).trans ?_
    simp only
    rw [if_neg (by simp)]
    refine (M.run (r := (List.range n).map u) (M.lift_ok.2 ⟨?_, rfl⟩)).trans ?_
    · rw [hsel']
      have := mapM_map' (f := fun g => (.ok (u g) : Res (Tensor Int))) (g := fun i => (do
          let n ← getNode b i
          G.tensor n.state : Res (Tensor Int))) (F := fun g => φ g (k g)) (H := id) (List.range n)
        (mapM_map (v := u) _ fun _ _ => rfl) (by
          intro g hg v hv
          injection hv with hv
          subst hv
          have hg := List.mem_range.1 hg
          show (getNode b (φ g (k g)) >>= _) = _
          rw [getNode_ok.2 ((h.copy g hg).get _ _ (hk g hg).1.2)]
          exact (hk g hg).2.2.2.1)
      simpa using this
    · refine (M.run (M.lift_ok.2 ⟨h4, rfl⟩)).trans ?_
      have hzip : (List.range sel'.length).zip sel' = (List.range n).map fun g => (g, φ g (k g)) := by
        rw [h2, hsel']
        apply List.ext_getElem?
        intro g
        by_cases hg : g < n
        · have e : ((List.range n).zip ((List.range n).map fun g => φ g (k g)))[g]? = some (g, φ g (k g)) :=
            List.getElem?_zip_eq_some.2 ⟨by simp [hg], by simp [hg]⟩
          rw [e]
          simp [hg]
        · rw [List.getElem?_eq_none (by simp; omega), List.getElem?_eq_none (by simp; omega)]
      rw [hzip]
      exact (M.run h7).trans rfl
  · have key2 : ∀ g, g < n → (t' g = t ∧ (sel1 g).length = 1) ∧ ∃ k kn rn w, Leaf (a g) 0 k kn ∧ (a g)[0]? = some rn ∧
        G.winner kn.state = some w ∧
        backpropagate k (Fl.ofInt (outcome w (G.player rn.state))) (a g) = .ok (a' g) := by
      intro g hg
      obtain ⟨k, kn, rn, h1, h2, h2', ⟨w, h3, h4, h5⟩ | ⟨h3, -⟩⟩ := key g hg
      · exact ⟨⟨h5, h2'⟩, k, kn, rn, w, h1, h2, h3, h4⟩
      · exact absurd h3 (hends g hg k kn h1)
    obtain ⟨b', h1, h2⟩ := h.selectEnds (a' := a') (sel := sel) order hnd (fun g hg => (hmem g).1 hg)
      (fun g hg => (key2 g ((hmem g).1 hg)).2)
    refine ⟨b', φ, sel, ?_, h2.congr fun g hg => by rw [if_pos ((hmem g).2 hg)], hsel, fun g hg => (key2 g hg).1⟩
    unfold parallelIteration
    refine (M.run (M.lift_ok.2 ⟨h1, rfl⟩)).trans ?_
    rfl

/-! ## The start -/

/-- The priors of the roots: policy and noise are mixed before the illegal codes are dropped. -/
def rootPriors (net : Net Fl) (G : Game) (x : Tensor Int) (r : Nat) (codes : List (List Nat)) : Tensor Fl.F :=
  ⟨[x.shape.headD 0, G.actionSpace], fun idx =>
    net.priorBatch (fun c => net.mixTensor (net.policy x (idx.getD 0 0) c) (net.noise r c))
      (codes.getD (idx.getD 0 0) []) (idx.getD 1 0)⟩

theorem start_iff {net : Net Fl} {states : List G.S} {t t' : Tape} {a : Store G Fl} :
    parallelStart net states [] t = .ok (a, t') ↔ ∃ ts x r t1 st codes, states.mapM G.tensor = .ok ts ∧
      batchTensor ts = .ok x ∧ 2 ≤ G.actionSpace ∧ net.alphaOk = true ∧ M.draw t = .ok (r, t1) ∧
      addRoots states [] = .ok st ∧
      (List.range states.length).mapM (fun i => do
        let n ← getNode st i
        codesOf n) = .ok codes ∧ (∀ l ∈ codes, ∀ c ∈ l, c < G.actionSpace) ∧
      expandRoots (rootPriors net G x r codes) (List.range states.length) st t1 = .ok (a, t') := by
  constructor
  · intro h
    unfold parallelStart at h
    obtain ⟨_, t1, h1, h0⟩ := M.bind_ok.1 h
    rw [M.lift_ok] at h1
    obtain ⟨-, rfl⟩ := h1
    obtain ⟨ts, t2, h2, h3⟩ := M.bind_ok.1 h0
    rw [M.lift_ok] at h2
    obtain ⟨h2, rfl⟩ := h2
    obtain ⟨x, t3, h4, h5⟩ := M.bind_ok.1 h3
    rw [M.lift_ok] at h4
    obtain ⟨h4, rfl⟩ := h4
    obtain ⟨p, t4, h6, h7⟩ := M.bind_ok.1 h5
    obtain ⟨st, t5, h8, h9⟩ := M.bind_ok.1 h7
    rw [M.lift_ok] at h8
    obtain ⟨h8, rfl⟩ := h8
    obtain ⟨pr, t6, h10, h11⟩ := M.bind_ok.1 h9
    rw [M.lift_ok] at h10
    obtain ⟨h10, rfl⟩ := h10
    unfold applyDirichletTensor at h6
    obtain ⟨nz, t7, h12, h13⟩ := M.bind_ok.1 h6
    have h14 := M.pure_ok.1 h13
    simp only [Prod.mk.injEq] at h14
    obtain ⟨rfl, rfl⟩ := h14
    unfold sampleDirichlet at h12
    split at h12
    · rename_i hc
      obtain ⟨r, t8, h15, h16⟩ := M.bind_ok.1 h12
      have h17 := M.pure_ok.1 h16
      simp only [Prod.mk.injEq] at h17
      obtain ⟨rfl, rfl⟩ := h17
      unfold probsTensorBatch at h10
      obtain ⟨codes, h18, h19⟩ := Res.bind_ok.1 h10
      split at h19
      · rename_i hcodes
        have h20 := (Except.ok.inj h19).symm
        subst h20
        exact ⟨ts, x, r, _, st, codes, h2, h4, hc.1, hc.2, h15, h8, h18, hcodes, h11⟩
      · cases h19
    · cases h12
  · rintro ⟨ts, x, r, t1, st, codes, h1, h2, h3, h4, h5, h6, h7, h8, h9⟩
    unfold parallelStart
    refine (M.run (r := ()) (t1 := t) (M.lift_ok.2 ⟨rfl, rfl⟩)).trans ?_
    refine (M.run (M.lift_ok.2 ⟨h1, rfl⟩)).trans ?_
    refine (M.run (M.lift_ok.2 ⟨h2, rfl⟩)).trans ?_
    have hd : applyDirichletTensor net (net.policyTensor G x) t = .ok (⟨(net.policyTensor G x).shape,
        fun idx => net.mixTensor ((net.policyTensor G x).at' idx) (net.noise r (idx.getD 1 0))⟩, t1) := by
      unfold applyDirichletTensor
      refine (M.run (r := net.noise r) (t1 := t1) ?_).trans rfl
      unfold sampleDirichlet
      rw [if_pos ⟨h3, h4⟩]
      exact (M.run h5).trans rfl
    refine (M.run hd).trans ?_
    refine (M.run (M.lift_ok.2 ⟨h6, rfl⟩)).trans ?_
    refine (M.run (r := rootPriors net G x r codes) (M.lift_ok.2 ⟨?_, rfl⟩)).trans h9
    unfold probsTensorBatch
    rw [h7]
    exact (if_pos (c := ∀ l ∈ codes, ∀ c ∈ l, c < G.actionSpace) h8).trans rfl

theorem addRoots_all (ss : List G.S) (ms : Nat → List G.Mv) (st : Store G Fl)
    (h : ∀ g s, ss[g]? = some s → G.moves s = .ok (ms g)) :
    ∃ news : List (Node G Fl), addRoots ss st = .ok (st ++ news) ∧ news.length = ss.length ∧
      ∀ g s, ss[g]? = some s → news[g]? = some (freshNode s (st.length + g) none none (Fl.ofInt 0) (ms g)) := by
  induction ss generalizing st ms with
  | nil => exact ⟨[], by simp [addRoots], rfl, by simp⟩
  | cons s ss ih =>
    have h0 := h 0 s rfl
    obtain ⟨news, h1, h2, h3⟩ := ih (fun g => ms (g + 1)) (st ++ [freshNode s st.length none none (Fl.ofInt 0) (ms 0)])
      (fun g s' hs => h (g + 1) s' hs)
    refine ⟨freshNode s st.length none none (Fl.ofInt 0) (ms 0) :: news, ?_, by simp [h2], ?_⟩
    · unfold addRoots
      rw [addNode_ok.2 ⟨ms 0, h0, rfl, rfl⟩]
      refine Eq.trans h1 ?_
      simp
    · intro g s' hs
      cases g with
      | zero =>
        have : s = s' := by simpa using hs
        subst this
        rfl
      | succ g =>
        rw [List.getElem?_cons_succ] at hs ⊢
        rw [h3 g s' hs]
        congr 2
        simp
        omega

theorem single_start {net : Net Fl} {s : G.S} {t t' : Tape} {a : Store G Fl}
    (h : parallelStart net [s] [] t = .ok (a, t')) :
    ∃ u y r t1 ms codes, G.tensor s = .ok u ∧ batchTensor [u] = .ok y ∧ 2 ≤ G.actionSpace ∧ net.alphaOk = true ∧
      M.draw t = .ok (r, t1) ∧ G.moves s = .ok ms ∧ ms.mapM (G.encode s) = .ok codes ∧ (∀ c ∈ codes, c < G.actionSpace) ∧
      expandRoots (rootPriors net G y r [codes]) [0] [freshNode s 0 none none (Fl.ofInt 0) ms] t1 = .ok (a, t') := by
  obtain ⟨ts, y, r, t1, st, cs, h1, h2, h3, h4, h5, h6, h7, h8, h9⟩ := start_iff.1 h
  rw [List.mapM_cons] at h1
  obtain ⟨u, h10, h11⟩ := Res.bind_ok.1 h1
  have : [u] = ts := by simpa [pure, Except.pure, bind, Except.bind] using h11
  subst this
  unfold addRoots at h6
  obtain ⟨⟨st1, k⟩, h12, h13⟩ := Res.bind_ok.1 h6
  obtain ⟨ms, hm, rfl, rfl⟩ := addNode_ok.1 h12
  simp only [addRoots] at h13
  injection h13 with h13
  subst h13
  have h7' : (codesOf (freshNode (Fl := Fl) s 0 none none (Fl.ofInt 0) ms) >>= fun c => pure [c]) = Except.ok cs := by
    have e : List.range [s].length = [0] := rfl
    rw [e, List.mapM_cons] at h7
    exact h7
  obtain ⟨codes, h14, h15⟩ := Res.bind_ok.1 h7'
  have : [codes] = cs := by simpa [pure, Except.pure] using h15
  subst this
  exact ⟨u, y, r, t1, ms, codes, h10, h2, h3, h4, h5, hm, h14, h8 codes (by simp), h9⟩

theorem rootPriors_get {net : Net Fl} {x y : Tensor Int} {m g r : Nat} {sh sh' : List Nat} (hx : x.shape = m :: sh)
    (hg : g < m) (hy : y.shape = 1 :: sh') (h : ∀ c, net.policy x g c = net.policy y 0 c) {codes : List (List Nat)}
    {l : List Nat} (hc : codes[g]? = some l) :
    (rootPriors net G x r codes).get g = (rootPriors net G y r [l]).get 0 := by
  rw [Tensor.get_ok (by unfold rootPriors; rw [hx]; rfl) hg,
    Tensor.get_ok (by unfold rootPriors; rw [hy]; rfl) Nat.zero_lt_one]
  congr 2
  funext idx
  show net.priorBatch (fun c => net.mixTensor (net.policy x g c) (net.noise r c)) (codes.getD g []) _ =
    net.priorBatch (fun c => net.mixTensor (net.policy y 0 c) (net.noise r c)) l _
  have : codes.getD g [] = l := by rw [List.getD_eq_getElem?_getD, hc]; rfl
  rw [this]
  congr 1
  funext c
  rw [h c]

/-- The start of the batched search. -/
theorem copies_start (hpl : Plain G) {net : Net Fl} (hr : RowWise net G) {states : List G.S} (hne : states ≠ [])
    {a : Nat → Store G Fl} {t : Tape} {t' : Nat → Tape}
    (hx : ∀ g s, states[g]? = some s → parallelStart net [s] [] t = .ok (a g, t' g)) :
    ∃ b φ t1, parallelStart net states [] t = .ok (b, t1) ∧ Copies states.length a b φ ∧
      ∀ g, g < states.length → t' g = t1 := by
  have hn : 0 < states.length := List.length_pos_iff.2 hne
  obtain ⟨s0, hs0⟩ : ∃ s, states[0]? = some s := ⟨_, List.getElem?_eq_getElem hn⟩
  obtain ⟨u0, y0, r, t1, ms0, codes0, -, -, hA, hok, hdraw, -⟩ := single_start (hx 0 s0 hs0)
  have key : ∀ g, ∃ s u y ms codes, g < states.length → states[g]? = some s ∧ G.tensor s = .ok u ∧
      batchTensor [u] = .ok y ∧ G.moves s = .ok ms ∧ ms.mapM (G.encode s) = .ok codes ∧
      (∀ c ∈ codes, c < G.actionSpace) ∧
      expandRoots (rootPriors net G y r [codes]) [0] [freshNode s 0 none none (Fl.ofInt 0) ms] t1 = .ok (a g, t' g) := by
    intro g
    by_cases hg : g < states.length
    · obtain ⟨s, hs⟩ : ∃ s, states[g]? = some s := ⟨_, List.getElem?_eq_getElem hg⟩
      obtain ⟨u, y, r', t2, ms, codes, k1, k2, -, -, k3, k4, k5, k6, k7⟩ := single_start (hx g s hs)
      rw [hdraw] at k3
      have := Except.ok.inj k3
      simp only [Prod.mk.injEq] at this
      obtain ⟨rfl, rfl⟩ := this
      exact ⟨s, u, y, ms, codes, fun _ => ⟨hs, k1, k2, k4, k5, k6, k7⟩⟩
    · exact ⟨s0, u0, y0, ms0, codes0, fun h => absurd h hg⟩
  choose s u y ms codes hk using key
  have hstates : states = (List.range states.length).map s := by
    apply List.ext_getElem?
    intro g
    by_cases hg : g < states.length
    · rw [(hk g hg).1]; simp [hg]
    · rw [List.getElem?_eq_none (by omega), List.getElem?_eq_none (by simp; omega)]
  obtain ⟨x, h1, ⟨sh, h2⟩, h3⟩ := hr.batch hn (s := s) (u := u) (y := y) (fun g hg => (hk g hg).2.1)
    (fun g hg => (hk g hg).2.2.1)
  obtain ⟨st, h4, h5, h6⟩ := addRoots_all (Fl := Fl) states ms [] (by
    intro g s' hs
    have hg := (List.getElem?_eq_some_iff.1 hs).1
    have := (hk g hg).1
    rw [hs] at this
    injection this with this
    subst this
    exact (hk g hg).2.2.2.1)
  simp only [List.nil_append, List.length_nil, Nat.zero_add] at h4 h6
  have hget : ∀ g, g < states.length → st[g]? = some (freshNode (s g) g none none (Fl.ofInt 0) (ms g)) :=
    fun g hg => h6 g (s g) (hk g hg).1
  have hts : states.mapM G.tensor = .ok ((List.range states.length).map u) := by
    have := mapM_map' (f := fun g => (.ok (u g) : Res (Tensor Int))) (g := G.tensor) (F := s) (H := id)
      (List.range states.length) (mapM_map (v := u) _ fun _ _ => rfl) (by
        intro g hg v hv
        injection hv with hv
        subst hv
        exact (hk g (List.mem_range.1 hg)).2.1)
    rw [← hstates] at this
    simpa using this
  have hcodes : (List.range states.length).mapM (fun i => do
        let n ← getNode st i
        codesOf n) = .ok ((List.range states.length).map codes) := by
    apply mapM_map
    intro g hg
    have hg := List.mem_range.1 hg
    rw [getNode_ok.2 (hget g hg)]
    exact (hk g hg).2.2.2.2.1
  obtain ⟨f, -⟩ := addRoots_ok states h4 [] forest_nil rfl
  have hc0 : Copies states.length (fun g => [freshNode (Fl := Fl) (s g) 0 none none (Fl.ofInt 0) (ms g)]) st
      (fun g _ => g) := by
    refine ⟨?_, ?_, f.wf, ?_, fun _ _ => rfl, fun _ _ => Nat.zero_lt_one, ?_⟩
    · intro g hg
      refine ⟨?_, ?_, ?_⟩
      · intro q q' hq hq' _
        simp at hq hq'
        omega
      · intro q n hq
        have := (List.getElem?_eq_some_iff.1 hq).1
        simp at this
        subst this
        simp at hq
        subst hq
        exact hget g hg
      · simp; omega
    · intro g hg
      obtain ⟨f1, -⟩ := addRoots_ok (Fl := Fl) [s g] (st := []) (st' := [freshNode (s g) 0 none none (Fl.ofInt 0) (ms g)])
        (by
          unfold addRoots
          rw [addNode_ok.2 ⟨ms g, (hk g hg).2.2.2.1, rfl, rfl⟩]
          rfl) [] forest_nil rfl
      exact f1.wf
    · intro g g' _ _ hne _ _ _ _
      exact hne
    · intro j hj
      exact ⟨j, 0, by omega, Nat.zero_lt_one, rfl⟩
  have hrow : ∀ g, g < states.length → (rootPriors net G x r ((List.range states.length).map codes)).get g =
      (rootPriors net G (y g) r [codes g]).get 0 := by
    intro g hg
    obtain ⟨⟨sh', h7⟩, h8, -⟩ := h3 g hg
    exact rootPriors_get h2 hg h7 h8 (by simp [hg])
  have ht : ∀ g, g < states.length → t' g = t1 := by
    intro g hg
    exact (expandRoot_copy hpl (hc0.copy g hg) (hc0.wfA g hg) hc0.wfB rfl (hrow g hg) (hk g hg).2.2.2.2.2.2).1
  obtain ⟨b, φ, h9, h10⟩ := Copies.roots hpl (P2 := rootPriors net G x r ((List.range states.length).map codes))
    (P1 := fun g => rootPriors net G (y g) r [codes g]) (a' := a) (t := t1) (List.range states.length) List.nodup_range
    (fun g hg => List.mem_range.1 hg) (fun g hg => hrow g (List.mem_range.1 hg)) hc0 (by
      intro g hg
      have hg := List.mem_range.1 hg
      have := (hk g hg).2.2.2.2.2.2
      rw [ht g hg] at this
      exact this)
  refine ⟨b, φ, t1, ?_, h10.congr fun g hg => by simp [hg], ht⟩
  refine start_iff.2 ⟨_, x, r, t1, st, _, hts, h1, hA, hok, hdraw, h4, hcodes, ?_, h9⟩
  intro l hl c hc
  simp only [List.mem_map, List.mem_range] at hl
  obtain ⟨g, hg, rfl⟩ := hl
  exact (hk g hg).2.2.2.2.2.1 c hc

/-! ## The search -/

theorem parallelIterate_last {net : Net Fl} {order : List Nat} (k : Nat) {st : Store G Fl} {sel : List Nat} {t : Tape}
    {r : (Store G Fl × List Nat) × Tape} : parallelIterate net order (k + 1) st sel t = .ok r ↔
      ∃ st1 sel1 t1, parallelIterate net order k st sel t = .ok ((st1, sel1), t1) ∧
        parallelIteration net order st1 sel1 t1 = .ok r := by
  induction k generalizing st sel t with
  | zero =>
    constructor
    · intro h
      unfold parallelIterate at h
      obtain ⟨⟨st1, sel1⟩, t1, h1, h2⟩ := M.bind_ok.1 h
      have h3 := M.pure_ok.1 h2
      subst h3
      exact ⟨st, sel, t, rfl, h1⟩
    · rintro ⟨st1, sel1, t1, h1, h2⟩
      have h3 := M.pure_ok.1 h1
      simp only [Prod.mk.injEq] at h3
      obtain ⟨⟨rfl, rfl⟩, rfl⟩ := h3
      unfold parallelIterate
      exact M.bind_ok.2 ⟨r.1, r.2, h2, rfl⟩
  | succ k ih =>
    constructor
    · intro h
      unfold parallelIterate at h
      obtain ⟨⟨st1, sel1⟩, t1, h1, h2⟩ := M.bind_ok.1 h
      obtain ⟨st2, sel2, t2, h3, h4⟩ := ih.1 h2
      exact ⟨st2, sel2, t2, M.bind_ok.2 ⟨(st1, sel1), t1, h1, h3⟩, h4⟩
    · rintro ⟨st1, sel1, t1, h1, h2⟩
      unfold parallelIterate at h1
      obtain ⟨⟨st2, sel2⟩, t2, h3, h4⟩ := M.bind_ok.1 h1
      unfold parallelIterate
      exact M.bind_ok.2 ⟨(st2, sel2), t2, h3, ih.2 ⟨st1, sel1, t1, h4, h2⟩⟩

/-- In every iteration of the searches alone, either all or none of the games end in a finished position. -/
def InStep (net : Net Fl) (states : List G.S) (iterations : Nat) (t : Tape) : Prop :=
  ∀ i, i < iterations →
    (∀ (g : Nat) (s : G.S) (st : Store G Fl) (t1 : Tape) (k : Nat) (kn : Node G Fl), states[g]? = some s →
      alphaMctsParallel net [0] [s] i [] t = .ok (st, t1) → Leaf st 0 k kn →
      G.winner kn.state = none) ∨
    (∀ (g : Nat) (s : G.S) (st : Store G Fl) (t1 : Tape) (k : Nat) (kn : Node G Fl), states[g]? = some s →
      alphaMctsParallel net [0] [s] i [] t = .ok (st, t1) → Leaf st 0 k kn →
      G.winner kn.state ≠ none)

theorem copies_search (hpl : Plain G) {net : Net Fl} (hr : RowWise net G) {states : List G.S} (hne : states ≠ [])
    {order : List Nat} (ho : order.Perm (List.range states.length)) {t : Tape} (iterations : Nat)
    (hstep : InStep net states iterations t) {a : Nat → Store G Fl} {t' : Nat → Tape}
    (hx : ∀ g s, states[g]? = some s → alphaMctsParallel net [0] [s] iterations [] t = .ok (a g, t' g)) :
    ∃ b φ t1, alphaMctsParallel net order states iterations [] t = .ok (b, t1) ∧ Copies states.length a b φ ∧
      ∀ g, g < states.length → t' g = t1 := by
  have hn : 0 < states.length := List.length_pos_iff.2 hne
  -- the searches with the selected nodes in view
  have main : ∀ i, i ≤ iterations → ∀ (a : Nat → Store G Fl) (sel1 : Nat → List Nat) (t' : Nat → Tape),
      (∀ g s, states[g]? = some s → ∃ st0 t0, parallelStart net [s] [] t = .ok (st0, t0) ∧
        parallelIterate net [0] i st0 [0] t0 = .ok ((a g, sel1 g), t' g)) →
      ∃ b φ t1 st0 t0 sel, parallelStart net states [] t = .ok (st0, t0) ∧
        parallelIterate net order i st0 (List.replicate states.length 0) t0 = .ok ((b, sel), t1) ∧
        sel.length = states.length ∧ Copies states.length a b φ ∧
        ∀ g, g < states.length → t' g = t1 ∧ (sel1 g).length = 1 := by
    intro i
    induction i with
    | zero =>
      intro _ a sel1 t' h
      have h' : ∀ g s, states[g]? = some s → parallelStart net [s] [] t = .ok (a g, t' g) ∧ sel1 g = [0] := by
        intro g s hs
        obtain ⟨st0, t0, h1, h2⟩ := h g s hs
        have h3 := M.pure_ok.1 h2
        simp only [Prod.mk.injEq] at h3
        obtain ⟨⟨h4, h5⟩, h6⟩ := h3
        rw [h4, h6]
        exact ⟨h1, h5⟩
      obtain ⟨b, φ, t1, h1, h2, h3⟩ := copies_start hpl hr hne (fun g s hs => (h' g s hs).1)
      refine ⟨b, φ, t1, b, t1, _, h1, rfl, by simp, h2, ?_⟩
      intro g hg
      exact ⟨h3 g hg, by rw [(h' g _ (List.getElem?_eq_getElem hg)).2]; rfl⟩
    | succ i ih =>
      intro hi a sel1 t' h
      obtain ⟨s0, hs0⟩ : ∃ s, states[0]? = some s := ⟨_, List.getElem?_eq_getElem hn⟩
      have h' : ∀ g, ∃ st1 sl1 t1, ∀ s, states[g]? = some s → (∃ st0 t0, parallelStart net [s] [] t = .ok (st0, t0) ∧
          parallelIterate net [0] i st0 [0] t0 = .ok ((st1, sl1), t1)) ∧
          parallelIteration net [0] st1 sl1 t1 = .ok ((a g, sel1 g), t' g) := by
        intro g
        cases hs : states[g]? with
        | none => exact ⟨[], [], t, by simp⟩
        | some s =>
          obtain ⟨st0, t0, h1, h2⟩ := h g s hs
          obtain ⟨st1, sl1, t1, h3, h4⟩ := (parallelIterate_last i).1 h2
          exact ⟨st1, sl1, t1, fun s' hs' => by
            have : s = s' := by simpa using hs'
            subst this
            exact ⟨⟨st0, t0, h1, h3⟩, h4⟩⟩
      choose a1 sl1 t1 hk using h'
      obtain ⟨b, φ, tb, st0, t0, sel, g1, g2, g3, g4, g5⟩ := ih (by omega) a1 sl1 t1 (fun g s hs => (hk g s hs).1)
      have hsl : ∀ g, ∃ x, g < states.length → sl1 g = [x] := by
        intro g
        by_cases hg : g < states.length
        · obtain ⟨x, hx⟩ := List.length_eq_one_iff.1 (g5 g hg).2
          exact ⟨x, fun _ => hx⟩
        · exact ⟨0, fun h => absurd h hg⟩
      choose x hx using hsl
      have halpha : ∀ g s, states[g]? = some s → alphaMctsParallel net [0] [s] i [] t = .ok (a1 g, t1 g) := by
        intro g s hs
        obtain ⟨⟨st2, t2, k1, k2⟩, -⟩ := hk g s hs
        unfold alphaMctsParallel
        refine (M.run k1).trans ?_
        exact (M.run k2).trans rfl
      obtain ⟨b', φ', sel', k1, k2, k3, k4⟩ := g4.iteration hpl hr hn ho (a' := a) (t := tb) (x := x) (sel1 := sel1)
        (t' := t') (by
          intro g hg
          obtain ⟨-, k⟩ := hk g _ (List.getElem?_eq_getElem hg)
          rw [hx g hg, (g5 g hg).1] at k
          exact k)
        (by
          rcases hstep i (by omega) with h1 | h1
          · exact .inl fun g hg k kn hl => h1 g _ _ _ k kn (List.getElem?_eq_getElem hg)
              (halpha g _ (List.getElem?_eq_getElem hg)) hl
          · exact .inr fun g hg k kn hl => h1 g _ _ _ k kn (List.getElem?_eq_getElem hg)
              (halpha g _ (List.getElem?_eq_getElem hg)) hl) sel g3
      exact ⟨b', φ', tb, st0, t0, sel', g1, (parallelIterate_last i).2 ⟨b, sel, tb, g2, k1⟩, k3, k2, k4⟩
  have h' : ∀ g, ∃ sl1, ∀ s, states[g]? = some s → ∃ st0 t0, parallelStart net [s] [] t = .ok (st0, t0) ∧
      parallelIterate net [0] iterations st0 [0] t0 = .ok ((a g, sl1), t' g) := by
    intro g
    cases hs : states[g]? with
    | none => exact ⟨[], by simp⟩
    | some s =>
      have h1 := hx g s hs
      unfold alphaMctsParallel at h1
      obtain ⟨st0, t0, h2, h3⟩ := M.bind_ok.1 h1
      obtain ⟨⟨st1, sl1⟩, t1, h4, h5⟩ := M.bind_ok.1 h3
      have h6 := M.pure_ok.1 h5
      simp only [Prod.mk.injEq] at h6
      obtain ⟨h7, h8⟩ := h6
      refine ⟨sl1, fun s' hs' => ?_⟩
      have : s = s' := by simpa using hs'
      subst this
      rw [h7, h8]
      exact ⟨st0, t0, h2, h4⟩
  choose sl1 hk using h'
  obtain ⟨b, φ, tb, st0, t0, sel, g1, g2, g3, g4, g5⟩ := main iterations (Nat.le_refl _) a sl1 t' hk
  refine ⟨b, φ, tb, ?_, g4, fun g hg => (g5 g hg).1⟩
  unfold alphaMctsParallel
  refine (M.run g1).trans ?_
  exact (M.run g2).trans rfl

end DieE.Mcts
