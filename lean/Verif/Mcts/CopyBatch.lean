import Mathlib.Tactic.Choose
import Verif.Mcts.Copy

/-!
# The batched search as many searches of one game

For a game without chance and a network that looks at every row of a batch by itself, the batched search is compared
with the searches of its games alone.
-/

namespace DieE.Mcts
variable {G : Game} {Fl : Floats}

/-- The store `b` consists of the stores `a 0`, …, `a (n - 1)`, the first node of `a g` being node `g`. -/
structure Copies (n : Nat) (a : Nat → Store G Fl) (b : Store G Fl) (φ : Nat → Nat → Nat) : Prop where
  copy : ∀ g, g < n → Copy (a g) b (φ g)
  wfA : ∀ g, g < n → WellFormed (a g)
  wfB : WellFormed b
  apart : ∀ g g', g < n → g' < n → g ≠ g' → ∀ q q', q < (a g).length → q' < (a g').length → φ g q ≠ φ g' q'
  root : ∀ g, g < n → φ g 0 = g
  pos : ∀ g, g < n → 0 < (a g).length
  cover : ∀ j, j < b.length → ∃ g q, g < n ∧ q < (a g).length ∧ φ g q = j

theorem Copies.congr {n : Nat} {a a' : Nat → Store G Fl} {b : Store G Fl} {φ : Nat → Nat → Nat} (h : Copies n a b φ)
    (he : ∀ g, g < n → a' g = a g) : Copies n a' b φ := by
  refine ⟨?_, ?_, h.wfB, ?_, h.root, ?_, ?_⟩
  · intro g hg; rw [he g hg]; exact h.copy g hg
  · intro g hg; rw [he g hg]; exact h.wfA g hg
  · intro g g' hg hg'; rw [he g hg, he g' hg']; exact h.apart g g' hg hg'
  · intro g hg; rw [he g hg]; exact h.pos g hg
  · intro j hj
    obtain ⟨g, q, h1, h2, h3⟩ := h.cover j hj
    exact ⟨g, q, h1, by rw [he g h1]; exact h2, h3⟩

/-- One of the stores changes. -/
theorem Copies.update {n : Nat} {a : Nat → Store G Fl} {b b' a' : Store G Fl} {φ : Nat → Nat → Nat} {ψ : Nat → Nat}
    (h : Copies n a b φ) {g : Nat} (hg : g < n) (hc : Copy a' b' ψ) (hl : Local (a g) a' b b' (φ g) ψ)
    (wa : WellFormed a') (wb : WellFormed b') :
    Copies n (fun x => if x = g then a' else a x) b' (fun x => if x = g then ψ else φ x) := by
  have hp := h.pos g hg
  have hla := hl.lenA
  have hgr := hl.grow
  have place : ∀ q, q < a'.length → (q < (a g).length ∧ ψ q = φ g q) ∨
      (¬ q < (a g).length ∧ ψ q = b.length + (q - (a g).length)) := by
    intro q hq
    by_cases c : q < (a g).length
    · exact .inl ⟨c, hl.ext q c⟩
    · exact .inr ⟨c, hl.new q (by omega) hq⟩
  refine ⟨?_, ?_, wb, ?_, ?_, ?_, ?_⟩
  · intro x hx
    by_cases c : x = g
    · subst c; simpa using hc
    · simp only [if_neg c]
      have hx0 := h.copy x hx
      refine ⟨hx0.inj, ?_, ?_⟩
      · intro q m hq
        have hql := (List.getElem?_eq_some_iff.1 hq).1
        rw [hl.keep _ (hx0.lt hql) fun q' hq' => (h.apart g x hg hx (Ne.symm c) q' q hq' hql)]
        exact hx0.get q m hq
      · have := hx0.len
        omega
  · intro x hx
    by_cases c : x = g
    · simpa [c] using wa
    · simpa [c] using h.wfA x hx
  · intro x x' hx hx' hne q q' hq hq'
    by_cases c : x = g
    · subst c
      have c' : ¬ x' = x := Ne.symm hne
      simp only [if_neg c', if_true] at hq hq' ⊢
      rcases place q hq with ⟨c1, e⟩ | ⟨c1, e⟩
      · rw [e]; exact h.apart x x' hx hx' hne q q' c1 hq'
      · rw [e]
        have := (h.copy x' hx').lt hq'
        omega
    · by_cases c' : x' = g
      · subst c'
        simp only [if_neg c, if_true] at hq hq' ⊢
        rcases place q' hq' with ⟨c1, e⟩ | ⟨c1, e⟩
        · rw [e]; exact h.apart x x' hx hx' hne q q' hq c1
        · rw [e]
          have := (h.copy x hx).lt hq
          omega
      · simp only [if_neg c, if_neg c'] at hq hq' ⊢
        exact h.apart x x' hx hx' hne q q' hq hq'
  · intro x hx
    by_cases c : x = g
    · subst c
      simp only [if_true]
      rw [hl.ext 0 hp, h.root x hx]
    · simp only [if_neg c]; exact h.root x hx
  · intro x hx
    by_cases c : x = g
    · simp only [if_pos c]; omega
    · simp only [if_neg c]; exact h.pos x hx
  · intro j hj
    by_cases c : j < b.length
    · obtain ⟨x, q, h1, h2, h3⟩ := h.cover j c
      refine ⟨x, q, h1, ?_, ?_⟩
      · by_cases e : x = g
        · subst e; simp only [if_true]; omega
        · simpa [e] using h2
      · by_cases e : x = g
        · subst e; simp only [if_true]; rw [hl.ext q h2]; exact h3
        · simpa [e] using h3
    · refine ⟨g, (a g).length + (j - b.length), hg, ?_, ?_⟩
      · simp only [if_true]; omega
      · simp only [if_true]
        rw [hl.new _ (by omega) (by omega)]
        omega

/-- The network looks at every row of a batch by itself, and the states have tensors of one shape. -/
structure RowWise (net : Net Fl) (G : Game) : Prop where
  shape : ∃ sh : List Nat, ∀ s x, G.tensor s = .ok x → x.shape = 1 :: sh
  rows : ∀ (ss : List G.S) ts x, ss.mapM G.tensor = .ok ts → batchTensor ts = .ok x → ∀ g u y, ts[g]? = some u →
    batchTensor [u] = .ok y → (∀ c, net.policy x g c = net.policy y 0 c) ∧ net.eval x g = net.eval y 0

/-! ## Steps of one game -/

theorem M.run {α β : Type} {x : M α} {f : α → M β} {r : α} {t t1 : Tape} (h : x t = .ok (r, t1)) :
    (x >>= f) t = f r t1 := by
  show (match x t with | Except.error e => Except.error e | Except.ok (a, t) => f a t) = _
  rw [h]

theorem expandStep_copy (hpl : Plain G) {net : Net Fl} {P1 E1 P2 E2 : Tensor Fl.F} {a b a' : Store G Fl} {φ : Nat → Nat}
    (h : Copy a b φ) (w : WellFormed a) (wb : WellFormed b) {k row : Nat} (hP : P2.get row = P1.get 0)
    (hE : E2.get row = E1.get 0) {t t' : Tape} (hx : expandPhase net P1 E1 [(0, k)] a t = .ok (a', t')) :
    t' = t ∧ ∃ b' ψ, (∀ rest t2, expandPhase net P2 E2 ((row, φ k) :: rest) b t2 = expandPhase net P2 E2 rest b' t2) ∧
      Copy a' b' ψ ∧ Local a a' b b' φ ψ ∧ WellFormed a' ∧ WellFormed b' := by
  unfold expandPhase at hx
  obtain ⟨kn, t1, h1, hx1⟩ := M.bind_ok.1 hx
  rw [M.lift_ok, getNode_ok] at h1
  obtain ⟨h1, rfl⟩ := h1
  obtain ⟨p, t2, h2, hx2⟩ := M.bind_ok.1 hx1
  rw [M.lift_ok] at h2
  obtain ⟨h2, rfl⟩ := h2
  obtain ⟨e, t3, h3, hx3⟩ := M.bind_ok.1 hx2
  rw [M.lift_ok] at h3
  obtain ⟨h3, rfl⟩ := h3
  obtain ⟨probs, t4, h4, hx4⟩ := M.bind_ok.1 hx3
  rw [M.lift_ok] at h4
  obtain ⟨h4, rfl⟩ := h4
  obtain ⟨⟨a1, kn'⟩, t5, h5, hx5⟩ := M.bind_ok.1 hx4
  obtain ⟨v, t6, h6, hx6⟩ := M.bind_ok.1 hx5
  rw [M.lift_ok] at h6
  obtain ⟨h6, rfl⟩ := h6
  obtain ⟨a2, t7, h7, hx7⟩ := M.bind_ok.1 hx6
  rw [M.lift_ok] at h7
  obtain ⟨h7, rfl⟩ := h7
  unfold expandPhase at hx7
  have := M.pure_ok.1 hx7
  simp only [Prod.mk.injEq] at this
  obtain ⟨rfl, rfl⟩ := this
  obtain ⟨rfl, b1, ψ, g1, g2, g3, g4, g5, g6, g7⟩ := h.expand hpl w wb h1 rfl (fun _ _ e => e) h5
  rw [g6] at h7
  obtain ⟨b2, k1, k2, k3, k4, k5⟩ := g2.back g4 g5 (List.getElem?_eq_some_iff.1 g7).1 h7
  refine ⟨rfl, b2, ψ, ?_, k2, g3.trans k3, k4, k5⟩
  intro rest t2
  conv => lhs; unfold expandPhase
  rw [M.run (M.lift_ok.2 ⟨getNode_ok.2 (h.get k kn h1), rfl⟩), M.run (M.lift_ok.2 ⟨hP.trans h2, rfl⟩),
    M.run (M.lift_ok.2 ⟨hE.trans h3, rfl⟩)]
  rw [M.run (M.lift_ok.2 ⟨(show probsTensor net p (kn.move φ) = .ok probs from h4), rfl⟩)]
  refine (M.run (x := alphaExpandTensor (kn.move φ) probs b) (g1 t2)).trans ?_
  refine (M.run (M.lift_ok.2 ⟨h6, rfl⟩)).trans ?_
  refine (M.run (M.lift_ok.2 ⟨?_, rfl⟩)).trans rfl
  have : (kn'.move ψ).idx = ψ k := by show ψ kn'.idx = _; rw [g6]
  rw [this]
  exact k1

theorem expandRoot_copy (hpl : Plain G) {P1 P2 : Tensor Fl.F} {a b a' : Store G Fl} {φ : Nat → Nat}
    (h : Copy a b φ) (w : WellFormed a) (wb : WellFormed b) {g : Nat} (hg : φ 0 = g) (hP : P2.get g = P1.get 0)
    {t t' : Tape} (hx : expandRoots P1 [0] a t = .ok (a', t')) :
    t' = t ∧ ∃ b' ψ, (∀ rest t2, expandRoots P2 (g :: rest) b t2 = expandRoots P2 rest b' t2) ∧
      Copy a' b' ψ ∧ Local a a' b b' φ ψ ∧ WellFormed a' ∧ WellFormed b' := by
  unfold expandRoots at hx
  obtain ⟨kn, t1, h1, hx1⟩ := M.bind_ok.1 hx
  rw [M.lift_ok, getNode_ok] at h1
  obtain ⟨h1, rfl⟩ := h1
  simp only at hx1
  obtain ⟨p, t2, h2, hx2⟩ := M.bind_ok.1 hx1
  rw [M.lift_ok] at h2
  obtain ⟨h2, rfl⟩ := h2
  obtain ⟨⟨a1, kn'⟩, t5, h5, hx3⟩ := M.bind_ok.1 hx2
  unfold expandRoots at hx3
  have := M.pure_ok.1 hx3
  simp only [Prod.mk.injEq] at this
  obtain ⟨rfl, rfl⟩ := this
  obtain ⟨rfl, b1, ψ, g1, g2, g3, g4, g5, -, -⟩ :=
    h.expand hpl w wb (n := { kn with visits := 1 }) h1 rfl (fun _ _ e => e) h5
  refine ⟨rfl, b1, ψ, ?_, g2, g3, g4, g5⟩
  intro rest t2
  conv => lhs; unfold expandRoots
  have hget := h.get 0 kn h1
  rw [hg] at hget
  rw [M.run (M.lift_ok.2 ⟨getNode_ok.2 hget, rfl⟩)]
  simp only
  rw [M.run (M.lift_ok.2 ⟨hP.trans h2, rfl⟩)]
  exact M.run (g1 t2)

/-! ## Phases over all games -/

theorem Copies.roots (hpl : Plain G) {P2 : Tensor Fl.F} {P1 : Nat → Tensor Fl.F} {n : Nat} {a' : Nat → Store G Fl} {t : Tape}
    (L : List Nat) (hnd : L.Nodup) (hL : ∀ g ∈ L, g < n) (hP : ∀ g ∈ L, P2.get g = (P1 g).get 0)
    {a : Nat → Store G Fl} {b : Store G Fl} {φ : Nat → Nat → Nat} (h : Copies n a b φ)
    (hx : ∀ g ∈ L, expandRoots (P1 g) [0] (a g) t = .ok (a' g, t)) :
    ∃ b' φ', expandRoots P2 L b t = .ok (b', t) ∧ Copies n (fun g => if g ∈ L then a' g else a g) b' φ' := by
  induction L generalizing a b φ with
  | nil => exact ⟨b, φ, rfl, by simpa using h⟩
  | cons g L ih =>
    rw [List.nodup_cons] at hnd
    have hg : g < n := hL g (List.mem_cons_self ..)
    obtain ⟨-, b1, ψ, h1, h2, h3, h4, h5⟩ := expandRoot_copy hpl (h.copy g hg) (h.wfA g hg) h.wfB (h.root g hg)
      (hP g (List.mem_cons_self ..)) (hx g (List.mem_cons_self ..))
    have hc := h.update hg h2 h3 h4 h5
    obtain ⟨b', φ', h6, h7⟩ := ih hnd.2 (fun x hx => hL x (List.mem_cons_of_mem _ hx))
      (fun x hx => hP x (List.mem_cons_of_mem _ hx)) hc (fun x hxm => by
        have : ¬ x = g := fun e => hnd.1 (e ▸ hxm)
        simp only [if_neg this]
        exact hx x (List.mem_cons_of_mem _ hxm))
    refine ⟨b', φ', (h1 L t).trans h6, h7.congr ?_⟩
    intro x _
    by_cases c : x = g
    · subst c; simp [hnd.1]
    · simp [c]

theorem Copies.expandAll (hpl : Plain G) {net : Net Fl} {P2 E2 : Tensor Fl.F} {P1 E1 : Nat → Tensor Fl.F} {n : Nat}
    {a' : Nat → Store G Fl} {t : Tape} {k : Nat → Nat}
    (L : List Nat) (hnd : L.Nodup) (hL : ∀ g ∈ L, g < n) (hP : ∀ g ∈ L, P2.get g = (P1 g).get 0)
    (hE : ∀ g ∈ L, E2.get g = (E1 g).get 0) {i : Nat → Nat}
    {a : Nat → Store G Fl} {b : Store G Fl} {φ : Nat → Nat → Nat} (h : Copies n a b φ)
    (hi : ∀ g ∈ L, i g = φ g (k g))
    (hx : ∀ g ∈ L, expandPhase net (P1 g) (E1 g) [(0, k g)] (a g) t = .ok (a' g, t)) :
    ∃ b' φ', expandPhase net P2 E2 (L.map fun g => (g, i g)) b t = .ok (b', t) ∧
      Copies n (fun g => if g ∈ L then a' g else a g) b' φ' := by
  induction L generalizing a b φ with
  | nil => exact ⟨b, φ, rfl, by simpa using h⟩
  | cons g L ih =>
    rw [List.nodup_cons] at hnd
    have hg : g < n := hL g (List.mem_cons_self ..)
    obtain ⟨-, b1, ψ, h1, h2, h3, h4, h5⟩ := expandStep_copy hpl (h.copy g hg) (h.wfA g hg) h.wfB
      (hP g (List.mem_cons_self ..)) (hE g (List.mem_cons_self ..)) (hx g (List.mem_cons_self ..))
    have hc := h.update hg h2 h3 h4 h5
    have hne : ∀ x ∈ L, ¬ x = g := fun x hxm e => hnd.1 (e ▸ hxm)
    obtain ⟨b', φ', h6, h7⟩ := ih hnd.2 (fun x hx => hL x (List.mem_cons_of_mem _ hx))
      (fun x hx => hP x (List.mem_cons_of_mem _ hx)) (fun x hx => hE x (List.mem_cons_of_mem _ hx)) hc
      (fun x hxm => by
        simp only [if_neg (hne x hxm)]
        exact hi x (List.mem_cons_of_mem _ hxm))
      (fun x hxm => by
        simp only [if_neg (hne x hxm)]
        exact hx x (List.mem_cons_of_mem _ hxm))
    refine ⟨b', φ', ?_, h7.congr ?_⟩
    · rw [List.map_cons, hi g (List.mem_cons_self ..), h1]
      exact h6
    · intro x _
      by_cases c : x = g
      · subst c; simp [hnd.1]
      · simp [c]

/-- The selection phase when every game ends in a finished position. -/
theorem Copies.selectEnds {n : Nat} {a' : Nat → Store G Fl} {sel : List Nat} (L : List Nat) (hnd : L.Nodup)
    (hL : ∀ g ∈ L, g < n) {a : Nat → Store G Fl} {b : Store G Fl} {φ : Nat → Nat → Nat} (h : Copies n a b φ)
    (hx : ∀ g ∈ L, ∃ k kn rn w, Leaf (a g) 0 k kn ∧ (a g)[0]? = some rn ∧ G.winner kn.state = some w ∧
      backpropagate k (Fl.ofInt (outcome w (G.player rn.state))) (a g) = .ok (a' g)) :
    ∃ b', selectPhase L b sel false = .ok (b', sel, false) ∧ Copies n (fun g => if g ∈ L then a' g else a g) b' φ := by
  induction L generalizing a b with
  | nil => exact ⟨b, rfl, by simpa using h⟩
  | cons g L ih =>
    rw [List.nodup_cons] at hnd
    have hg : g < n := hL g (List.mem_cons_self ..)
    obtain ⟨k, kn, rn, w, h1, h2, h3, h4⟩ := hx g (List.mem_cons_self ..)
    have hc := h.copy g hg
    obtain ⟨b1, g1, g2, g3, g4, g5⟩ := hc.back (h.wfA g hg) h.wfB (List.getElem?_eq_some_iff.1 h1.2).1 h4
    have hsel : selectGame g b sel false = .ok (b1, sel, false) := by
      have hleaf := hc.leaf (h.wfA g hg) h1.1
      have hroot := hc.get 0 rn h2
      rw [h.root g hg] at hleaf hroot
      unfold selectGame
      rw [hleaf]
      show (getNode b (φ g k) >>= _) = _
      rw [getNode_ok.2 (hc.get k kn h1.2)]
      show (match G.winner kn.state with | some w => _ | none => _) = _
      rw [h3]
      simp only
      rw [getNode_ok.2 hroot]
      show (backpropagate (φ g k) (Fl.ofInt (outcome w (G.player rn.state))) b >>= _) = _
      rw [g1]
      rfl
    have hu := h.update hg g2 g3 g4 g5
    have hu' : Copies n (fun x => if x = g then a' g else a x) b1 φ := by
      have : (fun x => if x = g then φ g else φ x) = φ := by
        funext x
        by_cases c : x = g
        · rw [if_pos c, c]
        · rw [if_neg c]
      rwa [this] at hu
    have hne : ∀ x ∈ L, ¬ x = g := fun x hxm e => hnd.1 (e ▸ hxm)
    obtain ⟨b', h6, h7⟩ := ih hnd.2 (fun x hx => hL x (List.mem_cons_of_mem _ hx)) hu' (fun x hxm => by
        simp only [if_neg (hne x hxm)]
        exact hx x (List.mem_cons_of_mem _ hxm))
    refine ⟨b', ?_, h7.congr ?_⟩
    · unfold selectPhase
      rw [List.foldlM_cons]
      simp only
      rw [hsel]
      exact h6
    · intro x _
      by_cases c : x = g
      · subst c; simp [hnd.1]
      · simp [c]

/-- The selection phase when no game ends in a finished position. -/
theorem Copies.selectOpen {n : Nat} {k : Nat → Nat} (L : List Nat)
    (hL : ∀ g ∈ L, g < n) {a : Nat → Store G Fl} {b : Store G Fl} {φ : Nat → Nat → Nat} (h : Copies n a b φ)
    (hx : ∀ g ∈ L, ∃ kn, Leaf (a g) 0 (k g) kn ∧ G.winner kn.state = none) (sel : List Nat) (hsel : sel.length = n)
    (flag : Bool) :
    ∃ sel', selectPhase L b sel flag = .ok (b, sel', flag || !L.isEmpty) ∧ sel'.length = n ∧
      ∀ g, g < n → sel'[g]? = if g ∈ L then some (φ g (k g)) else sel[g]? := by
  induction L generalizing sel flag with
  | nil => exact ⟨sel, by simp [selectPhase, pure, Except.pure], hsel, by simp⟩
  | cons g L ih =>
    have hg : g < n := hL g (List.mem_cons_self ..)
    obtain ⟨kn, h1, h3⟩ := hx g (List.mem_cons_self ..)
    have hc := h.copy g hg
    have hsg : selectGame g b sel flag = .ok (b, sel.set g (φ g (k g)), true) := by
      have hleaf := hc.leaf (h.wfA g hg) h1.1
      rw [h.root g hg] at hleaf
      unfold selectGame
      rw [hleaf]
      show (getNode b (φ g (k g)) >>= _) = _
      rw [getNode_ok.2 (hc.get (k g) kn h1.2)]
      show (match G.winner kn.state with | some w => _ | none => _) = _
      rw [h3]
      simp only
      rw [if_pos (by omega)]
      have : (kn.move (φ g)).idx = φ g (k g) := by
        show φ g kn.idx = _
        rw [(h.wfA g hg).idx _ _ h1.2]
      rw [this]
      rfl
    obtain ⟨sel', h5, h6, h7⟩ := ih (fun x hx => hL x (List.mem_cons_of_mem _ hx))
      (fun x hxm => hx x (List.mem_cons_of_mem _ hxm)) (sel.set g (φ g (k g))) (by simpa using hsel) true
    refine ⟨sel', ?_, h6, ?_⟩
    · unfold selectPhase
      rw [List.foldlM_cons]
      simp only
      rw [hsg]
      refine Eq.trans h5 ?_
      simp
    · intro x hx'
      rw [h7 x hx']
      by_cases c : x ∈ L
      · rw [if_pos c, if_pos (List.mem_cons_of_mem _ c)]
      · rw [if_neg c]
        by_cases e : x = g
        · subst e
          rw [if_pos (List.mem_cons_self ..), List.getElem?_set_self (by omega)]
        · rw [if_neg (by simp [e, c]), List.getElem?_set_ne (Ne.symm e)]

end DieE.Mcts
