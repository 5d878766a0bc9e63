import Verif.Coupling
import Verif.Mcts.CopyBack
import Verif.Mcts.BatchSafe

/-!
# The batched search as many searches of one game: distributions

The batched search and the search of one of its games alone, as random computations: there is a random pair of trees of which
the first has the distribution of the batched search, the second that of the search alone, and the second is always the part
of the first that belongs to the game.
-/

namespace DieE.Mcts
open DieE.Prob
open DieE.Props.Ro (Shorts)
variable {G : Game} {Fl : Floats}

/-! ## Phases over all games -/

theorem expandPhase_cons (net : Net Fl) (P E : Tensor Fl.F) (x : Nat × Nat) (L : List (Nat × Nat)) (b : Store G Fl) :
    expandPhase net P E (x :: L) b = expandPhase net P E [x] b >>= fun b1 => expandPhase net P E L b1 := by
  obtain ⟨row, i⟩ := x
  simp only [expandPhase, bind_bind_M, pure_bind_M]

theorem expandRoots_cons (P : Tensor Fl.F) (i : Nat) (L : List Nat) (b : Store G Fl) :
    expandRoots P (i :: L) b = expandRoots P [i] b >>= fun b1 => expandRoots P L b1 := by
  simp only [expandRoots, bind_bind_M, pure_bind_M]

/-- The search alone of game `g` stands at its part of the store of the batch. -/
def Part (n g : Nat) (b a : Store G Fl) : Prop := ∃ (A : Nat → Store G Fl) (φ : Nat → Nat → Nat), Copies n A b φ ∧ A g = a

theorem Copies.rootsLaw (hd : Shorts G) {R : G.S → Prop} (hs : SafeNet G R) {P2 : Tensor Fl.F} {P1 : Nat → Tensor Fl.F}
    {states : List G.S} (g : Nat) (hP2 : P2.shape = [states.length, G.actionSpace]) (L : List Nat) (hnd : L.Nodup)
    (hL : ∀ x ∈ L, x < states.length) (hP : ∀ x ∈ L, P2.get x = (P1 x).get 0) {A : Nat → Store G Fl} {b : Store G Fl}
    {φ : Nat → Nat → Nat} (h : Copies states.length A b φ) (f : Forest states b) (hR : AllR R b) :
    Coupled (Part states.length g) (expandRoots P2 L b) (if g ∈ L then expandRoots (P1 g) [0] (A g) else pure (A g)) := by
  induction L generalizing A b φ with
  | nil => exact Coupled.pure ⟨A, φ, h, rfl⟩
  | cons x L ih =>
    rw [List.nodup_cons] at hnd
    have hx : x < states.length := hL x (List.mem_cons_self ..)
    have hP' : ∀ y ∈ L, P2.get y = (P1 y).get 0 := fun y hy => hP y (List.mem_cons_of_mem _ hy)
    have hL' : ∀ y ∈ L, y < states.length := fun y hy => hL y (List.mem_cons_of_mem _ hy)
    have step : ∀ t, ∃ a1 b1 ψ t1, expandRoots P2 [x] b t = .ok (b1, t1) ∧ expandRoots (P1 x) [0] (A x) t = .ok (a1, t1) ∧
        Copies states.length (fun y => if y = x then a1 else A y) b1 (fun y => if y = x then ψ else φ y) ∧
        Forest states b1 ∧ AllR R b1 := by
      intro t
      obtain ⟨b1, t1, h1, h2⟩ := expandRoots_progress hs hP2 [x] (by simpa using hx) b f hR t
      obtain ⟨a1, b2, ψ, t2, h3, h4, h5, h6, h7, h8⟩ := expandRoot_back (h.copy x hx) (h.wfA x hx) h.wfB (h.pos x hx)
        (h.root x hx) (hP x (List.mem_cons_self ..)) h1
      have h9 := M.pure_ok.1 (show (pure b2 : M (Store G Fl)) t2 = _ from h4)
      simp only [Prod.mk.injEq] at h9
      obtain ⟨rfl, rfl⟩ := h9
      exact ⟨a1, b1, ψ, t1, h1, h3, h.update hx h5 h6 h7 h8, (expandRoots_ok [x] f (by simpa using hx) h1).1, h2⟩
    rw [expandRoots_cons]
    by_cases hgx : g = x
    · subst hgx
      rw [if_pos (List.mem_cons_self ..), ← bind_pure_M (expandRoots (P1 g) [0] (A g))]
      refine Coupled.bind (R := fun b1 a1 => ∃ ψ, Copies states.length (fun y => if y = g then a1 else A y) b1
        (fun y => if y = g then ψ else φ y) ∧ Forest states b1 ∧ AllR R b1) ?_
        (fun _ => Versus.expandRoots_short hd ..) (fun _ => short_pure _) ?_
      · refine .tape (Versus.expandRoots_short hd ..) (Versus.expandRoots_short hd ..) fun t => ?_
        obtain ⟨a1, b1, ψ, t1, h1, h2, h3, h4, h5⟩ := step t
        exact ⟨b1, a1, t1, t1, h1, h2, ψ, h3, h4, h5⟩
      · rintro b1 a1 ⟨ψ, h3, h4, h5⟩
        have := ih hnd.2 hL' hP' h3 h4 h5
        rwa [if_neg hnd.1, if_pos rfl] at this
    · have e : (if g ∈ x :: L then expandRoots (P1 g) [0] (A g) else pure (A g)) =
          (pure () : M Unit) >>= fun _ => (if g ∈ L then expandRoots (P1 g) [0] (A g) else pure (A g)) := by
        rw [pure_bind_M]
        simp only [List.mem_cons, hgx, false_or]
      rw [e]
      refine Coupled.bind (R := fun b1 _ => ∃ a1 ψ, Copies states.length (fun y => if y = x then a1 else A y) b1
        (fun y => if y = x then ψ else φ y) ∧ Forest states b1 ∧ AllR R b1) ?_
        (fun _ => Versus.expandRoots_short hd ..) (fun _ => ?_) ?_
      · refine .tape (Versus.expandRoots_short hd ..) (short_pure _) fun t => ?_
        obtain ⟨a1, b1, ψ, t1, h1, h2, h3, h4, h5⟩ := step t
        exact ⟨b1, (), t1, t, h1, rfl, a1, ψ, h3, h4, h5⟩
      · split
        · exact Versus.expandRoots_short hd ..
        · exact short_pure _
      · rintro b1 - ⟨a1, ψ, h3, h4, h5⟩
        have := ih hnd.2 hL' hP' h3 h4 h5
        rwa [if_neg hgx] at this

theorem Copies.expandLaw (hd : Shorts G) {R : G.S → Prop} (hs : SafeNet G R) {net : Net Fl} {P2 E2 : Tensor Fl.F}
    {P1 E1 : Nat → Tensor Fl.F} {states : List G.S} (g : Nat) {k : Nat → Nat}
    (hP2 : P2.shape = [states.length, G.actionSpace]) (hE2 : E2.shape = [states.length, 1]) (L : List Nat) (hnd : L.Nodup)
    (hL : ∀ x ∈ L, x < states.length) (hP : ∀ x ∈ L, P2.get x = (P1 x).get 0) (hE : ∀ x ∈ L, E2.get x = (E1 x).get 0)
    {i : Nat → Nat} {A : Nat → Store G Fl} {b : Store G Fl} {φ : Nat → Nat → Nat} (h : Copies states.length A b φ)
    (f : Forest states b) (hR : AllR R b) (hk : ∀ x ∈ L, k x < (A x).length) (hi : ∀ x ∈ L, i x = φ x (k x)) :
    Coupled (Part states.length g) (expandPhase net P2 E2 (L.map fun x => (x, i x)) b)
      (if g ∈ L then expandPhase net (P1 g) (E1 g) [(0, k g)] (A g) else pure (A g)) := by
  induction L generalizing A b φ with
  | nil => exact Coupled.pure ⟨A, φ, h, rfl⟩
  | cons x L ih =>
    rw [List.nodup_cons] at hnd
    have hx : x < states.length := hL x (List.mem_cons_self ..)
    have hP' : ∀ y ∈ L, P2.get y = (P1 y).get 0 := fun y hy => hP y (List.mem_cons_of_mem _ hy)
    have hE' : ∀ y ∈ L, E2.get y = (E1 y).get 0 := fun y hy => hE y (List.mem_cons_of_mem _ hy)
    have hL' : ∀ y ∈ L, y < states.length := fun y hy => hL y (List.mem_cons_of_mem _ hy)
    have hne : ∀ y ∈ L, ¬ y = x := fun y hy e => hnd.1 (e ▸ hy)
    have hix : i x = φ x (k x) := hi x (List.mem_cons_self ..)
    have hkx := hk x (List.mem_cons_self ..)
    have hsel : ∀ p ∈ [(x, φ x (k x))], p.1 < states.length ∧ p.2 < b.length := by
      intro p hp
      rw [List.mem_singleton] at hp
      subst hp
      exact ⟨hx, (h.copy x hx).lt hkx⟩
    have step : ∀ t, ∃ a1 b1 ψ t1, expandPhase net P2 E2 [(x, i x)] b t = .ok (b1, t1) ∧
        expandPhase net (P1 x) (E1 x) [(0, k x)] (A x) t = .ok (a1, t1) ∧
        Copies states.length (fun y => if y = x then a1 else A y) b1 (fun y => if y = x then ψ else φ y) ∧
        Forest states b1 ∧ AllR R b1 := by
      intro t
      rw [hix]
      obtain ⟨b1, t1, h1, h2⟩ := expandPhase_progress hs (net := net) hP2 hE2 [(x, φ x (k x))] b f hR hsel t
      obtain ⟨a1, b2, ψ, t2, h3, h4, h5, h6, h7, h8⟩ := expandStep_back (h.copy x hx) (h.wfA x hx) h.wfB hkx
        (hP x (List.mem_cons_self ..)) (hE x (List.mem_cons_self ..)) h1
      have h9 := M.pure_ok.1 (show (pure b2 : M (Store G Fl)) t2 = _ from h4)
      simp only [Prod.mk.injEq] at h9
      obtain ⟨rfl, rfl⟩ := h9
      exact ⟨a1, b1, ψ, t1, h1, h3, h.update hx h5 h6 h7 h8,
        (expandPhase_ok _ f (fun p hp => (hsel p hp).2) h1).1, h2⟩
    have rest : ∀ (a1 b1 : Store G Fl) (ψ : Nat → Nat),
        Copies states.length (fun y => if y = x then a1 else A y) b1 (fun y => if y = x then ψ else φ y) →
        Forest states b1 → AllR R b1 → Coupled (Part states.length g) (expandPhase net P2 E2 (L.map fun x => (x, i x)) b1)
          (if g ∈ L then expandPhase net (P1 g) (E1 g) [(0, k g)] (if g = x then a1 else A g)
            else pure (if g = x then a1 else A g)) := by
      intro a1 b1 ψ h3 h4 h5
      refine ih hnd.2 hL' hP' hE' h3 h4 h5 (fun y hy => ?_) (fun y hy => ?_)
      · rw [if_neg (hne y hy)]
        exact hk y (List.mem_cons_of_mem _ hy)
      · rw [if_neg (hne y hy)]
        exact hi y (List.mem_cons_of_mem _ hy)
    rw [List.map_cons, expandPhase_cons]
    by_cases hgx : g = x
    · subst hgx
      rw [if_pos (List.mem_cons_self ..), ← bind_pure_M (expandPhase net (P1 g) (E1 g) [(0, k g)] (A g))]
      refine Coupled.bind (R := fun b1 a1 => ∃ ψ, Copies states.length (fun y => if y = g then a1 else A y) b1
        (fun y => if y = g then ψ else φ y) ∧ Forest states b1 ∧ AllR R b1) ?_
        (fun _ => Versus.expandPhase_short hd ..) (fun _ => short_pure _) ?_
      · refine .tape (Versus.expandPhase_short hd ..) (Versus.expandPhase_short hd ..) fun t => ?_
        obtain ⟨a1, b1, ψ, t1, h1, h2, h3, h4, h5⟩ := step t
        exact ⟨b1, a1, t1, t1, h1, h2, ψ, h3, h4, h5⟩
      · rintro b1 a1 ⟨ψ, h3, h4, h5⟩
        have := rest a1 b1 ψ h3 h4 h5
        rwa [if_neg hnd.1, if_pos rfl] at this
    · have e : (if g ∈ x :: L then expandPhase net (P1 g) (E1 g) [(0, k g)] (A g) else pure (A g)) =
          (pure () : M Unit) >>= fun _ => (if g ∈ L then expandPhase net (P1 g) (E1 g) [(0, k g)] (A g) else pure (A g)) := by
        rw [pure_bind_M]
        simp only [List.mem_cons, hgx, false_or]
      rw [e]
      refine Coupled.bind (R := fun b1 _ => ∃ a1 ψ, Copies states.length (fun y => if y = x then a1 else A y) b1
        (fun y => if y = x then ψ else φ y) ∧ Forest states b1 ∧ AllR R b1) ?_
        (fun _ => Versus.expandPhase_short hd ..) (fun _ => ?_) ?_
      · refine .tape (Versus.expandPhase_short hd ..) (short_pure _) fun t => ?_
        obtain ⟨a1, b1, ψ, t1, h1, h2, h3, h4, h5⟩ := step t
        exact ⟨b1, (), t1, t, h1, rfl, a1, ψ, h3, h4, h5⟩
      · split
        · exact Versus.expandPhase_short hd ..
        · exact short_pure _
      · rintro b1 - ⟨a1, ψ, h3, h4, h5⟩
        have := rest a1 b1 ψ h3 h4 h5
        rwa [if_neg hgx] at this

/-! ## An iteration -/

theorem single_open_eq (net : Net Fl) {a : Store G Fl} (w : WellFormed a) {x k : Nat} {kn : Node G Fl} {u y : Tensor Int}
    (hl : Leaf a 0 k kn) (hw : G.winner kn.state = none) (hu : G.tensor kn.state = .ok u) (hy : batchTensor [u] = .ok y) :
    parallelIteration net [0] a [x] =
      expandPhase net (net.policyTensor G y) (net.evalTensor y) [(0, k)] a >>= fun a' => pure (a', [k]) := by
  have hs : selectPhase [0] a [x] false = .ok (a, [k], true) := by
    unfold selectPhase
    rw [List.foldlM_cons]
    simp only
    have : selectGame 0 a [x] false = .ok (a, [k], true) := by
      unfold selectGame
      rw [hl.1]
      show (getNode a k >>= _) = _
      rw [getNode_ok.2 hl.2]
      show (match G.winner kn.state with | some w => _ | none => _) = _
      rw [hw]
      simp only
      rw [if_pos (by simp), w.idx k kn hl.2]
      rfl
    rw [this]
    rfl
  funext t
  unfold parallelIteration
  refine (M.run (M.lift_ok.2 ⟨hs, rfl⟩)).trans ?_
  simp only
  rw [if_neg (by simp)]
  refine (M.run (r := [u]) (M.lift_ok.2 ⟨?_, rfl⟩)).trans ?_
  · rw [List.mapM_cons, getNode_ok.2 hl.2]
    show (G.tensor kn.state >>= _) = _
    rw [hu]
    rfl
  · exact (M.run (M.lift_ok.2 ⟨hy, rfl⟩)).trans rfl

/-- The search alone of game `g` stands at its part of the store of the batch, in a loop. -/
def PartAt (n g : Nat) (p q : Store G Fl × List Nat) : Prop := Part n g p.1 q.1 ∧ ∃ x, q.2 = [x]

/-- An iteration of the batched search and one of a search alone, when either all or none of the games end in a finished
position. -/
theorem Copies.iterationLaw (hd : Shorts G) {R : G.S → Prop} (hs : SafeNet G R) {net : Net Fl} (hr : RowWise net G)
    {states : List G.S} {g : Nat} (hgn : g < states.length) {order : List Nat}
    (ho : order.Perm (List.range states.length)) {a : Nat → Store G Fl} {b : Store G Fl} {φ : Nat → Nat → Nat}
    (h : Copies states.length a b φ) (f : Forest states b) (hR : AllR R b)
    (hall : (∀ g, g < states.length → ∀ k kn, Leaf b g k kn → G.winner kn.state = none) ∨
      (∀ g, g < states.length → ∀ k kn, Leaf b g k kn → G.winner kn.state ≠ none)) {sel : List Nat}
    (hsel : sel.length = states.length) (x : Nat) :
    Coupled (PartAt states.length g) (parallelIteration net order b sel) (parallelIteration net [0] (a g) [x]) := by
  have hn : 0 < states.length := by omega
  have hnd : order.Nodup := ho.nodup_iff.2 List.nodup_range
  have hmem : ∀ g, g ∈ order ↔ g < states.length := fun g => by rw [ho.mem_iff, List.mem_range]
  have key : ∀ g, ∃ k kn rn, g < states.length → Leaf (a g) 0 k kn ∧ (a g)[0]? = some rn ∧
      Leaf b g (φ g k) (kn.move (φ g)) := by
    intro g
    by_cases hg : g < states.length
    · obtain ⟨k, kn, h1, h2, -, -⟩ := alphaLeafNode_spec (h.wfA g hg) 0 (h.pos g hg)
      have h3 := (h.copy g hg).leaf (h.wfA g hg) h1
      rw [h.root g hg] at h3
      exact ⟨k, kn, _, fun _ => ⟨⟨h1, h2⟩, List.getElem?_eq_getElem (h.pos g hg), h3, (h.copy g hg).get k kn h2⟩⟩
    · obtain ⟨k, kn, h1, h2, -, -⟩ := alphaLeafNode_spec (h.wfA 0 hn) 0 (h.pos 0 hn)
      exact ⟨k, kn, kn, fun h => absurd h hg⟩
  choose k kn rn hk using key
  rcases hall with hopen | hends
  · have hw : ∀ g, g < states.length → G.winner (kn g).state = none :=
      fun g hg => hopen g hg _ ((kn g).move (φ g)) (hk g hg).2.2
    obtain ⟨sel2, h1, h2, h3⟩ := h.selectOpen (k := k) order (fun g hg => (hmem g).1 hg)
      (fun g hg => ⟨kn g, (hk g ((hmem g).1 hg)).1, hw g ((hmem g).1 hg)⟩) sel hsel false
    have hsel2 : sel2 = (List.range states.length).map fun g => φ g (k g) := by
      apply List.ext_getElem?
      intro g
      by_cases hg : g < states.length
      · rw [h3 g hg, if_pos ((hmem g).2 hg)]
        simp [hg]
      · rw [List.getElem?_eq_none (by omega), List.getElem?_eq_none (by simp; omega)]
    have hne : (false || !order.isEmpty) = true := by
      cases order with
      | nil => have := (hmem 0).2 hn; cases this
      | cons _ _ => rfl
    rw [hne] at h1
    obtain ⟨sh, hsh⟩ := hr.shape
    obtain ⟨sh0, hsh0⟩ := hs.tensor
    have key2 : ∀ g, ∃ u y, g < states.length → G.tensor (kn g).state = .ok u ∧ batchTensor [u] = .ok y := by
      intro g
      by_cases hg : g < states.length
      · obtain ⟨u, h8, -⟩ := hsh0 (kn g).state (hR _ ((kn g).move (φ g)) (hk g hg).2.2.2)
        obtain ⟨y, h10, -⟩ := batchTensor_ok (sh := sh) (ts := [u]) (by simp) (by
          intro v hv
          simp only [List.mem_singleton] at hv
          subst hv
          exact hsh _ _ h8)
        exact ⟨u, y, fun _ => ⟨h8, h10⟩⟩
      · exact ⟨⟨[], fun _ => 0⟩, ⟨[], fun _ => 0⟩, fun h => absurd h hg⟩
    choose u y huy using key2
    obtain ⟨xb, h8, ⟨sh', h9'⟩, h9⟩ := hr.batch hn (s := fun g => (kn g).state) (u := u) (y := y)
      (fun g hg => (huy g hg).1) (fun g hg => (huy g hg).2)
    have hts : (sel2.mapM fun i => do
        let n ← getNode b i
        G.tensor n.state) = .ok ((List.range states.length).map u) := by
      rw [hsel2, List.mapM_map]
      refine mapM_map _ fun g hg => ?_
      have hg := List.mem_range.1 hg
      show (getNode b (φ g (k g)) >>= _) = _
      rw [getNode_ok.2 (hk g hg).2.2.2]
      exact (huy g hg).1
    have hzip : (List.range sel2.length).zip sel2 = (List.range states.length).map fun g => (g, φ g (k g)) := by
      rw [h2, hsel2]
      apply List.ext_getElem?
      intro g
      by_cases hg : g < states.length
      · have e : ((List.range states.length).zip ((List.range states.length).map fun g => φ g (k g)))[g]? =
            some (g, φ g (k g)) := List.getElem?_zip_eq_some.2 ⟨by simp [hg], by simp [hg]⟩
        rw [e]
        simp [hg]
      · rw [List.getElem?_eq_none (by simp; omega), List.getElem?_eq_none (by simp; omega)]
    have e1 : parallelIteration net order b sel = expandPhase net (net.policyTensor G xb) (net.evalTensor xb)
        ((List.range states.length).map fun g => (g, φ g (k g))) b >>= fun b' => pure (b', sel2) := by
      funext t
      unfold parallelIteration
      refine (M.run (M.lift_ok.2 ⟨h1, rfl⟩)).trans ?_
      simp only
      rw [if_neg (by simp)]
      refine (M.run (M.lift_ok.2 ⟨hts, rfl⟩)).trans ?_
      refine (M.run (M.lift_ok.2 ⟨h8, rfl⟩)).trans ?_
      rw [hzip]
    rw [e1, single_open_eq net (h.wfA g hgn) (hk g hgn).1 (hw g hgn) (huy g hgn).1 (huy g hgn).2]
    have hc := Copies.expandLaw hd hs (net := net) (P2 := net.policyTensor G xb) (E2 := net.evalTensor xb)
      (P1 := fun g => net.policyTensor G (y g)) (E1 := fun g => net.evalTensor (y g)) g (k := k)
      (by simp [Net.policyTensor, h9']) (by simp [Net.evalTensor, h9'])
      (List.range states.length) List.nodup_range (fun g hg => List.mem_range.1 hg)
      (fun g hg => (h9 g (List.mem_range.1 hg)).2.2.2.1) (fun g hg => (h9 g (List.mem_range.1 hg)).2.2.2.2)
      (i := fun g => φ g (k g)) h f hR
      (fun g hg => (List.getElem?_eq_some_iff.1 (hk g (List.mem_range.1 hg)).1.2).1) (fun _ _ => rfl)
    rw [if_pos (List.mem_range.2 hgn)] at hc
    exact hc.bind (fun _ => short_pure _) (fun _ => short_pure _) fun b' a' hp => Coupled.pure ⟨hp, _, rfl⟩
  · have key2 : ∀ g, ∃ wn a1, g < states.length → G.winner (kn g).state = some wn ∧
        backpropagate (k g) (Fl.ofInt (outcome wn (G.player (rn g).state))) (a g) = .ok a1 := by
      intro g
      by_cases hg : g < states.length
      · cases hw : G.winner (kn g).state with
        | none => exact absurd hw (hends g hg _ ((kn g).move (φ g)) (hk g hg).2.2)
        | some wn =>
          obtain ⟨a1, h1, -⟩ := backpropagate_spec (Fl.ofInt (outcome wn (G.player (rn g).state))) (k g) (a g)
            (h.wfA g hg).upLt (List.getElem?_eq_some_iff.1 (hk g hg).1.2).1
          exact ⟨wn, a1, fun _ => ⟨rfl, h1⟩⟩
      · exact ⟨0, [], fun h => absurd h hg⟩
    choose wn a' hw using key2
    obtain ⟨b2, h1, h2⟩ := h.selectEnds (a' := a') (sel := sel) order hnd (fun g hg => (hmem g).1 hg)
      (fun g hg => ⟨k g, kn g, rn g, wn g, (hk g ((hmem g).1 hg)).1, (hk g ((hmem g).1 hg)).2.1,
        (hw g ((hmem g).1 hg)).1, (hw g ((hmem g).1 hg)).2⟩)
    refine .tape (Versus.parallelIteration_short hd ..) (Versus.parallelIteration_short hd ..) fun t => ?_
    refine ⟨(b2, sel), (a' g, [x]), t, t, ?_, single_end (hk g hgn).1 (hk g hgn).2.1 (hw g hgn).1 (hw g hgn).2, ⟨a', φ, ?_, rfl⟩, x, rfl⟩
    · unfold parallelIteration
      exact (M.run (M.lift_ok.2 ⟨h1, rfl⟩)).trans rfl
    · exact h2.congr fun g hg => by rw [if_pos ((hmem g).2 hg)]

/-! ## The start -/

theorem start_eq {net : Net Fl} {states : List G.S}
    (hok : ∀ t, ∃ b t', parallelStart net states ([] : Store G Fl) t = .ok (b, t')) {ts : List (Tensor Int)} {x : Tensor Int}
    {st : Store G Fl} {codes : List (List Nat)} (h1 : states.mapM G.tensor = .ok ts) (h2 : batchTensor ts = .ok x)
    (h3 : addRoots states [] = .ok st) (h4 : (List.range states.length).mapM (fun i => do
        let n ← getNode st i
        codesOf n) = .ok codes) :
    parallelStart net states [] =
      M.draw >>= fun r => expandRoots (rootPriors net G x r codes) (List.range states.length) st := by
  funext t
  obtain ⟨b, t', h⟩ := hok t
  obtain ⟨ts', x', r, t1, st', codes', k1, k2, -, -, k3, k4, k5, -, k6⟩ := start_iff.1 h
  have : ts' = ts := Except.ok.inj (k1.symm.trans h1)
  subst this
  have : x' = x := Except.ok.inj (k2.symm.trans h2)
  subst this
  have : st' = st := Except.ok.inj (k4.symm.trans h3)
  subst this
  have : codes' = codes := Except.ok.inj (k5.symm.trans h4)
  subst this
  rw [h]
  exact ((M.run k3).trans k6).symm

/-- The start of the batched search and that of a search alone. -/
theorem start_law (hd : Shorts G) {R : G.S → Prop} (hs : SafeNet G R) {net : Net Fl} (hal : net.alphaOk = true)
    (hr : RowWise net G) {states : List G.S} (hR : ∀ s ∈ states, R s) {g : Nat} {s0 : G.S} (hg0 : states[g]? = some s0) :
    Coupled (Part states.length g) (parallelStart net states ([] : Store G Fl)) (parallelStart net [s0] []) := by
  have hgn : g < states.length := (List.getElem?_eq_some_iff.1 hg0).1
  have hn : 0 < states.length := by omega
  have hne : states ≠ [] := List.length_pos_iff.1 hn
  have hok := fun t => parallelStart_progress (Fl := Fl) hs (net := net) hal hne hR t
  have hok1 := fun t => parallelStart_progress (Fl := Fl) hs (net := net) hal (states := [s0]) (by simp) (by
    intro s hs'
    rw [List.mem_singleton] at hs'
    subst hs'
    exact hR _ (List.mem_of_getElem? hg0)) t
  obtain ⟨b, t', hx, -⟩ := hok fun _ => 0
  obtain ⟨ts, x, r0, t1, st, cs, h1, h2, hA, -, hdraw, h4, h7, h8, -⟩ := start_iff.1 hx
  obtain ⟨hl1, hts⟩ := mapM_get _ h1
  obtain ⟨hl2, hcs⟩ := mapM_get _ h7
  obtain ⟨sh, hsh⟩ := hr.shape
  have key1 : ∀ g, ∃ s ms, g < states.length → states[g]? = some s ∧ G.moves s = .ok ms := by
    intro g
    by_cases hg : g < states.length
    · obtain ⟨s, hs⟩ : ∃ s, states[g]? = some s := ⟨_, List.getElem?_eq_getElem hg⟩
      obtain ⟨ms, hms⟩ := addRoots_moves states h4 g s hs
      exact ⟨s, ms, fun _ => ⟨hs, hms⟩⟩
    · exact ⟨s0, [], fun h => absurd h hg⟩
  choose s ms hsm using key1
  obtain ⟨st', h4', h5, h6⟩ := addRoots_all (Fl := Fl) states ms [] (by
    intro g s' hs
    have hg := (List.getElem?_eq_some_iff.1 hs).1
    have := (hsm g hg).1
    rw [hs] at this
    injection this with this
    subst this
    exact (hsm g hg).2)
  simp only [List.nil_append, List.length_nil, Nat.zero_add] at h4' h6
  rw [h4] at h4'
  cases Except.ok.inj h4'
  have hget : ∀ g, g < states.length → st[g]? = some (freshNode (s g) g none none (Fl.ofInt 0) (ms g)) :=
    fun g hg => h6 g (s g) (hsm g hg).1
  have key : ∀ g, ∃ u y codes, g < states.length → G.tensor (s g) = .ok u ∧ ts[g]? = some u ∧
      batchTensor [u] = .ok y ∧ (ms g).mapM (G.encode (s g)) = .ok codes ∧ cs[g]? = some codes := by
    intro g
    by_cases hg : g < states.length
    · obtain ⟨u, k1, k2⟩ := hts g (s g) (hsm g hg).1
      obtain ⟨y, k3, -⟩ := batchTensor_ok (sh := sh) (ts := [u]) (by simp) (by
          intro v hv
          simp only [List.mem_singleton] at hv
          subst hv
          exact hsh _ _ k1)
      obtain ⟨codes, k4, k5⟩ := hcs g g (by simp [hg])
      rw [getNode_ok.2 (hget g hg)] at k4
      exact ⟨u, y, codes, fun _ => ⟨k1, k2, k3, k4, k5⟩⟩
    · exact ⟨⟨[], fun _ => 0⟩, ⟨[], fun _ => 0⟩, [], fun h => absurd h hg⟩
  choose u y codes hk using key
  have hts2 : ts = (List.range states.length).map u := by
    apply List.ext_getElem?
    intro g
    by_cases hg : g < states.length
    · rw [(hk g hg).2.1]; simp [hg]
    · rw [List.getElem?_eq_none (by omega), List.getElem?_eq_none (by simp; omega)]
  obtain ⟨x', k1, ⟨sh', k2⟩, k3⟩ := hr.batch hn (s := s) (u := u) (y := y) (fun g hg => (hk g hg).1)
    (fun g hg => (hk g hg).2.2.1)
  rw [← hts2, h2] at k1
  cases Except.ok.inj k1
  obtain ⟨f, -⟩ := addRoots_ok states h4 [] forest_nil rfl
  simp only [List.nil_append] at f
  have hone : ∀ g, g < states.length → addRoots (Fl := Fl) [s g] [] =
      .ok [freshNode (s g) 0 none none (Fl.ofInt 0) (ms g)] := by
    intro g hg
    unfold addRoots
    rw [addNode_ok.2 ⟨ms g, (hsm g hg).2, rfl, rfl⟩]
    rfl
  have hc0 : Copies states.length (fun g => [freshNode (Fl := Fl) (s g) 0 none none (Fl.ofInt 0) (ms g)]) st
      (fun g _ => g) := by
    refine ⟨?_, ?_, f.wf, ?_, fun _ _ => rfl, fun _ _ => Nat.zero_lt_one, ?_⟩
    · intro g hg
      refine ⟨?_, ?_, ?_⟩
      · intro q q' hq hq' _
        simp at hq hq'
        omega
      · intro q n hq
        have := (List.getElem?_eq_some_iff.1 hq).1
        simp at this
        subst this
        simp at hq
        subst hq
        exact hget g hg
      · simp; omega
    · intro g hg
      exact (addRoots_ok _ (hone g hg) [] forest_nil rfl).1.wf
    · intro g g' _ _ hne _ _ _ _
      exact hne
    · intro j hj
      exact ⟨j, 0, by omega, Nat.zero_lt_one, rfl⟩
  have hrow : ∀ r g, g < states.length →
      (rootPriors net G x r cs).get g = (rootPriors net G (y g) r [codes g]).get 0 := by
    intro r g hg
    obtain ⟨⟨sh', h7⟩, h8, -⟩ := k3 g hg
    exact rootPriors_get k2 hg h7 h8 (hk g hg).2.2.2.2
  obtain ⟨st2, h10, hRst⟩ := addRoots_progress (Fl := Fl) hs states hR [] (by intro i n h; simp at h)
  have : st2 = st := Except.ok.inj (h10.symm.trans h4)
  subst this
  have hs0 : s g = s0 := by
    have := (hsm g hgn).1
    rw [hg0] at this
    exact (Option.some.inj this).symm
  have hone' := hone g hgn
  rw [start_eq (fun t => (hok t).imp fun _ h => h.imp fun _ h => h.1) h1 h2 h4 h7,
    start_eq (st := [freshNode (s g) 0 none none (Fl.ofInt 0) (ms g)]) (codes := [codes g])
      (fun t => (hok1 t).imp fun _ h => h.imp fun _ h => h.1) (ts := [u g]) (x := y g) (by
        rw [List.mapM_cons, ← hs0, (hk g hgn).1]
        rfl) (hk g hgn).2.2.1 (by rw [← hs0]; exact hone') (by
        show (List.range 1).mapM _ = _
        rw [show List.range 1 = [0] from rfl, List.mapM_cons]
        show ((ms g).mapM (G.encode (s g)) >>= _) = _
        rw [(hk g hgn).2.2.2.1]
        rfl)]
  refine Coupled.bind (R := Eq) (.tape short_draw short_draw fun t => ⟨_, _, _, _, rfl, rfl, rfl⟩)
    (fun _ => Versus.expandRoots_short hd ..) (fun _ => Versus.expandRoots_short hd ..) ?_
  rintro r _ rfl
  have hc := Copies.rootsLaw hd hs (P2 := rootPriors net G x r cs) (P1 := fun g => rootPriors net G (y g) r [codes g]) g
    (by simp [rootPriors, k2]) (List.range states.length) List.nodup_range (fun g hg => List.mem_range.1 hg)
    (fun g hg => hrow r g (List.mem_range.1 hg)) hc0 f hRst
  rwa [if_pos (List.mem_range.2 hgn)] at hc

/-! ## The search -/

theorem parallelIterate_snoc (net : Net Fl) (order : List Nat) (k : Nat) (st : Store G Fl) (sel : List Nat) :
    parallelIterate net order (k + 1) st sel =
      parallelIterate net order k st sel >>= fun p => parallelIteration net order p.1 p.2 := by
  induction k generalizing st sel with
  | zero =>
    unfold parallelIterate
    show (parallelIteration net order st sel >>= fun p => pure (p.1, p.2)) = _
    exact bind_pure_M _
  | succ k ih =>
    conv => lhs; unfold parallelIterate
    conv => rhs; unfold parallelIterate
    rw [bind_bind_M]
    congr 1
    funext p
    exact ih p.1 p.2

/-- The batched search and the search alone of one of its games, if in every iteration of the batched search, whatever the
random numbers, either all or none of the games end in a finished position. -/
theorem search_law (hd : Shorts G) {R : G.S → Prop} (hs : SafeNet G R) {net : Net Fl} (hal : net.alphaOk = true)
    (hr : RowWise net G) {states : List G.S} (hR : ∀ s ∈ states, R s) {order : List Nat}
    (ho : order.Perm (List.range states.length)) {iterations : Nat}
    (hstep : ∀ t, Abreast net order states iterations t) {g : Nat} {s : G.S} (hg : states[g]? = some s) :
    Coupled (fun b a => (∃ φ, Copy a b φ ∧ φ 0 = g) ∧ Forest states b ∧ Forest [s] a)
      (alphaMctsParallel net order states iterations ([] : Store G Fl)) (alphaMctsParallel net [0] [s] iterations []) := by
  have hgn : g < states.length := (List.getElem?_eq_some_iff.1 hg).1
  have hne : states ≠ [] := by rintro rfl; simp at hg
  have main : ∀ i, i ≤ iterations → Coupled (PartAt states.length g)
      (parallelStart net states ([] : Store G Fl) >>= fun st =>
        parallelIterate net order i st (List.replicate states.length 0))
      (parallelStart net [s] ([] : Store G Fl) >>= fun st => parallelIterate net [0] i st [0]) := by
    intro i
    induction i with
    | zero =>
      intro _
      refine (start_law hd hs hal hr hR hg).bind (fun _ => short_pure _) (fun _ => short_pure _) fun b a h => ?_
      exact Coupled.pure ⟨h, 0, rfl⟩
    | succ i ih =>
      intro hi
      have e : ∀ (ord : List Nat) (ss : List G.S) (sel : List Nat),
          (parallelStart net ss ([] : Store G Fl) >>= fun st => parallelIterate net ord (i + 1) st sel) =
          (parallelStart net ss ([] : Store G Fl) >>= fun st => parallelIterate net ord i st sel) >>= fun p =>
            parallelIteration net ord p.1 p.2 := by
        intro ord ss sel
        rw [bind_bind_M]
        congr 1
        funext st
        exact parallelIterate_snoc ..
      rw [e, e]
      refine (ih (by omega)).occur.bind (fun _ => Versus.parallelIteration_short hd ..)
        (fun _ => Versus.parallelIteration_short hd ..) ?_
      rintro ⟨b, sel⟩ ⟨a, xs⟩ ⟨⟨⟨A, φ, h1, h2⟩, x, h3⟩, ⟨t, t', h4⟩, -⟩
      simp only at h1 h2 h3
      subst h3
      subst h2
      obtain ⟨st0, t0, h5, h6⟩ := M.bind_ok.1 h4
      have halpha : alphaMctsParallel net order states i [] t = .ok (b, t') := by
        unfold alphaMctsParallel
        refine (M.run h5).trans ?_
        exact (M.run h6).trans rfl
      obtain ⟨b', t'', h7, h8⟩ := alphaMctsParallel_progress (Fl := Fl) hs (net := net) hal hne hR ho i t
      rw [halpha] at h7
      have h7 := Except.ok.inj h7
      simp only [Prod.mk.injEq] at h7
      obtain ⟨rfl, rfl⟩ := h7
      obtain ⟨f0, -⟩ := parallelStart_ok h5
      obtain ⟨f, hsel, -⟩ := parallelIterate_ok (perm_range ho).1 (perm_range ho).2 i f0 (selOk_replicate f0) h6
      exact Copies.iterationLaw hd hs hr hgn ho h1 f h8 (hstep t i (by omega) b t' halpha) hsel.len x
  have e : ∀ (ord : List Nat) (ss : List G.S), alphaMctsParallel net ord ss iterations ([] : Store G Fl) =
      (parallelStart net ss ([] : Store G Fl) >>= fun st =>
        parallelIterate net ord iterations st (List.replicate ss.length 0)) >>= fun p => pure p.1 := by
    intro ord ss
    rw [bind_bind_M]
    rfl
  have h : Coupled (Part states.length g) (alphaMctsParallel net order states iterations ([] : Store G Fl))
      (alphaMctsParallel net [0] [s] iterations []) := by
    rw [e, e]
    exact (main iterations le_rfl).bind (fun _ => short_pure _) (fun _ => short_pure _) fun p q h => Coupled.pure h.1
  refine h.occur.mono ?_
  rintro b a ⟨⟨A, φ, h1, rfl⟩, ⟨t, t', h2⟩, ⟨u, u', h3⟩⟩
  exact ⟨⟨φ g, h1.copy g hgn, h1.root g hgn⟩, alphaMctsParallel_forest ho h2,
    alphaMctsParallel_forest (states := [s]) (order := [0]) (by simp) h3⟩

end DieE.Mcts
