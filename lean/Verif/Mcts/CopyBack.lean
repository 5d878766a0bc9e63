import Verif.Mcts.CopyRun
import Verif.Versus.Short

/-!
# The batched search as many searches of one game: from the batch to the games

The searches of `CopyRun` are for games without chance.  Here the batched search is given, and the searches of its games
alone are built from it, on the random numbers it used for the game in question.
-/

namespace DieE.Mcts
open DieE.Prob
open DieE.Props.Ro (Shorts)
variable {G : Game} {Fl : Floats}

/-! ## Replaying random numbers -/

theorem prog_replay {α : Type} (T : Prog α) (t u : Tape) : ∃ v, T.run v = ((T.run t).1, u) := by
  induction T generalizing t with
  | done a => exact ⟨u, rfl⟩
  | read f ih =>
    obtain ⟨v, hv⟩ := ih (t 0) (tail t)
    exact ⟨cons (t 0, v), hv⟩

/-- What can be returned can be returned with any numbers left over. -/
theorem replay {α : Type} {m : M α} (h : Short m) {t t' : Tape} {x : α} (hx : m t = .ok (x, t')) (u : Tape) :
    ∃ v, m v = .ok (x, u) := by
  obtain ⟨T, hT⟩ := h
  obtain ⟨v, hv⟩ := prog_replay T t u
  refine ⟨v, ?_⟩
  have h1 := hT t
  rw [hx] at h1
  rw [hT v, hv]
  cases hr : (T.run t).1 with
  | error e => rw [hr] at h1; cases h1
  | ok y =>
    rw [hr] at h1
    have := Except.ok.inj h1
    simp only [Prod.mk.injEq] at this
    show Except.ok (y, u) = _
    rw [this.1]

/-! ## Expansion -/

theorem loop_back {n n2 : Node G Fl} {prior : Nat → Res Fl.F} (hs : n2.state = n.state) (as : List G.Mv)
    {b b' : Store G Fl} {ch2 ch2' : List Nat} {t t' : Tape}
    (h : alphaExpandLoop n2 prior as b ch2 t = .ok ((b', ch2'), t')) (a : Store G Fl) (ch : List Nat) :
    ∃ news news2 : List (Node G Fl), b' = b ++ news2 ∧ news.length = as.length ∧ news2.length = as.length ∧
      alphaExpandLoop n prior as a ch t = .ok ((a ++ news, ch ++ List.range' a.length as.length), t') ∧
      ∀ (j : Nat) (m : Node G Fl), news[j]? = some m → news2[j]? = some (m.place (b.length + j) n2.idx) := by
  induction as generalizing b ch2 t a ch with
  | nil =>
    have := M.pure_ok.1 h
    simp only [Prod.mk.injEq] at this
    obtain ⟨⟨rfl, rfl⟩, rfl⟩ := this
    exact ⟨[], [], by simp, rfl, rfl, M.pure_ok.2 (by simp), by simp⟩
  | cons x as ih =>
    unfold alphaExpandLoop at h
    obtain ⟨code, t1, h1, h⟩ := M.bind_ok.1 h
    obtain ⟨value, t2', h2, h⟩ := M.bind_ok.1 h
    obtain ⟨next, t3, h3, h⟩ := M.bind_ok.1 h
    obtain ⟨⟨st1, c⟩, t4, h4, hrest⟩ := M.bind_ok.1 h
    rw [M.lift_ok, addNode_ok] at h4
    obtain ⟨⟨ms, hm, rfl, rfl⟩, rfl⟩ := h4
    rw [M.lift_ok] at h1 h2
    obtain ⟨h1, rfl⟩ := h1
    obtain ⟨h2, rfl⟩ := h2
    obtain ⟨news, news2, g1, g2, g3, g4, g5⟩ := ih hrest (a ++ [freshNode next a.length (some n.idx) (some x) value ms])
      (ch ++ [a.length])
    refine ⟨freshNode next a.length (some n.idx) (some x) value ms :: news,
      freshNode next b.length (some n2.idx) (some x) value ms :: news2, by rw [g1]; simp, by simp [g2], by simp [g3],
      ?_, ?_⟩
    · unfold alphaExpandLoop
      refine M.bind_ok.2 ⟨code, t2', M.lift_ok.2 ⟨by rw [← hs]; exact h1, rfl⟩, ?_⟩
      refine M.bind_ok.2 ⟨value, t2', M.lift_ok.2 ⟨h2, rfl⟩, ?_⟩
      refine M.bind_ok.2 ⟨next, t4, by rw [← hs]; exact h3, ?_⟩
      refine M.bind_ok.2 ⟨(_, _), t4, M.lift_ok.2 ⟨addNode_ok.2 ⟨ms, hm, rfl, rfl⟩, rfl⟩, ?_⟩
      refine Eq.trans g4 ?_
      simp [List.range'_succ]
    · intro j m hj
      cases j with
      | zero =>
        simp only [List.getElem?_cons_zero, Option.some.injEq] at hj ⊢
        subst hj
        rfl
      | succ j =>
        rw [List.getElem?_cons_succ] at hj ⊢
        rw [g5 j m hj]
        congr 2
        simp
        omega

/-- Expansion of the copy of a node is an expansion of the original on the same random numbers. -/
theorem Copy.expandBack {a b b' : Store G Fl} {φ : Nat → Nat} (h : Copy a b φ) (w : WellFormed a)
    (wb : WellFormed b) {q : Nat} {n0 n nb : Node G Fl} (hq : a[q]? = some n0) (hn : n.shape = n0.shape)
    {prior : Nat → Res Fl.F} {t t' : Tape} (hb : alphaExpandWith (n.move φ) prior b t = .ok ((b', nb), t')) :
    ∃ a' n' ψ, alphaExpandWith n prior a t = .ok ((a', n'), t') ∧ nb = n'.move ψ ∧ Copy a' b' ψ ∧
      Local a a' b b' φ ψ ∧ WellFormed a' ∧ WellFormed b' ∧ n'.idx = q ∧ a'[q]? = some n' := by
  have hs := hn
  simp only [Node.shape, Prod.mk.injEq] at hs
  obtain ⟨s1, s2, s3, s4, s5, s6⟩ := hs
  have hidx : n.idx = q := s2.trans (w.idx q n0 hq)
  have hql : q < a.length := (List.getElem?_eq_some_iff.1 hq).1
  have hb0 := hb
  unfold alphaExpandWith at hb
  obtain ⟨⟨st1, ch2⟩, t1, hl, hb⟩ := M.bind_ok.1 hb
  obtain ⟨st2, t2, hset, hb⟩ := M.bind_ok.1 hb
  have h6 := M.pure_ok.1 hb
  simp only [Prod.mk.injEq] at h6
  obtain ⟨⟨rfl, rfl⟩, rfl⟩ := h6
  rw [M.lift_ok] at hset
  obtain ⟨hset, rfl⟩ := hset
  obtain ⟨news, news2, k1, k2, k3, h1, k5⟩ := loop_back (n := n) (n2 := n.move φ) rfl _ hl a []
  subst k1
  have hch2 : ch2 = List.range' b.length n.expandable.length := by
    obtain ⟨-, -, -, e, -⟩ := alphaExpandLoop_ok _ hl
    simpa [Node.move] using e
  simp only [List.nil_append] at h1
  replace k2 : news.length = n.expandable.length := k2
  replace k3 : news2.length = n.expandable.length := k3
  obtain ⟨ch, hch⟩ : ∃ ch, ch = List.range' a.length n.expandable.length := ⟨_, rfl⟩
  replace h1 : alphaExpandLoop n prior n.expandable a [] t = .ok ((a ++ news, ch), t') := by rw [hch]; exact h1
  generalize hN : ({ n with children := n.children ++ ch, expandable := [] } : Node G Fl) = N at *
  have hNidx : N.idx = q := by rw [← hN]; exact hidx
  obtain ⟨a', h5⟩ : ∃ a', (a ++ news).set q N = a' := ⟨_, rfl⟩
  have ha : alphaExpandWith n prior a t = .ok ((a', N), t') := by
    unfold alphaExpandWith
    refine M.bind_ok.2 ⟨(_, _), t', h1, ?_⟩
    simp only
    rw [hN]
    refine M.bind_ok.2 ⟨a', t', M.lift_ok.2 ⟨?_, rfl⟩, rfl⟩
    unfold setNode
    rw [hNidx, if_pos (by simp; omega), h5]
  obtain ⟨wa1, wup, widx, wlen, wself, wvis, -, -, -⟩ := alphaExpand_wf w hq hn ha
  have hφq := h.lt hql
  let ψ : Nat → Nat := fun i => if i < a.length then φ i else b.length + (i - a.length)
  have hψ1 : ∀ i, i < a.length → ψ i = φ i := fun i hi => if_pos hi
  have hψ2 : ∀ j, ψ (a.length + j) = b.length + j := by
    intro j
    show (if a.length + j < a.length then _ else _) = _
    rw [if_neg (by omega)]
    omega
  have hmove : N.move ψ = { n.move φ with
      children := (n.move φ).children ++ List.range' b.length n.expandable.length, expandable := [] } := by
    have m0 := move_congr w hq hψ1
    have e1 : ψ n.idx = φ n.idx := by rw [hidx]; exact hψ1 q hql
    have e2 : n.parent.map ψ = n.parent.map φ := by
      have := congrArg Node.parent m0
      simp only [Node.move] at this
      rw [s3]; exact this
    have e3 : n.children.map ψ = n.children.map φ := by
      have := congrArg Node.children m0
      simp only [Node.move] at this
      rw [s4]; exact this
    have e4 : ch.map ψ = List.range' b.length n.expandable.length := by
      rw [hch]
      apply List.ext_getElem?
      intro j
      by_cases hj : j < n.expandable.length
      · rw [List.getElem?_map, List.getElem?_range' hj, List.getElem?_range' hj]
        simp only [Option.map_some, Nat.one_mul]
        rw [hψ2]
      · rw [List.getElem?_eq_none (by simp; omega), List.getElem?_eq_none (by simp; omega)]
    rw [← hN]
    unfold Node.move
    simp only [List.map_append]
    rw [e1, e2, e3, e4]
  have hnb : ({ n.move φ with children := (n.move φ).children ++ ch2, expandable := [] } : Node G Fl) = N.move ψ := by
    rw [hch2, hmove]
  rw [hnb] at hset
  have hbs : (b ++ news2).set (φ q) (N.move ψ) = b' := by
    unfold setNode at hset
    have e : (N.move ψ).idx = φ q := by
      show ψ N.idx = _
      rw [hNidx, hψ1 q hql]
    rw [e, if_pos (by simp; omega)] at hset
    exact Except.ok.inj hset
  refine ⟨a', N, ψ, ha, hnb, ?_, ?_, wa1, ?_, hNidx, wself⟩
  all_goals rw [← hbs]
  · refine ⟨?_, ?_, ?_⟩
    · intro i i' hi hi' hh
      rw [← h5] at hi hi'
      simp only [List.length_set, List.length_append] at hi hi'
      by_cases c1 : i < a.length
      · by_cases c2 : i' < a.length
        · rw [hψ1 i c1, hψ1 i' c2] at hh
          exact h.inj i i' c1 c2 hh
        · have := hψ2 (i' - a.length)
          rw [show a.length + (i' - a.length) = i' by omega] at this
          rw [hψ1 i c1, this] at hh
          have := h.lt c1
          omega
      · have e1 := hψ2 (i - a.length)
        rw [show a.length + (i - a.length) = i by omega] at e1
        by_cases c2 : i' < a.length
        · rw [hψ1 i' c2, e1] at hh
          have := h.lt c2
          omega
        · have e2 := hψ2 (i' - a.length)
          rw [show a.length + (i' - a.length) = i' by omega] at e2
          omega
    · intro i m hi
      rw [← h5] at hi
      by_cases c0 : i = q
      · subst c0
        rw [List.getElem?_set_self (by simp; omega)] at hi
        injection hi with hi
        subst hi
        rw [hψ1 i hql, List.getElem?_set_self (by simp; omega)]
      · rw [List.getElem?_set_ne (Ne.symm c0)] at hi
        by_cases c1 : i < a.length
        · rw [List.getElem?_append_left c1] at hi
          rw [hψ1 i c1, List.getElem?_set_ne (fun e => c0 (h.inj q i hql c1 e).symm),
            List.getElem?_append_left (h.lt c1), h.get i m hi, move_congr w hi hψ1]
        · rw [List.getElem?_append_right (by omega)] at hi
          have e1 := hψ2 (i - a.length)
          rw [show a.length + (i - a.length) = i by omega] at e1
          have g := k5 _ m hi
          rw [e1, List.getElem?_set_ne (by omega), List.getElem?_append_right (by omega),
            show b.length + (i - a.length) - b.length = i - a.length by omega, g]
          congr 1
          have hjl : i - a.length < n.expandable.length := by
            rw [← k2]; exact (List.getElem?_eq_some_iff.1 hi).1
          obtain ⟨news', e2, -, -, hf, -⟩ := alphaExpandLoop_ok _ h1
          have hnn : news' = news := (List.append_cancel_left e2).symm
          subst hnn
          have f := hf _ m _ hi (List.getElem?_eq_getElem hjl)
          unfold Node.place Node.move
          have e3 : m.idx = i := by rw [f.idx]; omega
          rw [f.parent, f.children, e3, e1]
          simp only [Option.map_some, List.map_nil, hidx]
          rw [hψ1 q hql]
    · rw [← h5]
      have := h.len
      simp [k2, k3]
      omega
  · refine ⟨by rw [← h5]; simp, by rw [← h5]; simp [k2, k3]; omega, ?_, hψ1, ?_⟩
    · intro j hj hno
      rw [List.getElem?_set_ne (hno q hql), List.getElem?_append_left hj]
    · intro i hi _
      have e1 := hψ2 (i - a.length)
      rw [show a.length + (i - a.length) = i by omega] at e1
      omega
  · exact (alphaExpand_wf wb (h.get q n0 hq) (by
      simp only [Node.shape, Node.move, Prod.mk.injEq]
      rw [s1, s2, s3, s4, s5, s6]
      simp) (hbs ▸ hb0)).1

/-! ## Steps of one game -/

theorem expandStep_back {net : Net Fl} {P1 E1 P2 E2 : Tensor Fl.F} {a b b' : Store G Fl} {φ : Nat → Nat}
    (h : Copy a b φ) (w : WellFormed a) (wb : WellFormed b) {k row : Nat} (hk : k < a.length) (hP : P2.get row = P1.get 0)
    (hE : E2.get row = E1.get 0) {rest : List (Nat × Nat)} {t t' : Tape}
    (hx : expandPhase net P2 E2 ((row, φ k) :: rest) b t = .ok (b', t')) :
    ∃ a1 b1 ψ t1, expandPhase net P1 E1 [(0, k)] a t = .ok (a1, t1) ∧ expandPhase net P2 E2 rest b1 t1 = .ok (b', t') ∧
      Copy a1 b1 ψ ∧ Local a a1 b b1 φ ψ ∧ WellFormed a1 ∧ WellFormed b1 := by
  obtain ⟨kn, hkn⟩ : ∃ kn, a[k]? = some kn := ⟨_, List.getElem?_eq_getElem hk⟩
  unfold expandPhase at hx
  rw [M.run (M.lift_ok.2 ⟨getNode_ok.2 (h.get k kn hkn), rfl⟩)] at hx
  obtain ⟨p, t2, h2, hx2⟩ := M.bind_ok.1 hx
  rw [M.lift_ok] at h2
  obtain ⟨h2, rfl⟩ := h2
  obtain ⟨e, t3, h3, hx3⟩ := M.bind_ok.1 hx2
  rw [M.lift_ok] at h3
  obtain ⟨h3, rfl⟩ := h3
  obtain ⟨probs, t4, h4, hx4⟩ := M.bind_ok.1 hx3
  rw [M.lift_ok] at h4
  obtain ⟨h4, rfl⟩ := h4
  obtain ⟨⟨b1, nb⟩, t5, h5, hx5⟩ := M.bind_ok.1 hx4
  obtain ⟨v, t6, h6, hx6⟩ := M.bind_ok.1 hx5
  rw [M.lift_ok] at h6
  obtain ⟨h6, rfl⟩ := h6
  obtain ⟨b2, t7, h7, hx7⟩ := M.bind_ok.1 hx6
  rw [M.lift_ok] at h7
  obtain ⟨h7, rfl⟩ := h7
  obtain ⟨a1, n', ψ, g1, rfl, g2, g3, g4, g5, g6, g7⟩ := h.expandBack w wb hkn rfl h5
  have hk1 : k < a1.length := (List.getElem?_eq_some_iff.1 g7).1
  obtain ⟨a2, h8, -, -⟩ := backpropagate_spec v k a1 g4.upLt hk1
  obtain ⟨b3, k1, k2, k3, k4, k5⟩ := g2.back g4 g5 hk1 h8
  have hidx : (n'.move ψ).idx = ψ k := by show ψ n'.idx = _; rw [g6]
  rw [hidx, k1] at h7
  cases Except.ok.inj h7
  refine ⟨a2, b2, ψ, _, ?_, hx7, k2, g3.trans k3, k4, k5⟩
  conv => lhs; unfold expandPhase
  rw [M.run (M.lift_ok.2 ⟨getNode_ok.2 hkn, rfl⟩), M.run (M.lift_ok.2 ⟨hP.symm.trans h2, rfl⟩),
    M.run (M.lift_ok.2 ⟨hE.symm.trans h3, rfl⟩)]
  rw [M.run (M.lift_ok.2 ⟨(show probsTensor net p kn = .ok probs from h4), rfl⟩)]
  refine (M.run (x := alphaExpandTensor kn probs a) g1).trans ?_
  refine (M.run (M.lift_ok.2 ⟨h6, rfl⟩)).trans ?_
  refine (M.run (M.lift_ok.2 ⟨?_, rfl⟩)).trans rfl
  rw [g6]
  exact h8

theorem expandRoot_back {P1 P2 : Tensor Fl.F} {a b b' : Store G Fl} {φ : Nat → Nat}
    (h : Copy a b φ) (w : WellFormed a) (wb : WellFormed b) (hp : 0 < a.length) {g : Nat} (hg : φ 0 = g)
    (hP : P2.get g = P1.get 0) {rest : List Nat} {t t' : Tape} (hx : expandRoots P2 (g :: rest) b t = .ok (b', t')) :
    ∃ a1 b1 ψ t1, expandRoots P1 [0] a t = .ok (a1, t1) ∧ expandRoots P2 rest b1 t1 = .ok (b', t') ∧
      Copy a1 b1 ψ ∧ Local a a1 b b1 φ ψ ∧ WellFormed a1 ∧ WellFormed b1 := by
  obtain ⟨kn, hkn⟩ : ∃ kn, a[0]? = some kn := ⟨_, List.getElem?_eq_getElem hp⟩
  have hget := h.get 0 kn hkn
  rw [hg] at hget
  unfold expandRoots at hx
  rw [M.run (M.lift_ok.2 ⟨getNode_ok.2 hget, rfl⟩)] at hx
  simp only at hx
  obtain ⟨p, t2, h2, hx2⟩ := M.bind_ok.1 hx
  rw [M.lift_ok] at h2
  obtain ⟨h2, rfl⟩ := h2
  obtain ⟨⟨b1, nb⟩, t5, h5, hx3⟩ := M.bind_ok.1 hx2
  obtain ⟨a1, n', ψ, g1, rfl, g2, g3, g4, g5, -, -⟩ :=
    h.expandBack w wb (n := { kn with visits := 1 }) hkn rfl h5
  refine ⟨a1, b1, ψ, t5, ?_, hx3, g2, g3, g4, g5⟩
  conv => lhs; unfold expandRoots
  rw [M.run (M.lift_ok.2 ⟨getNode_ok.2 hkn, rfl⟩)]
  simp only
  rw [M.run (M.lift_ok.2 ⟨hP.symm.trans h2, rfl⟩)]
  exact (M.run g1).trans rfl

/-! ## Phases over all games -/

theorem Copies.rootsBack {P2 : Tensor Fl.F} {P1 : Nat → Tensor Fl.F} {n : Nat} (L : List Nat) (hnd : L.Nodup)
    (hL : ∀ g ∈ L, g < n) (hP : ∀ g ∈ L, P2.get g = (P1 g).get 0) {a : Nat → Store G Fl} {b b' : Store G Fl}
    {φ : Nat → Nat → Nat} (h : Copies n a b φ) {t t' : Tape} (hx : expandRoots P2 L b t = .ok (b', t')) :
    ∃ a' φ', Copies n a' b' φ' ∧ (∀ g, g ∉ L → a' g = a g) ∧
      ∀ g ∈ L, ∃ tg tg', expandRoots (P1 g) [0] (a g) tg = .ok (a' g, tg') := by
  induction L generalizing a b φ t with
  | nil =>
    have := M.pure_ok.1 hx
    simp only [Prod.mk.injEq] at this
    obtain ⟨rfl, rfl⟩ := this
    exact ⟨a, φ, h, fun _ _ => rfl, by simp⟩
  | cons g L ih =>
    rw [List.nodup_cons] at hnd
    have hg : g < n := hL g (List.mem_cons_self ..)
    obtain ⟨a1, b1, ψ, t1, h1, h2, h3, h4, h5, h6⟩ := expandRoot_back (h.copy g hg) (h.wfA g hg) h.wfB (h.pos g hg)
      (h.root g hg) (hP g (List.mem_cons_self ..)) hx
    obtain ⟨a', φ', h7, h8, h9⟩ := ih hnd.2 (fun x hx => hL x (List.mem_cons_of_mem _ hx))
      (fun x hx => hP x (List.mem_cons_of_mem _ hx)) (h.update hg h3 h4 h5 h6) h2
    refine ⟨a', φ', h7, ?_, ?_⟩
    · intro x hx
      rw [List.mem_cons, not_or] at hx
      rw [h8 x hx.2, if_neg hx.1]
    · intro x hx
      rcases List.mem_cons.1 hx with rfl | hx
      · refine ⟨t, t1, ?_⟩
        rw [h8 x hnd.1, if_pos rfl]
        exact h1
      · have := h9 x hx
        rwa [if_neg (fun e => hnd.1 (e ▸ hx) : ¬ x = g)] at this

theorem Copies.expandBack {net : Net Fl} {P2 E2 : Tensor Fl.F} {P1 E1 : Nat → Tensor Fl.F} {n : Nat} {k : Nat → Nat}
    (L : List Nat) (hnd : L.Nodup) (hL : ∀ g ∈ L, g < n) (hP : ∀ g ∈ L, P2.get g = (P1 g).get 0)
    (hE : ∀ g ∈ L, E2.get g = (E1 g).get 0) {i : Nat → Nat} {a : Nat → Store G Fl} {b b' : Store G Fl}
    {φ : Nat → Nat → Nat} (h : Copies n a b φ) (hk : ∀ g ∈ L, k g < (a g).length) (hi : ∀ g ∈ L, i g = φ g (k g))
    {t t' : Tape} (hx : expandPhase net P2 E2 (L.map fun g => (g, i g)) b t = .ok (b', t')) :
    ∃ a' φ', Copies n a' b' φ' ∧ (∀ g, g ∉ L → a' g = a g) ∧
      ∀ g ∈ L, ∃ tg tg', expandPhase net (P1 g) (E1 g) [(0, k g)] (a g) tg = .ok (a' g, tg') := by
  induction L generalizing a b φ t with
  | nil =>
    have := M.pure_ok.1 hx
    simp only [Prod.mk.injEq] at this
    obtain ⟨rfl, rfl⟩ := this
    exact ⟨a, φ, h, fun _ _ => rfl, by simp⟩
  | cons g L ih =>
    rw [List.nodup_cons] at hnd
    have hg : g < n := hL g (List.mem_cons_self ..)
    rw [List.map_cons, hi g (List.mem_cons_self ..)] at hx
    obtain ⟨a1, b1, ψ, t1, h1, h2, h3, h4, h5, h6⟩ := expandStep_back (h.copy g hg) (h.wfA g hg) h.wfB
      (hk g (List.mem_cons_self ..)) (hP g (List.mem_cons_self ..)) (hE g (List.mem_cons_self ..)) hx
    have hne : ∀ x ∈ L, ¬ x = g := fun x hxm e => hnd.1 (e ▸ hxm)
    obtain ⟨a', φ', h7, h8, h9⟩ := ih hnd.2 (fun x hx => hL x (List.mem_cons_of_mem _ hx))
      (fun x hx => hP x (List.mem_cons_of_mem _ hx)) (fun x hx => hE x (List.mem_cons_of_mem _ hx))
      (h.update hg h3 h4 h5 h6) (fun x hxm => by
        rw [if_neg (hne x hxm)]
        exact hk x (List.mem_cons_of_mem _ hxm))
      (fun x hxm => by
        rw [if_neg (hne x hxm)]
        exact hi x (List.mem_cons_of_mem _ hxm)) h2
    refine ⟨a', φ', h7, ?_, ?_⟩
    · intro x hx
      rw [List.mem_cons, not_or] at hx
      rw [h8 x hx.2, if_neg hx.1]
    · intro x hx
      rcases List.mem_cons.1 hx with rfl | hx
      · refine ⟨t, t1, ?_⟩
        rw [h8 x hnd.1, if_pos rfl]
        exact h1
      · have := h9 x hx
        rwa [if_neg (hne x hx)] at this

/-! ## An iteration -/

theorem mapM_get {α β : Type} {f : α → Res β} (l : List α) {r : List β} (h : l.mapM f = .ok r) :
    r.length = l.length ∧ ∀ (i : Nat) (x : α), l[i]? = some x → ∃ y, f x = .ok y ∧ r[i]? = some y := by
  induction l generalizing r with
  | nil =>
    have : r = [] := by simpa [pure, Except.pure] using h.symm
    subst this
    simp
  | cons x l ih =>
    rw [List.mapM_cons] at h
    obtain ⟨y, h1, h2⟩ := Res.bind_ok.1 h
    obtain ⟨ys, h3, h4⟩ := Res.bind_ok.1 h2
    have : r = y :: ys := by simpa [pure, Except.pure] using h4.symm
    subst this
    obtain ⟨h5, h6⟩ := ih h3
    refine ⟨by simp [h5], ?_⟩
    intro i z hz
    cases i with
    | zero =>
      have : x = z := by simpa using hz
      subst this
      exact ⟨y, h1, rfl⟩
    | succ i => exact h6 i z (by simpa using hz)

theorem single_open {net : Net Fl} {a a' : Store G Fl} (w : WellFormed a) {x k : Nat} {kn : Node G Fl} {u y : Tensor Int}
    {t t' : Tape} (hl : Leaf a 0 k kn) (hw : G.winner kn.state = none) (hu : G.tensor kn.state = .ok u)
    (hy : batchTensor [u] = .ok y)
    (he : expandPhase net (net.policyTensor G y) (net.evalTensor y) [(0, k)] a t = .ok (a', t')) :
    parallelIteration net [0] a [x] t = .ok ((a', [k]), t') := by
  have hs : selectPhase [0] a [x] false = .ok (a, [k], true) := by
    unfold selectPhase
    rw [List.foldlM_cons]
    simp only
    have : selectGame 0 a [x] false = .ok (a, [k], true) := by
      unfold selectGame
      rw [hl.1]
      show (getNode a k >>= _) = _
      rw [getNode_ok.2 hl.2]
      show (match G.winner kn.state with | some w => _ | none => _) = _
      rw [hw]
      simp only
      rw [if_pos (by simp), w.idx k kn hl.2]
      rfl
    rw [this]
    rfl
  unfold parallelIteration
  refine (M.run (M.lift_ok.2 ⟨hs, rfl⟩)).trans ?_
  simp only
  rw [if_neg (by simp)]
  refine (M.run (r := [u]) (M.lift_ok.2 ⟨?_, rfl⟩)).trans ?_
  · rw [List.mapM_cons, getNode_ok.2 hl.2]
    show (G.tensor kn.state >>= _) = _
    rw [hu]
    rfl
  · refine (M.run (M.lift_ok.2 ⟨hy, rfl⟩)).trans ?_
    exact (M.run he).trans rfl

theorem single_end {net : Net Fl} {a a' : Store G Fl} {x k : Nat} {kn rn : Node G Fl} {wn : Int} {t : Tape}
    (hl : Leaf a 0 k kn) (hr : a[0]? = some rn) (hw : G.winner kn.state = some wn)
    (hb : backpropagate k (Fl.ofInt (outcome wn (G.player rn.state))) a = .ok a') :
    parallelIteration net [0] a [x] t = .ok ((a', [x]), t) := by
  have hs : selectPhase [0] a [x] false = .ok (a', [x], false) := by
    unfold selectPhase
    rw [List.foldlM_cons]
    simp only
    have : selectGame 0 a [x] false = .ok (a', [x], false) := by
      unfold selectGame
      rw [hl.1]
      show (getNode a k >>= _) = _
      rw [getNode_ok.2 hl.2]
      show (match G.winner kn.state with | some w => _ | none => _) = _
      rw [hw]
      simp only
      rw [getNode_ok.2 hr]
      show (backpropagate k (Fl.ofInt (outcome wn (G.player rn.state))) a >>= _) = _
      rw [hb]
      rfl
    rw [this]
    rfl
  unfold parallelIteration
  exact (M.run (M.lift_ok.2 ⟨hs, rfl⟩)).trans rfl

/-- An iteration of the batched search is an iteration of each of the searches alone, when either all or none of the games
end in a finished position. -/
theorem Copies.iterationBack {net : Net Fl} (hr : RowWise net G) {n : Nat} (hn : 0 < n) {order : List Nat}
    (ho : order.Perm (List.range n)) {a : Nat → Store G Fl} {b b' : Store G Fl} {φ : Nat → Nat → Nat}
    (h : Copies n a b φ) (hall : (∀ g, g < n → ∀ k kn, Leaf b g k kn → G.winner kn.state = none) ∨
      (∀ g, g < n → ∀ k kn, Leaf b g k kn → G.winner kn.state ≠ none)) {sel sel' : List Nat} (hsel : sel.length = n)
    {t t' : Tape} (hx : parallelIteration net order b sel t = .ok ((b', sel'), t')) (x : Nat → Nat) :
    ∃ (a' : Nat → Store G Fl) (φ' : Nat → Nat → Nat) (x' : Nat → Nat), Copies n a' b' φ' ∧ sel'.length = n ∧
      ∀ g, g < n → ∃ tg tg', parallelIteration net [0] (a g) [x g] tg = .ok ((a' g, [x' g]), tg') := by
  have hnd : order.Nodup := ho.nodup_iff.2 List.nodup_range
  have hmem : ∀ g, g ∈ order ↔ g < n := fun g => by rw [ho.mem_iff, List.mem_range]
  have key : ∀ g, ∃ k kn rn, g < n → Leaf (a g) 0 k kn ∧ (a g)[0]? = some rn ∧ Leaf b g (φ g k) (kn.move (φ g)) := by
    intro g
    by_cases hg : g < n
    · obtain ⟨k, kn, h1, h2, -, -⟩ := alphaLeafNode_spec (h.wfA g hg) 0 (h.pos g hg)
      have h3 := (h.copy g hg).leaf (h.wfA g hg) h1
      rw [h.root g hg] at h3
      exact ⟨k, kn, _, fun _ => ⟨⟨h1, h2⟩, List.getElem?_eq_getElem (h.pos g hg), h3, (h.copy g hg).get k kn h2⟩⟩
    · obtain ⟨k, kn, h1, h2, -, -⟩ := alphaLeafNode_spec (h.wfA 0 hn) 0 (h.pos 0 hn)
      exact ⟨k, kn, kn, fun h => absurd h hg⟩
  choose k kn rn hk using key
  unfold parallelIteration at hx
  rcases hall with hopen | hends
  · have hw : ∀ g, g < n → G.winner (kn g).state = none := fun g hg => hopen g hg _ ((kn g).move (φ g)) (hk g hg).2.2
    obtain ⟨sel2, h1, h2, h3⟩ := h.selectOpen (k := k) order (fun g hg => (hmem g).1 hg)
      (fun g hg => ⟨kn g, (hk g ((hmem g).1 hg)).1, hw g ((hmem g).1 hg)⟩) sel hsel false
    have hsel2 : sel2 = (List.range n).map fun g => φ g (k g) := by
      apply List.ext_getElem?
      intro g
      by_cases hg : g < n
      · rw [h3 g hg, if_pos ((hmem g).2 hg)]
        simp [hg]
      · rw [List.getElem?_eq_none (by omega), List.getElem?_eq_none (by simp; omega)]
    have hne : (false || !order.isEmpty) = true := by
      cases order with
      | nil => have := (hmem 0).2 hn; cases this
      | cons _ _ => rfl
    rw [hne] at h1
    rw [M.run (M.lift_ok.2 ⟨h1, rfl⟩)] at hx
    simp only at hx
    rw [if_neg (by simp)] at hx
    obtain ⟨ts, t1, h4, hx1⟩ := M.bind_ok.1 hx
    rw [M.lift_ok] at h4
    obtain ⟨h4, rfl⟩ := h4
    obtain ⟨xb, t2, h5, hx2⟩ := M.bind_ok.1 hx1
    rw [M.lift_ok] at h5
    obtain ⟨h5, rfl⟩ := h5
    obtain ⟨b1, t3, h6, hx3⟩ := M.bind_ok.1 hx2
    have h7 := M.pure_ok.1 hx3
    simp only [Prod.mk.injEq] at h7
    obtain ⟨⟨rfl, rfl⟩, rfl⟩ := h7
    obtain ⟨hlen, hts⟩ := mapM_get _ h4
    obtain ⟨sh, hsh⟩ := hr.shape
    have key2 : ∀ g, ∃ u y, g < n → G.tensor (kn g).state = .ok u ∧ batchTensor [u] = .ok y ∧ ts[g]? = some u := by
      intro g
      by_cases hg : g < n
      · obtain ⟨u, h8, h9⟩ := hts g (φ g (k g)) (by rw [hsel2]; simp [hg])
        rw [getNode_ok.2 (hk g hg).2.2.2] at h8
        have h8' : G.tensor (kn g).state = .ok u := h8
        obtain ⟨y, h10, -⟩ := batchTensor_ok (sh := sh) (ts := [u]) (by simp) (by
          intro v hv
          simp only [List.mem_singleton] at hv
          subst hv
          exact hsh _ _ h8')
        exact ⟨u, y, fun _ => ⟨h8', h10, h9⟩⟩
      · exact ⟨⟨[], fun _ => 0⟩, ⟨[], fun _ => 0⟩, fun h => absurd h hg⟩
    choose u y huy using key2
    have hts2 : ts = (List.range n).map u := by
      apply List.ext_getElem?
      intro g
      by_cases hg : g < n
      · rw [(huy g hg).2.2]; simp [hg]
      · rw [List.getElem?_eq_none (by omega), List.getElem?_eq_none (by simp; omega)]
    obtain ⟨xb', h8, -, h9⟩ := hr.batch hn (s := fun g => (kn g).state) (u := u) (y := y)
      (fun g hg => (huy g hg).1) (fun g hg => (huy g hg).2.1)
    rw [← hts2, h5] at h8
    cases Except.ok.inj h8
    have hzip : (List.range sel'.length).zip sel' = (List.range n).map fun g => (g, φ g (k g)) := by
      rw [h2, hsel2]
      apply List.ext_getElem?
      intro g
      by_cases hg : g < n
      · have e : ((List.range n).zip ((List.range n).map fun g => φ g (k g)))[g]? = some (g, φ g (k g)) :=
          List.getElem?_zip_eq_some.2 ⟨by simp [hg], by simp [hg]⟩
        rw [e]
        simp [hg]
      · rw [List.getElem?_eq_none (by simp; omega), List.getElem?_eq_none (by simp; omega)]
    rw [hzip] at h6
    obtain ⟨a', φ', h10, -, h11⟩ := Copies.expandBack (net := net) (P2 := net.policyTensor G xb) (E2 := net.evalTensor xb)
      (P1 := fun g => net.policyTensor G (y g)) (E1 := fun g => net.evalTensor (y g)) (k := k)
      (List.range n) List.nodup_range (fun g hg => List.mem_range.1 hg)
      (fun g hg => (h9 g (List.mem_range.1 hg)).2.2.2.1) (fun g hg => (h9 g (List.mem_range.1 hg)).2.2.2.2)
      (i := fun g => φ g (k g)) h
      (fun g hg => (List.getElem?_eq_some_iff.1 (hk g (List.mem_range.1 hg)).1.2).1) (fun _ _ => rfl) h6
    refine ⟨a', φ', k, h10, h2, fun g hg => ?_⟩
    obtain ⟨tg, tg', h12⟩ := h11 g (List.mem_range.2 hg)
    exact ⟨tg, tg', single_open (h.wfA g hg) (hk g hg).1 (hw g hg) (huy g hg).1 (huy g hg).2.1 h12⟩
  · have key2 : ∀ g, ∃ wn a1, g < n → G.winner (kn g).state = some wn ∧
        backpropagate (k g) (Fl.ofInt (outcome wn (G.player (rn g).state))) (a g) = .ok a1 := by
      intro g
      by_cases hg : g < n
      · cases hw : G.winner (kn g).state with
        | none => exact absurd hw (hends g hg _ ((kn g).move (φ g)) (hk g hg).2.2)
        | some wn =>
          obtain ⟨a1, h1, -⟩ := backpropagate_spec (Fl.ofInt (outcome wn (G.player (rn g).state))) (k g) (a g)
            (h.wfA g hg).upLt (List.getElem?_eq_some_iff.1 (hk g hg).1.2).1
          exact ⟨wn, a1, fun _ => ⟨rfl, h1⟩⟩
      · exact ⟨0, [], fun h => absurd h hg⟩
    choose wn a' hw using key2
    obtain ⟨b2, h1, h2⟩ := h.selectEnds (a' := a') (sel := sel) order hnd (fun g hg => (hmem g).1 hg)
      (fun g hg => ⟨k g, kn g, rn g, wn g, (hk g ((hmem g).1 hg)).1, (hk g ((hmem g).1 hg)).2.1,
        (hw g ((hmem g).1 hg)).1, (hw g ((hmem g).1 hg)).2⟩)
    rw [M.run (M.lift_ok.2 ⟨h1, rfl⟩)] at hx
    have h3 := M.pure_ok.1 (show (pure (b2, sel) : M (Store G Fl × List Nat)) t = _ from hx)
    simp only [Prod.mk.injEq] at h3
    obtain ⟨⟨rfl, rfl⟩, rfl⟩ := h3
    refine ⟨a', φ, x, h2.congr fun g hg => by rw [if_pos ((hmem g).2 hg)], hsel, fun g hg => ?_⟩
    exact ⟨t', t', single_end (hk g hg).1 (hk g hg).2.1 (hw g hg).1 (hw g hg).2⟩

/-! ## The start -/

theorem addRoots_moves (ss : List G.S) {st st' : Store G Fl} (h : addRoots ss st = .ok st') :
    ∀ (g : Nat) (s : G.S), ss[g]? = some s → ∃ ms, G.moves s = .ok ms := by
  induction ss generalizing st with
  | nil => simp
  | cons s ss ih =>
    unfold addRoots at h
    obtain ⟨⟨st1, k⟩, h1, h2⟩ := Res.bind_ok.1 h
    obtain ⟨ms, hm, -, -⟩ := addNode_ok.1 h1
    intro g s' hs
    cases g with
    | zero =>
      have : s = s' := by simpa using hs
      subst this
      exact ⟨ms, hm⟩
    | succ g => exact ih h2 g s' (by simpa using hs)

/-- The start of the batched search is a start of each of the searches alone, with the same noise. -/
theorem start_back (hd : Shorts G) {net : Net Fl} (hr : RowWise net G) {states : List G.S} (hne : states ≠ [])
    {b : Store G Fl} {t t' : Tape} (hx : parallelStart net states [] t = .ok (b, t')) :
    ∃ a φ, Copies states.length a b φ ∧ ∀ g s, states[g]? = some s → ∀ v, ∃ tg, tg 0 = t 0 ∧
      parallelStart net [s] [] tg = .ok (a g, v) := by
  have hn : 0 < states.length := List.length_pos_iff.2 hne
  obtain ⟨s0, hs0⟩ : ∃ s, states[0]? = some s := ⟨_, List.getElem?_eq_getElem hn⟩
  obtain ⟨ts, x, r, t1, st, cs, h1, h2, hA, hok, hdraw, h4, h7, h8, h9⟩ := start_iff.1 hx
  obtain ⟨hl1, hts⟩ := mapM_get _ h1
  obtain ⟨hl2, hcs⟩ := mapM_get _ h7
  obtain ⟨sh, hsh⟩ := hr.shape
  have key1 : ∀ g, ∃ s ms, g < states.length → states[g]? = some s ∧ G.moves s = .ok ms := by
    intro g
    by_cases hg : g < states.length
    · obtain ⟨s, hs⟩ : ∃ s, states[g]? = some s := ⟨_, List.getElem?_eq_getElem hg⟩
      obtain ⟨ms, hms⟩ := addRoots_moves states h4 g s hs
      exact ⟨s, ms, fun _ => ⟨hs, hms⟩⟩
    · exact ⟨s0, [], fun h => absurd h hg⟩
  choose s ms hsm using key1
  obtain ⟨st', h4', h5, h6⟩ := addRoots_all (Fl := Fl) states ms [] (by
    intro g s' hs
    have hg := (List.getElem?_eq_some_iff.1 hs).1
    have := (hsm g hg).1
    rw [hs] at this
    injection this with this
    subst this
    exact (hsm g hg).2)
  simp only [List.nil_append, List.length_nil, Nat.zero_add] at h4' h6
  rw [h4] at h4'
  cases Except.ok.inj h4'
  have hget : ∀ g, g < states.length → st[g]? = some (freshNode (s g) g none none (Fl.ofInt 0) (ms g)) :=
    fun g hg => h6 g (s g) (hsm g hg).1
  have key : ∀ g, ∃ u y codes, g < states.length → G.tensor (s g) = .ok u ∧ ts[g]? = some u ∧
      batchTensor [u] = .ok y ∧ (ms g).mapM (G.encode (s g)) = .ok codes ∧ cs[g]? = some codes := by
    intro g
    by_cases hg : g < states.length
    · obtain ⟨u, k1, k2⟩ := hts g (s g) (hsm g hg).1
      obtain ⟨y, k3, -⟩ := batchTensor_ok (sh := sh) (ts := [u]) (by simp) (by
          intro v hv
          simp only [List.mem_singleton] at hv
          subst hv
          exact hsh _ _ k1)
      obtain ⟨codes, k4, k5⟩ := hcs g g (by simp [hg])
      rw [getNode_ok.2 (hget g hg)] at k4
      exact ⟨u, y, codes, fun _ => ⟨k1, k2, k3, k4, k5⟩⟩
    · exact ⟨⟨[], fun _ => 0⟩, ⟨[], fun _ => 0⟩, [], fun h => absurd h hg⟩
  choose u y codes hk using key
  have hts2 : ts = (List.range states.length).map u := by
    apply List.ext_getElem?
    intro g
    by_cases hg : g < states.length
    · rw [(hk g hg).2.1]; simp [hg]
    · rw [List.getElem?_eq_none (by omega), List.getElem?_eq_none (by simp; omega)]
  obtain ⟨x', k1, ⟨sh', k2⟩, k3⟩ := hr.batch hn (s := s) (u := u) (y := y) (fun g hg => (hk g hg).1)
    (fun g hg => (hk g hg).2.2.1)
  rw [← hts2, h2] at k1
  cases Except.ok.inj k1
  obtain ⟨f, -⟩ := addRoots_ok states h4 [] forest_nil rfl
  have hone : ∀ g, g < states.length → addRoots (Fl := Fl) [s g] [] =
      .ok [freshNode (s g) 0 none none (Fl.ofInt 0) (ms g)] := by
    intro g hg
    unfold addRoots
    rw [addNode_ok.2 ⟨ms g, (hsm g hg).2, rfl, rfl⟩]
    rfl
  have hc0 : Copies states.length (fun g => [freshNode (Fl := Fl) (s g) 0 none none (Fl.ofInt 0) (ms g)]) st
      (fun g _ => g) := by
    refine ⟨?_, ?_, f.wf, ?_, fun _ _ => rfl, fun _ _ => Nat.zero_lt_one, ?_⟩
    · intro g hg
      refine ⟨?_, ?_, ?_⟩
      · intro q q' hq hq' _
        simp at hq hq'
        omega
      · intro q n hq
        have := (List.getElem?_eq_some_iff.1 hq).1
        simp at this
        subst this
        simp at hq
        subst hq
        exact hget g hg
      · simp; omega
    · intro g hg
      exact (addRoots_ok _ (hone g hg) [] forest_nil rfl).1.wf
    · intro g g' _ _ hne _ _ _ _
      exact hne
    · intro j hj
      exact ⟨j, 0, by omega, Nat.zero_lt_one, rfl⟩
  have hrow : ∀ g, g < states.length → (rootPriors net G x r cs).get g = (rootPriors net G (y g) r [codes g]).get 0 := by
    intro g hg
    obtain ⟨⟨sh', h7⟩, h8, -⟩ := k3 g hg
    exact rootPriors_get k2 hg h7 h8 (hk g hg).2.2.2.2
  obtain ⟨a, φ, h10, -, h11⟩ := Copies.rootsBack (P2 := rootPriors net G x r cs)
    (P1 := fun g => rootPriors net G (y g) r [codes g]) (List.range states.length) List.nodup_range
    (fun g hg => List.mem_range.1 hg) (fun g hg => hrow g (List.mem_range.1 hg)) hc0 h9
  refine ⟨a, φ, h10, ?_⟩
  intro g s' hs v
  have hg := (List.getElem?_eq_some_iff.1 hs).1
  have : s g = s' := by
    have := (hsm g hg).1
    rw [hs] at this
    exact (Option.some.inj this).symm
  subst this
  obtain ⟨tg, tg', h12⟩ := h11 g (List.mem_range.2 hg)
  obtain ⟨tv, h13⟩ := replay (Versus.expandRoots_short hd ..) h12 v
  have hr0 : r = t 0 := by
    have := Except.ok.inj hdraw
    simp only [Prod.mk.injEq] at this
    exact this.1.symm
  refine ⟨cons (t 0, tv), rfl, ?_⟩
  refine start_iff.2 ⟨[u g], y g, r, tv, _, [codes g], ?_, (hk g hg).2.2.1, hA, hok, ?_, hone g hg, ?_, ?_, h13⟩
  · rw [List.mapM_cons, (hk g hg).1]
    rfl
  · rw [hr0]
    rfl
  · show (List.range 1).mapM _ = _
    rw [show List.range 1 = [0] from rfl, List.mapM_cons]
    show ((ms g).mapM (G.encode (s g)) >>= _) = _
    rw [(hk g hg).2.2.2.1]
    rfl
  · intro l hl c hc
    simp only [List.mem_singleton] at hl
    subst hl
    exact h8 _ (List.mem_of_getElem? (hk g hg).2.2.2.2) c hc

/-! ## The search -/

/-- In every iteration of the batched search, either all or none of the games end in a finished position. -/
def Abreast (net : Net Fl) (order : List Nat) (states : List G.S) (iterations : Nat) (t : Tape) : Prop :=
  ∀ i, i < iterations → ∀ (st : Store G Fl) (t1 : Tape), alphaMctsParallel net order states i [] t = .ok (st, t1) →
    (∀ g, g < states.length → ∀ (k : Nat) (kn : Node G Fl), Leaf st g k kn → G.winner kn.state = none) ∨
    (∀ g, g < states.length → ∀ (k : Nat) (kn : Node G Fl), Leaf st g k kn → G.winner kn.state ≠ none)

theorem search_back (hd : Shorts G) {net : Net Fl} (hr : RowWise net G) {states : List G.S} (hne : states ≠ [])
    {order : List Nat} (ho : order.Perm (List.range states.length)) {t t1 : Tape} {iterations : Nat}
    (hstep : Abreast net order states iterations t) {b : Store G Fl}
    (hb : alphaMctsParallel net order states iterations [] t = .ok (b, t1)) :
    ∃ a φ, Copies states.length a b φ ∧ ∀ g s, states[g]? = some s → ∀ v, ∃ tg, tg 0 = t 0 ∧
      alphaMctsParallel net [0] [s] iterations [] tg = .ok (a g, v) := by
  have hn : 0 < states.length := List.length_pos_iff.2 hne
  obtain ⟨st0, t0, hs0, hb1⟩ := M.bind_ok.1 hb
  obtain ⟨⟨b0, sel⟩, t2, hb2, hb3⟩ := M.bind_ok.1 hb1
  have h3 := M.pure_ok.1 hb3
  simp only [Prod.mk.injEq] at h3
  obtain ⟨rfl, rfl⟩ := h3
  have main : ∀ i, i ≤ iterations → ∀ (b : Store G Fl) (sel : List Nat) (t1 : Tape),
      parallelIterate net order i st0 (List.replicate states.length 0) t0 = .ok ((b, sel), t1) →
      ∃ (a : Nat → Store G Fl) (φ : Nat → Nat → Nat) (x : Nat → Nat), Copies states.length a b φ ∧ sel.length = states.length ∧
        ∀ g s, states[g]? = some s → ∀ v, ∃ tg sg tg0, tg 0 = t 0 ∧ parallelStart net [s] [] tg = .ok (sg, tg0) ∧
          parallelIterate net [0] i sg [0] tg0 = .ok ((a g, [x g]), v) := by
    intro i
    induction i with
    | zero =>
      intro _ b sel t1 h
      have h3 := M.pure_ok.1 h
      simp only [Prod.mk.injEq] at h3
      obtain ⟨⟨rfl, rfl⟩, rfl⟩ := h3
      obtain ⟨a, φ, h4, h5⟩ := start_back hd hr hne hs0
      refine ⟨a, φ, fun _ => 0, h4, by simp, ?_⟩
      intro g s hs v
      obtain ⟨tg, h6, h7⟩ := h5 g s hs v
      exact ⟨tg, a g, v, h6, h7, rfl⟩
    | succ i ih =>
      intro hi b sel t1 h
      obtain ⟨b1, sel1, tb, h4, h5⟩ := (parallelIterate_last i).1 h
      obtain ⟨a, φ, x, h6, h7, h8⟩ := ih (by omega) b1 sel1 tb h4
      have halpha : alphaMctsParallel net order states i [] t = .ok (b1, tb) := by
        unfold alphaMctsParallel
        refine (M.run hs0).trans ?_
        exact (M.run h4).trans rfl
      obtain ⟨a', φ', x', h9, h10, h11⟩ := h6.iterationBack hr hn ho (hstep i (by omega) b1 tb halpha) h7 h5 x
      refine ⟨a', φ', x', h9, h10, ?_⟩
      intro g s hs v
      obtain ⟨tg, tg', h12⟩ := h11 g (List.getElem?_eq_some_iff.1 hs).1
      obtain ⟨tv, h13⟩ := replay (Versus.parallelIteration_short hd ..) h12 v
      obtain ⟨tg, sg, tg0, h14, h15, h16⟩ := h8 g s hs tv
      exact ⟨tg, sg, tg0, h14, h15, (parallelIterate_last i).2 ⟨_, _, _, h16, h13⟩⟩
  obtain ⟨a, φ, x, h4, -, h5⟩ := main iterations le_rfl _ _ _ hb2
  refine ⟨a, φ, h4, ?_⟩
  intro g s hs v
  obtain ⟨tg, sg, tg0, h6, h7, h8⟩ := h5 g s hs v
  refine ⟨tg, h6, ?_⟩
  unfold alphaMctsParallel
  refine (M.run h7).trans ?_
  exact (M.run h8).trans rfl

end DieE.Mcts
