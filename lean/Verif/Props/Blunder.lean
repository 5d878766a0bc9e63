import Verif.Mcts.Path
import Verif.Props.CalcScore
import Verif.Props.Single32

/-!
# A blunder that more iterations do not cure

`select_ucb` (simple_mcts.rs:41, node.rs:86-97) takes the child with the best value for the searching player also in positions where
the opponent moves.  So the search expects the opponent to help.  In `trap` one move holds the draw, and two other moves
lose at once unless the opponent misses the win; after them the search finds its own win and returns one of them, for every
number of iterations from 25 on (C104).

The first 170 iterations are computed (`Props/Calc`).  From then on the visits of the cooperative line grow so fast that the
other children, which get a visit only when the exploration term makes up for their mean, stay behind.
-/

namespace DieE.Props.Bl
open DieE DieE.Mcts DieE.Fp DieE.Props.S DieE.Props.Wn DieE.Props.Ca
variable {pf : Profile} {Fl : Floats} {B : Nat}

/-! ## Positions from which a side cannot win -/

/-- `w` does not win in any position that can come up within `f` moves, and the game is over by then. -/
def never (w : Int) : Nat → TTT.State → Bool
  | 0, _ => false
  | f + 1, s => decide (s.player = 1 ∨ s.player = -1) &&
    match TTT.checkWinner s with
    | some x => decide (x ≠ w)
    | none => (TTT.getValidMoves s).all fun a =>
      match TTT.applyMove .debug s a with
      | .error _ => true
      | .ok s' => never w f s'

theorem ttt_plays {s s' : TTT.State} {a : Nat} (h : Plays (TTT.game pf) s a s') : TTT.applyMove pf s a = .ok s' := by
  obtain ⟨t, t', h⟩ := h
  have h : M.lift (TTT.applyMove pf s a) t = .ok (s', t') := h
  exact ((M.lift_ok (α := TTT.State)).1 h).1

theorem never_step {w : Int} {f : Nat} {s s' : TTT.State} {a : Nat} (h : never w f s = true) (hw : TTT.checkWinner s = none)
    (ha : a ∈ TTT.getValidMoves s) (hp : TTT.applyMove pf s a = .ok s') : ∃ f', never w f' s' = true := by
  cases f with
  | zero => cases h
  | succ f =>
    unfold never at h
    rw [hw, Bool.and_eq_true, decide_eq_true_eq] at h
    have h2 := List.all_eq_true.1 h.2 a ha
    rw [apply_profile pf h.1] at hp
    simp only [hp] at h2
    exact ⟨f, h2⟩

theorem never_sound {w : Int} {s s' : TTT.State} (h : Reaches (TTT.game pf) s s') {f : Nat} (hn : never w f s = true) :
    ∃ f', never w f' s' = true := by
  refine Reaches.keep h (fun s' : TTT.State => ∃ f', never w f' s' = true) ⟨f, hn⟩ ?_
  rintro s1 s2 a ms hw hm ha hp ⟨f', hf⟩
  have hm : TTT.getValidMoves s1 = ms := Except.ok.inj hm
  exact never_step hf hw (by rw [hm]; exact ha) (ttt_plays hp)

theorem never_wins {w : Int} {s s' : TTT.State} (h : Reaches (TTT.game pf) s s') {f : Nat} (hn : never w f s = true) :
    TTT.checkWinner s' ≠ some w := by
  obtain ⟨f', hf⟩ := never_sound h hn
  cases f' with
  | zero => cases hf
  | succ f' =>
    intro hw
    unfold never at hf
    rw [hw] at hf
    simp at hf

theorem value_le {s s' : TTT.State} (h : Reaches (TTT.game pf) s s') {f : Nat} (hn : never 1 f s = true) :
    firstValue (TTT.game pf) 1 s' ≤ 0 :=
  (firstValue_other (G := TTT.game pf) (never_wins h hn)).2

theorem value_ge {s s' : TTT.State} (h : Reaches (TTT.game pf) s s') {f : Nat} (hn : never (-1) f s = true) :
    0 ≤ firstValue (TTT.game pf) 1 s' := by
  have h1 := never_wins h hn
  unfold firstValue
  have hw : (TTT.game pf).winner s' = TTT.checkWinner s' := rfl
  rw [hw]
  split
  case h_1 x hx =>
    unfold outcome
    split
    · omega
    · split
      case isTrue hx' =>
        exfalso
        rw [hx] at h1
        exact h1 (by rw [hx'])
      · omega
  · omega

theorem value_final {s s' : TTT.State} (h : Reaches (TTT.game pf) s s') (hw : TTT.checkWinner s = some 1) :
    firstValue (TTT.game pf) 1 s' = 1 := by
  have : s' = s := by
    refine Reaches.keep h (fun s' : TTT.State => s' = s) rfl ?_
    intro s1 s2 a ms h1 _ _ _ ih
    have h1 : TTT.checkWinner s1 = none := h1
    rw [ih, hw] at h1
    cases h1
  subst this
  exact firstValue_win (G := TTT.game pf) hw

/-! ## Selection -/

/-- The score over the real numbers, exploration constant 2. -/
noncomputable def scoreR (z : Int) (n p : Nat) : ℝ := (z : ℝ) / n + Real.sqrt (2 * Real.log p / n)

/-- Where the path goes on from a node that has all its children: to a child whose score is maximal up to `2 ε`. -/
theorem select_at (A : Arith Fl ℝ B) {ε : ℝ} (hA : Xp.Close A 2 ε) {G : Game} {st : Store G Fl} (w : WellFormed st)
    {x i : Nat} {nd : Node G Fl} (hx : st[x]? = some nd) (hc : nd.children ≠ []) (he : nd.expandable = [])
    (h0 : Anc st 0 x) (hi : Anc st x i) (hsel : selectLeafNode 0 st = .ok i) (hp : nd.visits < B) {n : Nat → Nat} {z : Nat → Int}
    (hk : ∀ d ∈ nd.children, ∃ m : Node G Fl, st[d]? = some m ∧ m.visits = n d ∧ m.value = Fl.ofInt (z d) ∧ 0 < n d ∧
      n d ≤ nd.visits ∧ -(n d : Int) ≤ z d ∧ z d ≤ n d) :
    ∃ c ∈ nd.children, (∀ d ∈ nd.children, (Anc st d i ↔ d = c)) ∧
      ∀ d ∈ nd.children, scoreR (z d) (n d) nd.visits ≤ scoreR (z c) (n c) nd.visits + 2 * ε := by
  have hlen : 0 < st.length := Nat.lt_of_le_of_lt (Nat.zero_le x) (List.getElem?_eq_some_iff.1 hx).1
  obtain ⟨c, m, h1, h2, h3, h4⟩ := selectLeaf_path w st.length 0 hlen (by omega) hsel hx h0 hi hc he
  refine ⟨c, h2, fun d hd => ⟨fun h => anc_sibling w hx hd h2 h h4, fun h => h ▸ h4⟩, ?_⟩
  obtain ⟨c', g1, g2, g3⟩ := selectUcb_best w hx (fun a b => A.val a ≤ A.val b) (fun _ => le_refl _) (fun _ _ _ => le_trans) (by
    intro c d x y hc hd hx hy
    obtain ⟨x', e1, e2, e3, e4, e5, e6, e7⟩ := hk c hc
    rw [hx] at e1
    cases Option.some.inj e1
    obtain ⟨y', f1, f2, f3, f4, f5, f6, f7⟩ := hk d hd
    rw [hy] at f1
    cases Option.some.inj f1
    rw [e3, f3, e2, f2, ne_eq, A.cmp (z c) (z d) (n c) (n d) nd.visits e4 f4 e5 f5 hp e6 e7 f6 f7]
    exact ⟨fun h => h.le, fun h => not_lt.1 h⟩) h1
  intro d hd
  obtain ⟨y, f1, f2, f3, f4, f5, f6, f7⟩ := hk d hd
  obtain ⟨m', e1, e2, e3, e4, e5, e6, e7⟩ := hk c h2
  rw [h3] at e1
  cases Option.some.inj e1
  have hmax := g3 d hd y f1
  rw [e2, e3, f2, f3] at hmax
  have k1 := abs_le.1 (hA (z d) (n d) nd.visits f4 f5 hp f6 f7)
  have k2 := abs_le.1 (hA (z c) (n c) nd.visits e4 e5 hp e6 e7)
  unfold scoreR
  linarith [k1.1, k2.2]

/-! ## The part of the tree that matters -/

/-- The position after a move. -/
def place (s : TTT.State) (a : Fin 9) : TTT.State := { s with player := -s.player, board := s.board.set a s.player }

/-- Player 1 is to move, the opponent threatens to take cell 6. -/
def trap : TTT.State := { player := 1, board := #v[-1, 1, 0, -1, 0, 1, 0, -1, 0], id := 0 }

/-- A node that is followed: parent, move, position, and its children if it has all of them. -/
structure Entry where
  idx : Nat
  parent : Option Nat
  action : Option Nat
  state : TTT.State
  kids : List Nat

/-- The nodes that are followed. -/
def plan : List Entry :=
  [⟨0, none, none, trap, [1, 2, 3, 4]⟩,
   ⟨1, some 0, some 8, place trap 8, [8, 14, 18]⟩,
   ⟨2, some 0, some 6, place trap 6, []⟩,
   ⟨3, some 0, some 4, place trap 4, []⟩,
   ⟨4, some 0, some 2, place trap 2, []⟩,
   ⟨8, some 1, some 6, place (place trap 8) 6, []⟩,
   ⟨14, some 1, some 4, place (place trap 8) 4, [29, 36]⟩,
   ⟨18, some 1, some 2, place (place trap 8) 2, []⟩,
   ⟨29, some 14, some 6, place (place (place trap 8) 4) 6, []⟩,
   ⟨36, some 14, some 2, place (place (place trap 8) 4) 2, []⟩]

/-- The store contains an entry, with `n` visits and value `z`. -/
def Has (st : Store (TTT.game pf) Fl) (e : Entry) (n : Nat) (z : Int) : Prop :=
  ∃ nd : Node (TTT.game pf) Fl, st[e.idx]? = some nd ∧ nd.parent = e.parent ∧ nd.action = e.action ∧ nd.state = e.state ∧
    (e.kids ≠ [] → nd.children = e.kids ∧ nd.expandable = []) ∧ nd.visits = n ∧ nd.value = Fl.ofInt z

/-- The store contains the nodes of the plan. -/
def Tree (st : Store (TTT.game pf) Fl) (n : Nat → Nat) (z : Nat → Int) : Prop := ∀ e ∈ plan, Has st e (n e.idx) (z e.idx)

/-- What is known of the visits and values. -/
structure Inv (n : Nat → Nat) (z : Nat → Int) : Prop where
  r0 : -(n 0 : Int) ≤ z 0 ∧ z 0 ≤ n 0
  n1 : n 1 = 1 + n 8 + n 14 + n 18
  z1 : z 1 = z 8 + z 14 + z 18
  n14 : n 14 = 1 + n 29 + n 36
  z14 : z 14 = z 29 + z 36
  z36 : z 36 = n 36
  z29 : z 29 = 0
  pos : 0 < n 2 ∧ 0 < n 3 ∧ 0 < n 4 ∧ 0 < n 8 ∧ 0 < n 18 ∧ 0 < n 29 ∧ 0 < n 36
  r2 : -(n 2 : Int) ≤ z 2 ∧ z 2 ≤ 0
  r3 : -(n 3 : Int) ≤ z 3 ∧ z 3 ≤ 0
  r4 : -(n 4 : Int) ≤ z 4 ∧ z 4 ≤ n 4
  r8 : -(n 8 : Int) ≤ z 8 ∧ z 8 ≤ 0
  r18 : -(n 18 : Int) ≤ z 18 ∧ z 18 ≤ 0
  l1 : 138 ≤ n 1
  l14 : 130 ≤ n 14
  u2 : n 2 ≤ 134
  u3 : n 3 ≤ 134
  u29 : (n 29 : ℝ) - 1 ≤ 2.001 * Real.log (n 14)
  u8 : (n 8 : ℝ) - 1 ≤ 2.47 * Real.log (n 1)
  u18 : (n 18 : ℝ) - 1 ≤ 2.47 * Real.log (n 1)

/-! ## Estimates -/

/-- The tangent of the logarithm at 128. -/
theorem log_tangent {n : Nat} (hn : 0 < n) : Real.log n ≤ n / 128 + 3.8521 := by
  have h1 : (0 : ℝ) < n / 128 := by positivity
  have h2 := Real.log_le_sub_one_of_pos h1
  rw [Real.log_div (by positivity) (by norm_num), show (128 : ℝ) = 2 ^ 7 by norm_num, Real.log_pow] at h2
  have h3 := Real.log_two_lt_d9
  push_cast at h2
  norm_num at h2 ⊢
  linarith

/-- A child without wins is preferred to one with a mean of at least `K` only if it has few visits. -/
theorem few {z y : Int} {m n p : Nat} {K δ : ℝ} (hn : 0 < n) (hm : 0 < m) (hp : 0 < p) (hz : z ≤ 0) (hy : K ≤ (y : ℝ) / m)
    (hK : δ ≤ K) (h : scoreR y m p ≤ scoreR z n p + δ) : (K - δ) ^ 2 * n ≤ 2 * Real.log p := by
  unfold scoreR at h
  have hn' : (0 : ℝ) < n := by exact_mod_cast hn
  have hlog : 0 ≤ Real.log p := Real.log_nonneg (by exact_mod_cast hp)
  have h1 : (z : ℝ) / n ≤ 0 := div_nonpos_of_nonpos_of_nonneg (by exact_mod_cast hz) hn'.le
  have h2 : 0 ≤ Real.sqrt (2 * Real.log p / m) := Real.sqrt_nonneg _
  have h3 : K - δ ≤ Real.sqrt (2 * Real.log p / n) := by linarith
  have h4 := pow_le_pow_left₀ (by linarith) h3 2
  rw [Real.sq_sqrt (by positivity), le_div_iff₀ hn'] at h4
  exact h4

theorem Inv.mean14 {n : Nat → Nat} {z : Nat → Int} (v : Inv n z) : 0.9 ≤ (z 14 : ℝ) / n 14 := by
  have h14 : (130 : ℝ) ≤ n 14 := by exact_mod_cast v.l14
  have h1 : (n 14 : ℝ) = 1 + n 29 + n 36 := by exact_mod_cast v.n14
  have h2 : (z 14 : ℝ) = n 36 := by
    have : z 14 = n 36 := by rw [v.z14, v.z29, v.z36]; omega
    rw [this]
    norm_cast
  have h3 := log_tangent (n := n 14) (by have := v.l14; omega)
  have h4 := v.u29
  rw [le_div_iff₀ (by linarith), h2]
  linarith

theorem Inv.mean1 {n : Nat → Nat} {z : Nat → Int} (v : Inv n z) : 0.5 ≤ (z 1 : ℝ) / n 1 := by
  have h0 : (138 : ℝ) ≤ n 1 := by exact_mod_cast v.l1
  have h14 : (130 : ℝ) ≤ n 14 := by exact_mod_cast v.l14
  have h1 : (n 1 : ℝ) = 1 + n 8 + n 14 + n 18 := by exact_mod_cast v.n1
  have h2 : (z 1 : ℝ) = z 8 + z 14 + z 18 := by exact_mod_cast v.z1
  have h3 := log_tangent (n := n 1) (by have := v.l1; omega)
  have h4 := v.u8
  have h5 := v.u18
  have h6 := v.mean14
  rw [le_div_iff₀ (by linarith)] at h6
  have h7 : (-(n 8 : ℝ)) ≤ z 8 := by exact_mod_cast v.r8.1
  have h8 : (-(n 18 : ℝ)) ≤ z 18 := by exact_mod_cast v.r18.1
  rw [le_div_iff₀ (by linarith), h2]
  linarith

/-- Children of the root without wins do not get more than 134 visits. -/
theorem Inv.root_few {n : Nat → Nat} {z : Nat → Int} (v : Inv n z) {p d : Nat} {δ : ℝ} (hδ : δ ≤ 1 / 2 ^ 15)
    (hp : 0 < p) (hp' : p < 16777216) (hd : 0 < n d) (hz : z d ≤ 0) (h : scoreR (z 1) (n 1) p ≤ scoreR (z d) (n d) p + δ) :
    n d + 1 ≤ 134 := by
  have h1 := few (K := 0.5) hd (by have := v.l1; omega) hp hz v.mean1 (by norm_num at hδ ⊢; linarith) h
  have h2 : Real.log p ≤ 24 * Real.log 2 := by
    have : Real.log p ≤ Real.log ((2 : ℝ) ^ 24) :=
      Real.log_le_log (by exact_mod_cast hp) (by norm_num; exact_mod_cast hp'.le)
    rw [Real.log_pow] at this
    push_cast at this
    exact this
  have h3 := Real.log_two_lt_d9
  have h4 : (0.5 - 1 / 2 ^ 15 : ℝ) ^ 2 ≤ (0.5 - δ) ^ 2 := pow_le_pow_left₀ (by norm_num) (by linarith) 2
  have h5 : (0 : ℝ) < n d := by exact_mod_cast hd
  have h6 : (0.5 - 1 / 2 ^ 15 : ℝ) ^ 2 * n d ≤ 2 * (24 * 0.6931471808) := by
    have := mul_le_mul_of_nonneg_right h4 h5.le
    linarith
  have h7 : (n d : ℝ) < 134 := by
    norm_num at h6
    linarith
  have : n d < 134 := by exact_mod_cast h7
  omega

/-- The other children of node 1. -/
theorem Inv.first_few {n : Nat → Nat} {z : Nat → Int} (v : Inv n z) {d : Nat} {δ : ℝ} (hδ : δ ≤ 1 / 2 ^ 15)
    (hd : 0 < n d) (hz : z d ≤ 0) (h : scoreR (z 14) (n 14) (n 1) ≤ scoreR (z d) (n d) (n 1) + δ) :
    (n d : ℝ) ≤ 2.47 * Real.log (n 1) := by
  have h1 := few (K := 0.9) hd (by have := v.l14; omega) (by have := v.l1; omega) hz v.mean14
    (by norm_num at hδ ⊢; linarith) h
  have h4 : (0.9 - 1 / 2 ^ 15 : ℝ) ^ 2 ≤ (0.9 - δ) ^ 2 := pow_le_pow_left₀ (by norm_num) (by linarith) 2
  have h5 : (0 : ℝ) < n d := by exact_mod_cast hd
  have := mul_le_mul_of_nonneg_right h4 h5.le
  norm_num at this h1 ⊢
  linarith

/-- The other child of node 14. -/
theorem Inv.second_few {n : Nat → Nat} {z : Nat → Int} (v : Inv n z) {δ : ℝ} (hδ : δ ≤ 1 / 2 ^ 15)
    (h : scoreR (z 36) (n 36) (n 14) ≤ scoreR (z 29) (n 29) (n 14) + δ) : (n 29 : ℝ) ≤ 2.001 * Real.log (n 14) := by
  have hp := v.pos
  have h36 : (0 : ℝ) < n 36 := by exact_mod_cast hp.2.2.2.2.2.2
  have h1 := few (K := 1) hp.2.2.2.2.2.1 hp.2.2.2.2.2.2 (by have := v.l14; omega) v.z29.le
    (by rw [v.z36, le_div_iff₀ h36]; push_cast; linarith) (by norm_num at hδ ⊢; linarith) h
  have h4 : (1 - 1 / 2 ^ 15 : ℝ) ^ 2 ≤ (1 - δ) ^ 2 := pow_le_pow_left₀ (by norm_num) (by linarith) 2
  have h5 : (0 : ℝ) < n 29 := by exact_mod_cast hp.2.2.2.2.2.1
  have := mul_le_mul_of_nonneg_right h4 h5.le
  norm_num at this h1 ⊢
  linarith

theorem Inv.range {n : Nat → Nat} {z : Nat → Int} (v : Inv n z) :
    ∀ j ∈ [0, 1, 2, 3, 4, 8, 14, 18, 29, 36], -(n j : Int) ≤ z j ∧ z j ≤ n j := by
  obtain ⟨r0, n1, z1, n14, z14, z36, z29, pos, r2, r3, r4, r8, r18, -⟩ := v
  intro j hj
  simp only [List.mem_cons, List.not_mem_nil, or_false] at hj
  rcases hj with rfl | rfl | rfl | rfl | rfl | rfl | rfl | rfl | rfl | rfl <;> omega

/-! ## One more iteration -/

theorem plan_idx {e : Entry} (he : e ∈ plan) : e.idx ∈ [0, 1, 2, 3, 4, 8, 14, 18, 29, 36] := by
  simp only [plan, List.mem_cons, List.not_mem_nil, or_false] at he
  rcases he with rfl | rfl | rfl | rfl | rfl | rfl | rfl | rfl | rfl | rfl <;> simp

open Classical in
theorem step (A : Arith Fl ℝ B) (hB : B ≤ 16777216) {ε : ℝ} (hε : ε ≤ 1 / 2 ^ 16) (hA : Xp.Close A 2 ε) {limit N : Nat}
    {st st' : Store (TTT.game pf) Fl} {k : Nat} {t t' : Tape} (hl : 0 < limit) (hN : N < B) (v : WinInv 1 st N)
    (hroot : ∀ rn : Node (TTT.game pf) Fl, st[0]? = some rn → rn.visits = N) {n : Nat → Nat} {z : Nat → Int}
    (T : Tree st n z) (I : Inv n z) (h : iteration 1 limit 0 st t = .ok ((st', k), t')) :
    ∃ (n' : Nat → Nat) (z' : Nat → Int), Tree st' n' z' ∧ Inv n' z' := by
  obtain ⟨rn, hrn, -⟩ := v.root
  have hlen : 0 < st.length := (List.getElem?_eq_some_iff.1 hrn).1
  obtain ⟨i, s, hsel, hre, hrec⟩ := iteration_digest v.wf v.term hl hlen h
  -- the entries
  obtain ⟨d0, a0, p0, -, s0, c0, e0, f0⟩ := T ⟨0, none, none, trap, [1, 2, 3, 4]⟩ (by simp [plan])
  obtain ⟨d1, a1, p1, -, s1, c1, e1, f1⟩ := T ⟨1, some 0, some 8, place trap 8, [8, 14, 18]⟩ (by simp [plan])
  obtain ⟨d2, a2, p2, -, s2, -, e2, f2⟩ := T ⟨2, some 0, some 6, place trap 6, []⟩ (by simp [plan])
  obtain ⟨d3, a3, p3, -, s3, -, e3, f3⟩ := T ⟨3, some 0, some 4, place trap 4, []⟩ (by simp [plan])
  obtain ⟨d4, a4, p4, -, s4, -, e4, f4⟩ := T ⟨4, some 0, some 2, place trap 2, []⟩ (by simp [plan])
  obtain ⟨d8, a8, p8, -, s8, -, e8, f8⟩ := T ⟨8, some 1, some 6, place (place trap 8) 6, []⟩ (by simp [plan])
  obtain ⟨d14, a14, p14, -, s14, c14, e14, f14⟩ := T ⟨14, some 1, some 4, place (place trap 8) 4, [29, 36]⟩ (by simp [plan])
  obtain ⟨d18, a18, p18, -, s18, -, e18, f18⟩ := T ⟨18, some 1, some 2, place (place trap 8) 2, []⟩ (by simp [plan])
  obtain ⟨d29, a29, p29, -, s29, -, e29, f29⟩ := T ⟨29, some 14, some 6, place (place (place trap 8) 4) 6, []⟩ (by simp [plan])
  obtain ⟨d36, a36, p36, -, s36, -, e36, f36⟩ := T ⟨36, some 14, some 2, place (place (place trap 8) 4) 2, []⟩ (by simp [plan])
  simp only at a0 p0 s0 c0 e0 f0 a1 p1 s1 c1 e1 f1 a2 p2 s2 e2 f2 a3 p3 s3 e3 f3 a4 p4 s4 e4 f4 a8 p8 s8 e8 f8 a14 p14 s14 c14 e14 f14 a18 p18 s18 e18 f18 a29 p29 s29 e29 f29 a36 p36 s36 e36 f36
  obtain ⟨c0, x0⟩ := c0 (by simp)
  obtain ⟨c1, x1⟩ := c1 (by simp)
  obtain ⟨c14, x14⟩ := c14 (by simp)
  have hn0 : n 0 = N := by rw [← e0]; exact hroot d0 a0
  have hvr := firstValue_range (G := TTT.game pf) 1 s
  have hr := I.range
  refine ⟨fun j => if Anc st j i then n j + 1 else n j,
    fun j => if Anc st j i then z j + firstValue (TTT.game pf) 1 s else z j, ?_, ?_⟩
  · intro e he
    obtain ⟨nd, g1, g2, g3, g4, g5, g6, g7⟩ := T e he
    obtain ⟨m', k1, k2, k3, k4, k5, k6, k7⟩ := hrec e.idx nd g1
    refine ⟨m', k1, k2.trans g2, k4.trans g3, k3.trans g4, ?_, ?_, ?_⟩
    · intro hk
      obtain ⟨q1, q2⟩ := g5 hk
      obtain ⟨q3, q4⟩ := k5 (by rw [q1]; exact hk) q2
      exact ⟨q3.trans q1, q4⟩
    · have hb := v.bound _ nd g1
      rw [k6, vinc_lt hB (Nat.lt_of_le_of_lt hb hN), g6]
    · have hb := v.bound _ nd g1
      have := hr e.idx (plan_idx he)
      rw [k7, g7]
      by_cases ha : Anc st e.idx i
      · simp only [if_pos ha]
        rw [A.add _ _ hvr (by omega) (by omega)]
      · simp only [if_neg ha]
  · -- ancestors
    have u1 : Anc st 0 1 := .step a1 p1 .refl
    have u14 : Anc st 1 14 := .step a14 p14 .refl
    have b0 : Anc st 0 i := by
      obtain ⟨i', n', q1, -, q3, -⟩ := selectLeafNode_spec v.wf 0 hlen
      rw [hsel] at q1
      cases Except.ok.inj q1
      exact q3
    have t8 : Anc st 8 i → Anc st 1 i := fun h => (Anc.step a8 p8 .refl).trans h
    have t14 : Anc st 14 i → Anc st 1 i := fun h => u14.trans h
    have t18 : Anc st 18 i → Anc st 1 i := fun h => (Anc.step a18 p18 .refl).trans h
    have t29 : Anc st 29 i → Anc st 14 i := fun h => (Anc.step a29 p29 .refl).trans h
    have t36 : Anc st 36 i → Anc st 14 i := fun h => (Anc.step a36 p36 .refl).trans h
    -- results
    have v2 : Anc st 2 i → firstValue (TTT.game pf) 1 s ≤ 0 := fun h =>
      value_le (s := place trap 6) (f := 5) (s2 ▸ hre 2 d2 a2 h) (by decide +kernel)
    have v3 : Anc st 3 i → firstValue (TTT.game pf) 1 s ≤ 0 := fun h =>
      value_le (s := place trap 4) (f := 5) (s3 ▸ hre 3 d3 a3 h) (by decide +kernel)
    have v8 : Anc st 8 i → firstValue (TTT.game pf) 1 s ≤ 0 := fun h =>
      value_le (s := place (place trap 8) 6) (f := 5) (s8 ▸ hre 8 d8 a8 h) (by decide +kernel)
    have v18 : Anc st 18 i → firstValue (TTT.game pf) 1 s ≤ 0 := fun h =>
      value_le (s := place (place trap 8) 2) (f := 5) (s18 ▸ hre 18 d18 a18 h) (by decide +kernel)
    have v29 : Anc st 29 i → firstValue (TTT.game pf) 1 s ≤ 0 := fun h =>
      value_le (s := place (place (place trap 8) 4) 6) (f := 5) (s29 ▸ hre 29 d29 a29 h) (by decide +kernel)
    have w29 : Anc st 29 i → 0 ≤ firstValue (TTT.game pf) 1 s := fun h =>
      value_ge (s := place (place (place trap 8) 4) 6) (f := 5) (s29 ▸ hre 29 d29 a29 h) (by decide +kernel)
    have w36 : Anc st 36 i → firstValue (TTT.game pf) 1 s = 1 := fun h =>
      value_final (s := place (place (place trap 8) 4) 2) (s36 ▸ hre 36 d36 a36 h) (by decide +kernel)
    generalize firstValue (TTT.game pf) 1 s = y at *
    have hpos := I.pos
    have hn1 := I.n1
    have hn14 := I.n14
    have m1 : Real.log (n 1) ≤ Real.log (n 1 + 1) := Real.log_le_log (by exact_mod_cast (by omega : 0 < n 1)) (by linarith)
    have m14 : Real.log (n 14) ≤ Real.log (n 14 + 1) := Real.log_le_log (by exact_mod_cast (by omega : 0 < n 14)) (by linarith)
    have bnd : ∀ (j : Nat) (nd : Node (TTT.game pf) Fl), st[j]? = some nd → nd.visits ≤ N := v.bound
    -- the root
    obtain ⟨c, hc, q1, q2⟩ := select_at A hA v.wf a0 (by rw [c0]; simp) x0 .refl b0 hsel (by rw [e0, hn0]; exact hN)
      (n := n) (z := z) (by
        rw [c0]
        intro d hd
        simp only [List.mem_cons, List.not_mem_nil, or_false] at hd
        rw [e0, hn0]
        rcases hd with rfl | rfl | rfl | rfl
        · exact ⟨d1, a1, e1, f1, by omega, e1 ▸ bnd _ _ a1, (hr 1 (by simp)).1, (hr 1 (by simp)).2⟩
        · exact ⟨d2, a2, e2, f2, by omega, e2 ▸ bnd _ _ a2, (hr 2 (by simp)).1, (hr 2 (by simp)).2⟩
        · exact ⟨d3, a3, e3, f3, by omega, e3 ▸ bnd _ _ a3, (hr 3 (by simp)).1, (hr 3 (by simp)).2⟩
        · exact ⟨d4, a4, e4, f4, by omega, e4 ▸ bnd _ _ a4, (hr 4 (by simp)).1, (hr 4 (by simp)).2⟩)
    rw [c0] at hc q1 q2
    rw [e0, hn0] at q2
    have hNpos : 0 < N := by
      have := bnd 1 d1 a1
      rw [e1] at this
      omega
    have k1 := q1 1 (by simp)
    have k2 := q1 2 (by simp)
    have k3 := q1 3 (by simp)
    have k4 := q1 4 (by simp)
    have sc := q2 1 (by simp)
    clear q1 q2 hrec hre
    simp only [List.mem_cons, List.not_mem_nil, or_false] at hc
    obtain ⟨r0, n1, z1, n14, z14, z36, z29, pos, r2, r3, r4, r8, r18, l1, l14, u2, u3, u29, u8, u18⟩ := id I
    rcases hc with rfl | rfl | rfl | rfl
    · have b1 : Anc st 1 i := k1.2 rfl
      have b2 : ¬ Anc st 2 i := fun h => absurd (k2.1 h) (by decide)
      have b3 : ¬ Anc st 3 i := fun h => absurd (k3.1 h) (by decide)
      have b4 : ¬ Anc st 4 i := fun h => absurd (k4.1 h) (by decide)
      obtain ⟨c, hc, q1, q2⟩ := select_at A hA v.wf a1 (by rw [c1]; simp) x1 u1 b1 hsel (by rw [e1]; have := bnd 1 d1 a1; omega)
        (n := n) (z := z) (by
          rw [c1]
          intro d hd
          simp only [List.mem_cons, List.not_mem_nil, or_false] at hd
          rw [e1]
          rcases hd with rfl | rfl | rfl
          · exact ⟨d8, a8, e8, f8, by omega, by omega, (hr 8 (by simp)).1, (hr 8 (by simp)).2⟩
          · exact ⟨d14, a14, e14, f14, by omega, by omega, (hr 14 (by simp)).1, (hr 14 (by simp)).2⟩
          · exact ⟨d18, a18, e18, f18, by omega, by omega, (hr 18 (by simp)).1, (hr 18 (by simp)).2⟩)
      rw [c1] at hc q1 q2
      rw [e1] at q2
      have k8 := q1 8 (by simp)
      have k14 := q1 14 (by simp)
      have k18 := q1 18 (by simp)
      have sc1 := q2 14 (by simp)
      clear q1 q2
      simp only [List.mem_cons, List.not_mem_nil, or_false] at hc
      rcases hc with rfl | rfl | rfl
      · have b8 : Anc st 8 i := k8.2 rfl
        have hy := v8 b8
        have hf := I.first_few (δ := 2 * ε) (by norm_num at hε ⊢; linarith) (d := 8) (by omega) r8.2 sc1
        have b14 : ¬ Anc st 14 i := fun h => absurd (k14.1 h) (by decide)
        have b18 : ¬ Anc st 18 i := fun h => absurd (k18.1 h) (by decide)
        have b29 : ¬ Anc st 29 i := fun h => b14 (t29 h)
        have b36 : ¬ Anc st 36 i := fun h => b14 (t36 h)
        constructor <;> simp only [b0, b1, b2, b3, b4, b8, b14, b18, b29, b36, if_true, if_false] <;> push_cast <;>
          first | omega | linarith
      · have b14 : Anc st 14 i := k14.2 rfl
        have b8 : ¬ Anc st 8 i := fun h => absurd (k8.1 h) (by decide)
        have b18 : ¬ Anc st 18 i := fun h => absurd (k18.1 h) (by decide)
        obtain ⟨c, hc, q1, q2⟩ := select_at A hA v.wf a14 (by rw [c14]; simp) x14 (u1.trans u14) b14 hsel
          (by rw [e14]; have := bnd 14 d14 a14; omega)
          (n := n) (z := z) (by
            rw [c14]
            intro d hd
            simp only [List.mem_cons, List.not_mem_nil, or_false] at hd
            rw [e14]
            rcases hd with rfl | rfl
            · exact ⟨d29, a29, e29, f29, by omega, by omega, (hr 29 (by simp)).1, (hr 29 (by simp)).2⟩
            · exact ⟨d36, a36, e36, f36, by omega, by omega, (hr 36 (by simp)).1, (hr 36 (by simp)).2⟩)
        rw [c14] at hc q1 q2
        rw [e14] at q2
        have k29 := q1 29 (by simp)
        have k36 := q1 36 (by simp)
        have sc2 := q2 36 (by simp)
        clear q1 q2
        simp only [List.mem_cons, List.not_mem_nil, or_false] at hc
        rcases hc with rfl | rfl
        · have b29 : Anc st 29 i := k29.2 rfl
          have hy := v29 b29
          have hy' := w29 b29
          have hf := I.second_few (δ := 2 * ε) (by norm_num at hε ⊢; linarith) sc2
          have b36 : ¬ Anc st 36 i := fun h => absurd (k36.1 h) (by decide)
          constructor <;> simp only [b0, b1, b2, b3, b4, b8, b14, b18, b29, b36, if_true, if_false] <;> push_cast <;>
            first | omega | linarith
        · have b36 : Anc st 36 i := k36.2 rfl
          have hy := w36 b36
          have b29 : ¬ Anc st 29 i := fun h => absurd (k29.1 h) (by decide)
          constructor <;> simp only [b0, b1, b2, b3, b4, b8, b14, b18, b29, b36, if_true, if_false] <;> push_cast <;>
            first | omega | linarith
      · have b18 : Anc st 18 i := k18.2 rfl
        have hy := v18 b18
        have hf := I.first_few (δ := 2 * ε) (by norm_num at hε ⊢; linarith) (d := 18) (by omega) r18.2 sc1
        have b8 : ¬ Anc st 8 i := fun h => absurd (k8.1 h) (by decide)
        have b14 : ¬ Anc st 14 i := fun h => absurd (k14.1 h) (by decide)
        have b29 : ¬ Anc st 29 i := fun h => b14 (t29 h)
        have b36 : ¬ Anc st 36 i := fun h => b14 (t36 h)
        constructor <;> simp only [b0, b1, b2, b3, b4, b8, b14, b18, b29, b36, if_true, if_false] <;> push_cast <;>
          first | omega | linarith
    · have hy := v2 (k2.2 rfl)
      have hf := I.root_few (δ := 2 * ε) (by norm_num at hε ⊢; linarith) hNpos (by omega) (d := 2) (by omega) r2.2 sc
      have b2 : Anc st 2 i := k2.2 rfl
      have b1 : ¬ Anc st 1 i := fun h => absurd (k1.1 h) (by decide)
      have b3 : ¬ Anc st 3 i := fun h => absurd (k3.1 h) (by decide)
      have b4 : ¬ Anc st 4 i := fun h => absurd (k4.1 h) (by decide)
      have b8 : ¬ Anc st 8 i := fun h => b1 (t8 h)
      have b14 : ¬ Anc st 14 i := fun h => b1 (t14 h)
      have b18 : ¬ Anc st 18 i := fun h => b1 (t18 h)
      have b29 : ¬ Anc st 29 i := fun h => b14 (t29 h)
      have b36 : ¬ Anc st 36 i := fun h => b14 (t36 h)
      constructor <;> simp only [b0, b1, b2, b3, b4, b8, b14, b18, b29, b36, if_true, if_false] <;> push_cast <;>
        first | omega | linarith
    · have hy := v3 (k3.2 rfl)
      have hf := I.root_few (δ := 2 * ε) (by norm_num at hε ⊢; linarith) hNpos (by omega) (d := 3) (by omega) r3.2 sc
      have b3 : Anc st 3 i := k3.2 rfl
      have b1 : ¬ Anc st 1 i := fun h => absurd (k1.1 h) (by decide)
      have b2 : ¬ Anc st 2 i := fun h => absurd (k2.1 h) (by decide)
      have b4 : ¬ Anc st 4 i := fun h => absurd (k4.1 h) (by decide)
      have b8 : ¬ Anc st 8 i := fun h => b1 (t8 h)
      have b14 : ¬ Anc st 14 i := fun h => b1 (t14 h)
      have b18 : ¬ Anc st 18 i := fun h => b1 (t18 h)
      have b29 : ¬ Anc st 29 i := fun h => b14 (t29 h)
      have b36 : ¬ Anc st 36 i := fun h => b14 (t36 h)
      constructor <;> simp only [b0, b1, b2, b3, b4, b8, b14, b18, b29, b36, if_true, if_false] <;> push_cast <;>
        first | omega | linarith
    · have hy : y ≤ 1 := by omega
      have b4 : Anc st 4 i := k4.2 rfl
      have b1 : ¬ Anc st 1 i := fun h => absurd (k1.1 h) (by decide)
      have b2 : ¬ Anc st 2 i := fun h => absurd (k2.1 h) (by decide)
      have b3 : ¬ Anc st 3 i := fun h => absurd (k3.1 h) (by decide)
      have b8 : ¬ Anc st 8 i := fun h => b1 (t8 h)
      have b14 : ¬ Anc st 14 i := fun h => b1 (t14 h)
      have b18 : ¬ Anc st 18 i := fun h => b1 (t18 h)
      have b29 : ¬ Anc st 29 i := fun h => b14 (t29 h)
      have b36 : ¬ Anc st 36 i := fun h => b14 (t36 h)
      constructor <;> simp only [b0, b1, b2, b3, b4, b8, b14, b18, b29, b36, if_true, if_false] <;> push_cast <;>
        first | omega | linarith

/-! ## The whole search -/

theorem iterate_split {G : Game} {player : Int} {limit r : Nat} (m n : Nat) {st st' : Store G Fl} {tr tr' : List Nat} {t t' : Tape}
    (h : iterate player limit r (m + n) st tr t = .ok ((st', tr'), t')) :
    ∃ st1 tr1 t1, iterate player limit r m st tr t = .ok ((st1, tr1), t1) ∧
      iterate player limit r n st1 tr1 t1 = .ok ((st', tr'), t') := by
  induction m generalizing st tr t with
  | zero => exact ⟨st, tr, t, rfl, by rwa [Nat.zero_add] at h⟩
  | succ m ih =>
    rw [show m + 1 + n = (m + n) + 1 by omega] at h
    obtain ⟨⟨st1, k⟩, t1, h1, h2⟩ := M.bind_ok.1 h
    obtain ⟨st2, tr2, t2, h3, h4⟩ := ih h2
    exact ⟨st2, tr2, t2, M.bind_ok.2 ⟨⟨st1, k⟩, t1, h1, h3⟩, h4⟩

theorem iterate_tree (A : Arith Fl ℝ B) (hB : B ≤ 16777216) {ε : ℝ} (hε : ε ≤ 1 / 2 ^ 16) (hA : Xp.Close A 2 ε) {limit : Nat}
    (hl : 0 < limit) (m : Nat) {st st' : Store (TTT.game pf) Fl} {tr tr' : List Nat} {t t' : Tape} (hN : tr.length + m < B)
    (r : RunInv 0 st tr) (v : Race 1 st tr.length) {n : Nat → Nat} {z : Nat → Int} (T : Tree st n z) (I : Inv n z)
    (h : iterate 1 limit 0 m st tr t = .ok ((st', tr'), t')) : ∃ (n' : Nat → Nat) (z' : Nat → Int), Tree st' n' z' ∧ Inv n' z' := by
  induction m generalizing st tr t n z with
  | zero =>
    have := M.pure_ok.1 h
    simp only [Prod.mk.injEq] at this
    obtain ⟨⟨rfl, rfl⟩, -⟩ := this
    exact ⟨n, z, T, I⟩
  | succ m ih =>
    obtain ⟨⟨st1, k⟩, t1, h1, h2⟩ := M.bind_ok.1 h
    have hroot : ∀ rn : Node (TTT.game pf) Fl, st[0]? = some rn → rn.visits = tr.length := fun rn hr =>
      root_visits r (by omega) hr
    have v1 := v.step A hB hl (by omega) hroot h1
    have hlen : (tr ++ [k]).length = tr.length + 1 := by simp
    obtain ⟨n1, z1, T1, I1⟩ := step A hB hε hA hl (by omega) v.inv hroot T I h1
    exact ih (tr := tr ++ [k]) (by rw [hlen]; omega) (r.step h1) (by rw [hlen]; exact v1) T1 I1 h2

theorem buildTree_start {G : Game} {state : G.S} {player : Int} {N limit : Nat} {st : Store G Fl} {tr : List Nat} {t t' : Tape}
    (hw : G.winner state = none) (h : buildTree Fl state player N limit t = .ok ((st, tr), t')) :
    ∃ ms, G.moves state = .ok ms ∧
      iterate player limit 0 N ([freshNode state 0 none none (Fl.ofInt 0) ms] : Store G Fl) [] t = .ok ((st, tr), t') ∧
      RunInv 0 ([freshNode state 0 none none (Fl.ofInt 0) ms] : Store G Fl) [] ∧
      Race player ([freshNode state 0 none none (Fl.ofInt 0) ms] : Store G Fl) 0 := by
  unfold buildTree at h
  obtain ⟨⟨st0, r⟩, t1, h1, h2⟩ := M.bind_ok.1 h
  rw [M.lift_ok, addNode_ok] at h1
  obtain ⟨⟨ms, hm, rfl, rfl⟩, rfl⟩ := h1
  refine ⟨ms, hm, h2, ?_, Race.start hw hm⟩
  refine ⟨wf_root (Fl := Fl) wf_nil hm (Fl.ofInt 0), by simp, by simp, ?_, ?_, by simp⟩
  · intro i hi
    have : i = 0 := by simp at hi; omega
    subst this
    simp [visitsAt, freshNode, countOf]
  · intro i hi
    have : i = 0 := by simp at hi; omega
    subst this
    exact .refl

/-- The children of the root in a computed tree: moves 8, 6, 4 and 2, and 8 or 2 has more visits than 6 and 4. -/
def ahead (l : List Cell) : Bool :=
  match l[0]?, l[1]?, l[2]?, l[3]?, l[4]? with
  | some r, some a, some b, some c, some d =>
    decide (r.children = [1, 2, 3, 4] ∧ a.action = some 8 ∧ b.action = some 6 ∧ c.action = some 4 ∧ d.action = some 2 ∧
      max b.visits c.visits < max a.visits d.visits)
  | _, _, _, _, _ => false

/-- Checked after `k` iterations. -/
def good (k : Nat) (l : List Cell) : Bool := decide (k < 25) || ahead l

def visitsIn (l : List Cell) (j : Nat) : Nat := (l[j]?.map Cell.visits).getD 0

def valueIn (l : List Cell) (j : Nat) : Int := (l[j]?.map Cell.value).getD 0

/-- A computed tree contains the nodes of the plan. -/
def planned (l : List Cell) : Bool :=
  plan.all fun e =>
    match l[e.idx]? with
    | none => false
    | some c => decide (c.parent = e.parent ∧ c.action = e.action ∧ c.state = e.state ∧
        (e.kids ≠ [] → c.children = e.kids ∧ c.expandable = []))

theorem planned_tree {l : List Cell} (h : planned l = true) : Tree (up pf Fl l) (visitsIn l) (valueIn l) := by
  intro e he
  have h1 := List.all_eq_true.1 h e he
  cases hc : l[e.idx]? with
  | none => rw [hc] at h1; cases h1
  | some c =>
    rw [hc] at h1
    simp only [decide_eq_true_eq] at h1
    obtain ⟨g1, g2, g3, g4⟩ := h1
    refine ⟨_, up_some hc, g1, g2, g3, g4, ?_, ?_⟩
    · unfold visitsIn
      rw [hc]
      rfl
    · unfold valueIn
      rw [hc]
      rfl

/-- The visits and values after 170 iterations. -/
def table : List (Nat × Nat × Int) :=
  [(0, 170, 121), (1, 138, 120), (2, 10, 0), (3, 8, -1), (4, 14, 2), (8, 2, -2), (14, 130, 123), (18, 5, -1), (29, 6, 0),
    (36, 123, 123)]

/-- The first 170 iterations, computed. -/
theorem computed : ∃ l, calcRun judge 1 good 170 0 [newCell trap none none] = some l ∧ planned l = true ∧
    table.all (fun r => decide (visitsIn l r.1 = r.2.1 ∧ valueIn l r.1 = r.2.2)) = true := by
  have h : (match calcRun judge 1 good 170 0 [newCell trap none none] with
      | none => false
      | some l => planned l && table.all fun r => decide (visitsIn l r.1 = r.2.1 ∧ valueIn l r.1 = r.2.2)) = true := by
    decide +kernel
  split at h
  · cases h
  case h_2 l hl =>
    rw [Bool.and_eq_true] at h
    exact ⟨l, hl, h.1, h.2⟩

theorem table_inv {l : List Cell} (h : table.all (fun r => decide (visitsIn l r.1 = r.2.1 ∧ valueIn l r.1 = r.2.2)) = true) :
    Inv (visitsIn l) (valueIn l) := by
  simp only [table, List.all_cons, List.all_nil, Bool.and_true, Bool.and_eq_true, decide_eq_true_eq] at h
  obtain ⟨⟨a0, b0⟩, ⟨a1, b1⟩, ⟨a2, b2⟩, ⟨a3, b3⟩, ⟨a4, b4⟩, ⟨a8, b8⟩, ⟨a14, b14⟩, ⟨a18, b18⟩, ⟨a29, b29⟩, ⟨a36, b36⟩⟩ := h
  have big : ∀ k : Nat, 64 ≤ k → 4 ≤ Real.log k := by
    intro k hk
    have h1 : Real.log ((2 : ℝ) ^ 6) ≤ Real.log k := Real.log_le_log (by norm_num) (by norm_num; exact_mod_cast hk)
    rw [Real.log_pow] at h1
    have := Real.log_two_gt_d9
    push_cast at h1
    linarith
  have g1 := big 138 (by norm_num)
  have g14 := big 130 (by norm_num)
  constructor <;> simp only [a0, b0, a1, b1, a2, b2, a3, b3, a4, b4, a8, b8, a14, b14, a18, b18, a29, b29, a36, b36] <;>
    first | omega | (push_cast at g1 g14 ⊢; linarith)

/-- The leading child of the root is 1 or 4. -/
structure Ahead (st : Store (TTT.game pf) Fl) : Prop where
  wf : WellFormed st
  shape : ∃ r a b c d : Node (TTT.game pf) Fl, st[0]? = some r ∧ st[1]? = some a ∧ st[2]? = some b ∧ st[3]? = some c ∧
    st[4]? = some d ∧ r.children = [1, 2, 3, 4] ∧ a.action = some (8 : Nat) ∧ d.action = some (2 : Nat) ∧
    max b.visits c.visits < max a.visits d.visits

theorem Ahead.move {st : Store (TTT.game pf) Fl} (h : Ahead st) {mv : Nat} (hm : selectMostVisits 0 st = .ok mv) :
    mv = 8 ∨ mv = 2 := by
  obtain ⟨r, a, b, c, d, h0, h1, h2, h3, h4, hc, ha, hd, hlt⟩ := h.shape
  obtain ⟨x, xn, y, g1, g2, g3, g4, g5⟩ := C37_most_visited h.wf h0 (by rw [hc]; simp)
  rw [hm] at g4
  cases Except.ok.inj g4
  rw [hc] at g1 g5
  have k1 := g5 1 a (by simp) h1
  have k4 := g5 4 d (by simp) h4
  simp only [List.mem_cons, List.not_mem_nil, or_false] at g1
  rcases g1 with rfl | rfl | rfl | rfl
  · rw [h1] at g2
    cases Option.some.inj g2
    rw [ha] at g3
    exact .inl (Option.some.inj g3).symm
  · rw [h2] at g2
    cases Option.some.inj g2
    omega
  · rw [h3] at g2
    cases Option.some.inj g2
    omega
  · rw [h4] at g2
    cases Option.some.inj g2
    rw [hd] at g3
    exact .inr (Option.some.inj g3).symm

theorem ahead_up {l : List Cell} (w : WellFormed (up pf Fl l)) (h : ahead l = true) : Ahead (up pf Fl l) := by
  unfold ahead at h
  split at h
  case h_1 r a b c d h0 h1 h2 h3 h4 =>
    rw [decide_eq_true_eq] at h
    obtain ⟨g1, g2, -, -, g5, g6⟩ := h
    exact ⟨w, _, _, _, _, _, up_some h0, up_some h1, up_some h2, up_some h3, up_some h4, g1, g2, g5, g6⟩
  · cases h

theorem ahead_tree {st : Store (TTT.game pf) Fl} (w : WellFormed st) {n : Nat → Nat} {z : Nat → Int} (T : Tree st n z)
    (I : Inv n z) : Ahead st := by
  obtain ⟨d0, a0, -, -, -, c0, -, -⟩ := T ⟨0, none, none, trap, [1, 2, 3, 4]⟩ (by simp [plan])
  obtain ⟨d1, a1, -, q1, -, -, e1, -⟩ := T ⟨1, some 0, some 8, place trap 8, [8, 14, 18]⟩ (by simp [plan])
  obtain ⟨d2, a2, -, -, -, -, e2, -⟩ := T ⟨2, some 0, some 6, place trap 6, []⟩ (by simp [plan])
  obtain ⟨d3, a3, -, -, -, -, e3, -⟩ := T ⟨3, some 0, some 4, place trap 4, []⟩ (by simp [plan])
  obtain ⟨d4, a4, -, q4, -, -, e4, -⟩ := T ⟨4, some 0, some 2, place trap 2, []⟩ (by simp [plan])
  refine ⟨w, d0, d1, d2, d3, d4, a0, a1, a2, a3, a4, (c0 (by simp)).1, q1, q4, ?_⟩
  have h1 := I.l1
  have h2 := I.u2
  have h3 := I.u3
  simp only at e1 e2 e3 e4
  rw [e1, e2, e3, e4]
  omega

/-- After at least 25 iterations the leading child of the root is 1 or 4. -/
theorem tree_ahead (A : Arith Fl ℝ B) (hB1 : 1000 ≤ B) (hB : B ≤ 16777216) {ε : ℝ} (hε : ε ≤ 1 / 2 ^ 16) (hA : Xp.Close A 2 ε)
    {N limit : Nat} (hl : 0 < limit) (h25 : 25 ≤ N) (hN : N < B) {st : Store (TTT.game pf) Fl} {tr : List Nat} {t t' : Tape}
    (h : buildTree (G := TTT.game pf) Fl trap 1 N limit t = .ok ((st, tr), t')) : Ahead st := by
  have wf := (buildTree_inv h).1.wf
  have hj := judge_just A hB1 hε hA
  obtain ⟨l, hrun, hpl, htab⟩ := computed
  have hw : TTT.checkWinner trap = none := by decide +kernel
  obtain ⟨ms, hm, h2, v, v0⟩ := buildTree_start (G := TTT.game pf) (state := trap) hw h
  have hms : TTT.getValidMoves trap = ms := Except.ok.inj hm
  have hstart : ([freshNode (G := TTT.game pf) (Fl := Fl) trap 0 none none (Fl.ofInt 0) ms] : Store (TTT.game pf) Fl) =
      up pf Fl [newCell trap none none] := by
    rw [← hms]
    rfl
  by_cases hle : N ≤ 170
  · rw [hstart] at h2
    obtain ⟨lm, g1, -, g3, -⟩ := calcRun_sound hj hB1 A.add hrun hl hle h2
    have := g3 (by omega)
    unfold good at this
    rw [Nat.zero_add, decide_eq_false (by omega : ¬ N < 25), Bool.false_or] at this
    rw [g1]
    exact ahead_up (g1 ▸ wf) this
  · obtain ⟨m, rfl⟩ : ∃ m, N = 170 + m := ⟨N - 170, by omega⟩
    obtain ⟨st1, tr1, t1, k1, k2⟩ := iterate_split 170 m h2
    obtain ⟨r1, -, r3⟩ := iterate_inv 170 v k1
    have v1 := (iterate_race (total := 0) A hB hl 170 (tr := []) (by simp; omega) v v0 k1).1
    rw [hstart] at k1
    obtain ⟨lm, g1, -, -, g4⟩ := calcRun_sound hj hB1 A.add hrun hl (Nat.le_refl _) k1
    cases g4 rfl
    subst g1
    have hlen : tr1.length = 170 := by simpa using r3
    obtain ⟨n', z', T, I⟩ := iterate_tree A hB hε hA hl m (by rw [hlen]; omega) r1 (by rw [hlen]; simpa using v1)
      (planned_tree hpl) (table_inv htab) k2
    exact ahead_tree wf T I

/-! ## C104 -/

/-- `w` can force a win. -/
inductive Forces (pf : Profile) (w : Int) : TTT.State → Prop
  | won {s : TTT.State} : TTT.checkWinner s = some w → Forces pf w s
  | move {s s' : TTT.State} {a : Nat} : TTT.checkWinner s = none → s.player = w → a ∈ TTT.getValidMoves s →
      TTT.applyMove pf s a = .ok s' → Forces pf w s' → Forces pf w s
  | reply {s : TTT.State} {next : Nat → TTT.State} : TTT.checkWinner s = none → s.player ≠ w →
      (∀ a ∈ TTT.getValidMoves s, TTT.applyMove pf s a = .ok (next a)) → (∀ a ∈ TTT.getValidMoves s, Forces pf w (next a)) →
      Forces pf w s

/-- `w` is kept from winning. -/
def holds (w : Int) : Nat → TTT.State → Bool
  | 0, _ => false
  | f + 1, s => decide (s.player = 1 ∨ s.player = -1) &&
    match TTT.checkWinner s with
    | some x => decide (x ≠ w)
    | none =>
      if s.player = w then (TTT.getValidMoves s).all fun a =>
        match TTT.applyMove .debug s a with
        | .error _ => true
        | .ok s' => holds w f s'
      else (TTT.getValidMoves s).any fun a =>
        match TTT.applyMove .debug s a with
        | .error _ => true
        | .ok s' => holds w f s'

theorem holds_sound {w : Int} {s : TTT.State} (h : Forces pf w s) (f : Nat) : holds w f s = false := by
  by_contra hc
  have hc : holds w f s = true := by simpa using hc
  induction h generalizing f with
  | won hw =>
    cases f with
    | zero => cases hc
    | succ f =>
      unfold holds at hc
      rw [hw] at hc
      simp at hc
  | move hw hp ha hap _ ih =>
    cases f with
    | zero => cases hc
    | succ f =>
      unfold holds at hc
      rw [hw, Bool.and_eq_true, decide_eq_true_eq] at hc
      simp only [if_pos hp] at hc
      have h1 := List.all_eq_true.1 hc.2 _ ha
      rw [apply_profile pf hc.1] at hap
      simp only [hap] at h1
      exact ih f (by simp [h1]) h1
  | reply hw hp hap _ ih =>
    cases f with
    | zero => cases hc
    | succ f =>
      unfold holds at hc
      rw [hw, Bool.and_eq_true, decide_eq_true_eq] at hc
      simp only [if_neg hp] at hc
      obtain ⟨a, ha, h1⟩ := List.any_eq_true.1 hc.2
      have hap := hap a ha
      rw [apply_profile pf hc.1] at hap
      simp only [hap] at h1
      exact ih a ha f (by simp [h1]) h1

/-- A move after which the opponent cannot force a win. -/
def Sound (pf : Profile) (s : TTT.State) (a : Nat) : Prop :=
  a ∈ TTT.getValidMoves s ∧ ∃ s', TTT.applyMove pf s a = .ok s' ∧ ¬ Forces pf (-s.player) s'

/-- A move after which the opponent wins with the next move. -/
def Loses (pf : Profile) (s : TTT.State) (a : Nat) : Prop :=
  ∃ s' s'' : TTT.State, ∃ b : Nat, TTT.applyMove pf s a = .ok s' ∧ TTT.checkWinner s' = none ∧ b ∈ TTT.getValidMoves s' ∧
    TTT.applyMove pf s' b = .ok s'' ∧ TTT.checkWinner s'' = some (-s.player)

theorem Loses.not_sound {s : TTT.State} {a : Nat} (hs : s.player = 1 ∨ s.player = -1) (h : Loses pf s a) : ¬ Sound pf s a := by
  rintro ⟨-, s1, h1, h2⟩
  obtain ⟨s', s'', b, g1, g2, g3, g4, g5⟩ := h
  rw [h1] at g1
  cases Except.ok.inj g1
  refine h2 (.move g2 ?_ g3 g4 (.won g5))
  unfold TTT.applyMove at h1
  split at h1
  · rcases hs with h | h
    · simp [h, i8] at h1
      rw [← h1, h]
    · simp [h, i8] at h1
      rw [← h1, h]
      rfl
  · cases h1

/-- C104 in full: in a position of a game of TicTacToe in which some move keeps the opponent from forcing a win, the plain
search returns such a move if it is given enough iterations. -/
def C104_statement (pf : Profile) : Prop :=
  ∀ s : TTT.State, Reaches (TTT.game pf) TTT.new s → TTT.checkWinner s = none → (∃ a, Sound pf s a) →
    ∃ N0 < 2 ^ 24, ∀ (N limit : Nat) (mv : Nat) (t t' : Tape), N0 ≤ N → N < 2 ^ 24 → 0 < limit →
      mctSearch (G := TTT.game pf) (realFloats 2) s s.player N limit t = .ok (mv, t') → Sound pf s mv

theorem trap_loses (pf : Profile) {a : Nat} (h : a = 8 ∨ a = 2) : Loses pf trap a := by
  rcases h with rfl | rfl
  · refine ⟨place trap 8, place (place trap 8) 6, 6, ?_, by decide +kernel, by decide +kernel, ?_, by decide +kernel⟩
    · rw [apply_profile pf (.inl rfl)]; decide +kernel
    · rw [apply_profile pf (.inr rfl)]; decide +kernel
  · refine ⟨place trap 2, place (place trap 2) 6, 6, ?_, by decide +kernel, by decide +kernel, ?_, by decide +kernel⟩
    · rw [apply_profile pf (.inl rfl)]; decide +kernel
    · rw [apply_profile pf (.inr rfl)]; decide +kernel

/-- The opponent cannot force a win after cell 6. -/
theorem trap_sound (pf : Profile) : Sound pf trap 6 := by
  refine ⟨by decide +kernel, place trap 6, ?_, fun h => ?_⟩
  · rw [apply_profile pf (.inl rfl)]; decide +kernel
  · have h1 := holds_sound h 5
    have h2 : holds (-trap.player) 5 (place trap 6) = true := by decide +kernel
    rw [h2] at h1
    cases h1

/-- The trap comes up in a game: cells 0, 1, 3, 5 and 7 are taken in turn. -/
theorem trap_reached (pf : Profile) : Reaches (TTT.game pf) TTT.new trap := by
  have one : ∀ {s s' : TTT.State} {a : Nat}, Reaches (TTT.game pf) TTT.new s → TTT.checkWinner s = none →
      a ∈ TTT.getValidMoves s → (s.player = 1 ∨ s.player = -1) → TTT.applyMove .debug s a = .ok s' →
      Reaches (TTT.game pf) TTT.new s' := by
    intro s s' a h1 h2 h3 h4 h5
    refine Reaches.step (G := TTT.game pf) (s1 := s) (a := a) (ms := TTT.getValidMoves s) h1 h2 rfl h3 ⟨fun _ => 0, fun _ => 0, ?_⟩
    have h6 : TTT.applyMove pf s a = .ok s' := by rw [apply_profile pf h4, h5]
    exact (M.lift_ok (α := TTT.State)).2 ⟨h6, rfl⟩
  have h0 : Reaches (TTT.game pf) TTT.new TTT.new := .refl
  have h1 := one (s' := place TTT.new 0) (a := 0) h0 (by decide +kernel) (by decide +kernel) (.inr rfl) (by decide +kernel)
  have h2 := one (s' := place (place TTT.new 0) 1) (a := 1) h1 (by decide +kernel) (by decide +kernel) (.inl rfl) (by decide +kernel)
  have h3 := one (s' := place (place (place TTT.new 0) 1) 3) (a := 3) h2 (by decide +kernel) (by decide +kernel) (.inr rfl)
    (by decide +kernel)
  have h4 := one (s' := place (place (place (place TTT.new 0) 1) 3) 5) (a := 5) h3 (by decide +kernel) (by decide +kernel)
    (.inl rfl) (by decide +kernel)
  exact one (s' := trap) (a := 7) h4 (by decide +kernel) (by decide +kernel) (.inr rfl) (by decide +kernel)

/-- In the trap the search returns a move after which the opponent wins at once, for every number of iterations from 25 on,
every random stream and every rollout limit. -/
theorem C104_blunder (pf : Profile) {N limit : Nat} (h25 : 25 ≤ N) (hN : N < 2 ^ 24) (hl : 0 < limit) {mv : Nat} {t t' : Tape}
    (h : mctSearch (G := TTT.game pf) (realFloats 2) trap 1 N limit t = .ok (mv, t')) : Loses pf trap mv := by
  have hw : (TTT.game pf).winner trap = none := show TTT.checkWinner trap = none by decide +kernel
  obtain ⟨st, tr, h1, h2⟩ := mctSearch_run hw h
  have hA : Xp.Close (realArith 2 16777216) 2 0 := by
    intro z n p _ _ _ _ _
    rw [abs_le]
    exact ⟨le_of_eq (by show -0 = (_ : ℝ) - _; simp [realArith, realFloats]), le_of_eq (by simp [realArith, realFloats])⟩
  exact trap_loses pf ((tree_ahead (realArith 2 16777216) (by norm_num) (Nat.le_refl _) (by norm_num) hA hl h25 hN h1).move h2)

/-- The same in single precision. -/
theorem C104_blunder_single (pf : Profile) {ln : Num → Num} (hln : Fn.LogOK ln) {N limit : Nat} (h25 : 25 ≤ N) (hN : N < 65536)
    (hl : 0 < limit) {mv : Nat} {t t' : Tape}
    (h : mctSearch (G := TTT.game pf) (single (.fin 2) ln) trap 1 N limit t = .ok (mv, t')) : Loses pf trap mv := by
  have hw : (TTT.game pf).winner trap = none := show TTT.checkWinner trap = none by decide +kernel
  obtain ⟨st, tr, h1, h2⟩ := mctSearch_run hw h
  have hu : Fn.Usual 2 := ⟨.inr (by norm_num), by norm_num⟩
  have hA := Fn.single_close hu hln
  rw [show (((2 : Rat) : ℝ)) = 2 by norm_num] at hA
  exact trap_loses pf ((tree_ahead (Fn.singleArith hu hln) (by norm_num) (by norm_num) (by norm_num) hA hl h25 hN h1).move h2)

/-- C104 does not hold. -/
theorem C104_refuted (pf : Profile) : ¬ C104_statement pf := by
  intro h
  obtain ⟨N0, hN0, h⟩ := h trap (trap_reached pf) (by decide +kernel) ⟨6, trap_sound pf⟩
  obtain ⟨mv, t', hm⟩ := C32_tictactoe (Fl := realFloats 2) pf trap (.inl rfl) 1 (max N0 25) 400 (fun _ => 0)
  have hlt : max N0 25 < 2 ^ 24 := by
    rw [Nat.max_lt]
    exact ⟨hN0, by norm_num⟩
  exact (C104_blunder pf (Nat.le_max_right _ _) hlt (by norm_num) hm).not_sound (.inl rfl)
    (h (max N0 25) 400 mv (fun _ => 0) t' (Nat.le_max_left _ _) hlt (by norm_num) hm)

/-- The configuration of the repository: exploration constant 2, 100 iterations, rollouts of up to 400 moves.  Whatever the
random numbers, the search in the trap returns, and the move loses although cell 6 holds the draw. -/
example (t : Tape) : ∃ mv t', mctSearch (G := TTT.game .release) (single (.fin 2) Fn.roundedLn) trap 1 100 400 t = .ok (mv, t') ∧
    Loses .release trap mv ∧ Sound .release trap 6 := by
  obtain ⟨mv, t', h⟩ := C32_tictactoe (Fl := single (.fin 2) Fn.roundedLn) .release trap (.inl rfl) 1 100 400 t
  exact ⟨mv, t', h, C104_blunder_single .release Fn.roundedLn_ok (by norm_num) (by norm_num) (by norm_num) h, trap_sound _⟩

end DieE.Props.Bl
