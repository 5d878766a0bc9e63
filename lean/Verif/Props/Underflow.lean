import Verif.Props.SelfPlay
import Verif.Props.Versus
import Mathlib.Analysis.SpecialFunctions.Pow.Real

/-!
# C81: powers which underflow

`pow_` of a tensor of `f32` is rounded: a power below half of the smallest positive number becomes 0.  If this happens to
all entries of a row, the row has sum 0 and is treated as that of a player without a legal move
(`alpha_parallel.rs:183-185`, `versus.rs:292`).
-/

namespace DieE.Props.Uf
open DieE DieE.Mcts DieE.Train DieE.Props.S DieE.Props.A

variable {G : Game} {Fl : Floats}

/-- `pw` is a rounding of `x ↦ x^e` to `f32`, as far as it concerns zero: the smallest positive number is `2^-149`, what
is below one half of it is rounded to 0. -/
structure Pow32 (e : ℝ) (pw : Rat → Rat) : Prop where
  zero : pw 0 = 0
  nonneg : ∀ x, 0 ≤ x → 0 ≤ pw x
  under : ∀ x : Rat, 0 < x → ((x : ℝ) ^ e) * 2 ^ 150 < 1 → pw x = 0
  kept : ∀ x : Rat, 0 < x → 1 ≤ ((x : ℝ) ^ e) * 2 ^ 149 → 0 < pw x

/-- In the turn a player passes only without a legal move. -/
def MustPass : Turn G → Prop
  | .skip s _ => G.moves s = .ok []
  | .move _ _ _ _ => True

/-- C81: in self-play a player who has a legal move does not pass, for every positive temperature `1 / e`. -/
def C81_statement : Prop :=
  ∀ (G : Game) (R : G.S → Prop) (Fl : Floats) (net : Net Fl) (cfg : SelfPlayConfig) (o : Orders G) (n : Nat) (t t' : Tape)
    (sp : SelfPlay G) (e : ℝ), SafeNet G R → Coded G R → Starts G R → net.alphaOk = true → 0 < e → Pow32 e cfg.pw →
    cfg.iterations ≠ 0 → o.Valid → selfPlayRun net cfg o n (cfg.limit + 1) t = .ok (sp, t') →
    ∀ i, i < n → ∀ turn ∈ sp.turns i, MustPass turn

/-- A row of `N` entries does not vanish if `1 / N` does not. -/
theorem Pow32.ok {e : ℝ} (he : 0 < e) {pw : Rat → Rat} (h : Pow32 e pw) {N : Nat} (hN : (N : ℝ) ^ e ≤ 2 ^ 149) :
    PwWarm N pw := by
  refine ⟨⟨h.zero, h.nonneg⟩, ?_⟩
  intro x hx h1
  refine h.kept x hx ?_
  have hx' : (0 : ℝ) < x := by exact_mod_cast hx
  have h1' : (1 : ℝ) ≤ N * x := by exact_mod_cast h1
  have h2 : (1 : ℝ) ≤ (N * x) ^ e := Real.one_le_rpow h1' he.le
  rw [Real.mul_rpow (Nat.cast_nonneg N) hx'.le] at h2
  refine le_trans h2 ?_
  rw [mul_comm]
  exact mul_le_mul_of_nonneg_left hN (Real.rpow_nonneg hx'.le e)

theorem mustPass_of_fair {pw : Rat → Rat} (hpw : PwWarm G.actionSpace pw) {turn : Turn G} (h : turn.Fair pw) :
    MustPass turn := by
  cases turn with
  | skip s s' => exact h.1.resolve_right (not_vanishes hpw)
  | move s ps a s' => trivial

theorem log_fair {pw : Rat → Rat} {s s' : G.S} {l : List (Turn G)} (h : Log G pw s l s') : ∀ turn ∈ l, turn.Fair pw := by
  induction h with
  | nil => intro turn h; cases h
  | snoc t hl hb hf ih =>
    intro turn hm
    rcases List.mem_append.1 hm with hm | hm
    · exact ih turn hm
    · rw [List.mem_singleton.1 hm]; exact hf

/-- C81 for temperatures which are not too low, `N^e ≤ 2^149` for `N` codes.  Missing for the full statement: lower
temperatures; there it is false (`C81_refuted`). -/
theorem C81_partial {R : G.S → Prop} (hs : SafeNet G R) (hc : Coded G R) (hst : Starts G R) {net : Net Fl}
    (ha : net.alphaOk = true) {cfg : SelfPlayConfig} {e : ℝ} (he : 0 < e) (hpw : Pow32 e cfg.pw)
    (hN : (G.actionSpace : ℝ) ^ e ≤ 2 ^ 149) (hit : cfg.iterations ≠ 0) {o : Orders G}
    (ho : o.Valid) {n : Nat} {t t' : Tape} {sp : SelfPlay G}
    (h : selfPlayRun net cfg o n (cfg.limit + 1) t = .ok (sp, t')) (i : Nat) (hi : i < n) :
    ∀ turn ∈ sp.turns i, MustPass turn := by
  obtain ⟨⟨s0, s, -, -, -, hlog⟩, -, -⟩ :=
    L.C64_games hs hc hst ha cfg (hpw.ok he hN).toPwOK hit ho (Nat.le_refl _) h i hi
  exact fun turn hm => mustPass_of_fair (hpw.ok he hN) (log_fair hlog turn hm)

/-- The bound for Backgammon: temperatures from `1 / 14` upwards are not too low. -/
theorem bg_warm {e : ℝ} (he : e ≤ 14) : ((1352 : ℕ) : ℝ) ^ e ≤ 2 ^ 149 := by
  refine le_trans (Real.rpow_le_rpow_of_exponent_le (by norm_num) he) ?_
  have : ((1352 : ℕ) : ℝ) ^ (14 : ℝ) = ((1352 : ℕ) : ℝ) ^ (14 : ℕ) := by
    rw [← Real.rpow_natCast]; norm_num
  rw [this]
  norm_num

/-- The bound for TicTacToe: temperatures from `1 / 47` upwards are not too low. -/
theorem ttt_warm {e : ℝ} (he : e ≤ 47) : ((9 : ℕ) : ℝ) ^ e ≤ 2 ^ 149 := by
  refine le_trans (Real.rpow_le_rpow_of_exponent_le (by norm_num) he) ?_
  have : ((9 : ℕ) : ℝ) ^ (47 : ℝ) = ((9 : ℕ) : ℝ) ^ (47 : ℕ) := by
    rw [← Real.rpow_natCast]; norm_num
  rw [this]
  norm_num

/-- For Backgammon, in particular for the temperature 1.25 of the example configuration (`e = 4/5`), a player who can
move does not pass. -/
theorem C81_backgammon_partial (pf : Profile) {net : Net Fl} (ha : net.alphaOk = true) {cfg : SelfPlayConfig} {e : ℝ}
    (he : 0 < e) (he' : e ≤ 14) (hpw : Pow32 e cfg.pw) (hit : cfg.iterations ≠ 0) {o : Orders (BG.game pf)}
    (ho : o.Valid) {n : Nat} {t t' : Tape} {sp : SelfPlay (BG.game pf)}
    (h : selfPlayRun net cfg o n (cfg.limit + 1) t = .ok (sp, t')) (i : Nat) (hi : i < n) :
    ∀ turn ∈ sp.turns i, MustPass turn :=
  C81_partial (bg_safeNet pf) (bg_coded pf) (L.bg_starts pf) ha he hpw (bg_warm he') hit ho h i hi

/-- In a match a network player who can move does so, under the same condition. -/
theorem C81_match_partial {R : G.S → Prop} (hs : SafeNet G R) (hc : Coded G R) {net : Net Fl} (ha : net.alphaOk = true)
    {pl : Versus.Player Fl} (hp : pl.agent = .model) (hnet : pl.net = some net) {cfg : Versus.Config} {e : ℝ} (he : 0 < e)
    (hpw : Pow32 e cfg.pw) (hN : (G.actionSpace : ℝ) ^ e ≤ 2 ^ 149) (hi : cfg.iterations ≠ 0) {order : Nat → List Nat}
    (ho : ∀ n, (order n).Perm (List.range n)) {ss : List G.S} (hne : ss ≠ []) (hR : ∀ s ∈ ss, R s) (t : Tape) :
    ∃ as t', Versus.getActions pl cfg order ss t = .ok (as, t') ∧
      List.Forall₂ (fun s a => ∃ ms, G.moves s = .ok ms ∧ (a ∈ ms ∨ ms = [] ∧ a = G.emptyMove)) ss as :=
  Versus.model_spec hs hc ha hp hnet (hpw.ok he hN) hi ho hne hR t

/-! ## Low temperatures -/

/-- The power 200 (temperature 0.005) with underflow. -/
def coldPw (x : Rat) : Rat := if x ^ 200 * 2 ^ 149 < 1 then 0 else x ^ 200

theorem coldPw_ok : Pow32 200 coldPw := by
  have hpow : ∀ x : Rat, ((x : ℝ) ^ (200 : ℝ)) = ((x ^ 200 : Rat) : ℝ) := by
    intro x
    have : (200 : ℝ) = ((200 : ℕ) : ℝ) := by norm_num
    rw [this, Real.rpow_natCast]
    push_cast
    rfl
  refine ⟨by decide +kernel, ?_, ?_, ?_⟩
  · intro x hx
    unfold coldPw
    split
    · exact le_rfl
    · exact pow_nonneg hx _
  · intro x hx h
    rw [hpow] at h
    have h' : x ^ 200 * 2 ^ 150 < 1 := by exact_mod_cast h
    unfold coldPw
    have hp : 0 < x ^ 200 := pow_pos hx _
    rw [if_pos]
    generalize x ^ 200 = y at *
    refine lt_of_le_of_lt ?_ h'
    exact mul_le_mul_of_nonneg_left (by norm_num) hp.le
  · intro x hx h
    rw [hpow] at h
    have h' : 1 ≤ x ^ 200 * 2 ^ 149 := by exact_mod_cast h
    unfold coldPw
    rw [if_neg (not_lt.2 h')]
    exact pow_pos hx _

/-- Four iterations per search at temperature 0.005. -/
def coldConfig : SelfPlayConfig := { iterations := 4, limit := 0, pw := coldPw }

/-- One turn of self-play at low temperature. -/
def coldRun : Res (SelfPlay (TTT.game .debug) × Tape) :=
  selfPlayRun demoNet coldConfig (L.demoOrders _) 1 1 demoTape

/-- The first turn is passed. -/
def passed (G : Game) : Option (Turn G) → Bool
  | some (.skip _ _) => true
  | _ => false

/-- The legal moves of the state before the first turn. -/
def choices (r : Res (SelfPlay (TTT.game .debug) × Tape)) : Option (Bool × List Nat) :=
  r.toOption.bind fun r => ((r.1.turns 0)[0]?).map fun turn =>
    (passed (TTT.game .debug) (some turn), TTT.getValidMoves turn.before)

/-- The player passes on the empty board. -/
theorem cold_pass : choices coldRun = some (true, [0, 1, 2, 3, 4, 5, 6, 7, 8]) := by decide +kernel

/-- C81 is false: with four iterations no child has more than half of the visits, all powers underflow, and the first
player passes although all nine moves are legal. -/
theorem C81_refuted : ¬ C81_statement := by
  intro h
  have hc := cold_pass
  unfold choices at hc
  cases hr : coldRun with
  | error e => rw [hr] at hc; cases hc
  | ok r =>
    rw [hr] at hc
    obtain ⟨sp, t'⟩ := r
    have h1 := h (TTT.game .debug) _ demoFloats demoNet coldConfig (L.demoOrders _) 1 demoTape t' sp 200
      (ttt_safeNet .debug) (ttt_coded .debug) (L.ttt_starts .debug) rfl (by norm_num) coldPw_ok (by decide)
      (L.demoOrders_valid _) hr 0 (by decide)
    simp only [Except.toOption, Option.bind_some] at hc
    cases ht : (sp.turns 0)[0]? with
    | none => rw [ht] at hc; cases hc
    | some turn =>
      rw [ht] at hc
      have h2 := h1 turn (List.mem_of_getElem? ht)
      simp only [Option.map_some, Option.some.injEq, Prod.mk.injEq] at hc
      obtain ⟨h3, h4⟩ := hc
      cases turn with
      | move s ps a s' => cases h3
      | skip s s' =>
        have h2 : (Except.ok (TTT.getValidMoves s) : Res (List Nat)) = .ok [] := h2
        have h4 : TTT.getValidMoves s = [0, 1, 2, 3, 4, 5, 6, 7, 8] := h4
        rw [h4] at h2
        cases h2

/-- Temperature 1 with underflow. -/
def warmPw (x : Rat) : Rat := if x * 2 ^ 149 < 1 then 0 else x

theorem warmPw_ok : Pow32 1 warmPw := by
  refine ⟨by decide +kernel, ?_, ?_, ?_⟩
  · intro x hx
    unfold warmPw
    split
    · exact le_rfl
    · exact hx
  · intro x hx h
    rw [Real.rpow_one] at h
    have h' : x * 2 ^ 150 < 1 := by exact_mod_cast h
    unfold warmPw
    rw [if_pos]
    exact lt_of_le_of_lt (mul_le_mul_of_nonneg_left (by norm_num) hx.le) h'
  · intro x hx h
    rw [Real.rpow_one] at h
    have h' : 1 ≤ x * 2 ^ 149 := by exact_mod_cast h
    unfold warmPw
    rw [if_neg (not_lt.2 h')]
    exact hx

/-- The same run at temperature 1 meets the hypotheses of `C81_partial`, and the first turn is a move. -/
example : Pow32 1 warmPw ∧ ((9 : ℕ) : ℝ) ^ (1 : ℝ) ≤ 2 ^ 149 ∧
    choices (selfPlayRun demoNet { coldConfig with pw := warmPw } (L.demoOrders _) 1 1 demoTape) =
      some (false, [0, 1, 2, 3, 4, 5, 6, 7, 8]) :=
  ⟨warmPw_ok, ttt_warm (by norm_num), by decide +kernel⟩

end DieE.Props.Uf
