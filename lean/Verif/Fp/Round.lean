import Mathlib.Data.Int.Log
import Mathlib.Data.Rat.Floor
import Mathlib.Data.Rat.Cast.Order
import Mathlib.Tactic.Linarith
import Mathlib.Tactic.Positivity
import Mathlib.Tactic.NormNum
import Mathlib.Tactic.FieldSimp
import Mathlib.Tactic.Ring

/-!
# Binary floating point: rounding to nearest, ties to even

The arithmetic of `f32` and `f64` (IEEE 754 binary32 and binary64).  A finite number is a rational; the sign of zero is
left out.  The result of an operation is the exact result put through `rnd`, or an infinity if that is too large.
-/

namespace DieE.Fp

/-- A binary format: precision in bits, exponent of the smallest positive number, exponent of the first power of two
that is too large. -/
structure Format where
  prec : Nat
  low : Int
  high : Int

/-- `f32` -/
def f32 : Format := ⟨24, -149, 128⟩
/-- `f64` -/
def f64 : Format := ⟨53, -1074, 1024⟩

section
variable {K : Type*} [Field K] [LinearOrder K] [IsStrictOrderedRing K] [FloorRing K]

/-- The nearest integer, of two equally near ones the even one. -/
def nearestEven (x : K) : Int :=
  let f := ⌊x⌋
  if x - f < 1 / 2 then f else if 1 / 2 < x - f then f + 1 else if f % 2 = 0 then f else f + 1

/-- The exponent of the last place of numbers near `x`. -/
def lastPlace (φ : Format) (x : K) : Int := max (Int.log 2 |x| - (φ.prec - 1)) φ.low

/-- The significand of the rounded number. -/
def significand (φ : Format) (x : K) : Int := nearestEven (x / 2 ^ lastPlace φ x)

/-- Rounding, without a limit to the size of numbers. -/
def rnd (φ : Format) (x : K) : Rat := significand φ x * 2 ^ lastPlace φ x

/-! ## Specification -/

/-- The numbers of a format (without a limit to their size). -/
def Representable (φ : Format) (y : Rat) : Prop := ∃ m e : Int, |m| < 2 ^ φ.prec ∧ φ.low ≤ e ∧ y = m * 2 ^ e

/-- `r` is a nearest number to `x`; if there is another one, the significand of `r` is even. -/
structure Nearest (φ : Format) (x : K) (r : Rat) : Prop where
  rep : Representable φ r
  near : ∀ y, Representable φ y → |x - (r : K)| ≤ |x - (y : K)|
  tie : ∀ y, Representable φ y → y ≠ r → |x - (y : K)| = |x - (r : K)| →
    ∃ m e : Int, |m| ≤ 2 ^ φ.prec ∧ φ.low ≤ e ∧ r = m * 2 ^ e ∧ Even m ∧ (2 ^ (φ.prec - 1) ≤ |m| ∨ e = φ.low)

/-! ## Facts -/

theorem nearestEven_cases (x : K) :
    (nearestEven x = ⌊x⌋ ∧ x - ⌊x⌋ ≤ 1 / 2 ∧ (x - ⌊x⌋ = 1 / 2 → Even ⌊x⌋)) ∨
    (nearestEven x = ⌊x⌋ + 1 ∧ 1 / 2 ≤ x - ⌊x⌋ ∧ (x - ⌊x⌋ = 1 / 2 → Even (⌊x⌋ + 1))) := by
  unfold nearestEven
  simp only
  split
  case isTrue h => exact .inl ⟨rfl, h.le, fun he => absurd he h.ne⟩
  case isFalse h =>
    split
    case isTrue h2 => exact .inr ⟨rfl, h2.le, fun he => absurd he.symm h2.ne⟩
    case isFalse h2 =>
      have e : x - ⌊x⌋ = 1 / 2 := le_antisymm (not_lt.1 h2) (not_lt.1 h)
      split
      case isTrue h3 => exact .inl ⟨rfl, e.le, fun _ => Int.even_iff.2 h3⟩
      case isFalse h3 => exact .inr ⟨rfl, e.ge, fun _ => Int.even_iff.2 (by omega)⟩

theorem nearestEven_half (x : K) : |x - nearestEven x| ≤ 1 / 2 := by
  have h1 := Int.floor_le x
  have h2 := Int.lt_floor_add_one x
  rw [abs_le]
  rcases nearestEven_cases x with ⟨e, h, -⟩ | ⟨e, h, -⟩ <;> rw [e] <;> push_cast <;> constructor <;> linarith

theorem int_gap {x : K} {a b : Int} (h : a ≠ b) : 1 ≤ |x - (a : K)| + |x - (b : K)| := by
  have h1 : (1 : K) ≤ |(a : K) - b| := by
    have : (1 : Int) ≤ |a - b| := Int.one_le_abs (sub_ne_zero.2 h)
    exact_mod_cast this
  have h2 : |(a : K) - b| ≤ |x - (a : K)| + |x - (b : K)| := by
    have := abs_sub_le (a : K) x b
    rwa [abs_sub_comm (a : K) x] at this
  exact h1.trans h2

theorem nearestEven_le (x : K) (z : Int) : |x - nearestEven x| ≤ |x - (z : K)| := by
  by_cases h : z = nearestEven x
  · rw [h]
  · have h1 := nearestEven_half x
    have h2 := int_gap (x := x) h
    linarith

theorem nearestEven_tie {x : K} {z : Int} (hz : z ≠ nearestEven x) (h : |x - (z : K)| = |x - nearestEven x|) :
    Even (nearestEven x) := by
  have h1 := nearestEven_half x
  have h2 := int_gap (x := x) hz
  have h3 : |x - nearestEven x| = 1 / 2 := by linarith
  have h4 := Int.floor_le x
  have h5 := Int.lt_floor_add_one x
  rcases nearestEven_cases x with ⟨e, h6, h7⟩ | ⟨e, h6, h7⟩ <;> rw [e] at h3 ⊢
  · rw [abs_of_nonneg (by linarith)] at h3
    exact h7 h3
  · push_cast at h3
    rw [abs_of_nonpos (by linarith)] at h3
    exact h7 (by linarith)

theorem crossed {x y a b : K} (h : a < b) (h1 : |x - b| ≤ |x - a|) (h2 : |y - a| ≤ |y - b|) : y ≤ x := by
  rcases abs_cases (x - b) with ⟨e1, s1⟩ | ⟨e1, s1⟩ <;> rcases abs_cases (x - a) with ⟨e2, s2⟩ | ⟨e2, s2⟩ <;>
  rcases abs_cases (y - a) with ⟨e3, s3⟩ | ⟨e3, s3⟩ <;> rcases abs_cases (y - b) with ⟨e4, s4⟩ | ⟨e4, s4⟩ <;>
  rw [e1, e2] at h1 <;> rw [e3, e4] at h2 <;> linarith

theorem nearestEven_mono {x y : K} (h : x ≤ y) : nearestEven x ≤ nearestEven y := by
  rcases h.eq_or_lt with rfl | h
  · exact le_refl _
  by_contra hc
  have h1 := nearestEven_le x (nearestEven y)
  have h2 := nearestEven_le y (nearestEven x)
  have hc' : ((nearestEven y : Int) : K) < nearestEven x := by exact_mod_cast not_le.1 hc
  exact absurd (crossed hc' h1 h2) (not_le.2 h)

theorem nearestEven_int (n : Int) : nearestEven (n : K) = n := by
  have h := nearestEven_le (n : K) n
  rw [sub_self, abs_zero] at h
  have h2 := abs_nonpos_iff.1 h
  exact_mod_cast (sub_eq_zero.1 h2).symm

theorem two_zpow_pos (e : Int) : (0 : K) < 2 ^ e := zpow_pos (by norm_num) e

theorem cast_rnd (φ : Format) (x : K) : ((rnd φ x : Rat) : K) = significand φ x * 2 ^ lastPlace φ x := by
  unfold rnd
  push_cast
  rfl

/-- The error is at most half of the last place. -/
theorem rnd_half (φ : Format) (x : K) : |x - (rnd φ x : K)| ≤ 2 ^ lastPlace φ x / 2 := by
  have hp := two_zpow_pos (K := K) (lastPlace φ x)
  have h := nearestEven_half (x / 2 ^ lastPlace φ x)
  have e : x - (rnd φ x : K) = (x / 2 ^ lastPlace φ x - significand φ x) * 2 ^ lastPlace φ x := by
    rw [cast_rnd]
    field_simp
  rw [e, abs_mul, abs_of_pos hp]
  have := mul_le_mul_of_nonneg_right h hp.le
  unfold significand
  linarith

/-- The last place is not more than `φ.prec - 1` places below the first one. -/
theorem abs_lt_lastPlace (φ : Format) (x : K) : |x| < 2 ^ (lastPlace φ x + φ.prec) := by
  refine (Int.lt_zpow_succ_log_self (b := 2) (by norm_num) |x|).trans_le ?_
  push_cast
  refine zpow_le_zpow_right₀ (by norm_num) ?_
  have := le_max_left (Int.log 2 |x| - (φ.prec - 1)) φ.low
  unfold lastPlace
  linarith

theorem low_le_lastPlace (φ : Format) (x : K) : φ.low ≤ lastPlace φ x := le_max_right _ _

theorem le_abs_of_low_lt {φ : Format} {x : K} (hx : x ≠ 0) (h : φ.low < lastPlace φ x) : 2 ^ (lastPlace φ x + φ.prec - 1) ≤ |x| := by
  have e : lastPlace φ x = Int.log 2 |x| - (φ.prec - 1) := by
    unfold lastPlace at h ⊢
    rcases max_choice (Int.log 2 |x| - ((φ.prec : Int) - 1)) φ.low with h' | h' <;> omega
  rw [e, show Int.log 2 |x| - ((φ.prec : Int) - 1) + φ.prec - 1 = Int.log 2 |x| by ring]
  have := Int.zpow_log_le_self (b := 2) (by norm_num) (abs_pos.2 hx)
  exact_mod_cast this

theorem significand_le (φ : Format) (x : K) : |significand φ x| ≤ 2 ^ φ.prec := by
  have hp := two_zpow_pos (K := K) (lastPlace φ x)
  have h1 := abs_lt_lastPlace φ x
  rw [zpow_add₀ (by norm_num), zpow_natCast] at h1
  have h2 : |x / 2 ^ lastPlace φ x| < 2 ^ φ.prec := by
    rw [abs_div, abs_of_pos hp, div_lt_iff₀ hp]
    linarith
  rw [abs_lt] at h2
  have h3 := nearestEven_mono (x := ((-2 ^ φ.prec : Int) : K)) (y := x / 2 ^ lastPlace φ x) (by push_cast; linarith)
  have h4 := nearestEven_mono (x := x / 2 ^ lastPlace φ x) (y := ((2 ^ φ.prec : Int) : K)) (by push_cast; linarith)
  rw [nearestEven_int] at h3 h4
  rw [abs_le]
  exact ⟨h3, h4⟩

theorem two_zpow_split {a b : Int} (h : b ≤ a) : (2 : Rat) ^ a = 2 ^ b * ((2 ^ (a - b).toNat : Int) : Rat) := by
  have : a = b + ((a - b).toNat : Int) := by omega
  conv_lhs => rw [this]
  rw [zpow_add₀ (by norm_num), zpow_natCast]
  push_cast
  rfl

theorem rnd_representable {φ : Format} (hp : 0 < φ.prec) (x : K) : Representable φ (rnd φ x) := by
  rcases (significand_le φ x).lt_or_eq with h | h
  · exact ⟨_, _, h, low_le_lastPlace φ x, rfl⟩
  · obtain ⟨q, hq⟩ : ∃ q, φ.prec = q + 1 := ⟨φ.prec - 1, by omega⟩
    have hd : significand φ x = (significand φ x / 2 ^ q / 2 * 2 ^ q) * 2 ∧ |significand φ x / 2 ^ q / 2 * 2 ^ q| = 2 ^ q := by
      have hpos : (0 : Int) < 2 ^ q := by positivity
      rw [hq, pow_succ] at h
      rcases abs_eq (by positivity) |>.1 h with h' | h' <;> rw [h']
      · rw [show (2 : Int) ^ q * 2 / 2 ^ q = 2 by rw [Int.mul_ediv_cancel_left _ hpos.ne']]
        constructor
        · ring
        · rw [show (2 : Int) / 2 = 1 by norm_num, one_mul, abs_of_pos hpos]
      · rw [show (-(2 ^ q * 2 : Int)) / 2 ^ q = -2 by rw [show -((2 : Int) ^ q * 2) = 2 ^ q * (-2) by ring, Int.mul_ediv_cancel_left _ hpos.ne']]
        constructor
        · rw [show (-2 : Int) / 2 = -1 by norm_num]; ring
        · rw [show (-2 : Int) / 2 = -1 by norm_num, abs_mul, abs_of_pos hpos]; norm_num
    refine ⟨significand φ x / 2 ^ q / 2 * 2 ^ q, lastPlace φ x + 1, ?_, ?_, ?_⟩
    · rw [hd.2, hq, pow_succ]
      have : (0 : Int) < 2 ^ q := by positivity
      linarith
    · have := low_le_lastPlace φ x
      linarith
    · unfold rnd
      conv_lhs => rw [hd.1]
      rw [zpow_add₀ (by norm_num)]
      push_cast
      ring

theorem zpow_small {φ : Format} {m e e' : Int} (hm : |m| < 2 ^ φ.prec) (he : e' < e) :
    |((m * 2 ^ e' : Rat) : K)| < 2 ^ (e + φ.prec - 1) := by
  push_cast
  rw [abs_mul, abs_of_pos (two_zpow_pos (K := K) e')]
  have h1 : |(m : K)| < 2 ^ φ.prec := by exact_mod_cast hm
  calc |(m : K)| * 2 ^ e' < 2 ^ φ.prec * 2 ^ e' := mul_lt_mul_of_pos_right h1 (two_zpow_pos e')
    _ = 2 ^ ((φ.prec : Int) + e') := by rw [zpow_add₀ (by norm_num), zpow_natCast]
    _ ≤ 2 ^ (e + φ.prec - 1) := zpow_le_zpow_right₀ (by norm_num) (by omega)

/-- A number with smaller last place than that of `x` is further away than the rounded number. -/
theorem far {φ : Format} (hp : 0 < φ.prec) {x : K} {m e' : Int} (hm : |m| < 2 ^ φ.prec) (hl : φ.low ≤ e')
    (he : e' < lastPlace φ x) : |x - (rnd φ x : K)| < |x - ((m * 2 ^ e' : Rat) : K)| ∨ x = 0 := by
  rcases eq_or_ne x 0 with hx | hx
  · exact .inr hx
  left
  have h1 := le_abs_of_low_lt hx (hl.trans_lt he)
  have h2 := zpow_small (K := K) hm he
  set e := lastPlace φ x with hee
  set N : Int := 2 ^ (φ.prec - 1)
  have hN : (2 : K) ^ (e + φ.prec - 1) = N * 2 ^ e := by
    have : (e + φ.prec - 1 : Int) = ((φ.prec - 1 : Nat) : Int) + e := by omega
    rw [this, zpow_add₀ (by norm_num), zpow_natCast]
    push_cast [N]
    rfl
  have hpos := two_zpow_pos (K := K) e
  have h3 : |x - (rnd φ x : K)| ≤ |x| - N * 2 ^ e := by
    have key : ∀ z : Int, |x - (rnd φ x : K)| ≤ |x - z * 2 ^ e| := by
      intro z
      have h := mul_le_mul_of_nonneg_right (nearestEven_le (x / 2 ^ e) z) hpos.le
      rw [← abs_of_pos hpos, ← abs_mul, ← abs_mul, sub_mul, sub_mul, abs_of_pos hpos, div_mul_cancel₀ _ hpos.ne'] at h
      rw [cast_rnd]
      exact h
    rw [hN] at h1
    rcases abs_cases x with ⟨ex, -⟩ | ⟨ex, -⟩
    · have := key N
      rw [abs_of_nonneg (by linarith : 0 ≤ x - N * 2 ^ e)] at this
      rw [ex]
      exact this
    · have := key (-N)
      push_cast at this
      rw [abs_of_nonpos (by linarith : x - -(N : K) * 2 ^ e ≤ 0)] at this
      rw [ex]
      linarith
  rw [hN] at h2
  have h4 := abs_sub_abs_le_abs_sub x ((m * 2 ^ e' : Rat) : K)
  linarith

/-- Rounding is as specified. -/
theorem rnd_nearest {φ : Format} (hp : 0 < φ.prec) (x : K) : Nearest φ x (rnd φ x) := by
  have hpos := two_zpow_pos (K := K) (lastPlace φ x)
  have h0 : x = 0 → rnd φ x = 0 := by
    rintro rfl
    unfold rnd significand
    rw [zero_div, show (0 : K) = ((0 : Int) : K) by simp, nearestEven_int]
    simp
  have int : ∀ {m e : Int}, lastPlace φ x ≤ e → ∃ z : Int, (m * 2 ^ e : Rat) = z * 2 ^ lastPlace φ x := by
    intro m e he
    exact ⟨m * 2 ^ (e - lastPlace φ x).toNat, by rw [two_zpow_split he]; push_cast; ring⟩
  have scale : ∀ z : Int, |x - ((z * 2 ^ lastPlace φ x : Rat) : K)| = |x / 2 ^ lastPlace φ x - z| * 2 ^ lastPlace φ x := by
    intro z
    push_cast
    rw [← abs_of_pos hpos, ← abs_mul, sub_mul, abs_of_pos hpos, div_mul_cancel₀ _ hpos.ne']
  have scale' : |x - (rnd φ x : K)| = |x / 2 ^ lastPlace φ x - significand φ x| * 2 ^ lastPlace φ x := scale (significand φ x)
  refine ⟨rnd_representable hp x, ?_, ?_⟩
  · rintro y ⟨m, e, hm, hl, rfl⟩
    rcases lt_or_ge e (lastPlace φ x) with he | he
    · rcases far hp hm hl he with h | h
      · exact h.le
      · rw [h0 h, h, Rat.cast_zero, sub_zero, abs_zero]
        exact abs_nonneg _
    · obtain ⟨z, hz⟩ := int (m := m) he
      rw [hz, scale, scale']
      exact mul_le_mul_of_nonneg_right (nearestEven_le _ z) hpos.le
  · rintro y ⟨m, e, hm, hl, rfl⟩ hne ht
    rcases lt_or_ge e (lastPlace φ x) with he | he
    · rcases far hp hm hl he with h | h
      · exact absurd ht h.ne'
      · rw [h0 h, h] at ht
        rw [h0 h] at hne
        simp only [Rat.cast_zero, sub_zero, zero_sub, abs_neg, abs_zero, abs_eq_zero] at ht
        exact absurd (by exact_mod_cast ht) hne
    · obtain ⟨z, hz⟩ := int (m := m) he
      rw [hz] at ht hne
      rw [scale, scale'] at ht
      have hzne : z ≠ significand φ x := by
        rintro rfl
        exact hne rfl
      refine ⟨significand φ x, lastPlace φ x, significand_le φ x, low_le_lastPlace φ x, rfl,
        nearestEven_tie hzne (mul_right_cancel₀ hpos.ne' ht), ?_⟩
      rcases (low_le_lastPlace φ x).lt_or_eq with hlow | hlow
      · left
        have hx : x ≠ 0 := by
          rintro rfl
          have hs : significand φ (0 : K) = 0 := by
            unfold significand
            rw [zero_div, show (0 : K) = ((0 : Int) : K) by simp, nearestEven_int]
          rw [hs] at ht hzne
          have := mul_right_cancel₀ hpos.ne' ht
          rw [zero_div, zero_sub, abs_neg] at this
          simp only [Int.cast_zero, sub_zero, abs_zero, abs_eq_zero, Int.cast_eq_zero] at this
          exact hzne this
        have h1 := le_abs_of_low_lt hx hlow
        have h2 : (2 : K) ^ (lastPlace φ x + φ.prec - 1) = ((2 ^ (φ.prec - 1) : Int) : K) * 2 ^ lastPlace φ x := by
          have : (lastPlace φ x + φ.prec - 1 : Int) = ((φ.prec - 1 : Nat) : Int) + lastPlace φ x := by omega
          rw [this, zpow_add₀ (by norm_num), zpow_natCast]
          push_cast
          rfl
        rw [h2, ← le_div_iff₀ hpos] at h1
        have h3 : |x| / 2 ^ lastPlace φ x = |x / 2 ^ lastPlace φ x| := by rw [abs_div, abs_of_pos hpos]
        rw [h3] at h1
        rcases abs_cases (x / 2 ^ lastPlace φ x) with ⟨ex, -⟩ | ⟨ex, -⟩
        · rw [ex] at h1
          have := nearestEven_mono h1
          rw [nearestEven_int] at this
          exact this.trans (le_abs_self _)
        · rw [ex] at h1
          have h4 : x / 2 ^ lastPlace φ x ≤ ((-2 ^ (φ.prec - 1) : Int) : K) := by push_cast at h1 ⊢; linarith
          have := nearestEven_mono h4
          rw [nearestEven_int] at this
          have h5 := neg_le_abs (significand φ x)
          have h6 : significand φ x ≤ -2 ^ (φ.prec - 1) := this
          linarith
      · exact .inr hlow.symm

theorem rnd_mono {φ : Format} (hp : 0 < φ.prec) {x y : K} (h : x ≤ y) : rnd φ x ≤ rnd φ y := by
  rcases h.eq_or_lt with rfl | h
  · exact le_refl _
  by_contra hc
  have h1 := (rnd_nearest hp x).near _ (rnd_representable hp y)
  have h2 := (rnd_nearest hp y).near _ (rnd_representable hp x)
  have hc' : ((rnd φ y : Rat) : K) < rnd φ x := by exact_mod_cast not_le.1 hc
  exact absurd (crossed hc' h1 h2) (not_le.2 h)

theorem rnd_exact {φ : Format} (hp : 0 < φ.prec) {y : Rat} (h : Representable φ y) : rnd φ (y : K) = y := by
  have h1 := (rnd_nearest hp (y : K)).near y h
  rw [sub_self, abs_zero] at h1
  have h2 := sub_eq_zero.1 (abs_nonpos_iff.1 h1)
  exact_mod_cast h2.symm

/-- The relative error of numbers that are not too small. -/
theorem rnd_rel {φ : Format} (x : K) (h : 2 ^ (φ.low + φ.prec - 1) ≤ |x|) : |x - (rnd φ x : K)| ≤ |x| / 2 ^ φ.prec := by
  have hx : x ≠ 0 := by
    rintro rfl
    rw [abs_zero] at h
    exact absurd (two_zpow_pos (K := K) (φ.low + φ.prec - 1)) (not_lt.2 h)
  refine (rnd_half φ x).trans ?_
  have h1 : (2 : K) ^ (lastPlace φ x + φ.prec - 1) ≤ |x| := by
    rcases (low_le_lastPlace φ x).lt_or_eq with hl | hl
    · exact le_abs_of_low_lt hx hl
    · rwa [← hl]
  have h2 : (2 : K) ^ (lastPlace φ x + φ.prec - 1) = 2 ^ lastPlace φ x / 2 * 2 ^ φ.prec := by
    rw [zpow_sub₀ (by norm_num), zpow_add₀ (by norm_num), zpow_natCast, zpow_one]
    ring
  rw [le_div_iff₀ (by positivity)]
  rwa [h2] at h1

/-- The absolute error, for numbers below a power of two. -/
theorem rnd_abs {φ : Format} (x : K) {e : Int} (h : |x| < 2 ^ (e + φ.prec)) (he : φ.low ≤ e) : |x - (rnd φ x : K)| ≤ 2 ^ e / 2 := by
  rcases eq_or_ne x 0 with rfl | hx
  · rw [show (0 : K) = ((0 : Int) : K) by simp]
    unfold rnd significand
    rw [Int.cast_zero, zero_div, show (0 : K) = ((0 : Int) : K) by simp, nearestEven_int]
    simp only [Int.cast_zero, zero_mul, Rat.cast_zero, sub_zero, abs_zero]
    have := two_zpow_pos (K := K) e
    linarith
  refine (rnd_half φ x).trans ?_
  have : (2 : K) ^ lastPlace φ x ≤ 2 ^ e := by
    refine zpow_le_zpow_right₀ (by norm_num) ?_
    unfold lastPlace
    refine max_le ?_ he
    have := (Int.lt_zpow_iff_log_lt (b := 2) (by norm_num) (abs_pos.2 hx)).1 (by exact_mod_cast h)
    omega
  linarith

end

end DieE.Fp
