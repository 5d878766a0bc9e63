import Verif.Fp.Num
import Verif.Props.Win
import Verif.Props.Explore
import Verif.Props.Versus

/-! # C100: the arithmetic of `f32` and `f64` is as assumed elsewhere -/

namespace DieE.Props.Fn
open DieE DieE.Fp DieE.Mcts DieE.Props.S DieE.Props.Vl DieE.Props.Wn

section
variable {K : Type*} [Field K] [LinearOrder K] [IsStrictOrderedRing K] [FloorRing K]

/-- C100: rounding returns a nearest number of the format, and the even one of two. -/
theorem C100_nearest {φ : Format} (hp : 0 < φ.prec) (x : K) : Nearest φ x (rnd φ x) := rnd_nearest hp x

/-- The formats of the program. -/
example : 0 < f32.prec ∧ 0 < f64.prec := by decide

theorem le_rep {φ : Format} (hp : 0 < φ.prec) {x : K} {y : Rat} (hy : Representable φ y) (h : x ≤ y) : rnd φ x ≤ y := by
  have := rnd_mono hp h
  rwa [rnd_exact hp hy] at this

theorem rep_le {φ : Format} (hp : 0 < φ.prec) {x : K} {y : Rat} (hy : Representable φ y) (h : (y : K) ≤ x) : y ≤ rnd φ x := by
  have := rnd_mono hp h
  rwa [rnd_exact hp hy] at this

theorem rep_neg {φ : Format} {y : Rat} (h : Representable φ y) : Representable φ (-y) := by
  obtain ⟨m, e, h1, h2, rfl⟩ := h
  exact ⟨-m, e, by rwa [abs_neg], h2, by push_cast; ring⟩

theorem rep_pow {φ : Format} (hp : 0 < φ.prec) {e : Int} (h : φ.low ≤ e) : Representable φ (2 ^ e) :=
  ⟨1, e, by rw [abs_one]; exact one_lt_pow₀ (by norm_num) (by omega), h, by push_cast; ring⟩

theorem abs_rnd_le {φ : Format} (hp : 0 < φ.prec) {x : K} {y : Rat} (hy : Representable φ y) (h : |x| ≤ y) : |rnd φ x| ≤ y := by
  rw [abs_le] at h ⊢
  refine ⟨rep_le hp (rep_neg hy) (by push_cast; exact h.1), le_rep hp hy h.2⟩

theorem round_fin {φ : Format} (hp : 0 < φ.prec) {x : K} {e : Int} (he : φ.low ≤ e) (he' : e < φ.high) (h : |x| ≤ 2 ^ e) :
    Num.round φ x = .fin (rnd φ x) := by
  unfold Num.round
  rw [if_pos]
  refine (abs_rnd_le hp (rep_pow hp he) (by push_cast; exact h)).trans_lt ?_
  exact zpow_lt_zpow_right₀ (by norm_num) he'

end

/-! ## `f64` -/

/-- C100: the rounding of `f64` is a rounding as assumed for the gate of the training run. -/
theorem C100_gate : Versus.Rounding (rnd f64 : Rat → Rat) where
  mono := fun _ _ h => rnd_mono (by decide) h
  err := by
    intro x h0 h1
    have h := rnd_abs (φ := f64) x (e := -52) (by
      show |x| < 2 ^ ((-52 : Int) + (53 : Nat))
      rw [abs_of_nonneg h0]
      norm_num
      linarith) (by decide)
    rw [Rat.cast_id, abs_le] at h
    norm_num at h ⊢
    constructor <;> linarith

/-- With the rounding of `f64` the gate accepts exactly from 220 wins on and rejects up to 180 wins. -/
theorem C100_gate_exact (w : Nat) (hw : w ≤ 400) :
    (rnd f64 ((w : Rat) / 400) ≥ rnd f64 (55 / 100 : Rat) ↔ 220 ≤ w) ∧
    (rnd f64 ((w : Rat) / 400) ≤ rnd f64 (45 / 100 : Rat) ↔ w ≤ 180) := by
  have h1 := V.winrate_ge C100_gate (w := w) hw
  have h2 := V.winrate_le C100_gate (w := w) hw
  push_cast at h1 h2
  exact ⟨h1, h2⟩

/-! ## `f32` -/

theorem rep_int {n : Int} (h : |n| ≤ 16777216) : Representable f32 n := by
  rcases h.lt_or_eq with h | h
  · exact ⟨n, 0, by show |n| < 2 ^ 24; norm_num; exact h, by decide, by simp⟩
  · rcases (abs_eq (by norm_num)).1 h with rfl | rfl
    · exact ⟨1, 24, by decide, by decide, by norm_num⟩
    · exact ⟨-1, 24, by decide, by decide, by norm_num⟩

theorem round_rat {x : Rat} (h : |x| ≤ 16777216) : Num.round f32 x = .fin (rnd f32 x) :=
  round_fin (by decide) (e := 24) (by decide) (by decide) (by rw [show ((2 : Rat) ^ (24 : Int)) = 16777216 by norm_num]; exact h)

theorem round_int {n : Int} (h : |n| ≤ 16777216) : Num.round f32 (n : Rat) = .fin n := by
  rw [round_rat (by exact_mod_cast h)]
  have := rnd_exact (K := Rat) (φ := f32) (by decide) (rep_int h)
  rw [Rat.cast_id] at this
  rw [this]

/-- C100: counting visits in `f32`, as modelled by `vinc`. -/
theorem C100_count {v : Nat} (h : v ≤ 16777216) : Num.add f32 (.fin v) (.fin 1) = .fin (vinc v) := by
  show Num.round f32 ((v : Rat) + 1) = _
  unfold vinc
  split
  case isTrue hv =>
    have := round_int (n := (v : Int) + 1) (by rw [abs_le]; omega)
    push_cast at this ⊢
    exact this
  case isFalse hv =>
    have : v = 16777216 := by omega
    subst this
    decide +kernel

/-- The count of an often visited node stays where it is. -/
example : Num.add f32 (.fin (16777216 : Nat)) (.fin 1) = .fin (16777216 : Nat) := C100_count (Nat.le_refl _)

theorem intAdd (c : Num) (ln : Num → Num) : IntAdd (single c ln) (2 ^ 24) := by
  intro a b hb h1 h2
  show Num.add f32 (Num.round f32 (a : Rat)) (Num.round f32 (b : Rat)) = Num.round f32 ((a + b : Int) : Rat)
  have ha : |a| ≤ 16777216 := by rw [abs_le]; constructor <;> norm_num at h1 h2 <;> omega
  have hb' : |b| ≤ 16777216 := by rw [abs_le]; omega
  rw [round_int ha, round_int hb']
  show Num.round f32 ((a : Rat) + b) = _
  push_cast
  rfl

/-- The value of a finite number. -/
def value? : Num → Option Rat
  | .fin q => some q
  | _ => none

/-- `f32` is as assumed for C77. -/
noncomputable def singleRounded (c : Num) (ln : Num → Num) : Rounded (single c ln) where
  val := value?
  rnd := rnd f32
  ofInt := by
    intro n hn
    show value? (Num.round f32 (n : Rat)) = _
    rw [round_int (by rw [abs_le]; omega)]
    rfl
  add := by
    intro x y a b hx hy h
    show value? (Num.add f32 x y) = _
    cases x with
    | fin p =>
      cases y with
      | fin q =>
        cases hx
        cases hy
        show value? (Num.round f32 (a + b)) = _
        rw [round_rat h]
        rfl
      | inf _ => cases hy
      | nan => cases hy
    | inf _ => cases hx
    | nan => cases hx
  mono := fun _ _ h => rnd_mono (by decide) h
  exact := fun n h => by
    have := rnd_exact (K := Rat) (φ := f32) (by decide) (rep_int h)
    rwa [Rat.cast_id] at this

variable {G : Game}

/-- C100, values: in a tree of the plain search in `f32`, every node visited less than `2^24` times has a finite value sum
of absolute value at most its visits. -/
theorem C100_values {c : Num} {ln : Num → Num} {state : G.S} {player : Int} {iterations limit : Nat}
    {st : Store G (single c ln)} {tr : List Nat} {t t' : Tape}
    (h : buildTree (single c ln) state player iterations limit t = .ok ((st, tr), t')) :
    ∀ n ∈ st, n.visits < 16777216 → ∃ q : Rat, n.value = Num.fin q ∧ |q| ≤ n.visits ∧ |q / n.visits| ≤ 1 := by
  intro n hn hv
  obtain ⟨q, h1, h2, h3⟩ := C77_plain (singleRounded c ln) h n hn hv
  refine ⟨q, ?_, h2, h3⟩
  have h1 : value? n.value = some q := h1
  revert h1
  generalize (n.value : Num) = x
  intro h1
  cases x with
  | fin p => cases h1; rfl
  | inf _ => cases h1
  | nan => cases h1

/-! ## The scores of the plain search -/

/-- The logarithm of the library is accurate to two units in the last place, on the counts below `2^16`. -/
def LogOK (ln : Num → Num) : Prop :=
  ∀ p : Nat, 1 ≤ p → p < 65536 → ∃ L : Rat, ln (.fin p) = .fin L ∧ |(L : ℝ) - Real.log p| ≤ 1 / 2 ^ 22 * Real.log p

/-- An exploration constant with usual values: zero, or neither tiny nor large. -/
def Usual (c : Rat) : Prop := (c = 0 ∨ 1 / 2 ^ 100 ≤ c) ∧ c ≤ 4

theorem rel_trans {x y z a b : ℝ} (ha : |y - x| ≤ a * x) (hb : |z - y| ≤ b * y) (hb0 : 0 ≤ b) :
    |z - x| ≤ (a + b + a * b) * x := by
  have h1 : y ≤ (1 + a) * x := by
    have := (abs_le.1 ha).2
    linarith
  have h2 : |z - y| ≤ b * ((1 + a) * x) := hb.trans (mul_le_mul_of_nonneg_left h1 hb0)
  have h3 := abs_sub_le z y x
  calc |z - x| ≤ |z - y| + |y - x| := h3
    _ ≤ b * ((1 + a) * x) + a * x := add_le_add h2 ha
    _ = _ := by ring

theorem rel_sqrt {x y a : ℝ} (hx : 0 ≤ x) (hy : 0 ≤ y) (ha : |y - x| ≤ a * x) : |Real.sqrt y - Real.sqrt x| ≤ a * Real.sqrt x := by
  rcases hx.eq_or_lt with rfl | hx'
  · have : y = 0 := by
      rw [mul_zero] at ha
      have := abs_nonpos_iff.1 ha
      linarith
    rw [this]
    simp
  have sx : 0 < Real.sqrt x := Real.sqrt_pos.2 hx'
  have sy : 0 ≤ Real.sqrt y := Real.sqrt_nonneg y
  have e : y - x = (Real.sqrt y - Real.sqrt x) * (Real.sqrt y + Real.sqrt x) := by
    have h1 := Real.mul_self_sqrt hx
    have h2 := Real.mul_self_sqrt hy
    nlinarith
  have ha0 : 0 ≤ a := by
    by_contra hc
    have h1 : a * x < 0 := mul_neg_of_neg_of_pos (not_le.1 hc) hx'
    linarith [abs_nonneg (y - x)]
  rw [e, abs_mul, abs_of_pos (by linarith : 0 < Real.sqrt y + Real.sqrt x)] at ha
  have h3 : a * x ≤ a * Real.sqrt x * (Real.sqrt y + Real.sqrt x) := by
    have h1 := Real.mul_self_sqrt hx
    have h4 : 0 ≤ a * Real.sqrt x * Real.sqrt y := by positivity
    nlinarith
  exact le_of_mul_le_mul_right (ha.trans h3) (by linarith)

/-- Rounding of a number that is zero or not too small. -/
theorem rnd_rel_real {x : ℝ} (h : x = 0 ∨ 1 / 2 ^ 126 ≤ x) : |(rnd f32 x : ℝ) - x| ≤ 1 / 2 ^ 24 * x := by
  rcases h with rfl | h
  · have : rnd f32 (0 : ℝ) = 0 := by
      have := rnd_exact (K := ℝ) (φ := f32) (by decide) (rep_int (n := 0) (by norm_num))
      simpa using this
    rw [this]
    simp
  · have hx : 0 < x := lt_of_lt_of_le (by positivity) h
    have := rnd_rel (φ := f32) x (by
      show (2 : ℝ) ^ ((-149 : Int) + (24 : Nat) - 1) ≤ |x|
      rw [abs_of_pos hx, show ((-149 : Int) + (24 : Nat) - 1) = -126 by norm_num, zpow_neg]
      refine le_trans (le_of_eq ?_) h
      norm_num)
    rw [abs_sub_comm, abs_of_pos hx] at this
    refine this.trans (le_of_eq ?_)
    show x / 2 ^ 24 = _
    ring

theorem cast_round (x : Rat) : (rnd f32 (x : ℝ)) = rnd f32 x := by
  have h : ∀ y : Rat, nearestEven (y : ℝ) = nearestEven y := by
    intro y
    unfold nearestEven
    simp only [Rat.floor_cast]
    have e : ((y : ℝ) - (⌊y⌋ : ℝ)) = ((y - (⌊y⌋ : Rat) : Rat) : ℝ) := by push_cast; rfl
    rw [e]
    have h1 : (((y - (⌊y⌋ : Rat) : Rat) : ℝ) < 1 / 2) ↔ y - (⌊y⌋ : Rat) < 1 / 2 := by
      rw [show (1 / 2 : ℝ) = ((1 / 2 : Rat) : ℝ) by push_cast; rfl, Rat.cast_lt]
    have h2 : ((1 / 2 : ℝ) < ((y - (⌊y⌋ : Rat) : Rat) : ℝ)) ↔ 1 / 2 < y - (⌊y⌋ : Rat) := by
      rw [show (1 / 2 : ℝ) = ((1 / 2 : Rat) : ℝ) by push_cast; rfl, Rat.cast_lt]
    simp only [h1, h2]
  have hl : lastPlace f32 (x : ℝ) = lastPlace f32 x := by
    unfold lastPlace
    rw [← Rat.cast_abs]
    congr 2
    unfold Int.log
    have h1 : (1 : ℝ) ≤ ((|x| : Rat) : ℝ) ↔ 1 ≤ |x| := by exact_mod_cast Iff.rfl
    have h2 : ⌊((|x| : Rat) : ℝ)⌋₊ = ⌊|x|⌋₊ := by
      rw [← Int.floor_toNat, ← Int.floor_toNat, Rat.floor_cast]
    have h3 : ⌈(((|x| : Rat) : ℝ))⁻¹⌉₊ = ⌈|x|⁻¹⌉₊ := by
      rw [← Int.ceil_toNat, ← Int.ceil_toNat, ← Rat.cast_inv, Rat.ceil_cast]
    simp only [h1, h2, h3]
  unfold rnd significand
  rw [hl]
  congr 2
  rw [← h]
  push_cast
  rfl

theorem log_bound {p : Nat} (h1 : 1 ≤ p) (h : p < 65536) : Real.log p ≤ 11.1 := by
  have h2 : Real.log p ≤ Real.log ((2 : ℝ) ^ 16) :=
    Real.log_le_log (by exact_mod_cast h1) (by norm_num; exact_mod_cast h.le)
  rw [Real.log_pow] at h2
  have := Real.log_two_lt_d9
  push_cast at h2
  linarith

/-- The exploration term: close to the exact one. -/
theorem exploration {c : Rat} (hc : Usual c) {ln : Num → Num} (hln : LogOK ln) {n p : Nat} (hn : 0 < n) (hnp : n ≤ p) (hp : p < 65536) :
    ∃ E : Rat, Num.sqrt f32 (Num.div f32 (Num.mul f32 (.fin c) (ln (.fin p))) (.fin n)) = .fin E ∧ 0 ≤ E ∧ E ≤ 7 ∧
      |(E : ℝ) - Real.sqrt (c * Real.log p / n)| ≤ 1 / 2 ^ 20 * Real.sqrt (c * Real.log p / n) := by
  obtain ⟨L, hL, hacc⟩ := hln p (by omega) hp
  have hc0 : (0 : Rat) ≤ c := by
    rcases hc.1 with h | h
    · exact h.ge
    · exact le_trans (by positivity) h
  have hc0' : (0 : ℝ) ≤ c := by exact_mod_cast hc0
  have hc4 : (c : ℝ) ≤ 4 := by exact_mod_cast hc.2
  have hn' : (1 : ℝ) ≤ n := by exact_mod_cast hn
  have hn'' : (n : ℝ) < 65536 := by exact_mod_cast (by omega : n < 65536)
  have hlog0 : 0 ≤ Real.log p := Real.log_nonneg (by exact_mod_cast (by omega : 1 ≤ p))
  have hlog1 := log_bound (p := p) (by omega) hp
  have hlog2 : p = 1 ∨ (1 / 2 : ℝ) ≤ Real.log p := by
    rcases Nat.lt_or_ge 1 p with h | h
    · right
      have h2 : Real.log (2 : ℝ) ≤ Real.log p := Real.log_le_log (by norm_num) (by exact_mod_cast h)
      have := Real.log_two_gt_d9
      linarith
    · left; omega
  have hacc' := abs_le.1 hacc
  have hL0 : (0 : ℝ) ≤ L := by
    have : (1 / 2 ^ 22 : ℝ) * Real.log p ≤ Real.log p := by
      have : (1 / 2 ^ 22 : ℝ) ≤ 1 := by norm_num
      nlinarith
    linarith [hacc'.1]
  have hL12 : (L : ℝ) ≤ 11.2 := by
    have h1 : (1 / 2 ^ 22 : ℝ) * Real.log p ≤ 1 / 2 ^ 22 * 11.1 := mul_le_mul_of_nonneg_left hlog1 (by positivity)
    have h2 : (1 / 2 ^ 22 : ℝ) * 11.1 ≤ 0.1 := by norm_num
    linarith [hacc'.2]
  -- either everything is zero or nothing is small
  have hz : (c : ℝ) * L = 0 ∨ 1 / 2 ^ 102 ≤ (c : ℝ) * L := by
    rcases hc.1 with h | h
    · left; rw [h]; simp
    rcases hlog2 with h2 | h2
    · left
      rw [h2] at hacc
      simp only [Nat.cast_one, Real.log_one, mul_zero, sub_zero] at hacc
      rw [abs_nonpos_iff.1 hacc, mul_zero]
    · right
      have h3 : (1 / 4 : ℝ) ≤ L := by
        have : (1 / 2 ^ 22 : ℝ) * Real.log p ≤ 1 / 2 * Real.log p := mul_le_mul_of_nonneg_right (by norm_num) hlog0
        linarith [hacc'.1]
      have h4 : (1 / 2 ^ 100 : ℝ) ≤ c := by
        have : ((1 / 2 ^ 100 : Rat) : ℝ) ≤ c := by exact_mod_cast h
        push_cast at this
        exact this
      calc (1 / 2 ^ 102 : ℝ) = 1 / 2 ^ 100 * (1 / 4) := by norm_num
        _ ≤ c * L := mul_le_mul h4 h3 (by norm_num) hc0'
  have hcl : (c : ℝ) * L ≤ 44.8 := by nlinarith
  have hcl0 : 0 ≤ (c : ℝ) * L := mul_nonneg hc0' hL0
  -- the product
  have e1 : Num.mul f32 (.fin c) (ln (.fin p)) = .fin (rnd f32 (c * L)) := by
    rw [hL]
    show Num.round f32 (c * L) = _
    refine round_rat ?_
    have h1 : |((c * L : Rat) : ℝ)| ≤ 16777216 := by
      push_cast
      rw [abs_of_nonneg hcl0]
      linarith
    exact_mod_cast h1
  set X := rnd f32 (c * L) with hX
  have r1 : |(X : ℝ) - c * L| ≤ 1 / 2 ^ 24 * (c * L) := by
    have := rnd_rel_real (x := (c : ℝ) * L) (by
      rcases hz with h | h
      · exact .inl h
      · exact .inr (le_trans (by norm_num) h))
    rw [hX, ← cast_round]
    push_cast
    exact this
  have hX0 : (0 : ℝ) ≤ X ∧ (X : ℝ) ≤ 45 ∧ ((X : ℝ) = 0 ∨ 1 / 2 ^ 103 ≤ (X : ℝ)) := by
    have h1 := abs_le.1 r1
    have h2 : (1 / 2 ^ 24 : ℝ) * (c * L) ≤ 1 / 2 * (c * L) := mul_le_mul_of_nonneg_right (by norm_num) hcl0
    have h3 : (1 / 2 ^ 24 : ℝ) * (c * L) ≤ 1 / 2 ^ 24 * 44.8 := mul_le_mul_of_nonneg_left hcl (by norm_num)
    have h4 : (1 / 2 ^ 24 : ℝ) * 44.8 ≤ 0.2 := by norm_num
    refine ⟨by linarith, by linarith, ?_⟩
    rcases hz with h | h
    · left
      rw [h] at r1
      simp only [mul_zero, sub_zero] at r1
      exact abs_nonpos_iff.1 r1
    · right
      have : (1 / 2 ^ 103 : ℝ) = 1 / 2 * (1 / 2 ^ 102) := by norm_num
      rw [this]
      linarith
  -- the quotient
  have hnq : ((n : Rat)) ≠ 0 := by exact_mod_cast (by omega : n ≠ 0)
  have hq0 : 0 ≤ (X : ℝ) / n := div_nonneg hX0.1 (by linarith)
  have hq1 : (X : ℝ) / n ≤ 45 := (div_le_self hX0.1 hn').trans hX0.2.1
  have e2 : Num.div f32 (.fin X) (.fin n) = .fin (rnd f32 (X / n)) := by
    show (if (n : Rat) = 0 then _ else Num.round f32 (X / n)) = _
    rw [if_neg hnq]
    refine round_rat ?_
    have h1 : |((X / n : Rat) : ℝ)| ≤ 16777216 := by
      push_cast
      rw [abs_of_nonneg hq0]
      linarith
    exact_mod_cast h1
  set Y := rnd f32 (X / n) with hY
  have r2 : |(Y : ℝ) - X / n| ≤ 1 / 2 ^ 24 * (X / n) := by
    have := rnd_rel_real (x := (X : ℝ) / n) (by
      rcases hX0.2.2 with h | h
      · left; rw [h, zero_div]
      · right
        rw [le_div_iff₀ (by linarith)]
        calc (1 / 2 ^ 126 : ℝ) * n ≤ 1 / 2 ^ 126 * 65536 := mul_le_mul_of_nonneg_left hn''.le (by norm_num)
          _ ≤ 1 / 2 ^ 103 := by norm_num
          _ ≤ X := h)
    rw [hY, ← cast_round]
    push_cast
    exact this
  have hY0 : (0 : ℝ) ≤ Y ∧ (Y : ℝ) ≤ 46 ∧ ((Y : ℝ) = 0 ∨ 1 / 2 ^ 120 ≤ (Y : ℝ)) := by
    have h1 := abs_le.1 r2
    have h2 : (1 / 2 ^ 24 : ℝ) * (X / n) ≤ 1 / 2 * (X / n) := mul_le_mul_of_nonneg_right (by norm_num) hq0
    have h3 : (1 / 2 ^ 24 : ℝ) * (X / n) ≤ 1 / 2 ^ 24 * 45 := mul_le_mul_of_nonneg_left hq1 (by norm_num)
    have h4 : (1 / 2 ^ 24 : ℝ) * 45 ≤ 1 := by norm_num
    refine ⟨by linarith, by linarith, ?_⟩
    rcases hX0.2.2 with h | h
    · left
      rw [h] at r2
      simp only [zero_div, mul_zero, sub_zero] at r2
      exact abs_nonpos_iff.1 r2
    · right
      have h5 : (1 / 2 ^ 119 : ℝ) ≤ X / n := by
        rw [le_div_iff₀ (by linarith)]
        calc (1 / 2 ^ 119 : ℝ) * n ≤ 1 / 2 ^ 119 * 65536 := mul_le_mul_of_nonneg_left hn''.le (by norm_num)
          _ ≤ 1 / 2 ^ 103 := by norm_num
          _ ≤ X := h
      have : (1 / 2 ^ 120 : ℝ) = 1 / 2 * (1 / 2 ^ 119) := by norm_num
      rw [this]
      linarith
  -- against the exact quotient
  have s1 : |(c : ℝ) * L - c * Real.log p| ≤ 1 / 2 ^ 22 * (c * Real.log p) := by
    rw [← mul_sub, abs_mul, abs_of_nonneg hc0']
    have := mul_le_mul_of_nonneg_left hacc hc0'
    linarith
  have s2 := rel_trans s1 r1 (by norm_num)
  have s3 : |(X : ℝ) / n - c * Real.log p / n| ≤ (1 / 2 ^ 22 + 1 / 2 ^ 24 + 1 / 2 ^ 22 * (1 / 2 ^ 24)) * (c * Real.log p / n) := by
    rw [← sub_div, abs_div, abs_of_pos (by linarith : (0 : ℝ) < n), ← mul_div_assoc]
    exact div_le_div_of_nonneg_right s2 (by linarith)
  have s4 := rel_trans s3 r2 (by norm_num)
  have hT : 0 ≤ (c : ℝ) * Real.log p / n := div_nonneg (mul_nonneg hc0' hlog0) (by linarith)
  have s5 : |(Y : ℝ) - c * Real.log p / n| ≤ 1 / 2 ^ 21 * (c * Real.log p / n) :=
    s4.trans (mul_le_mul_of_nonneg_right (by norm_num) hT)
  have s6 := rel_sqrt hT hY0.1 s5
  -- the root
  have hsq : Real.sqrt Y ≤ 6.8 := by
    rw [Real.sqrt_le_left (by norm_num)]
    exact hY0.2.1.trans (by norm_num)
  have hsq0 := Real.sqrt_nonneg (Y : ℝ)
  have e3 : Num.sqrt f32 (.fin Y) = .fin (rnd f32 (Real.sqrt Y)) := by
    show (if Y < 0 then _ else Num.round f32 (Real.sqrt Y)) = _
    rw [if_neg (by
      have : (0 : Rat) ≤ Y := by exact_mod_cast hY0.1
      exact not_lt.2 this)]
    refine round_fin (by decide) (e := 3) (by decide) (by decide) ?_
    rw [abs_of_nonneg hsq0]
    norm_num
    linarith
  have r3 : |(rnd f32 (Real.sqrt Y) : ℝ) - Real.sqrt Y| ≤ 1 / 2 ^ 24 * Real.sqrt Y := by
    refine rnd_rel_real ?_
    rcases hY0.2.2 with h | h
    · left; rw [h, Real.sqrt_zero]
    · right
      refine Real.le_sqrt_of_sq_le (le_trans ?_ h)
      norm_num
  have s7 := rel_trans s6 r3 (by norm_num)
  refine ⟨rnd f32 (Real.sqrt Y), by rw [e1, e2, e3], ?_, ?_, s7.trans (mul_le_mul_of_nonneg_right (by norm_num) (Real.sqrt_nonneg _))⟩
  · have := rep_le (K := ℝ) (φ := f32) (by decide) (rep_int (n := 0) (by norm_num)) (x := Real.sqrt Y) (by simp)
    simpa using this
  · have := le_rep (K := ℝ) (φ := f32) (by decide) (rep_int (n := 7) (by norm_num)) (x := Real.sqrt Y) (by push_cast; linarith)
    simpa using this

/-- The number meant, for finite numbers. -/
noncomputable def real : Num → ℝ
  | .fin q => q
  | _ => 0

theorem err_unit {x : Rat} (h : |x| ≤ 1) : |(x : ℝ) - (rnd f32 x : ℝ)| ≤ 1 / 2 ^ 24 := by
  have := rnd_abs (φ := f32) x (e := -23) (by
    show |x| < 2 ^ ((-23 : Int) + (24 : Nat))
    refine lt_of_le_of_lt h ?_
    norm_num) (by decide)
  rw [Rat.cast_id] at this
  have h2 : |(((x - rnd f32 x : Rat)) : ℝ)| ≤ (((2 : Rat) ^ (-23 : Int) / 2 : Rat) : ℝ) := by
    rw [← Rat.cast_abs]
    exact_mod_cast this
  push_cast at h2
  refine h2.trans ?_
  norm_num

theorem err_eight {x : Rat} (h : |x| ≤ 8) : |(x : ℝ) - (rnd f32 x : ℝ)| ≤ 1 / 2 ^ 21 := by
  have := rnd_abs (φ := f32) x (e := -20) (by
    show |x| < 2 ^ ((-20 : Int) + (24 : Nat))
    refine lt_of_le_of_lt h ?_
    norm_num) (by decide)
  rw [Rat.cast_id] at this
  have h2 : |(((x - rnd f32 x : Rat)) : ℝ)| ≤ (((2 : Rat) ^ (-20 : Int) / 2 : Rat) : ℝ) := by
    rw [← Rat.cast_abs]
    exact_mod_cast this
  push_cast at h2
  refine h2.trans ?_
  norm_num

/-- The score of a child, as a finite number close to the exact one. -/
theorem score {c : Rat} (hc : Usual c) {ln : Num → Num} (hln : LogOK ln) {n p : Nat} (hn : 0 < n) (hnp : n ≤ p) (hp : p < 65536) :
    ∃ E : Rat, 0 ≤ E ∧ |(E : ℝ) - Real.sqrt (c * Real.log p / n)| ≤ 1 / 2 ^ 20 * Real.sqrt (c * Real.log p / n) ∧
      ∀ z : Int, -n ≤ z → z ≤ n → ∃ S : Rat,
        (single (.fin c) ln).ucb ((single (.fin c) ln).ofInt z) n p = Num.fin S ∧
        |(S : ℝ) - ((z : ℝ) / n + E)| ≤ 1 / 2 ^ 24 + 1 / 2 ^ 21 := by
  obtain ⟨E, h1, h2, h3, h4⟩ := exploration hc hln hn hnp hp
  refine ⟨E, h2, h4, fun z hz1 hz2 => ?_⟩
  have hn' : (0 : Rat) < n := by exact_mod_cast hn
  have hzn : |(z : Rat) / n| ≤ 1 := by
    rw [abs_div, abs_of_pos hn', div_le_one hn']
    have : |z| ≤ (n : Int) := abs_le.2 ⟨hz1, hz2⟩
    exact_mod_cast this
  have hr : |rnd f32 ((z : Rat) / n)| ≤ 1 := by
    have := abs_rnd_le (K := Rat) (φ := f32) (by decide) (rep_int (n := 1) (by norm_num)) (x := (z : Rat) / n) (by simpa using hzn)
    simpa using this
  have hs : |rnd f32 ((z : Rat) / n) + E| ≤ 8 := by
    have := abs_add_le (rnd f32 ((z : Rat) / n)) E
    rw [abs_of_nonneg h2] at this
    linarith
  refine ⟨rnd f32 (rnd f32 ((z : Rat) / n) + E), ?_, ?_⟩
  · show Num.add f32 (Num.div f32 (Num.round f32 (z : Rat)) (.fin n)) _ = _
    rw [h1, round_int (by rw [abs_le]; omega)]
    have e : Num.div f32 (.fin z) (.fin n) = .fin (rnd f32 ((z : Rat) / n)) := by
      show (if (n : Rat) = 0 then _ else Num.round f32 ((z : Rat) / n)) = _
      rw [if_neg hn'.ne', round_rat (hzn.trans (by norm_num))]
    rw [e]
    show Num.round f32 (rnd f32 ((z : Rat) / n) + E) = _
    exact round_rat (hs.trans (by norm_num))
  · have a1 := err_unit hzn
    have a2 := err_eight hs
    push_cast at a1 a2
    rw [abs_le] at a1 a2 ⊢
    constructor <;> linarith [a1.1, a1.2, a2.1, a2.2]

/-- `f32` is as assumed for C80, for usual exploration constants and less than `2^16` iterations. -/
noncomputable def singleArith {c : Rat} (hc : Usual c) {ln : Num → Num} (hln : LogOK ln) : Arith (single (.fin c) ln) ℝ 65536 where
  val := real
  add := by
    intro a b hb h1 h2
    exact intAdd (.fin c) ln a b hb (by norm_num at h1 ⊢; omega) (by norm_num at h2 ⊢; omega)
  cmp := by
    intro y z m n p hm hn hmp hnp hp hy1 hy2 hz1 hz2
    obtain ⟨E, -, -, h1⟩ := score hc hln hm hmp hp
    obtain ⟨S, h2, -⟩ := h1 y hy1 hy2
    obtain ⟨E', -, -, h3⟩ := score hc hln hn hnp hp
    obtain ⟨S', h4, -⟩ := h3 z hz1 hz2
    rw [h2, h4]
    show compare S S' = .gt ↔ (S' : ℝ) < S
    rw [compare_gt_iff_gt]
    exact_mod_cast Iff.rfl
  ucb := by
    intro z n p hn hnp hp hz1 hz2
    obtain ⟨E, -, -, h1⟩ := score hc hln hn hnp hp
    obtain ⟨S, h2, h3⟩ := h1 z hz1 (by omega)
    obtain ⟨S', h4, h5⟩ := h1 n (by omega) (by omega)
    rw [h2, h4]
    show (S : ℝ) < S'
    have hn' : (0 : ℝ) < n := by exact_mod_cast hn
    have hz : (z : ℝ) / n ≤ 1 - 1 / n := by
      have : (z : ℝ) ≤ n - 1 := by
        have : z ≤ (n : Int) - 1 := by omega
        exact_mod_cast this
      rw [div_le_iff₀ hn']
      field_simp
      linarith
    have e1 : (((n : Int) : ℝ)) / n = 1 := by
      push_cast
      exact div_self hn'.ne'
    rw [e1] at h5
    have hgap : (1 / 65536 : ℝ) ≤ 1 / n := by
      refine one_div_le_one_div_of_le hn' ?_
      have : n ≤ 65536 := by omega
      exact_mod_cast this
    have h6 := (abs_le.1 h3).2
    have h7 := (abs_le.1 h5).1
    have hk : (1 / 2 ^ 24 + 1 / 2 ^ 21 : ℝ) * 2 < 1 / 65536 := by norm_num
    linarith

/-- With `c · ln N ≤ 10` and at most 2048 iterations the exploration term does not make up for one visit less. -/
theorem single_sober {c : Rat} (hc : Usual c) {ln : Num → Num} (hln : LogOK ln) {N : Nat} (hN : N ≤ 2048)
    (h : (c : ℝ) * Real.log N ≤ 10) : Sober (singleArith hc hln) N := by
  intro z n p hn hnp hpN hz1 hz2
  obtain ⟨E, -, hE, h1⟩ := score hc hln hn hnp.le (p := p) (by omega)
  obtain ⟨S, h2, h3⟩ := h1 z hz1 (by omega)
  obtain ⟨E', -, hE', h1'⟩ := score hc hln (Nat.succ_pos n) hnp (p := p) (by omega)
  obtain ⟨S', h4, h5⟩ := h1' (n + 1 : Nat) (by omega) (by omega)
  show real _ < real _
  rw [h2, h4]
  show (S : ℝ) < S'
  have hc0 : (0 : ℝ) ≤ c := by
    rcases hc.1 with h | h
    · rw [h]; simp
    · have : (0 : Rat) ≤ c := le_trans (by positivity) h
      exact_mod_cast this
  have hn' : (0 : ℝ) < n := by exact_mod_cast hn
  have hp1 : (1 : ℝ) ≤ p := by exact_mod_cast (by omega : 1 ≤ p)
  have hlog : Real.log p ≤ Real.log N := Real.log_le_log (by linarith) (by exact_mod_cast hpN.le)
  have hlog0 : 0 ≤ Real.log p := Real.log_nonneg hp1
  have hx : 0 ≤ (c : ℝ) * Real.log p := mul_nonneg hc0 hlog0
  have hx2 : (c : ℝ) * Real.log p ≤ 10 := le_trans (mul_le_mul_of_nonneg_left hlog hc0) h
  have hsq : Real.sqrt n ^ 2 = n := Real.sq_sqrt hn'.le
  have key := one_visit_less (s := 1.04 * Real.sqrt (c * Real.log p)) (a := Real.sqrt n) (b := Real.sqrt ((n + 1 : Nat) : ℝ))
    (by rw [mul_pow, Real.sq_sqrt hx]; linarith)
    (by
      rcases Nat.lt_or_ge 1 n with h2 | h2
      · right
        rw [hsq]
        exact_mod_cast h2
      · left
        have : n = 1 := by omega
        subst this
        simp)
    (by
      rw [Real.le_sqrt (by norm_num) hn'.le]
      have : (1 : ℝ) ≤ n := by exact_mod_cast hn
      linarith)
    (Real.sqrt_pos.2 (by positivity))
    (by
      rw [hsq, Real.sq_sqrt (by positivity)]
      push_cast
      rfl)
  rw [hsq] at key
  have q1 : Real.sqrt (c * Real.log p / n) = Real.sqrt (c * Real.log p) / Real.sqrt n := Real.sqrt_div hx _
  have q2 : Real.sqrt (c * Real.log p / ((n + 1 : Nat) : ℝ)) = Real.sqrt (c * Real.log p) / Real.sqrt ((n + 1 : Nat) : ℝ) :=
    Real.sqrt_div hx _
  rw [mul_div_assoc, mul_div_assoc, ← q1, ← q2] at key
  have b1 : Real.sqrt (c * Real.log p / n) ≤ 3.2 := by
    rw [Real.sqrt_le_left (by norm_num)]
    refine (div_le_self hx (by exact_mod_cast hn)).trans (hx2.trans (by norm_num))
  have b2 : Real.sqrt (c * Real.log p / ((n + 1 : Nat) : ℝ)) ≤ 3.2 := by
    rw [Real.sqrt_le_left (by norm_num)]
    refine (div_le_self hx (by exact_mod_cast Nat.succ_pos n)).trans (hx2.trans (by norm_num))
  have e1 : ((((n + 1 : Nat) : Int) : ℝ) / ((n + 1 : Nat) : ℝ)) = 1 := by
    have : ((n + 1 : Nat) : ℝ) ≠ 0 := by positivity
    push_cast
    push_cast at this
    exact div_self this
  rw [e1] at h5
  have hza : (z : ℝ) / n ≤ 1 - 1 / n := by
    have hz' : (z : ℝ) ≤ n - 1 := by
      have : z ≤ (n : Int) - 1 := by omega
      exact_mod_cast this
    rw [div_le_iff₀ hn']
    field_simp
    linarith
  have hgap : (1 / 2048 : ℝ) ≤ 1 / n := by
    refine one_div_le_one_div_of_le hn' ?_
    have : n ≤ 2048 := by omega
    exact_mod_cast this
  have c1 := (abs_le.1 h3).2
  have c2 := (abs_le.1 h5).1
  have c3 := (abs_le.1 hE).2
  have hE'' : |(E' : ℝ) - Real.sqrt (c * Real.log p / ((n + 1 : Nat) : ℝ))| ≤
      1 / 2 ^ 20 * Real.sqrt (c * Real.log p / ((n + 1 : Nat) : ℝ)) := hE'
  have c4 := (abs_le.1 hE'').1
  revert c1 c2 c3 c4 key hza hgap b1 b2
  generalize Real.sqrt (c * Real.log p / n) = q
  generalize Real.sqrt (c * Real.log p / ((n + 1 : Nat) : ℝ)) = q'
  generalize (1 : ℝ) / n = u
  generalize (z : ℝ) / n = v
  intro b1 b2 hza hgap c1 c2 c3 key c4
  norm_num at c1 c2 c3 c4 hgap b1 b2 key hza
  linarith

/-- C100, immediate wins: with `f32` scores, a usual exploration constant with `c · ln N ≤ 10` and at most 2048 iterations,
but more than legal moves, the plain search takes an immediate win if there is one. -/
theorem C100_win {c : Rat} (hc : Usual c) {ln : Num → Num} (hln : LogOK ln) {state : G.S} {player : Int} {N limit : Nat}
    {ms : List G.Mv} {a mv : G.Mv} {t t' : Tape} (hN : N ≤ 2048) (hcN : (c : ℝ) * Real.log N ≤ 10)
    (hw : G.winner state = none) (hm : G.moves state = .ok ms) (ha : a ∈ ms) (hwin : Wins G player state a)
    (hl : 0 < limit) (hi : ms.length < N) (h : mctSearch (single (.fin c) ln) state player N limit t = .ok (mv, t')) :
    mv ∈ ms ∧ ∃ s', Plays G state mv s' ∧ G.winner s' = some player :=
  C80_partial (singleArith hc hln) (by norm_num) (single_sober hc hln hN hcN) hw hm ha hwin hl hi (by omega) h

/-- Scores in single precision differ by less than `2 ^ -16` from the formula over the real numbers. -/
theorem single_close {c : Rat} (hc : Usual c) {ln : Num → Num} (hln : LogOK ln) :
    Xp.Close (singleArith hc hln) c (1 / 2 ^ 16) := by
  intro z n p hn hnp hp hz1 hz2
  obtain ⟨E, h0, h1, h2⟩ := score hc hln hn hnp hp
  obtain ⟨S, h3, h4⟩ := h2 z hz1 hz2
  rw [h3]
  show |(S : ℝ) - _| ≤ _
  have hc4 : (c : ℝ) ≤ 4 := by exact_mod_cast hc.2
  have hn' : (1 : ℝ) ≤ n := by exact_mod_cast hn
  have hlog0 : 0 ≤ Real.log p := Real.log_nonneg (by exact_mod_cast (by omega : 1 ≤ p))
  have hlog1 := log_bound (p := p) (by omega) hp
  have hs : Real.sqrt (c * Real.log p / n) ≤ 7 := by
    rw [show (7 : ℝ) = Real.sqrt (7 ^ 2) by rw [Real.sqrt_sq (by norm_num)]]
    refine Real.sqrt_le_sqrt ?_
    rw [div_le_iff₀ (by linarith)]
    nlinarith
  have h5 := abs_le.1 h4
  have h6 := abs_le.1 h1
  have h7 : (1 / 2 ^ 20 : ℝ) * Real.sqrt (c * Real.log p / n) ≤ 1 / 2 ^ 20 * 7 := mul_le_mul_of_nonneg_left hs (by positivity)
  have h8 : (1 / 2 ^ 20 * 7 + (1 / 2 ^ 24 + 1 / 2 ^ 21) : ℝ) ≤ 1 / 2 ^ 16 := by norm_num
  rw [abs_le]
  constructor <;> linarith [h5.1, h5.2, h6.1, h6.2]

/-- C99 in single precision. -/
theorem C100_explore {c : Rat} (hc : Usual c) {ln : Num → Num} (hln : LogOK ln) {state : G.S} {player : Int}
    {N limit : Nat} (hl : 0 < limit) (hN : N < 65536) (hw : G.winner state = none) {ms : List G.Mv}
    (hm : G.moves state = .ok ms) (hd : ms.length ≤ N) {st : Store G (single (.fin c) ln)} {tr : List Nat} {t t' : Tape}
    (h : buildTree (single (.fin c) ln) state player N limit t = .ok ((st, tr), t')) {a : G.Mv} (ha : a ∈ ms) :
    ∃ (rn n : Node G (single (.fin c) ln)) (i : Nat), st[0]? = some rn ∧ i ∈ rn.children ∧ st[i]? = some n ∧
      n.action = some a ∧ 1 ≤ n.visits ∧
      (N ≤ ms.length * (4 * n.visits + 1) ∨ (c : ℝ) * Real.log ((N : ℝ) / ms.length - 1) ≤ 17 * n.visits) := by
  have hc0 : (0 : Rat) ≤ c := by
    rcases hc.1 with h | h
    · exact h.ge
    · exact le_trans (by positivity) h
  obtain ⟨rn, n, i, h1, h2, h3, h4, h5, h6⟩ := Xp.explored_visits (singleArith hc hln) (by norm_num)
    (c := (c : ℝ)) (by exact_mod_cast hc0) (single_close hc hln) hl hN hw hm hd h ha
  refine ⟨rn, n, i, h1, h2, h3, h4, h5, h6.imp_right fun h => h.trans ?_⟩
  refine mul_le_mul_of_nonneg_right ?_ (Nat.cast_nonneg _)
  norm_num

/-- A correctly rounded logarithm. -/
noncomputable def roundedLn : Num → Num
  | .fin q => if q ≤ 0 then .nan else .round f32 (Real.log q)
  | x => x

theorem roundedLn_ok : LogOK roundedLn := by
  intro p h1 h2
  have hp : (1 : ℝ) ≤ p := by exact_mod_cast h1
  have hlog0 : 0 ≤ Real.log p := Real.log_nonneg hp
  have hlog1 := log_bound h1 h2
  refine ⟨rnd f32 (Real.log p), ?_, ?_⟩
  · show (if (p : Rat) ≤ 0 then _ else Num.round f32 (Real.log ((p : Rat) : ℝ))) = _
    rw [if_neg (not_le.2 (by exact_mod_cast h1)), Rat.cast_natCast]
    refine round_fin (by decide) (e := 4) (by decide) (by decide) ?_
    rw [abs_of_nonneg hlog0]
    norm_num
    linarith
  · refine (rnd_rel_real ?_).trans (mul_le_mul_of_nonneg_right (by norm_num) hlog0)
    rcases Nat.lt_or_ge 1 p with h | h
    · right
      have h3 : Real.log (2 : ℝ) ≤ Real.log p := Real.log_le_log (by norm_num) (by exact_mod_cast h)
      have := Real.log_two_gt_d9
      refine le_trans ?_ h3
      refine le_trans ?_ this.le
      norm_num
    · left
      have : p = 1 := by omega
      subst this
      simp

/-- The parameters of config-example.toml: exploration constant 2 and 100 iterations. -/
example : Usual 2 ∧ ((2 : Rat) : ℝ) * Real.log (100 : Nat) ≤ 10 ∧ LogOK roundedLn := by
  refine ⟨⟨.inr (by norm_num), by norm_num⟩, ?_, roundedLn_ok⟩
  have h1 : Real.log ((100 : Nat) : ℝ) ≤ Real.log ((2 : ℝ) ^ 7) := Real.log_le_log (by norm_num) (by norm_num)
  rw [Real.log_pow] at h1
  have h2 := Real.log_two_lt_d9
  push_cast at h1 ⊢
  linarith

end DieE.Props.Fn
