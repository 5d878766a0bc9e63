import Verif.Text.Float
import Verif.Text.FloatSpec
import Verif.Text.JsonFacts
import Verif.Props.Pretty

/-!
# Facts about printed floats
-/

namespace DieE.Text
open DieE.Train (Name digits)
open DieE.Fp

/-! ## The distance between floats -/

/-- A greater float is at least one last place away. -/
theorem gap_above {φ : Format} {x r : Rat} (hx : 0 < x) (hm : ∃ m : Int, x = m * 2 ^ lastPlace φ x) (hr : Representable φ r)
    (h : x < r) : x + 2 ^ lastPlace φ x ≤ r := by
  obtain ⟨m, hm⟩ := hm
  obtain ⟨m', e', h1, h2, h3⟩ := hr
  have hpos := two_zpow_pos (K := Rat) (lastPlace φ x)
  rcases lt_or_ge e' (lastPlace φ x) with he | he
  · exfalso
    have g1 := le_abs_of_low_lt (φ := φ) hx.ne' (h2.trans_lt he)
    have g2 := zpow_small (K := Rat) h1 he
    rw [Rat.cast_id, ← h3, abs_of_pos (hx.trans h)] at g2
    rw [abs_of_pos hx] at g1
    linarith
  · have h4 : r = ((m' * 2 ^ (e' - lastPlace φ x).toNat : Int) : Rat) * 2 ^ lastPlace φ x := by
      rw [h3, two_zpow_split he]; push_cast; ring
    generalize m' * 2 ^ (e' - lastPlace φ x).toNat = z at h4
    have h5 : m + 1 ≤ z := by
      have : (m : Rat) < z := by
        have : (m : Rat) * 2 ^ lastPlace φ x < z * 2 ^ lastPlace φ x := by rw [← hm, ← h4]; exact h
        exact lt_of_mul_lt_mul_right this hpos.le
      exact_mod_cast this
    have h6 : (m : Rat) + 1 ≤ z := by exact_mod_cast h5
    have := mul_le_mul_of_nonneg_right h6 hpos.le
    rw [← h4, add_mul, ← hm, one_mul] at this
    exact this

/-- A smaller float is at least half a last place away, and a whole one but for powers of two. -/
theorem gap_below {φ : Format} (hp : 1 < φ.prec) {x r : Rat} (hx : 0 < x) (hm : ∃ m : Int, x = m * 2 ^ lastPlace φ x) (hr : Representable φ r)
    (h : r < x) : r ≤ x - 2 ^ lastPlace φ x ∨ (x = 2 ^ (lastPlace φ x + φ.prec - 1) ∧ r ≤ x - 2 ^ lastPlace φ x / 2) := by
  obtain ⟨m, hm⟩ := hm
  obtain ⟨m', e', h1, h2, h3⟩ := hr
  have hpos := two_zpow_pos (K := Rat) (lastPlace φ x)
  have hlow : φ.low < lastPlace φ x → 2 ^ (lastPlace φ x + φ.prec - 1) ≤ |x| := le_abs_of_low_lt hx.ne'
  generalize lastPlace φ x = e at *
  rcases lt_or_ge e' (e) with he | he
  · have g1 := hlow (h2.trans_lt he)
    have g2 := zpow_small (K := Rat) h1 he
    rw [Rat.cast_id, ← h3] at g2
    rw [abs_of_pos hx] at g1
    have g3 := (abs_lt.1 g2).2
    set N : Int := 2 ^ (φ.prec - 1) with hN
    have hN' : (2 : Rat) ^ (e + φ.prec - 1) = N * 2 ^ e := by
      have : (e + φ.prec - 1 : Int) = ((φ.prec - 1 : Nat) : Int) + e := by omega
      rw [this, zpow_add₀ (by norm_num), zpow_natCast]
      push_cast [N]
      rfl
    rcases g1.lt_or_eq with g1 | g1
    · left
      rw [hN'] at g1 g3
      have : N + 1 ≤ m := by
        rw [hm] at g1
        have := lt_of_mul_lt_mul_right g1 hpos.le
        exact_mod_cast this
      have h6 : (N : Rat) + 1 ≤ m := by exact_mod_cast this
      have := mul_le_mul_of_nonneg_right h6 hpos.le
      rw [← hm, add_mul, one_mul] at this
      linarith
    · right
      refine ⟨g1.symm, ?_⟩
      rcases eq_or_ne e' (e - 1) with he' | he'
      · have h5 : (2 : Rat) ^ e = 2 * 2 ^ (e - 1) := by
          rw [zpow_sub₀ (by norm_num)]; ring
        have hpos' := two_zpow_pos (K := Rat) (e - 1)
        rw [hN', h5] at g1
        rw [h5]
        rw [he'] at h3
        rw [h3, ← g1] at h
        have : m' + 1 ≤ 2 * N := by
          have h : (m' : Rat) * 2 ^ (e - 1) < (2 * N) * 2 ^ (e - 1) := by linarith
          have := lt_of_mul_lt_mul_right h hpos'.le
          exact_mod_cast this
        have h6 : (m' : Rat) + 1 ≤ 2 * N := by exact_mod_cast this
        have := mul_le_mul_of_nonneg_right h6 hpos'.le
        rw [h3, ← g1]
        linarith
      · have g4 := zpow_small (K := Rat) (e := e - 1) (e' := e') h1 (by omega)
        rw [Rat.cast_id, ← h3] at g4
        have g5 := (abs_lt.1 g4).2
        have h5 : (2 : Rat) ^ (e + φ.prec - 1) = 2 * 2 ^ (e - 1 + φ.prec - 1) := by
          rw [show (e + φ.prec - 1 : Int) = 1 + (e - 1 + φ.prec - 1) by ring, zpow_add₀ (by norm_num)]
          norm_num
        have h6 : (2 : Rat) ^ e ≤ 2 ^ (e - 1 + φ.prec - 1 + 1) :=
          zpow_le_zpow_right₀ (by norm_num) (by omega)
        rw [zpow_add₀ (by norm_num) (e - 1 + φ.prec - 1) 1] at h6
        norm_num at h6
        linarith
  · left
    have h4 : r = ((m' * 2 ^ (e' - e).toNat : Int) : Rat) * 2 ^ e := by
      rw [h3, two_zpow_split he]; push_cast; ring
    generalize m' * 2 ^ (e' - e).toNat = z at h4
    have h5 : z + 1 ≤ m := by
      have : (z : Rat) < m := by
        have : (z : Rat) * 2 ^ e < m * 2 ^ e := by rw [← hm, ← h4]; exact h
        exact lt_of_mul_lt_mul_right this hpos.le
      exact_mod_cast this
    have h6 : (z : Rat) + 1 ≤ m := by exact_mod_cast h5
    have := mul_le_mul_of_nonneg_right h6 hpos.le
    rw [← hm, add_mul, one_mul, ← h4] at this
    linarith

/-- A float is a multiple of its last place. -/
theorem rep_multiple {φ : Format} (hp : 0 < φ.prec) {x : Rat} (h : Representable φ x) : ∃ m : Int, x = m * 2 ^ lastPlace φ x := by
  refine ⟨significand φ x, ?_⟩
  have := rnd_exact (K := Rat) hp h
  rw [Rat.cast_id] at this
  conv_lhs => rw [← this]
  rfl

/-- Numbers near enough to a float are rounded to it. -/
theorem rnd_near {φ : Format} (hp : 1 < φ.prec) {x v : Rat} (hx : 0 < x) (hr : Representable φ x)
    (h : |v - x| < 2 ^ lastPlace φ x / 2)
    (h' : v < x → x = 2 ^ (lastPlace φ x + φ.prec - 1) → |v - x| < 2 ^ lastPlace φ x / 4) : rnd φ v = x := by
  have hn := rnd_nearest (φ := φ) (by omega) v
  have h1 := hn.near x hr
  have hm := rep_multiple (by omega) hr
  have h2 := hn.rep
  rw [Rat.cast_id, Rat.cast_id] at h1
  generalize rnd φ v = r at h1 h2
  have hpos := two_zpow_pos (K := Rat) (lastPlace φ x)
  rcases lt_trichotomy r x with hlt | heq | hgt
  · exfalso
    have hvx : v < x := by
      by_contra hge
      rw [not_lt] at hge
      rw [abs_of_nonneg (by linarith), abs_of_nonneg (by linarith)] at h1
      linarith
    rcases gap_below hp hx hm h2 hlt with g | ⟨g1, g⟩
    · rw [abs_of_neg (by linarith : v - x < 0)] at h h1
      have := le_abs_self (v - r)
      linarith
    · have h' := h' hvx g1
      rw [abs_of_neg (by linarith : v - x < 0)] at h' h1
      have := le_abs_self (v - r)
      linarith
  · exact heq
  · exfalso
    have g := gap_above hx hm h2 hgt
    have := neg_abs_le (v - r)
    have := le_abs_self (v - x)
    linarith

/-! ## The search -/

/-- With 17 digits a decimal number is found: the nearer of the two neighbours is near enough. -/
theorem near17 {x : Rat} (hx : 0 < x) (hr : Representable f64 x) {v : Rat} (hv : |v - x| ≤ 10 ^ (Int.log 10 x - 16) / 2) :
    rnd f64 v = x := by
  have h1 : (10 : Rat) ^ Int.log 10 x ≤ x := by
    have := Int.zpow_log_le_self (b := 10) (by norm_num) hx
    exact_mod_cast this
  have h2 : (10 : Rat) ^ (Int.log 10 x - 16) * 10 ^ (16 : Nat) = 10 ^ Int.log 10 x := by
    rw [zpow_sub₀ (by norm_num)]
    norm_num
  have h3 := abs_lt_lastPlace f64 x
  rw [abs_of_pos hx, show lastPlace f64 x + (f64.prec : Int) = lastPlace f64 x + (53 : Nat) from rfl, zpow_add₀ (by norm_num), zpow_natCast] at h3
  have hpos := two_zpow_pos (K := Rat) (lastPlace f64 x)
  norm_num at h2 h3
  refine rnd_near (by decide) hx hr ?_ ?_
  · linarith
  · intro _ he
    rw [show lastPlace f64 x + (f64.prec : Int) - 1 = lastPlace f64 x + (52 : Nat) by show _ + (53 : Int) - 1 = _; push_cast; ring,
      zpow_add₀ (by norm_num), zpow_natCast] at he
    norm_num at he
    linarith

theorem rnd_zero {φ : Format} (hp : 0 < φ.prec) : rnd φ (0 : Rat) = 0 := by
  have : Representable φ 0 := ⟨0, φ.low, by simp, le_refl _, by simp⟩
  have := rnd_exact (K := Rat) hp this
  rwa [Rat.cast_zero] at this

theorem pos_of_rnd {φ : Format} (hp : 0 < φ.prec) {x w : Rat} (hx : 0 < x) (h : rnd φ w = x) : 0 < w := by
  by_contra hw
  have := rnd_mono hp (not_lt.1 hw)
  rw [rnd_zero hp, h] at this
  linarith

theorem hasDigits_zero {w : Rat} (h : HasDigits 0 w) : w = 0 := by
  obtain ⟨m, k, h1, h2⟩ := h
  have : m = 0 := by
    rw [pow_zero] at h1
    have := abs_nonneg m
    exact abs_eq_zero.1 (by omega)
  rw [h2, this]
  simp

/-- The neighbours of `x` with `n` digits. -/
structure Around (x : Rat) (n : Nat) (a : Nat) (u : Rat) : Prop where
  pos : 0 < u
  lo : a * u ≤ x
  hi : x < (a + 1 : Nat) * u
  digitsLo : HasDigits n (a * u)
  digitsHi : HasDigits n ((a + 1 : Nat) * u)
  below : ∀ w, HasDigits n w → w ≤ x → w ≤ a * u
  above : ∀ w, HasDigits n w → x < w → (a + 1 : Nat) * u ≤ w

theorem around {x : Rat} (hx : 0 < x) {n : Nat} (hn : 0 < n) :
    Around x n ⌊x / 10 ^ (Int.log 10 x - n + 1)⌋.toNat (10 ^ (Int.log 10 x - n + 1)) := by
  have h1 : (10 : Rat) ^ Int.log 10 x ≤ x := by
    have := Int.zpow_log_le_self (b := 10) (by norm_num) hx
    exact_mod_cast this
  have h2 : x < (10 : Rat) ^ (Int.log 10 x + 1) := by
    have := Int.lt_zpow_succ_log_self (b := 10) (by norm_num) x
    exact_mod_cast this
  generalize Int.log 10 x = e at *
  obtain ⟨q, rfl⟩ : ∃ q, n = q + 1 := ⟨n - 1, by omega⟩
  rw [show e - ((q + 1 : Nat) : Int) + 1 = e - q by push_cast; ring]
  have hu : (0 : Rat) < 10 ^ (e - q) := zpow_pos (by norm_num) _
  have he : (10 : Rat) ^ e = 10 ^ q * 10 ^ (e - q) := by
    rw [← zpow_natCast, ← zpow_add₀ (by norm_num)]
    congr 1
    ring
  have he1 : (10 : Rat) ^ (e + 1) = 10 ^ (q + 1) * 10 ^ (e - q) := by
    rw [zpow_add₀ (by norm_num), he, pow_succ]
    ring
  rw [he] at h1
  rw [he1] at h2
  set u : Rat := 10 ^ (e - q) with hudef
  have hfl : ((⌊x / u⌋.toNat : Nat) : Int) = ⌊x / u⌋ := Int.toNat_of_nonneg (Int.floor_nonneg.2 (by positivity))
  have hflq : ((⌊x / u⌋.toNat : Nat) : Rat) = ((⌊x / u⌋ : Int) : Rat) := by exact_mod_cast congrArg (Int.cast (R := Rat)) hfl
  generalize ⌊x / u⌋.toNat = a at *
  have lo : a * u ≤ x := by
    have := Int.floor_le (x / u)
    rw [← hflq] at this
    rwa [le_div_iff₀ hu] at this
  have hi : x < (a + 1 : Nat) * u := by
    have := Int.lt_floor_add_one (x / u)
    rw [← hflq] at this
    push_cast
    rwa [div_lt_iff₀ hu] at this
  have ha : a < 10 ^ (q + 1) := by
    have : (a : Rat) * u < 10 ^ (q + 1) * u := by linarith
    have := lt_of_mul_lt_mul_right this hu.le
    exact_mod_cast this
  have ha' : 10 ^ q ≤ a := by
    have : (10 : Rat) ^ q * u < (a + 1 : Nat) * u := by linarith
    have := lt_of_mul_lt_mul_right this hu.le
    have : 10 ^ q < a + 1 := by exact_mod_cast this
    omega
  have small : ∀ m k : Int, |m| < 10 ^ (q + 1) → k < e - q → (m : Rat) * 10 ^ k < 10 ^ q * u := by
    intro m k hm hk
    have g1 : (m : Rat) < 10 ^ (q + 1) := by
      have := (abs_lt.1 hm).2
      exact_mod_cast this
    calc (m : Rat) * 10 ^ k < 10 ^ (q + 1) * 10 ^ k := mul_lt_mul_of_pos_right g1 (zpow_pos (by norm_num) _)
      _ = 10 ^ (((q + 1 : Nat) : Int) + k) := by rw [zpow_add₀ (by norm_num), zpow_natCast]
      _ ≤ 10 ^ ((q : Nat) + (e - q) : Int) := zpow_le_zpow_right₀ (by norm_num) (by push_cast; omega)
      _ = 10 ^ q * u := by rw [zpow_add₀ (by norm_num), zpow_natCast]
  have mult : ∀ m k : Int, e - q ≤ k → ∃ z : Int, (m : Rat) * 10 ^ k = z * u := by
    intro m k hk
    refine ⟨m * 10 ^ (k - (e - q)).toNat, ?_⟩
    have : k = ((k - (e - q)).toNat : Int) + (e - q) := by omega
    conv_lhs => rw [this, zpow_add₀ (by norm_num), zpow_natCast]
    push_cast
    rw [hudef]
    ring
  refine ⟨hu, lo, hi, ⟨a, e - q, ?_, by push_cast; rfl⟩, ?_, ?_, ?_⟩
  · rw [abs_of_nonneg (by omega)]
    exact_mod_cast ha
  · rcases Nat.lt_or_ge (a + 1) (10 ^ (q + 1)) with h | h
    · refine ⟨(a + 1 : Nat), e - q, ?_, by push_cast; rfl⟩
      rw [abs_of_nonneg (by omega)]
      exact_mod_cast h
    · have : a + 1 = 10 ^ (q + 1) := by omega
      refine ⟨1, e + 1, ?_, ?_⟩
      · rw [abs_one]
        exact one_lt_pow₀ (by norm_num) (by omega)
      · rw [this, he1]
        push_cast
        ring
  · rintro w ⟨m, k, hm, rfl⟩ hw
    rcases lt_or_ge k (e - q) with hk | hk
    · refine (small m k hm hk).le.trans (mul_le_mul_of_nonneg_right ?_ hu.le)
      exact_mod_cast ha'
    · obtain ⟨z, hz⟩ := mult m k hk
      rw [hz] at hw ⊢
      have : (z : Rat) * u < (a + 1 : Nat) * u := hw.trans_lt hi
      have := lt_of_mul_lt_mul_right this hu.le
      have : z < a + 1 := by exact_mod_cast this
      refine mul_le_mul_of_nonneg_right ?_ hu.le
      exact_mod_cast (by omega : z ≤ (a : Int))
  · rintro w ⟨m, k, hm, rfl⟩ hw
    rcases lt_or_ge k (e - q) with hk | hk
    · exact absurd (small m k hm hk) (not_lt.2 (by linarith))
    · obtain ⟨z, hz⟩ := mult m k hk
      rw [hz] at hw ⊢
      have : (a : Rat) * u < z * u := lo.trans_lt hw
      have := lt_of_mul_lt_mul_right this hu.le
      have : (a : Int) < z := by exact_mod_cast this
      refine mul_le_mul_of_nonneg_right ?_ hu.le
      exact_mod_cast (by omega : ((a + 1 : Nat) : Int) ≤ z)

theorem shortest_spec {x : Rat} (hx : 0 < x) (hr : Representable f64 x) : ∀ (f n : Nat), 0 < n → n + f = 18 → 0 < f →
    (∀ n' < n, ∀ w, rnd f64 w = x → ¬ HasDigits n' w) →
    ∃ a k, shortest x (Int.log 10 x) f n = some (a, k) ∧ Shortest f64 x (a * 10 ^ k) := by
  intro f
  induction f with
  | zero => intro n _ _ h; exact absurd h (by omega)
  | succ f ih =>
    intro n hn hf _ hless
    have A := around hx hn
    have hrx : rnd f64 x = x := by
      have := rnd_exact (K := Rat) (by decide) hr
      rwa [Rat.cast_id] at this
    unfold shortest
    dsimp only
    generalize hu : (10 : Rat) ^ (Int.log 10 x - n + 1) = u at A ⊢
    generalize ⌊x / u⌋.toNat = a at A ⊢
    have hdown : ∀ w, rnd f64 w = x → HasDigits n w → w ≤ x → rnd f64 (a * u) = x := by
      intro w h1 h2 h3
      have g1 := rnd_mono (φ := f64) (by decide) (A.below w h2 h3)
      have g2 := rnd_mono (φ := f64) (by decide) A.lo
      rw [h1] at g1
      rw [hrx] at g2
      exact le_antisymm g2 g1
    have hup : ∀ w, rnd f64 w = x → HasDigits n w → x < w → rnd f64 ((a + 1 : Nat) * u) = x := by
      intro w h1 h2 h3
      have g1 := rnd_mono (φ := f64) (by decide) (A.above w h2 h3)
      have g2 := rnd_mono (φ := f64) (by decide) A.hi.le
      rw [h1] at g1
      rw [hrx] at g2
      exact le_antisymm g1 g2
    have hmin : ∀ w, rnd f64 w = x → ∀ n', HasDigits n' w → n ≤ n' := fun w hw n' h => by
      by_contra hlt
      exact hless n' (by omega) w hw h
    have hlo := A.lo
    have hhi := A.hi
    have hpos := A.pos
    have ha0 : (0 : Rat) ≤ a * u := by positivity
    by_cases hd : rnd f64 (a * u) = x
    · by_cases hb : rnd f64 ((a + 1 : Nat) * u) = x → x - a * u < (a + 1 : Nat) * u - x
      · refine ⟨a, Int.log 10 x - n + 1, ?_, ?_, n, ?_, ?_⟩
        · rw [if_pos]
          simp only [hd, decide_true, Bool.true_and, Bool.or_eq_true, Bool.not_eq_true', decide_eq_false_iff_not, decide_eq_true_eq]
          by_cases h : rnd f64 ((a + 1 : Nat) * u) = x
          · exact .inr (hb h)
          · exact .inl h
        · rw [hu]; exact hd
        · rw [hu]; exact A.digitsLo
        · rw [hu]
          intro w hw
          refine ⟨hmin w hw, fun hw' => ?_⟩
          have hw0 := pos_of_rnd (by decide) hx hw
          rw [abs_of_nonneg (by linarith : 0 ≤ x - a * u), abs_of_pos hw0, abs_of_nonneg ha0]
          rcases le_or_gt w x with h | h
          · have := A.below w hw' h
            rw [abs_of_nonneg (by linarith)]
            exact ⟨by linarith, fun _ => by linarith⟩
          · have h1 := A.above w hw' h
            have h2 := hb (hup w hw hw' h)
            rw [abs_of_neg (by linarith)]
            exact ⟨by linarith, fun _ => by linarith⟩
      · rw [Classical.not_imp] at hb
        refine ⟨a + 1, Int.log 10 x - n + 1, ?_, ?_, n, ?_, ?_⟩
        · rw [if_neg, if_pos]
          · exact decide_eq_true hb.1
          · simp only [hd, hb.1, decide_true, Bool.not_true, Bool.true_and, Bool.false_or, decide_eq_true_eq]
            exact hb.2
        · rw [hu]; exact hb.1
        · rw [hu]; exact A.digitsHi
        · rw [hu]
          intro w hw
          refine ⟨hmin w hw, fun hw' => ?_⟩
          have hw0 := pos_of_rnd (by decide) hx hw
          have hb2 := not_lt.1 hb.2
          rw [abs_of_neg (by linarith : x - (a + 1 : Nat) * u < 0), abs_of_pos hw0, abs_of_pos (by linarith : 0 < ((a + 1 : Nat) : Rat) * u)]
          rcases le_or_gt w x with h | h
          · have := A.below w hw' h
            rw [abs_of_nonneg (by linarith)]
            exact ⟨by linarith, fun _ => by linarith⟩
          · have h1 := A.above w hw' h
            rw [abs_of_neg (by linarith)]
            exact ⟨by linarith, fun _ => by linarith⟩
    · by_cases hb : rnd f64 ((a + 1 : Nat) * u) = x
      · refine ⟨a + 1, Int.log 10 x - n + 1, ?_, ?_, n, ?_, ?_⟩
        · rw [if_neg, if_pos]
          · exact decide_eq_true hb
          · simp [hd]
        · rw [hu]; exact hb
        · rw [hu]; exact A.digitsHi
        · rw [hu]
          intro w hw
          refine ⟨hmin w hw, fun hw' => ?_⟩
          have hw0 := pos_of_rnd (by decide) hx hw
          rw [abs_of_neg (by linarith : x - (a + 1 : Nat) * u < 0), abs_of_pos hw0, abs_of_pos (by linarith : 0 < ((a + 1 : Nat) : Rat) * u)]
          rcases le_or_gt w x with h | h
          · exact absurd (hdown w hw hw' h) hd
          · have h1 := A.above w hw' h
            rw [abs_of_neg (by linarith)]
            exact ⟨by linarith, fun _ => by linarith⟩
      · have hf' : 0 < f := by
          by_contra h0
          have hn17 : n = 17 := by omega
          subst hn17
          have hu' : (10 : Rat) ^ (Int.log 10 x - 16) = u := by
            rw [← hu]
            congr 1
            push_cast
            ring
          rcases le_total (x - a * u) (u / 2) with h | h
          · refine hd (near17 hx hr ?_)
            rw [hu', abs_of_nonpos (by linarith)]
            linarith
          · refine hb (near17 hx hr ?_)
            push_cast at hhi ⊢
            rw [hu', abs_of_pos (by linarith)]
            linarith
        obtain ⟨a', k', h1, h2⟩ := ih (n + 1) (by omega) (by omega) hf' (by
          intro n' hn' w hw hdg
          rcases Nat.lt_or_ge n' n with h | h
          · exact hless n' h w hw hdg
          · have : n' = n := by omega
            subst this
            rcases le_or_gt w x with h | h
            · exact hd (hdown w hw hdg h)
            · exact hb (hup w hw hdg h))
        refine ⟨a', k', ?_, h2⟩
        rw [if_neg, if_neg, h1]
        · rw [decide_eq_true_eq]; exact hb
        · simp [hd]

end DieE.Text
