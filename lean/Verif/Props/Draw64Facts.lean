import Verif.Fp.Draw
import Verif.Props.Draw
import Verif.Props.Single32
import Verif.Text.FloatFacts

/-! # Facts about running totals and drawn numbers in double precision -/

namespace DieE.Props.Dw
open DieE DieE.Fp DieE.Props.Fn DieE.Text

/-- The running total of the first `i` weights in `f64`. -/
def run (l : List Rat) (i : Nat) : Rat := (l.take i).foldl (fun t w => rnd f64 (t + w)) 0

theorem hp : 0 < f64.prec := by decide

theorem exact {y : Rat} (h : Representable f64 y) : rnd f64 y = y := by
  have := rnd_exact (K := Rat) hp h
  rwa [Rat.cast_id] at this

theorem rep0 : Representable f64 0 := ⟨0, 0, by simp, by decide, by simp⟩

theorem run_zero (l : List Rat) : run l 0 = 0 := by simp [run]

theorem run_succ {l : List Rat} {i : Nat} {w : Rat} (h : l[i]? = some w) : run l (i + 1) = rnd f64 (run l i + w) := by
  unfold run
  rw [List.take_add_one, h, List.foldl_append]
  rfl

theorem run_rep (l : List Rat) : ∀ i, Representable f64 (run l i) := by
  intro i
  unfold run
  rcases (l.take i).eq_nil_or_concat with h | ⟨l', w, h⟩
  · rw [h]; exact rep0
  · rw [h, List.concat_eq_append, List.foldl_append]
    exact rnd_representable hp _

theorem run_over {l : List Rat} {i : Nat} (h : l.length ≤ i) : run l (i + 1) = run l i := by
  unfold run
  rw [List.take_of_length_le h, List.take_of_length_le (by omega)]

theorem run_step {l : List Rat} (h : ∀ w ∈ l, 0 ≤ w) (i : Nat) : run l i ≤ run l (i + 1) := by
  cases hi : l[i]? with
  | none => rw [run_over (List.getElem?_eq_none_iff.1 hi)]
  | some w =>
    rw [run_succ hi]
    refine rep_le (K := Rat) hp (run_rep l i) ?_
    have := h w (List.mem_of_getElem? hi)
    rw [Rat.cast_id]
    linarith

theorem run_mono {l : List Rat} (h : ∀ w ∈ l, 0 ≤ w) {i j : Nat} (hij : i ≤ j) : run l i ≤ run l j :=
  monotone_nat_of_le_succ (run_step h) hij

theorem run_nonneg {l : List Rat} (h : ∀ w ∈ l, 0 ≤ w) (i : Nat) : 0 ≤ run l i := by
  rw [← run_zero l]
  exact run_mono h (Nat.zero_le _)

theorem run_ge {l : List Rat} (h : ∀ w ∈ l, 0 ≤ w) (hr : ∀ w ∈ l, Representable f64 w) {i : Nat} {w : Rat} (hi : l[i]? = some w) :
    w ≤ run l (i + 1) := by
  rw [run_succ hi]
  refine rep_le (K := Rat) hp (hr w (List.mem_of_getElem? hi)) ?_
  have := run_nonneg h i
  rw [Rat.cast_id]
  linarith

theorem run_all_zero {l : List Rat} (h : ∀ w ∈ l, w = 0) (i : Nat) : run l i = 0 := by
  induction i with
  | zero => exact run_zero l
  | succ i ih =>
    cases hi : l[i]? with
    | none => rw [run_over (List.getElem?_eq_none_iff.1 hi), ih]
    | some w => rw [run_succ hi, ih, h w (List.mem_of_getElem? hi), add_zero, exact rep0]

/-! ## The number below -/

/-- The significand of a positive number. -/
theorem sig {x : Rat} (hx : 0 < x) (hr : Representable f64 x) : ∃ m : Int, x = m * 2 ^ lastPlace f64 x ∧ 1 ≤ m ∧ m < 2 ^ 53 := by
  obtain ⟨m, hm⟩ := rep_multiple hp hr
  have hpos := two_zpow_pos (K := Rat) (lastPlace f64 x)
  have habs := abs_lt_lastPlace f64 x
  set e := lastPlace f64 x with he
  refine ⟨m, hm, ?_, ?_⟩
  · have : (0 : Rat) < m := by
      rw [hm] at hx
      exact (mul_pos_iff_of_pos_right hpos).1 hx
    exact_mod_cast this
  · rw [abs_of_pos hx, hm, zpow_add₀ (by norm_num), mul_comm, zpow_natCast] at habs
    have h3 : (m : Rat) < 2 ^ 53 := lt_of_mul_lt_mul_left habs hpos.le
    exact_mod_cast h3

theorem below_rep {x : Rat} (hx : 0 < x) (hr : Representable f64 x) : Representable f64 (below f64 x) ∧ 0 ≤ below f64 x ∧ below f64 x < x := by
  obtain ⟨m, hm, hm1, hm2⟩ := sig hx hr
  have hpos := two_zpow_pos (K := Rat) (lastPlace f64 x)
  have hlow := low_le_lastPlace f64 x
  set e := lastPlace f64 x with he
  unfold below
  rw [← he]
  split
  · rename_i hc
    obtain ⟨h1, h2⟩ := hc
    have e1 : (2 : Rat) ^ e = 2 ^ (e - 1) * 2 := by
      rw [← zpow_add_one₀ (by norm_num)]
      congr 1
      ring
    have hpos' := two_zpow_pos (K := Rat) (e - 1)
    have hm3 : m = 2 ^ 52 := by
      rw [hm] at h1
      have : (2 : Rat) ^ (e + f64.prec - 1) = ((2 ^ 52 : Int) : Rat) * 2 ^ e := by
        rw [show e + (f64.prec : Int) - 1 = 52 + e by simp [f64]; ring, zpow_add₀ (by norm_num)]
        norm_num
      rw [this] at h1
      exact_mod_cast mul_right_cancel₀ hpos.ne' h1
    refine ⟨⟨2 ^ 53 - 1, e - 1, by decide, by omega, ?_⟩, ?_, by linarith⟩
    · rw [hm, hm3, e1]
      push_cast
      ring
    · rw [hm, hm3, e1]
      push_cast
      nlinarith
  · refine ⟨⟨m - 1, e, ?_, hlow, ?_⟩, ?_, by linarith⟩
    · rw [abs_of_nonneg (by omega)]
      show m - 1 < 2 ^ 53
      omega
    · rw [hm]
      push_cast
      ring
    · rw [hm]
      have : (1 : Rat) ≤ m := by exact_mod_cast hm1
      nlinarith

/-- `below` is the greatest number of the format below a positive one. -/
theorem below_greatest {x r : Rat} (hx : 0 < x) (hr : Representable f64 x) (h : Representable f64 r) (hlt : r < x) : r ≤ below f64 x := by
  have hpos := two_zpow_pos (K := Rat) (lastPlace f64 x)
  unfold below
  rcases gap_below (φ := f64) (by decide) hx (rep_multiple hp hr) h hlt with h1 | ⟨h1, h2⟩
  · split
    · rename_i hc
      have : (2 : Rat) ^ lastPlace f64 x = 2 ^ (lastPlace f64 x - 1) * 2 := by
        rw [← zpow_add_one₀ (by norm_num)]
        congr 1
        ring
      have := two_zpow_pos (K := Rat) (lastPlace f64 x - 1)
      linarith
    · exact h1
  · split
    · have : (2 : Rat) ^ lastPlace f64 x = 2 ^ (lastPlace f64 x - 1) * 2 := by
        rw [← zpow_add_one₀ (by norm_num)]
        congr 1
        ring
      linarith
    · rename_i hc
      have hle : lastPlace f64 x = f64.low := by
        have := low_le_lastPlace f64 x
        by_contra hne
        exact hc ⟨h1, by omega⟩
      obtain ⟨m', e', g1, g2, g3⟩ := h
      obtain ⟨m, hm⟩ := rep_multiple hp hr
      rw [hle] at hm ⊢
      have e1 := two_zpow_split g2
      rw [hle] at hpos
      rw [g3, e1] at hlt ⊢
      rw [hm] at hlt ⊢
      have h5 : (((m' * 2 ^ (e' - f64.low).toNat : Int) : Rat)) < m := by
        refine lt_of_mul_lt_mul_right ?_ hpos.le
        push_cast at hlt ⊢
        linarith
      have h6 : m' * 2 ^ (e' - f64.low).toNat + 1 ≤ m := by exact_mod_cast h5
      have h7 : ((m' * 2 ^ (e' - f64.low).toNat + 1 : Int) : Rat) ≤ m := by exact_mod_cast h6
      push_cast at h7 ⊢
      nlinarith

/-! ## The scale -/

/-- The scale of the drawn numbers for the total `T`. -/
def scaleOf (T : Rat) : Rat := if T ≤ rnd f64 (T * (1 - 1 / 2 ^ 52)) then below f64 T else T

theorem scale_spec {T : Rat} (h0 : 0 < T) (hr : Representable f64 T) :
    Representable f64 (scaleOf T) ∧ 0 ≤ scaleOf T ∧ scaleOf T ≤ T ∧ rnd f64 (scaleOf T * (1 - 1 / 2 ^ 52)) < T := by
  unfold scaleOf
  split
  · obtain ⟨h1, h2, h3⟩ := below_rep h0 hr
    refine ⟨h1, h2, h3.le, lt_of_le_of_lt (le_rep (K := Rat) hp h1 ?_) h3⟩
    rw [Rat.cast_id]
    have : (0 : Rat) < 1 / 2 ^ 52 := by norm_num
    nlinarith
  · rename_i h
    exact ⟨hr, h0.le, le_refl _, not_le.1 h⟩

theorem scale_normal {T : Rat} (h0 : 2 ^ (-1022 : Int) ≤ T) (hr : Representable f64 T) : scaleOf T = T := by
  have hT : 0 < T := lt_of_lt_of_le (two_zpow_pos _) h0
  unfold scaleOf
  rw [if_neg]
  rw [not_le]
  obtain ⟨m, hm, hm1, hm2⟩ := sig hT hr
  have hpos := two_zpow_pos (K := Rat) (lastPlace f64 T)
  have hlow := low_le_lastPlace f64 T
  have hbig : 2 ^ (lastPlace f64 T + f64.prec - 1) ≤ T := by
    rcases hlow.lt_or_eq with h | h
    · have := le_abs_of_low_lt hT.ne' h
      rwa [abs_of_pos hT] at this
    · rw [← h]
      exact h0
  set e := lastPlace f64 T with he
  have e1 : (2 : Rat) ^ (e + f64.prec - 1) = 2 ^ e * 2 ^ 52 := by
    rw [show e + (f64.prec : Int) - 1 = e + 52 by simp [f64]; ring, zpow_add₀ (by norm_num)]
    norm_num
  have hrep : Representable f64 (T - 2 ^ e) := by
    refine ⟨m - 1, e, ?_, hlow, by rw [hm]; push_cast; ring⟩
    rw [abs_of_nonneg (by omega)]
    show m - 1 < 2 ^ 53
    omega
  refine lt_of_le_of_lt (le_rep (K := Rat) hp hrep ?_) (show T - 2 ^ e < T by linarith)
  rw [Rat.cast_id]
  rw [e1] at hbig
  have : 2 ^ e ≤ T * (1 / 2 ^ 52) := by
    rw [mul_one_div, le_div_iff₀ (by norm_num)]
    exact hbig
  linarith

theorem round_small {x T : Rat} (h0 : 0 ≤ x) (h : rnd f64 x ≤ T) (hT : T < 2 ^ f64.high) : Num.round f64 x = .fin (rnd f64 x) := by
  unfold Num.round
  rw [if_pos]
  have : 0 ≤ rnd f64 x := rep_le (K := Rat) hp rep0 (by simpa using h0)
  rw [abs_of_nonneg this]
  exact lt_of_le_of_lt h hT

theorem times {s T q : Rat} (h0 : 0 ≤ s) (hs : Representable f64 s) (h1 : s ≤ T) (hT : T < 2 ^ f64.high) (hq0 : 0 ≤ q) (hq : q ≤ 1) :
    Num.add f64 (Num.mul f64 (.fin q) (.fin s)) (.fin 0) = .fin (rnd f64 (q * s)) := by
  have hle : rnd f64 (q * s) ≤ s := le_rep (K := Rat) hp hs (by rw [Rat.cast_id]; nlinarith)
  have hnn : 0 ≤ q * s := mul_nonneg hq0 h0
  have hnn' : 0 ≤ rnd f64 (q * s) := rep_le (K := Rat) hp rep0 (by simpa using hnn)
  have e := exact (rnd_representable (K := Rat) (φ := f64) hp (q * s))
  show Num.add f64 (Num.round f64 (q * s)) (.fin 0) = _
  rw [round_small hnn hle (lt_of_le_of_lt h1 hT)]
  show Num.round f64 (rnd f64 (q * s) + 0) = _
  rw [add_zero, round_small hnn' (by rw [e]; exact hle) (lt_of_le_of_lt h1 hT), e]

theorem mul_comm_num {a b : Rat} : Num.mul f64 (.fin a) (.fin b) = Num.mul f64 (.fin b) (.fin a) := by
  show Num.round f64 (a * b) = Num.round f64 (b * a)
  rw [mul_comm]

theorem le_fin {a b : Rat} : Num.le (.fin a) (.fin b) = true ↔ a ≤ b := decide_eq_true_iff

theorem uniformNew_ok {T : Rat} (h0 : 0 < T) (hr : Representable f64 T) (hT : T < 2 ^ f64.high) :
    uniformNew (.fin T) = .ok (.fin (scaleOf T)) := by
  unfold uniformNew
  rw [if_neg (by rw [le_fin]; exact not_le.2 h0), if_neg (by simp [Num.isFinite])]
  have hq0 : (0 : Rat) ≤ 1 - 1 / 2 ^ 52 := by norm_num
  have hq1 : (1 : Rat) - 1 / 2 ^ 52 ≤ 1 := by norm_num
  unfold shrink maxRand
  rw [mul_comm_num, times h0.le hr (le_refl _) hT hq0 hq1, mul_comm]
  by_cases hc : T ≤ rnd f64 (T * (1 - 1 / 2 ^ 52))
  · obtain ⟨h1, h2, h3, h4⟩ := scale_spec h0 hr
    have hs : scaleOf T = below f64 T := by unfold scaleOf; rw [if_pos hc]
    rw [if_pos (le_fin.2 hc)]
    unfold shrink
    unfold Num.decrease maxRand
    simp only
    rw [← hs, mul_comm_num, times h2 h1 h3 hT hq0 hq1, mul_comm]
    rw [if_neg (by rw [le_fin]; exact not_le.2 h4)]
  · rw [if_neg (by rw [le_fin]; exact hc)]
    unfold scaleOf
    rw [if_neg hc]

end DieE.Props.Dw
