import Verif.Train.Adam
import Mathlib.Algebra.Order.Ring.Pow
import Mathlib.Analysis.SpecificLimits.Basic
import Mathlib.Tactic.Linarith
import Mathlib.Tactic.FieldSimp
import Mathlib.Tactic.Positivity

/-! # C108, C109: how far the optimizer moves a weight -/

namespace DieE.Props.Ad
open DieE.Train
open Filter Topology

/-! ## Specification -/

/-- Exponentially weighted mean of numbers, the last one has the weight `1 - β`. -/
noncomputable def decaying (β : ℝ) (gs : List ℝ) : ℝ :=
  ((List.range gs.length).map fun i => (1 - β) * β ^ (gs.length - 1 - i) * gs.getD i 0).sum

/-- The square of the number of learning rates a weight can move in the `t`-th step. -/
noncomputable def reach (t : Nat) : ℝ := 370 / 7 * (1 - (30 / 37) ^ t) * (1 - (999 / 1000) ^ t) / (1 - (9 / 10) ^ t) ^ 2

/-- The moments of an entry after steps with the given gradients. -/
noncomputable def moments (gs : List ℝ) : ℝ × ℝ := gs.foldl (fun s g => (firstMoment s.1 g, secondMoment s.2 g)) (0, 0)

theorem moments_snoc (gs : List ℝ) (g : ℝ) :
    moments (gs ++ [g]) = (firstMoment (moments gs).1 g, secondMoment (moments gs).2 g) := by
  unfold moments
  rw [List.foldl_append]
  rfl

theorem decaying_snoc (β : ℝ) (gs : List ℝ) (g : ℝ) : decaying β (gs ++ [g]) = β * decaying β gs + (1 - β) * g := by
  unfold decaying
  rw [List.length_append, List.length_singleton, List.range_succ, List.map_append, List.sum_append]
  congr 1
  · rw [← List.sum_map_mul_left]
    congr 1
    apply List.map_congr_left
    intro i hi
    have hi := List.mem_range.1 hi
    rw [show (gs ++ [g]).getD i 0 = gs.getD i 0 by simp [List.getD, List.getElem?_append_left hi], show gs.length + 1 - 1 - i = gs.length - 1 - i + 1 by omega, pow_succ]
    ring
  · simp

/-- C108: the moments are exponentially weighted means of the gradients and of their squares. -/
theorem C108_moments (gs : List ℝ) :
    moments gs = (decaying (9 / 10) gs, decaying (999 / 1000) (gs.map fun g => g ^ 2)) := by
  induction gs using List.reverseRecOn with
  | nil => simp [moments, decaying]
  | append_singleton gs g ih =>
    rw [moments_snoc, ih, List.map_append, List.map_singleton, decaying_snoc, decaying_snoc]
    simp only [firstMoment, secondMoment, beta1, beta2]
    rw [pow_two]

/-! ## The invariant -/

/-- Bound of the square of the first moment by the second one after `t` steps. -/
noncomputable def ratio (t : Nat) : ℝ := 370 / 7 * (1 - (30 / 37) ^ t)

theorem ratio_nonneg (t : Nat) : 0 ≤ ratio t := by
  unfold ratio
  have : (30 / 37 : ℝ) ^ t ≤ 1 := pow_le_one₀ (by norm_num) (by norm_num)
  linarith

theorem ratio_succ (t : Nat) : ratio (t + 1) = 10 + 30 / 37 * ratio t := by
  unfold ratio
  rw [pow_succ]
  ring

/-- The moments of an entry after `t` steps. -/
def Inv (t : Nat) (m v : ℝ) : Prop := 0 ≤ v ∧ m ^ 2 ≤ ratio t * v

theorem inv_zero : Inv 0 0 0 := ⟨le_refl _, by simp⟩

theorem inv_step {t : Nat} {m v : ℝ} (h : Inv t m v) (g : ℝ) : Inv (t + 1) (firstMoment m g) (secondMoment v g) := by
  obtain ⟨h0, h1⟩ := h
  have hA := ratio_nonneg t
  unfold Inv firstMoment secondMoment beta1 beta2
  rw [ratio_succ]
  generalize ratio t = A at *
  have hg := mul_self_nonneg g
  refine ⟨by nlinarith, ?_⟩
  have hX : 0 ≤ 999 / 100 * v := by linarith
  have hY : 0 ≤ 30 / 37 * A / 1000 * (g * g) := by positivity
  have key : |9 / 50 * (m * g)| ≤ 999 / 100 * v + 30 / 37 * A / 1000 * (g * g) := by
    apply abs_le_of_sq_le_sq
    · have h2 : m ^ 2 * (g * g) ≤ A * v * (g * g) := mul_le_mul_of_nonneg_right h1 hg
      nlinarith [sq_nonneg (999 / 100 * v - 30 / 37 * A / 1000 * (g * g))]
    · linarith
  have := le_trans (le_abs_self _) key
  nlinarith

theorem moments_inv (gs : List ℝ) : Inv gs.length (moments gs).1 (moments gs).2 := by
  induction gs using List.reverseRecOn with
  | nil => exact inv_zero
  | append_singleton gs g ih =>
    rw [moments_snoc, List.length_append, List.length_singleton]
    exact inv_step ih g

/-! ## The bound -/

theorem corr1_pos {t : Nat} (ht : t ≠ 0) : 0 < 1 - beta1 ^ t := by
  have : beta1 ^ t < 1 := pow_lt_one₀ (by unfold beta1; norm_num) (by unfold beta1; norm_num) ht
  linarith

theorem corr2_pos {t : Nat} (ht : t ≠ 0) : 0 < 1 - beta2 ^ t := by
  have : beta2 ^ t < 1 := pow_lt_one₀ (by unfold beta2; norm_num) (by unfold beta2; norm_num) ht
  linarith

theorem eps_pos : 0 < adamEps := by unfold adamEps; norm_num

theorem stride_le {t : Nat} (ht : t ≠ 0) {m v : ℝ} (h : Inv t m v) (lr : ℝ) : stride lr t m v ^ 2 ≤ reach t * lr ^ 2 := by
  obtain ⟨h0, h1⟩ := h
  have c1 := corr1_pos ht
  have c2 := corr2_pos ht
  have hr : reach t = ratio t * (1 - beta2 ^ t) / (1 - beta1 ^ t) ^ 2 := rfl
  rw [hr]
  unfold stride
  have hA := ratio_nonneg t
  generalize ratio t = A at *
  generalize 1 - beta1 ^ t = a at *
  generalize 1 - beta2 ^ t = b at *
  have hd : 0 < Real.sqrt v / Real.sqrt b + adamEps := add_pos_of_nonneg_of_pos (by positivity) eps_pos
  have hq : v / b ≤ (Real.sqrt v / Real.sqrt b + adamEps) ^ 2 := by
    have h2 : (Real.sqrt v / Real.sqrt b) ^ 2 = v / b := by rw [div_pow, Real.sq_sqrt h0, Real.sq_sqrt c2.le]
    rw [← h2]
    exact pow_le_pow_left₀ (by positivity) (by linarith [eps_pos]) 2
  generalize Real.sqrt v / Real.sqrt b + adamEps = d at *
  have h3 : m ^ 2 ≤ A * b * d ^ 2 := by
    have : v ≤ b * d ^ 2 := by rwa [div_le_iff₀ c2, mul_comm] at hq
    calc m ^ 2 ≤ A * v := h1
      _ ≤ A * (b * d ^ 2) := mul_le_mul_of_nonneg_left this hA
      _ = _ := by ring
  have h4 : (m / d) ^ 2 ≤ A * b := by
    rw [div_pow, div_le_iff₀ (by positivity)]
    exact h3
  calc (lr / a * (m / d)) ^ 2 = lr ^ 2 / a ^ 2 * (m / d) ^ 2 := by rw [mul_pow, div_pow]
    _ ≤ lr ^ 2 / a ^ 2 * (A * b) := mul_le_mul_of_nonneg_left h4 (by positivity)
    _ = _ := by ring

/-- C108: the `t`-th step moves a weight by at most `√(reach t)` times the learning rate, whatever the gradients. -/
theorem C108_step {gs : List ℝ} (hgs : gs ≠ []) (lr : ℝ) :
    stride lr gs.length (moments gs).1 (moments gs).2 ^ 2 ≤ reach gs.length * lr ^ 2 :=
  stride_le (by simpa using hgs) (moments_inv gs) lr

theorem corr_le (t : Nat) : 1 - beta2 ^ t ≤ (1 - beta1 ^ t) ^ 2 := by
  have h1 : 1 + (t : ℝ) * (11 / 100) ≤ (1 + 11 / 100) ^ t := one_add_mul_le_pow (by norm_num) t
  have h2 : 1 + (t : ℝ) * (-1 / 10) ≤ (1 + -1 / 10) ^ t := one_add_mul_le_pow (by norm_num) t
  have e1 : (1 + 11 / 100 : ℝ) = 111 / 100 := by norm_num
  have e2 : (1 + -1 / 10 : ℝ) = 9 / 10 := by norm_num
  rw [e1] at h1
  rw [e2] at h2
  have ht : (0 : ℝ) ≤ t := Nat.cast_nonneg t
  have h3 : beta2 ^ t = (111 / 100) ^ t * (9 / 10) ^ t := by rw [← mul_pow]; unfold beta2; norm_num
  have h4 : (0 : ℝ) < (9 / 10) ^ t := by positivity
  rw [h3]
  unfold beta1
  nlinarith

theorem reach_le {t : Nat} (ht : t ≠ 0) : reach t ≤ 370 / 7 := by
  have c1 := corr1_pos ht
  have c2 := corr2_pos ht
  have hr : reach t = ratio t * (1 - beta2 ^ t) / (1 - beta1 ^ t) ^ 2 := rfl
  rw [hr, div_le_iff₀ (by positivity)]
  have h1 : ratio t ≤ 370 / 7 := by
    unfold ratio
    have : (0 : ℝ) ≤ (30 / 37) ^ t := by positivity
    linarith
  calc ratio t * (1 - beta2 ^ t) ≤ 370 / 7 * (1 - beta2 ^ t) := mul_le_mul_of_nonneg_right h1 c2.le
    _ ≤ 370 / 7 * (1 - beta1 ^ t) ^ 2 := mul_le_mul_of_nonneg_left (corr_le t) (by norm_num)

theorem reach_one : reach 1 = 1 := by unfold reach; norm_num

theorem stride_abs {t : Nat} (ht : t ≠ 0) {m v : ℝ} (h : Inv t m v) {lr : ℝ} (hlr : 0 ≤ lr) :
    |stride lr t m v| ≤ 7271 / 1000 * lr := by
  apply abs_le_of_sq_le_sq _ (by positivity)
  refine le_trans (stride_le ht h lr) ?_
  have h1 := mul_le_mul_of_nonneg_right (reach_le ht) (sq_nonneg lr)
  nlinarith [sq_nonneg lr]

/-- C108: no step moves a weight by more than 7.271 learning rates. -/
theorem C108_bound {gs : List ℝ} (hgs : gs ≠ []) {lr : ℝ} (hlr : 0 ≤ lr) :
    |stride lr gs.length (moments gs).1 (moments gs).2| ≤ 7271 / 1000 * lr :=
  stride_abs (by simpa using hgs) (moments_inv gs) hlr

/-- C108: the first step moves a weight by at most the learning rate. -/
theorem C108_first (g : ℝ) {lr : ℝ} (hlr : 0 ≤ lr) : |stride lr 1 (moments [g]).1 (moments [g]).2| ≤ lr := by
  apply abs_le_of_sq_le_sq _ hlr
  have := C108_step (gs := [g]) (by simp) lr
  rwa [List.length_singleton, reach_one, one_mul] at this

/-! ## The bound is sharp -/

/-- Gradients which grow by 11 percent per step. -/
noncomputable def growing (L : ℝ) (t : Nat) : List ℝ := (List.range t).map fun i => L * (111 / 100) ^ (i + 1)

theorem growing_succ (L : ℝ) (t : Nat) : growing L (t + 1) = growing L t ++ [L * (111 / 100) ^ (t + 1)] := by
  unfold growing
  rw [List.range_succ, List.map_append]
  rfl

/-- The moments of growing gradients; `S` is 10 times a geometric sum. -/
theorem moments_growing (L : ℝ) (t : Nat) :
    moments (growing L t) = (L * (ratio t * ((37 / 30) ^ t * (9 / 10) ^ t / 100)),
      L ^ 2 * (ratio t * ((37 / 30) ^ t * (999 / 1000) ^ t / 10000))) := by
  induction t with
  | zero => simp [moments, growing, ratio]
  | succ t ih =>
    rw [growing_succ, moments_snoc, ih, ratio_succ]
    have e1 : (111 / 100 : ℝ) ^ t = (37 / 30) ^ t * (9 / 10) ^ t := by rw [← mul_pow]; norm_num
    have e2 : ((111 / 100 : ℝ) ^ t) ^ 2 = (37 / 30) ^ t * (999 / 1000) ^ t := by rw [← mul_pow, ← pow_mul, mul_comm, pow_mul]; norm_num
    simp only [firstMoment, secondMoment, beta1, beta2, pow_succ _ t]
    generalize ratio t = A
    refine Prod.ext ?_ ?_
    · simp only
      rw [e1]
      ring
    · simp only
      have : (L * ((111 / 100 : ℝ) ^ t * (111 / 100))) * (L * ((111 / 100 : ℝ) ^ t * (111 / 100))) =
          L ^ 2 * (((111 / 100 : ℝ) ^ t) ^ 2 * (111 / 100) ^ 2) := by ring
      rw [this, e2]
      ring

/-- C108: the bound of the `t`-th step is the best one. -/
theorem C108_sharp {t : Nat} (ht : t ≠ 0) {lr c : ℝ} (hlr : lr ≠ 0) (hc : c < reach t) :
    ∃ gs : List ℝ, gs.length = t ∧ c * lr ^ 2 < stride lr t (moments gs).1 (moments gs).2 ^ 2 := by
  have c1 := corr1_pos ht
  have c2 := corr2_pos ht
  have hA : 0 < ratio t := by
    unfold ratio
    have : (30 / 37 : ℝ) ^ t < 1 := pow_lt_one₀ (by norm_num) (by norm_num) ht
    linarith
  set M : ℝ := ratio t * ((37 / 30) ^ t * (9 / 10) ^ t / 100) with hM
  set V : ℝ := ratio t * ((37 / 30) ^ t * (999 / 1000) ^ t / 10000) with hV
  have hMp : 0 < M := by positivity
  have hVp : 0 < V := by positivity
  set a := 1 - beta1 ^ t with ha
  set b := 1 - beta2 ^ t with hb
  have hMV : M ^ 2 = ratio t * V := by
    have e2 : (((37 / 30 : ℝ) ^ t) * (9 / 10) ^ t) ^ 2 = (37 / 30) ^ t * (999 / 1000) ^ t := by
      rw [← mul_pow, ← mul_pow, ← pow_mul, mul_comm t 2, pow_mul]
      norm_num
    rw [hM, hV, mul_pow, div_pow, e2]
    ring
  have hval : ∀ L : ℝ, 0 < L → stride lr t (moments (growing L t)).1 (moments (growing L t)).2 =
      lr / a * (M / (Real.sqrt V / Real.sqrt b + adamEps * L⁻¹)) := by
    intro L hL
    rw [moments_growing]
    show lr / a * (L * M / (Real.sqrt (L ^ 2 * V) / Real.sqrt b + adamEps)) = _
    rw [Real.sqrt_mul (sq_nonneg L), Real.sqrt_sq hL.le]
    have h2 : L * Real.sqrt V / Real.sqrt b + adamEps = L * (Real.sqrt V / Real.sqrt b + adamEps * L⁻¹) := by
      field_simp
    rw [h2, mul_div_mul_left _ _ hL.ne']
  have hsV : 0 < Real.sqrt V := Real.sqrt_pos.2 hVp
  have hsb : 0 < Real.sqrt b := Real.sqrt_pos.2 c2
  have hlim : Tendsto (fun L : ℝ => (lr / a * (M / (Real.sqrt V / Real.sqrt b + adamEps * L⁻¹))) ^ 2) atTop
      (𝓝 ((lr / a * (M / (Real.sqrt V / Real.sqrt b + adamEps * 0))) ^ 2)) := by
    have h1 : Tendsto (fun L : ℝ => Real.sqrt V / Real.sqrt b + adamEps * L⁻¹) atTop
        (𝓝 (Real.sqrt V / Real.sqrt b + adamEps * 0)) :=
      tendsto_const_nhds.add (tendsto_const_nhds.mul tendsto_inv_atTop_zero)
    refine Tendsto.pow (tendsto_const_nhds.mul (tendsto_const_nhds.div h1 ?_)) 2
    rw [mul_zero, add_zero]
    exact (div_pos hsV hsb).ne'
  have hval0 : (lr / a * (M / (Real.sqrt V / Real.sqrt b + adamEps * 0))) ^ 2 = reach t * lr ^ 2 := by
    have hr : reach t = ratio t * b / a ^ 2 := rfl
    rw [mul_zero, add_zero, mul_pow, div_pow, div_pow, div_pow, Real.sq_sqrt hVp.le, Real.sq_sqrt c2.le, hMV, hr]
    field_simp
  rw [hval0] at hlim
  have hlt : c * lr ^ 2 < reach t * lr ^ 2 := mul_lt_mul_of_pos_right hc (by positivity)
  obtain ⟨L, h1, h2⟩ := ((hlim.eventually (lt_mem_nhds hlt)).and (eventually_gt_atTop 0)).exists
  refine ⟨growing L t, by simp [growing], ?_⟩
  rw [hval L h2]
  exact h1

/-- C108: no smaller number than `√(370/7)`, about 7.27, bounds all steps. -/
theorem C108_limit {c : ℝ} (hc : c < 370 / 7) : ∃ t, t ≠ 0 ∧ c < reach t := by
  have h1 : Tendsto (fun t : Nat => (30 / 37 : ℝ) ^ t) atTop (𝓝 0) := tendsto_pow_atTop_nhds_zero_of_lt_one (by norm_num) (by norm_num)
  have h2 : Tendsto (fun t : Nat => (999 / 1000 : ℝ) ^ t) atTop (𝓝 0) := tendsto_pow_atTop_nhds_zero_of_lt_one (by norm_num) (by norm_num)
  have h3 : Tendsto (fun t : Nat => (9 / 10 : ℝ) ^ t) atTop (𝓝 0) := tendsto_pow_atTop_nhds_zero_of_lt_one (by norm_num) (by norm_num)
  have hl : Tendsto reach atTop (𝓝 (370 / 7 * (1 - 0) * (1 - 0) / (1 - 0) ^ 2)) := by
    unfold reach
    exact ((tendsto_const_nhds.mul (tendsto_const_nhds.sub h1)).mul (tendsto_const_nhds.sub h2)).div
      ((tendsto_const_nhds.sub h3).pow 2) (by norm_num)
  have he : (370 / 7 * (1 - 0) * (1 - 0) / (1 - 0) ^ 2 : ℝ) = 370 / 7 := by norm_num
  rw [he] at hl
  obtain ⟨t, h4, h5⟩ := ((hl.eventually (lt_mem_nhds hc)).and (eventually_ne_atTop 0)).exists
  exact ⟨t, h5, h4⟩

/-- C108: already the second step can be longer than the learning rate. -/
theorem C108_second {lr : ℝ} (hlr : lr ≠ 0) :
    ∃ g1 g2 : ℝ, lr ^ 2 < stride lr 2 (moments [g1, g2]).1 (moments [g1, g2]).2 ^ 2 := by
  obtain ⟨gs, h1, h2⟩ := C108_sharp (t := 2) (by decide) hlr (c := 1) (by unfold reach; norm_num)
  match gs, h1 with
  | [g1, g2], _ => exact ⟨g1, g2, by simpa using h2⟩

/-! ## C109: weight decay -/

/-- The value of a weight after steps with the given gradients (before weight decay) from its initial value, with the
moments. -/
noncomputable def follow (op : OptimizerParams) (x : ℝ) (gs : List ℝ) : ℝ × ℝ × ℝ × Nat :=
  gs.foldl (fun s g =>
    let g := decayed op s.1 g
    let m := firstMoment s.2.1 g
    let v := secondMoment s.2.2.1 g
    (s.1 - stride op.lr (s.2.2.2 + 1) m v, m, v, s.2.2.2 + 1)) (x, 0, 0, 0)

/-- C109 as stated: without gradients, weight decay never makes a weight larger. -/
def C109_statement : Prop :=
  ∀ (op : OptimizerParams), 0 < op.lr → 0 < op.wd → ∀ (x : ℝ) (k : Nat), |(follow op x (List.replicate k 0)).1| ≤ |x|

/-- The first step without gradient. -/
theorem follow_one (op : OptimizerParams) (hwd : 0 ≤ op.wd) (x : ℝ) :
    (follow op x [0]).1 = x * (1 - op.lr * op.wd / (op.wd * |x| + adamEps)) := by
  have h1 : (follow op x [0]).1 = x - stride op.lr 1 (firstMoment 0 (decayed op x 0)) (secondMoment 0 (decayed op x 0)) := rfl
  rw [h1]
  unfold stride firstMoment secondMoment decayed
  have e2 : beta2 * 0 + (1 - beta2) * ((0 + op.wd * x) * (0 + op.wd * x)) = (1 - beta2 ^ 1) * (op.wd * x) ^ 2 := by ring
  have c2 : 0 < 1 - beta2 ^ 1 := corr2_pos (by decide)
  have c1 : 1 - beta1 ≠ 0 := by unfold beta1; norm_num
  rw [e2, Real.sqrt_mul c2.le, Real.sqrt_sq_eq_abs, mul_div_cancel_left₀ _ (Real.sqrt_pos.2 c2).ne', abs_mul, abs_of_nonneg hwd]
  have hd : op.wd * |x| + adamEps ≠ 0 := (add_pos_of_nonneg_of_pos (by positivity) eps_pos).ne'
  rw [pow_one]
  field_simp
  ring

/-- C109 for the first step: exactly the weights above a threshold of about half of the learning rate become smaller.
Missing for the full statement: smaller weights, for which it is false (`C109_refuted`), and later steps, for which see
`C109_partial` and `C109_eventually`. -/
theorem C109_first_partial (op : OptimizerParams) (hlr : 0 < op.lr) (hwd : 0 < op.wd) {x : ℝ} (hx : x ≠ 0) :
    |(follow op x [0]).1| < |x| ↔ op.lr / 2 - adamEps / op.wd < |x| := by
  rw [follow_one op hwd.le, abs_mul, mul_lt_iff_lt_one_right (abs_pos.2 hx)]
  have hd : 0 < op.wd * |x| + adamEps := add_pos_of_nonneg_of_pos (by positivity) eps_pos
  rw [abs_lt]
  have h1 : 1 - op.lr * op.wd / (op.wd * |x| + adamEps) < 1 := by
    have : 0 < op.lr * op.wd / (op.wd * |x| + adamEps) := by positivity
    linarith
  have h2 : -1 < 1 - op.lr * op.wd / (op.wd * |x| + adamEps) ↔ op.lr * op.wd < 2 * (op.wd * |x| + adamEps) := by
    rw [← div_lt_iff₀ hd]
    constructor <;> intro h <;> linarith
  rw [h2]
  simp only [h1, and_true]
  have h3 : 2 * (op.wd * |x| + adamEps) = (|x| + adamEps / op.wd) * 2 * op.wd := by field_simp
  rw [h3, mul_lt_mul_iff_left₀ hwd, sub_lt_iff_lt_add, div_lt_iff₀ (by norm_num : (0 : ℝ) < 2)]

/-- C109: the decay of a weight does not depend on its size: the first step takes at most the learning rate, and almost all of
it from every weight well above `adamEps / wd`. -/
theorem C109_uniform (op : OptimizerParams) (hlr : 0 ≤ op.lr) (hwd : 0 < op.wd) {x : ℝ} (hx : 0 < x) :
    x - op.lr ≤ (follow op x [0]).1 ∧ (follow op x [0]).1 ≤ x - op.lr * (1 - adamEps / (op.wd * x)) := by
  rw [follow_one op hwd.le, abs_of_pos hx]
  have hwx : 0 < op.wd * x := by positivity
  have hd : 0 < op.wd * x + adamEps := add_pos hwx eps_pos
  have e : x * (1 - op.lr * op.wd / (op.wd * x + adamEps)) = x - op.lr * (op.wd * x / (op.wd * x + adamEps)) := by
    field_simp
  rw [e]
  have h1 : op.wd * x / (op.wd * x + adamEps) ≤ 1 := by rw [div_le_one hd]; linarith [eps_pos]
  have h2 : 1 - adamEps / (op.wd * x) ≤ op.wd * x / (op.wd * x + adamEps) := by
    rw [sub_le_iff_le_add, ← sub_le_iff_le_add', le_div_iff₀ hwx]
    have : (1 - op.wd * x / (op.wd * x + adamEps)) * (op.wd * x) = adamEps * (op.wd * x / (op.wd * x + adamEps)) := by field_simp; ring
    rw [this]
    exact mul_le_of_le_one_right eps_pos.le h1
  constructor
  · nlinarith
  · nlinarith

/-- The values of `config-example.toml`. -/
noncomputable def exampleParams : OptimizerParams := { wd := 1 / 10000, lr := 1 / 1000 }

/-- C109 is false: with the values of the example configuration the first step makes a weight of an eighth of the
learning rate larger, with the opposite sign. -/
theorem C109_refuted : ¬ C109_statement := by
  intro h
  have h1 := h exampleParams (by unfold exampleParams; norm_num) (by unfold exampleParams; norm_num) (1 / 8000) 1
  have h3 := follow_one exampleParams (by unfold exampleParams; norm_num) (1 / 8000)
  have h1 : |(follow exampleParams (1 / 8000) [0]).1| ≤ _ := h1
  rw [h3] at h1
  unfold exampleParams adamEps at h1
  norm_num [abs_of_pos, abs_of_neg] at h1

end DieE.Props.Ad
