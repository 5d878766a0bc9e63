import Verif.Props.Trained

/-! # C135: weight decay keeps the weights bounded -/

namespace DieE.Props.Ad
open DieE DieE.Train DieE.Net
open DieE.Props.N (Built)

/-! ## One step -/

/-- How far the first moment points upwards, in units of the root of the second one. -/
noncomputable def lag (m v : ℝ) : ℝ := max 0 (-m) / Real.sqrt v

theorem lag_nonneg (m v : ℝ) : 0 ≤ lag m v := div_nonneg (le_max_left ..) (Real.sqrt_nonneg v)

theorem lag_le {t : Nat} {m v : ℝ} (h : Inv t m v) : lag m v ≤ 7271 / 1000 := by
  refine div_le_of_le_mul₀ (Real.sqrt_nonneg v) (by norm_num) (max_le (by positivity) ?_)
  have h1 : m ^ 2 ≤ 370 / 7 * v := by
    refine le_trans h.2 (mul_le_mul_of_nonneg_right ?_ h.1)
    unfold ratio
    have : (0 : ℝ) ≤ (30 / 37) ^ t := by positivity
    linarith
  refine le_trans (neg_le_abs m) (abs_le_of_sq_le_sq ?_ (by positivity))
  rw [mul_pow, Real.sq_sqrt h.1]
  have := h.1
  nlinarith

theorem root_beta2 : 99945 / 100000 ≤ Real.sqrt beta2 := by
  refine Real.le_sqrt_of_sq_le ?_
  unfold beta2
  norm_num

/-- Gradients upwards push the first moment down again. -/
theorem lag_step {t : Nat} {m v g : ℝ} (h : Inv t m v) (hg : 0 ≤ g) :
    lag (firstMoment m g) (secondMoment v g) ≤ 9005 / 10000 * lag m v := by
  have h1 : max 0 (-firstMoment m g) ≤ beta1 * max 0 (-m) := by
    have hb : 0 ≤ beta1 := by unfold beta1; norm_num
    have hb' : 0 ≤ (1 - beta1) * g := mul_nonneg (by unfold beta1; norm_num) hg
    refine max_le (mul_nonneg hb (le_max_left ..)) ?_
    have := mul_le_mul_of_nonneg_left (le_max_right 0 (-m)) hb
    unfold firstMoment
    linarith
  have h2 : Real.sqrt beta2 * Real.sqrt v ≤ Real.sqrt (secondMoment v g) := by
    rw [← Real.sqrt_mul (by unfold beta2; norm_num)]
    refine Real.sqrt_le_sqrt ?_
    have : 0 ≤ (1 - beta2) * (g * g) := mul_nonneg (by unfold beta2; norm_num) (mul_self_nonneg g)
    unfold secondMoment
    linarith
  rcases h.1.eq_or_lt with hv | hv
  · subst hv
    have hm : m = 0 := by
      have := h.2
      rw [mul_zero] at this
      exact pow_eq_zero_iff (two_ne_zero) |>.1 (le_antisymm this (sq_nonneg m))
    subst hm
    rw [neg_zero, max_self, mul_zero] at h1
    unfold lag
    rw [le_antisymm h1 (le_max_left ..), zero_div, neg_zero, max_self, zero_div, mul_zero]
  · have hs := Real.sqrt_pos.2 hv
    have hb : 0 < Real.sqrt beta2 := lt_of_lt_of_le (by norm_num) root_beta2
    unfold lag
    have hx : 0 ≤ max 0 (-m) := le_max_left ..
    calc max 0 (-firstMoment m g) / Real.sqrt (secondMoment v g)
        ≤ beta1 * max 0 (-m) / (Real.sqrt beta2 * Real.sqrt v) :=
          div_le_div₀ (mul_nonneg (by unfold beta1; norm_num) hx) h1 (by positivity) h2
      _ ≤ 9005 / 10000 * (max 0 (-m) / Real.sqrt v) := by
        rw [mul_div_assoc', div_le_div_iff₀ (by positivity) hs]
        have : beta1 ≤ 9005 / 10000 * Real.sqrt beta2 := by
          unfold beta1
          linarith [root_beta2]
        have h3 : 0 ≤ max 0 (-m) * Real.sqrt v := by positivity
        nlinarith

theorem neg_stride_le {t : Nat} (ht : t ≠ 0) {m v : ℝ} (h : Inv t m v) {lr : ℝ} (hlr : 0 ≤ lr) :
    -stride lr t m v ≤ lr * lag m v := by
  have c1 := corr1_pos ht
  have c2 := corr2_pos ht
  rcases le_or_gt 0 m with hm | hm
  · have : 0 ≤ stride lr t m v := by
      unfold stride
      have := eps_pos
      positivity
    have := mul_nonneg hlr (lag_nonneg m v)
    linarith
  · have hv : 0 < v := by
      rcases h.1.eq_or_lt with hv | hv
      · have := h.2
        rw [← hv, mul_zero] at this
        have := sq_pos_of_neg hm
        linarith
      · exact hv
    have hs := Real.sqrt_pos.2 hv
    have hc : Real.sqrt (1 - beta2 ^ t) ≤ 1 - beta1 ^ t := Real.sqrt_le_iff.2 ⟨c1.le, corr_le t⟩
    have hc' := Real.sqrt_pos.2 c2
    unfold stride lag
    rw [max_eq_right (by linarith : 0 ≤ -m)]
    generalize Real.sqrt (1 - beta2 ^ t) = b at *
    generalize 1 - beta1 ^ t = a at *
    generalize Real.sqrt v = s at *
    have h1 : s ≤ a * (s / b + adamEps) := by
      have h2 : s ≤ a * (s / b) := by
        rw [mul_div_assoc', le_div_iff₀ hc', mul_comm]
        exact mul_le_mul_of_nonneg_right hc hs.le
      have h3 : 0 ≤ a * adamEps := mul_nonneg c1.le eps_pos.le
      linarith
    have hd : 0 < s / b + adamEps := add_pos (by positivity) eps_pos
    have e : -(lr / a * (m / (s / b + adamEps))) = lr * (-m / (a * (s / b + adamEps))) := by
      field_simp
    rw [e]
    exact mul_le_mul_of_nonneg_left (div_le_div_of_nonneg_left (by linarith) hs h1) hlr

/-- The weight and the way its momentum can still carry it upwards. -/
noncomputable def carried (lr x m v : ℝ) : ℝ := x + lr * (9005 / 995 * lag m v)

theorem carried_ge {lr : ℝ} (hlr : 0 ≤ lr) (x m v : ℝ) : x ≤ carried lr x m v := by
  unfold carried
  have := mul_nonneg hlr (mul_nonneg (by norm_num : (0 : ℝ) ≤ 9005 / 995) (lag_nonneg m v))
  linarith

/-- A step from above `B` does not take the weight and its momentum further, a step from below `B` ends within 73.1 learning
rates of `B`. -/
theorem carried_step {op : OptimizerParams} (hlr : 0 ≤ op.lr) (hwd : 0 ≤ op.wd) {B x m v g : ℝ} {t : Nat} (h : Inv t m v)
    (hg : -(op.wd * B) ≤ g) :
    let g' := decayed op x g
    let m' := firstMoment m g'
    let v' := secondMoment v g'
    carried op.lr (x - stride op.lr (t + 1) m' v') m' v' ≤ max (carried op.lr x m v) (B + 731 / 10 * op.lr) := by
  intro g' m' v'
  have hi : Inv (t + 1) m' v' := inv_step h g'
  have h1 := neg_stride_le (Nat.succ_ne_zero t) hi hlr
  rcases le_or_gt B x with hx | hx
  · refine le_max_of_le_left ?_
    have hd : 0 ≤ g' := by
      show 0 ≤ g + op.wd * x
      have := mul_le_mul_of_nonneg_left hx hwd
      linarith
    have h2 := mul_le_mul_of_nonneg_left (lag_step h hd) hlr
    show x - stride op.lr (t + 1) m' v' + op.lr * (9005 / 995 * lag m' v') ≤ x + op.lr * (9005 / 995 * lag m v)
    have h2 : op.lr * lag m' v' ≤ op.lr * (9005 / 10000 * lag m v) := h2
    nlinarith
  · refine le_max_of_le_right ?_
    have h2 := mul_le_mul_of_nonneg_left (lag_le hi) hlr
    show x - stride op.lr (t + 1) m' v' + op.lr * (9005 / 995 * lag m' v') ≤ B + 731 / 10 * op.lr
    nlinarith

/-! ## Many steps -/

/-- The step of an entry in `follow`. -/
noncomputable def followStep (op : OptimizerParams) (s : ℝ × ℝ × ℝ × Nat) (g : ℝ) : ℝ × ℝ × ℝ × Nat :=
  let g := decayed op s.1 g
  let m := firstMoment s.2.1 g
  let v := secondMoment s.2.2.1 g
  (s.1 - stride op.lr (s.2.2.2 + 1) m v, m, v, s.2.2.2 + 1)

theorem follow_eq (op : OptimizerParams) (x : ℝ) (gs : List ℝ) : follow op x gs = gs.foldl (followStep op) (x, 0, 0, 0) := rfl

theorem foldl_le {op : OptimizerParams} (hlr : 0 ≤ op.lr) (hwd : 0 ≤ op.wd) {B M : ℝ} (hM : B + 731 / 10 * op.lr ≤ M) {gs : List ℝ}
    (hg : ∀ g ∈ gs, -(op.wd * B) ≤ g) (s : ℝ × ℝ × ℝ × Nat) (hi : Inv s.2.2.2 s.2.1 s.2.2.1)
    (hs : carried op.lr s.1 s.2.1 s.2.2.1 ≤ M) : (gs.foldl (followStep op) s).1 ≤ M := by
  induction gs generalizing s with
  | nil => exact le_trans (carried_ge hlr ..) hs
  | cons g gs ih =>
    refine ih (fun g h => hg g (List.mem_cons_of_mem _ h)) _ (inv_step hi _) ?_
    exact le_trans (carried_step hlr hwd hi (hg g (List.mem_cons_self ..))) (max_le hs hM)

theorem follow_le {op : OptimizerParams} (hlr : 0 ≤ op.lr) (hwd : 0 ≤ op.wd) {B x : ℝ} {gs : List ℝ} (hg : ∀ g ∈ gs, -(op.wd * B) ≤ g) :
    (follow op x gs).1 ≤ max x (B + 731 / 10 * op.lr) := by
  refine foldl_le hlr hwd (le_max_right ..) hg _ inv_zero ?_
  refine le_trans (le_of_eq ?_) (le_max_left ..)
  show x + op.lr * (9005 / 995 * lag 0 0) = x
  unfold lag
  simp

theorem follow_neg (op : OptimizerParams) (x : ℝ) (gs : List ℝ) : (follow op (-x) (gs.map (- ·))).1 = -(follow op x gs).1 := by
  have key : ∀ (x m v : ℝ) (t : Nat), ∃ x' m' v' t', gs.foldl (followStep op) (x, m, v, t) = (x', m', v', t') ∧
      (gs.map (- ·)).foldl (followStep op) (-x, -m, v, t) = (-x', -m', v', t') := by
    induction gs with
    | nil => exact fun x m v t => ⟨x, m, v, t, rfl, rfl⟩
    | cons g gs ih =>
      intro x m v t
      obtain ⟨x', m', v', t', h1, h2⟩ := ih (followStep op (x, m, v, t) g).1 (followStep op (x, m, v, t) g).2.1
        (followStep op (x, m, v, t) g).2.2.1 (t + 1)
      refine ⟨x', m', v', t', h1, ?_⟩
      rw [← h2, List.map_cons, List.foldl_cons]
      congr 1
      have e1 : decayed op (-x) (-g) = -decayed op x g := by unfold decayed; ring
      have e2 : firstMoment (-m) (-decayed op x g) = -firstMoment m (decayed op x g) := by unfold firstMoment; ring
      have e3 : secondMoment v (-decayed op x g) = secondMoment v (decayed op x g) := by unfold secondMoment; ring
      have e4 : ∀ m v : ℝ, stride op.lr (t + 1) (-m) v = -stride op.lr (t + 1) m v := by
        intro m v
        unfold stride
        ring
      unfold followStep
      simp only [e1, e2, e3, e4, sub_neg_eq_add, neg_sub]
      rw [add_comm, ← sub_eq_add_neg]
  obtain ⟨x', m', v', t', h1, h2⟩ := key x 0 0 0
  rw [follow_eq, follow_eq, h1]
  rw [neg_zero] at h2
  rw [h2]

/-- C135: if all gradients of a weight are at most `wd B`, the weight never leaves `B` by more than 73.1 learning rates, unless it
starts further away, and then it never gets further away than at the start, however many steps are made. -/
theorem C135_bounded {op : OptimizerParams} (hlr : 0 ≤ op.lr) (hwd : 0 ≤ op.wd) {B : ℝ} (x : ℝ) {gs : List ℝ}
    (hg : ∀ g ∈ gs, |g| ≤ op.wd * B) : |(follow op x gs).1| ≤ max |x| (B + 731 / 10 * op.lr) := by
  rw [abs_le']
  constructor
  · refine le_trans (follow_le hlr hwd (B := B) fun g h => ?_) (max_le_max_right _ (le_abs_self x))
    exact (abs_le.1 (hg g h)).1
  · rw [← follow_neg]
    refine le_trans (follow_le hlr hwd (B := B) fun g h => ?_) (max_le_max_right _ (neg_le_abs x))
    obtain ⟨g, h', rfl⟩ := List.mem_map.1 h
    exact neg_le_neg (abs_le.1 (hg g h')).2

/-- C109 for all steps: without gradients a weight never gets further away from 0 than at the start, or than 73.1 learning rates.
Missing for the full statement: weights below that, for some of which it is false (`C109_refuted`). -/
theorem C109_partial {op : OptimizerParams} (hlr : 0 ≤ op.lr) (hwd : 0 ≤ op.wd) (x : ℝ) (k : Nat) :
    |(follow op x (List.replicate k 0)).1| ≤ max |x| (731 / 10 * op.lr) := by
  have := C135_bounded hlr hwd (B := 0) x (gs := List.replicate k 0) fun g h => by
    rw [List.eq_of_mem_replicate h, mul_zero, abs_zero]
  rwa [zero_add] at this

/-- C109: a weight of at least 73.1 learning rates never becomes larger. -/
theorem C109_large {op : OptimizerParams} (hlr : 0 ≤ op.lr) (hwd : 0 ≤ op.wd) {x : ℝ} (hx : 731 / 10 * op.lr ≤ |x|) (k : Nat) :
    |(follow op x (List.replicate k 0)).1| ≤ |x| :=
  (C109_partial hlr hwd x k).trans (max_le (le_refl _) hx)

/-- The weight after steps without gradient. -/
theorem follow_more (op : OptimizerParams) (x : ℝ) (j k : Nat) :
    follow op x (List.replicate (j + k) 0) = (List.replicate k 0).foldl (followStep op) (follow op x (List.replicate j 0)) := by
  rw [follow_eq, List.replicate_add, List.foldl_append]
  rfl

theorem follow_inv (op : OptimizerParams) (x : ℝ) (k : Nat) :
    Inv (follow op x (List.replicate k 0)).2.2.2 (follow op x (List.replicate k 0)).2.1 (follow op x (List.replicate k 0)).2.2.1 ∧
      (follow op x (List.replicate k 0)).2.2.2 = k := by
  induction k with
  | zero => exact ⟨inv_zero, rfl⟩
  | succ k ih =>
    rw [follow_more op x k 1]
    exact ⟨inv_step ih.1 _, congrArg (· + 1) ih.2⟩

/-- As long as a weight without gradient stays above `c`, it loses at least a fixed amount in each step. -/
theorem falling {op : OptimizerParams} (hlr : 0 ≤ op.lr) (hwd : 0 < op.wd) {c x : ℝ} (hc : 0 < c) (k : Nat)
    (h : ∀ j < k, c ≤ (follow op x (List.replicate j 0)).1) :
    0 ≤ (follow op x (List.replicate k 0)).2.1 ∧ (1 - beta1 ^ k) * (op.wd * c) ≤ (follow op x (List.replicate k 0)).2.1 ∧
      (follow op x (List.replicate k 0)).2.2.1 ≤ (1 - beta2 ^ k) * (op.wd * x) ^ 2 ∧
      (follow op x (List.replicate k 0)).1 ≤ x - k * (op.lr * (op.wd * c) / (op.wd * x + adamEps)) := by
  induction k with
  | zero => simp [follow]
  | succ k ih =>
    obtain ⟨h1, h2, h3, h4⟩ := ih fun j hj => h j (by omega)
    have h0 := h k (by omega)
    have hx : c ≤ x := h 0 (by omega)
    have hx0 : 0 < x := by linarith
    obtain ⟨hi, hk⟩ := follow_inv op x k
    rw [show follow op x (List.replicate (k + 1) 0) = followStep op (follow op x (List.replicate k 0)) 0 from follow_more op x k 1]
    generalize follow op x (List.replicate k 0) = s at *
    obtain ⟨w, m, v, t⟩ := s
    dsimp only at *
    subst hk
    have hd : 0 < op.wd * x + adamEps := add_pos (by positivity) eps_pos
    have hw : w ≤ x := by
      have : 0 ≤ (t : ℝ) * (op.lr * (op.wd * c) / (op.wd * x + adamEps)) := by positivity
      linarith
    have hwc : op.wd * c ≤ op.wd * w := mul_le_mul_of_nonneg_left h0 hwd.le
    have hwx : op.wd * w ≤ op.wd * x := mul_le_mul_of_nonneg_left hw hwd.le
    have hc0 : 0 < op.wd * c := by positivity
    have b1 : 0 < 1 - beta1 := by unfold beta1; norm_num
    have b1' : 0 < beta1 := by unfold beta1; norm_num
    have b2 : 0 < 1 - beta2 := by unfold beta2; norm_num
    have b2' : 0 < beta2 := by unfold beta2; norm_num
    have e : decayed op w 0 = op.wd * w := zero_add _
    have m1 : (1 - beta1 ^ (t + 1)) * (op.wd * c) ≤ firstMoment m (op.wd * w) := by
      unfold firstMoment
      have := mul_le_mul_of_nonneg_left h2 b1'.le
      have := mul_le_mul_of_nonneg_left hwc b1.le
      rw [pow_succ]
      nlinarith
    have m0 : 0 ≤ firstMoment m (op.wd * w) :=
      le_trans (mul_nonneg (corr1_pos (Nat.succ_ne_zero t)).le hc0.le) m1
    have v1 : secondMoment v (op.wd * w) ≤ (1 - beta2 ^ (t + 1)) * (op.wd * x) ^ 2 := by
      unfold secondMoment
      have := mul_le_mul_of_nonneg_left h3 b2'.le
      have hsq : op.wd * w * (op.wd * w) ≤ (op.wd * x) ^ 2 := by
        rw [sq]
        exact mul_le_mul hwx hwx (by linarith) (by positivity)
      have := mul_le_mul_of_nonneg_left hsq b2.le
      rw [pow_succ]
      nlinarith
    unfold followStep
    simp only [e]
    refine ⟨m0, m1, v1, ?_⟩
    have c1 := corr1_pos (Nat.succ_ne_zero t)
    have c2 := corr2_pos (Nat.succ_ne_zero t)
    have hst : op.lr * (op.wd * c) / (op.wd * x + adamEps) ≤ stride op.lr (t + 1) (firstMoment m (op.wd * w)) (secondMoment v (op.wd * w)) := by
      unfold stride
      have hr : Real.sqrt (secondMoment v (op.wd * w)) / Real.sqrt (1 - beta2 ^ (t + 1)) + adamEps ≤ op.wd * x + adamEps := by
        refine add_le_add_left ?_ _
        rw [div_le_iff₀ (Real.sqrt_pos.2 c2)]
        refine le_trans (Real.sqrt_le_sqrt v1) (le_of_eq ?_)
        rw [Real.sqrt_mul c2.le, Real.sqrt_sq (by positivity), mul_comm]
      have hp : 0 < Real.sqrt (secondMoment v (op.wd * w)) / Real.sqrt (1 - beta2 ^ (t + 1)) + adamEps :=
        add_pos_of_nonneg_of_pos (by positivity) eps_pos
      rw [div_mul_div_comm, div_le_div_iff₀ hd (mul_pos c1 hp)]
      generalize Real.sqrt (secondMoment v (op.wd * w)) / Real.sqrt (1 - beta2 ^ (t + 1)) + adamEps = d at *
      generalize 1 - beta1 ^ (t + 1) = a at *
      calc op.lr * (op.wd * c) * (a * d) = op.lr * (a * (op.wd * c) * d) := by ring
        _ ≤ op.lr * (firstMoment m (op.wd * w) * (op.wd * x + adamEps)) :=
          mul_le_mul_of_nonneg_left (mul_le_mul m1 hr hp.le m0) hlr
        _ = _ := by ring
    push_cast
    linarith

theorem fallen {op : OptimizerParams} (hlr : 0 < op.lr) (hwd : 0 < op.wd) {c x : ℝ} (hc : 0 < c) (hx : 0 ≤ x) {k : Nat}
    (hk : x * (op.wd * x + adamEps) ≤ k * (op.lr * (op.wd * c))) :
    (follow op x (List.replicate k 0)).1 ≤ max c (731 / 10 * op.lr) := by
  by_cases h : ∃ j, j < k ∧ (follow op x (List.replicate j 0)).1 < c
  · classical
    obtain ⟨j, ⟨hj, h1⟩, h2⟩ : ∃ j, (j < k ∧ (follow op x (List.replicate j 0)).1 < c) ∧
        ∀ i < j, ¬ (i < k ∧ (follow op x (List.replicate i 0)).1 < c) := ⟨Nat.find h, Nat.find_spec h, fun _ hi => Nat.find_min h hi⟩
    have h3 := (falling hlr.le hwd hc j fun i hi => not_lt.1 fun h' => h2 i hi ⟨hi.trans hj, h'⟩).1
    obtain ⟨d, rfl⟩ := Nat.exists_eq_add_of_lt hj
    rw [show j + d + 1 = j + (d + 1) by omega, follow_more]
    refine foldl_le hlr.le hwd.le (B := 0) (by rw [zero_add]; exact le_max_right ..) (fun g hg => ?_) _ ?_ ?_
    · rw [List.eq_of_mem_replicate hg, mul_zero, neg_zero]
    · exact (follow_inv op x j).1
    · refine le_trans (le_of_eq ?_) (h1.le.trans (le_max_left ..))
      unfold carried lag
      rw [max_eq_left (by linarith), zero_div, mul_zero, mul_zero, add_zero]
  · have h1 := (falling hlr.le hwd hc k fun j hj => not_lt.1 fun h' => h ⟨j, hj, h'⟩).2.2.2
    have hd : 0 < op.wd * x + adamEps := add_pos_of_nonneg_of_pos (by positivity) eps_pos
    have h2 : x ≤ k * (op.lr * (op.wd * c) / (op.wd * x + adamEps)) := by
      rw [mul_div_assoc', le_div_iff₀ hd]
      exact hk
    exact le_trans (by linarith) (le_max_left ..)

/-- C109: without gradients every weight comes within 73.1 learning rates of 0 after a number of steps, and stays there. -/
theorem C109_eventually {op : OptimizerParams} (hlr : 0 < op.lr) (hwd : 0 < op.wd) (x : ℝ) {k : Nat}
    (hk : |x| * (op.wd * |x| + adamEps) ≤ k * (op.lr * (op.wd * (731 / 10 * op.lr)))) :
    |(follow op x (List.replicate k 0)).1| ≤ 731 / 10 * op.lr := by
  have hc : 0 < 731 / 10 * op.lr := by positivity
  have key : ∀ {x : ℝ}, 0 ≤ x → x * (op.wd * x + adamEps) ≤ k * (op.lr * (op.wd * (731 / 10 * op.lr))) →
      |(follow op x (List.replicate k 0)).1| ≤ 731 / 10 * op.lr := by
    intro x hx hk
    rw [abs_le']
    constructor
    · exact (fallen hlr hwd hc hx hk).trans (max_self _).le
    · have h1 := follow_neg op x (List.replicate k 0)
      rw [List.map_replicate, neg_zero] at h1
      rw [← h1]
      refine (follow_le hlr.le hwd.le (B := 0) fun g hg => ?_).trans (max_le (by linarith) (by rw [zero_add]))
      rw [List.eq_of_mem_replicate hg, mul_zero, neg_zero]
  rcases le_total 0 x with hx | hx
  · rw [abs_of_nonneg hx] at hk
    exact key hx hk
  · rw [abs_of_nonpos hx] at hk
    have h1 := follow_neg op x (List.replicate k 0)
    rw [List.map_replicate, neg_zero] at h1
    rw [← abs_neg, ← h1]
    exact key (by linarith) hk

/-- C135: `B` cannot be smaller: with the gradient `-wd B` the weight `B` stays where it is. -/
theorem C135_rest (op : OptimizerParams) (B : ℝ) (k : Nat) : (follow op B (List.replicate k (-(op.wd * B)))).1 = B := by
  have key : ∀ (k t : Nat), ∃ t', (List.replicate k (-(op.wd * B))).foldl (followStep op) (B, 0, 0, t) = (B, 0, 0, t') := by
    intro k
    induction k with
    | zero => exact fun t => ⟨t, rfl⟩
    | succ k ih =>
      intro t
      have e : followStep op (B, 0, 0, t) (-(op.wd * B)) = (B, 0, 0, t + 1) := by
        unfold followStep decayed firstMoment secondMoment stride
        simp
      rw [List.replicate_succ, List.foldl_cons, e]
      exact ih (t + 1)
  obtain ⟨t, h⟩ := key k 0
  rw [follow_eq, h]

/-- C135: without weight decay, gradients of 1 take a weight as far as one likes: each step takes it by the same distance, almost a learning rate. -/
theorem C135_undecayed (lr : ℝ) (x : ℝ) (k : Nat) :
    (follow { wd := 0, lr := lr } x (List.replicate k 1)).1 = x - k * (lr / (1 + adamEps)) := by
  have key : ∀ k : Nat, follow { wd := 0, lr := lr } x (List.replicate k 1) =
      (x - k * (lr / (1 + adamEps)), 1 - beta1 ^ k, 1 - beta2 ^ k, k) := by
    intro k
    induction k with
    | zero => simp [follow]
    | succ k ih =>
      rw [follow_eq] at ih ⊢
      rw [List.replicate_succ', List.foldl_append, ih]
      have c1 := corr1_pos (Nat.succ_ne_zero k)
      have c2 := corr2_pos (Nat.succ_ne_zero k)
      have e1 : firstMoment (1 - beta1 ^ k) 1 = 1 - beta1 ^ (k + 1) := by unfold firstMoment; ring
      have e2 : secondMoment (1 - beta2 ^ k) 1 = 1 - beta2 ^ (k + 1) := by unfold secondMoment; ring
      have e3 : decayed { wd := 0, lr := lr } (x - k * (lr / (1 + adamEps))) 1 = 1 := by unfold decayed; simp
      have e4 : stride lr (k + 1) (1 - beta1 ^ (k + 1)) (1 - beta2 ^ (k + 1)) = lr / (1 + adamEps) := by
        unfold stride
        rw [div_self (Real.sqrt_pos.2 c2).ne']
        have := eps_pos
        field_simp
      show followStep _ _ 1 = _
      unfold followStep
      simp only [e3, e1, e2, e4]
      refine Prod.ext ?_ rfl
      show x - k * (lr / (1 + adamEps)) - lr / (1 + adamEps) = _
      push_cast
      ring
  rw [key k]

variable {eps : ℝ} {op : OptimizerParams} {net : ResNet} {grad : Gradient}

/-- C135 for a network: if the gradients of an entry of a variable which are met in training are bounded by `wd B`, the entry stays within this
bound. -/
theorem C135_network {z : Sizes} {xs : List (List Mem)} {vs : VarStore ℝ} {w' : Weights} (hb : Built z net vs) (hp : Positive vs)
    (hlr : 0 ≤ op.lr) (hwd : 0 ≤ op.wd) (hs : Steps (trainStep eps op net grad) xs (.new vs) w') {n : Name} (hn : n ∈ trainable net)
    {idx : List Nat} {B : ℝ} (hg : ∀ g, Met eps op net grad xs (.new vs) n idx g → |g| ≤ op.wd * B) {x x' : Tensor ℝ}
    (hx : vs.get n = some x) (hx' : w'.vs.get n = some x') : |x'.at' idx| ≤ max |x.at' idx| (B + 731 / 10 * op.lr) := by
  obtain ⟨gs, -, hgs, y, hy, h⟩ := C109_follow hb hp hs hn hx idx
  rw [hx'] at hy
  obtain rfl := Option.some.inj hy
  have := C135_bounded hlr hwd (x.at' idx) (gs := gs) (B := B) fun g h => hg g (hgs g h)
  rwa [h] at this

/-- With the example configuration a weight of 1 without gradient is below 0.0731 after 13700 steps, and stays there. -/
example {k : Nat} (hk : 13700 ≤ k) : |(follow exampleParams 1 (List.replicate k 0)).1| ≤ 731 / 10000 := by
  have h : (13700 : ℝ) ≤ k := by exact_mod_cast hk
  refine (C109_eventually (op := exampleParams) (by unfold exampleParams; norm_num) (by unfold exampleParams; norm_num) 1 ?_).trans ?_
  · unfold exampleParams adamEps
    rw [abs_one]
    linarith
  · unfold exampleParams
    norm_num

/-- With the example configuration and gradients of at most 1/1000, a weight which starts at 1/10 stays below 10.08 forever. -/
example (gs : List ℝ) (h : ∀ g ∈ gs, |g| ≤ 1 / 1000) : |(follow exampleParams (1 / 10) gs).1| ≤ 10 + 8 / 100 := by
  refine (C135_bounded (B := 10) (by unfold exampleParams; norm_num) (by unfold exampleParams; norm_num) _ fun g hg => ?_).trans ?_
  · refine (h g hg).trans ?_
    unfold exampleParams
    norm_num
  · unfold exampleParams
    norm_num [abs_of_pos]

end DieE.Props.Ad
