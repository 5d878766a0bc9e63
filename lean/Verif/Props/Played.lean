import Verif.Props.Draw
import Verif.Props.Draw64
import Verif.Props.VisitRows

/-!
# C138: the moves are drawn with the intended probabilities, in the floating point numbers of the program

The visits are divided by their sum in `f32`, raised to the power `1 / temperature` in `f32`, and drawn with a sampler in
`f64` from 64 random bits.
-/

namespace DieE.Props.Py
open DieE DieE.Mcts DieE.Fp DieE.Props.A DieE.Props.Sa DieE.Props.Dr DieE.Props.Dw
variable {G : Game} {Fl : Floats}

/-- `pow` computes `x ↦ x^e` in `f32` (`pow_`, alpha_parallel.rs:165, alphazero.rs:144, versus.rs:282) with a relative error
of at most `δ`, unless the result is below the smallest normal number. -/
structure Power (e δ : ℝ) (pow : Num → Num) : Prop where
  zero : pow (.fin 0) = .fin 0
  near : ∀ x : Rat, Representable f32 x → 0 < x → x ≤ 2 → 1 ≤ (x : ℝ) ^ e * 2 ^ 126 →
    ∃ y : Rat, pow (.fin x) = .fin y ∧ Representable f32 y ∧ |(y : ℝ) - (x : ℝ) ^ e| ≤ δ * (x : ℝ) ^ e

/-- The tensor drawn from: the powers of the visit shares in `f32`, read as numbers of `f64` (alphazero.rs:131). -/
def drawn (pow : Num → Num) (N : Nat) (y : Nat → Num) : List Num := (List.range N).map fun c => pow (y c)

/-! ## Errors of powers and shares -/

theorem one_add_pow {e u θ : ℝ} (he : 0 ≤ e) (hu : u ≤ 1 / 2) (heu : 2 * (e * u) ≤ 1) (hθ : |θ| ≤ u) :
    |(1 + θ) ^ e - 1| ≤ 2 * (e * u) := by
  have hu0 : 0 ≤ u := le_trans (abs_nonneg _) hθ
  have h := abs_le.1 hθ
  have hpos : 0 < 1 + θ := by linarith
  rw [Real.rpow_def_of_pos hpos, abs_le]
  constructor
  · have h1 : -(2 * u) ≤ Real.log (1 + θ) := by
      have := Real.one_sub_inv_le_log_of_pos hpos
      have h2 : (1 + θ)⁻¹ ≤ 1 + 2 * u := by
        rw [inv_le_iff_one_le_mul₀ hpos]
        nlinarith
      linarith
    have h2 := Real.add_one_le_exp (Real.log (1 + θ) * e)
    have h3 : -(2 * u) * e ≤ Real.log (1 + θ) * e := mul_le_mul_of_nonneg_right h1 he
    nlinarith
  · have h1 : Real.log (1 + θ) ≤ u := by
      have := Real.log_le_sub_one_of_pos hpos
      linarith
    have h2 : Real.log (1 + θ) * e ≤ e * u := by nlinarith
    have heu0 : 0 ≤ e * u := mul_nonneg he hu0
    have h3 := Real.exp_le_exp.2 h2
    have h4 := Real.abs_exp_sub_one_le (x := e * u) (by rw [abs_of_nonneg heu0]; linarith)
    rw [abs_of_nonneg heu0] at h4
    have h5 := (abs_le.1 h4).2
    linarith

/-- The relative error of the power of a share. -/
noncomputable def slack (e δ : ℝ) : ℝ := 2 * (e / 2 ^ 24) * (1 + δ) + δ

theorem power_near {e δ : ℝ} (he : 0 ≤ e) (he5 : e ≤ 5) {a b y : ℝ} (ha : 0 < a) (hb : |b - a| ≤ a / 2 ^ 24)
    (hy : |y - b ^ e| ≤ δ * b ^ e) : |y - a ^ e| ≤ slack e δ * a ^ e := by
  have hb0 : 0 < b := by
    have := (abs_le.1 hb).1
    have : a / 2 ^ 24 < a := div_lt_self ha (by norm_num)
    linarith
  have hbe : 0 < b ^ e := Real.rpow_pos_of_pos hb0 e
  have hae : 0 < a ^ e := Real.rpow_pos_of_pos ha e
  have hδ : 0 ≤ δ := by
    have := le_trans (abs_nonneg _) hy
    by_contra hc
    have := mul_neg_of_neg_of_pos (not_le.1 hc) hbe
    linarith
  have hθ : |b / a - 1| ≤ 1 / 2 ^ 24 := by
    have : b / a - 1 = (b - a) / a := by field_simp
    rw [this, abs_div, abs_of_pos ha, div_le_iff₀ ha]
    linarith [hb, (by ring : a / 2 ^ 24 = 1 / 2 ^ 24 * a)]
  have hk := one_add_pow (e := e) (u := 1 / 2 ^ 24) he (by norm_num) (by norm_num; linarith) hθ
  rw [add_sub_cancel] at hk
  have hq : b ^ e = a ^ e * (b / a) ^ e := by
    rw [← Real.mul_rpow ha.le (by positivity)]
    congr 1
    field_simp
  have h1 : |b ^ e - a ^ e| ≤ 2 * (e / 2 ^ 24) * a ^ e := by
    have : b ^ e - a ^ e = a ^ e * ((b / a) ^ e - 1) := by rw [hq]; ring
    rw [this, abs_mul, abs_of_pos hae, mul_comm]
    refine mul_le_mul_of_nonneg_right (le_trans hk ?_) hae.le
    rw [mul_one_div]
  have h2 : b ^ e ≤ (1 + 2 * (e / 2 ^ 24)) * a ^ e := by
    have := (abs_le.1 h1).2
    linarith
  have h3 : δ * b ^ e ≤ δ * ((1 + 2 * (e / 2 ^ 24)) * a ^ e) := mul_le_mul_of_nonneg_left h2 hδ
  have h4 := abs_sub_le y (b ^ e) (a ^ e)
  unfold slack
  linarith [h4, (by ring : (2 * (e / 2 ^ 24) * (1 + δ) + δ) * a ^ e =
    2 * (e / 2 ^ 24) * a ^ e + δ * ((1 + 2 * (e / 2 ^ 24)) * a ^ e))]

/-- Shares of weights with a relative error. -/
theorem share_near {N : Nat} {A y : Nat → ℝ} {η : ℝ} (h0 : 0 ≤ η) (h1 : η < 1) (hA : ∀ c < N, 0 ≤ A c)
    (hy : ∀ c < N, |y c - A c| ≤ η * A c) (hs : 0 < ((List.range N).map A).sum) {c : Nat} (hc : c < N) :
    0 < ((List.range N).map y).sum ∧
    |y c / ((List.range N).map y).sum - A c / ((List.range N).map A).sum| ≤
      A c / ((List.range N).map A).sum * (2 * η / (1 - η)) := by
  have hsum : |((List.range N).map y).sum - ((List.range N).map A).sum| ≤ η * ((List.range N).map A).sum := by
    have key : ∀ L : List Nat, (∀ k ∈ L, k < N) → |(L.map y).sum - (L.map A).sum| ≤ η * (L.map A).sum := by
      intro L
      induction L with
      | nil => intro _; simp
      | cons k L ih =>
        intro hL
        have g1 := ih fun k hk => hL k (List.mem_cons_of_mem _ hk)
        have g2 := hy k (hL k List.mem_cons_self)
        simp only [List.map_cons, List.sum_cons]
        have := abs_add_le (y k - A k) ((L.map y).sum - (L.map A).sum)
        rw [show y k + (L.map y).sum - (A k + (L.map A).sum) = (y k - A k) + ((L.map y).sum - (L.map A).sum) by ring]
        linarith
    exact key _ fun k hk => List.mem_range.1 hk
  generalize ((List.range N).map y).sum = Y at *
  generalize ((List.range N).map A).sum = S at *
  have g := abs_le.1 hsum
  have hlow : (1 - η) * S ≤ Y := by linarith
  have hη : 0 < 1 - η := by linarith
  have hYpos : 0 < Y := lt_of_lt_of_le (mul_pos hη hs) hlow
  refine ⟨hYpos, ?_⟩
  have e : y c / Y - A c / S = ((y c - A c) * S + A c * (S - Y)) / (Y * S) := by field_simp; ring
  rw [e, abs_div, abs_of_pos (mul_pos hYpos hs), div_le_iff₀ (mul_pos hYpos hs)]
  have b1 : |(y c - A c) * S + A c * (S - Y)| ≤ 2 * η * (A c * S) := by
    refine le_trans (abs_add_le _ _) ?_
    rw [abs_mul, abs_mul, abs_of_pos hs, abs_of_nonneg (hA c hc), abs_sub_comm S Y]
    have q1 := mul_le_mul_of_nonneg_right (hy c hc) hs.le
    have q2 := mul_le_mul_of_nonneg_left hsum (hA c hc)
    linarith
  refine le_trans b1 ?_
  have e2 : A c / S * (2 * η / (1 - η)) * (Y * S) = 2 * η * A c * (Y / (1 - η)) := by field_simp
  rw [e2]
  have b2 : S ≤ Y / (1 - η) := by rw [le_div_iff₀ hη]; linarith
  have b3 : 0 ≤ 2 * η * A c := mul_nonneg (by linarith) (hA c hc)
  have := mul_le_mul_of_nonneg_left b2 b3
  linarith

/-! ## The tensor drawn from -/

theorem shares32_rep {T : SumTree} {ws : List (Nat × Val)} {c : Nat} {b : Rat} (h : shares32 T ws c = .fin b) :
    Representable f32 b := by
  unfold shares32 visitShares at h
  generalize put _ _ c = x at h
  generalize T.sum _ = s at h
  cases x <;> cases s <;> simp only [Num.div] at h <;> try (cases h; done)
  · split at h
    · split at h <;> cases h
    · unfold Num.round at h
      split at h
      · cases h
        exact rnd_representable hprec _
      · cases h
  · cases h
    exact rep_zero

/-- The tensor of the program against the exact shares `row`: the draw is possible, the probability of a code is close to
its share in the powers, and a drawn code has a positive share. -/
theorem drawn_near {N : Nat} (hN : N ≤ 1352) {e δ : ℝ} (he : 0 < e) (he5 : e ≤ 5) (hδ : δ ≤ 1 / 2 ^ 22) {pow : Num → Num}
    (hp : Power e δ pow) {row : Row} {y : Nat → Num} (hcl : Close32 N row y)
    (hrep : ∀ c < N, ∀ b, y c = .fin b → Representable f32 b) {A : Nat → ℝ}
    (hrow : ∀ c < N, ∀ a, row c = some a → (a = 0 ∨ 1 / 2 ^ 24 ≤ a) ∧ a ≤ 1 ∧ A c = (a : ℝ) ^ e)
    (hs : 0 < ((List.range N).map A).sum) :
    ∃ d, drawNew (drawn pow N y) = .ok d ∧
      (∀ c < N, |(frequency d c : ℝ) - A c / ((List.range N).map A).sum| ≤
        A c / ((List.range N).map A).sum / 2 ^ 18 + 1 / 2 ^ 41) ∧
      ∀ r, r < 2 ^ 64 → d.sample r < N ∧ 0 < A (d.sample r) := by
  have hδ0 : 0 ≤ δ := by
    obtain ⟨y, -, -, h⟩ := hp.near 1 rep_one (by norm_num) (by norm_num) (by norm_num)
    have := le_trans (abs_nonneg _) h
    simpa using this
  have hη0 : 0 ≤ slack e δ := by unfold slack; positivity
  have hη : slack e δ ≤ 1 / 2 ^ 20 := by
    unfold slack
    have h1 : 2 * (e / 2 ^ 24) * (1 + δ) ≤ 2 * (5 / 2 ^ 24) * (1 + 1 / 2 ^ 22) := by gcongr
    norm_num at h1 hδ ⊢
    linarith
  have key : ∀ c < N, ∃ q : Rat, pow (y c) = .fin q ∧ Held f32 (.fin q) ∧ 0 ≤ q ∧ 0 ≤ A c ∧ (A c = 0 → q = 0) ∧
      |(q : ℝ) - A c| ≤ slack e δ * A c := by
    intro c hc
    obtain ⟨a, b, k1, k2, k3, k4⟩ := hcl.near c hc
    obtain ⟨g1, g2, g3⟩ := hrow c hc a k1
    rcases g1 with rfl | g1
    · rw [k2, k4.2 rfl, hp.zero, g3]
      have hz : ((0 : Rat) : ℝ) ^ e = 0 := by rw [Rat.cast_zero, Real.zero_rpow he.ne']
      exact ⟨0, rfl, ⟨rep_zero, by norm_num [f32]⟩, le_refl _, by rw [hz], fun _ => rfl, by rw [hz]; simp⟩
    · have ha : 0 < a := lt_of_lt_of_le (by norm_num) g1
      have hb := abs_le.1 k3
      have hb1 : 1 / 2 ^ 25 ≤ b := by
        have : a / 2 ^ 24 ≤ a / 2 := by gcongr; norm_num
        have : (1 : Rat) / 2 ^ 24 / 2 ≤ a / 2 := by gcongr
        norm_num at *
        linarith
      have hb2 : b ≤ 2 := by
        have : a / 2 ^ 24 ≤ 1 := by
          rw [div_le_one (by norm_num)]
          exact le_trans g2 (by norm_num)
        linarith
      have hb0 : 0 < b := lt_of_lt_of_le (by norm_num) hb1
      have hbr : (1 : ℝ) / 2 ^ 25 ≤ (b : ℝ) := by
        have h := (Rat.cast_le (K := ℝ)).2 hb1
        push_cast at h
        exact h
      have hpow : 1 ≤ (b : ℝ) ^ e * 2 ^ 126 := by
        have h1 : ((1 : ℝ) / 2 ^ 25) ^ e ≤ (b : ℝ) ^ e := Real.rpow_le_rpow (by positivity) hbr he.le
        have h2 : ((1 : ℝ) / 2 ^ 25) ^ (5 : ℝ) ≤ ((1 : ℝ) / 2 ^ 25) ^ e :=
          Real.rpow_le_rpow_of_exponent_ge (by positivity) (by norm_num) he5
        have h3 : ((1 : ℝ) / 2 ^ 25) ^ (5 : ℝ) = 1 / 2 ^ 125 := by
          rw [show (5 : ℝ) = ((5 : Nat) : ℝ) by norm_num, Real.rpow_natCast]
          norm_num
        rw [h3] at h2
        have h4 := mul_le_mul_of_nonneg_right (le_trans h2 h1) (show (0 : ℝ) ≤ 2 ^ 126 by positivity)
        refine le_trans ?_ h4
        norm_num
      obtain ⟨q, q1, q2, q3⟩ := hp.near b (hrep c hc b k2) hb0 hb2 hpow
      have har : (0 : ℝ) < a := by exact_mod_cast ha
      have hbb : |(b : ℝ) - a| ≤ (a : ℝ) / 2 ^ 24 := by exact_mod_cast k3
      have hnear := power_near he.le he5 har hbb q3
      have hae : 0 < (a : ℝ) ^ e := Real.rpow_pos_of_pos har e
      have hae1 : (a : ℝ) ^ e ≤ 1 := Real.rpow_le_one har.le (by exact_mod_cast g2) he.le
      have hsm : slack e δ * (a : ℝ) ^ e ≤ 1 / 2 ^ 20 * (a : ℝ) ^ e := mul_le_mul_of_nonneg_right hη hae.le
      have hq := abs_le.1 hnear
      have hq0 : (0 : ℝ) < q := by
        have : 1 / 2 ^ 20 * (a : ℝ) ^ e < (a : ℝ) ^ e := by
          rw [one_div_mul_eq_div]
          exact div_lt_self hae (by norm_num)
        linarith
      have hq2 : (q : ℝ) < 2 := by
        norm_num at hsm
        linarith
      have hq0' : 0 < q := by exact_mod_cast hq0
      have hq2' : q < 2 := by exact_mod_cast hq2
      refine ⟨q, by rw [k2, q1], ⟨q2, ?_⟩, hq0'.le, by rw [g3]; exact hae.le, ?_, by rw [g3]; exact hnear⟩
      · rw [abs_of_pos hq0']
        exact lt_trans hq2' (by norm_num [f32])
      · intro h
        rw [g3] at h
        exact absurd h hae.ne'
  choose! q k1 k2 k3 k4 k5 k6 using key
  let p : Mcts.Row := fun c => some (q c)
  have hent : drawn pow N y = entries N p :=
    List.map_congr_left fun c hc => k1 c (List.mem_range.1 hc)
  have hsing : IsSingle N p := fun c hc => k2 c hc
  have hcast : (((weights N p).sum : Rat) : ℝ) = ((List.range N).map fun c => (q c : ℝ)).sum := by
    unfold weights
    generalize List.range N = L
    induction L with
    | nil => simp
    | cons k L ih =>
      simp only [List.map_cons, List.sum_cons, Rat.cast_add, ih]
      rfl
  have hη1 : slack e δ < 1 := lt_of_le_of_lt hη (by norm_num)
  have hshare := fun c (hc : c < N) => share_near (A := A) (y := fun c => (q c : ℝ)) hη0 hη1 k4 k6 hs hc
  have hposw : ∃ c < N, 0 < q c := by
    by_contra hno
    push Not at hno
    have hz : ∀ v ∈ (List.range N).map A, v = 0 := by
      intro v hv
      obtain ⟨c, hc, rfl⟩ := List.mem_map.1 hv
      have hc := List.mem_range.1 hc
      have h0 : q c = 0 := le_antisymm (hno c hc) (k3 c hc)
      have h6 := k6 c hc
      rw [h0] at h6
      simp only [Rat.cast_zero, zero_sub, abs_neg] at h6
      rw [abs_of_nonneg (k4 c hc)] at h6
      have := k4 c hc
      nlinarith
    rw [List.sum_eq_zero hz] at hs
    exact lt_irrefl _ hs
  obtain ⟨c0, hc0, hq0⟩ := hposw
  have hdraw : ∃ d, drawNew (entries N p) = .ok d := by
    exact (C107_total hsing (lt_of_le_of_lt hN (by norm_num)) S.demoTape).2
      (weightedSelect_progress (fun c hc => ⟨q c, rfl, k3 c hc⟩) hc0 rfl hq0 _)
  obtain ⟨d, hd⟩ := hdraw
  refine ⟨d, by rw [hent]; exact hd, ?_, ?_⟩
  · intro c hc
    obtain ⟨q', e1, e2⟩ := C107_row hsing hd hc
    obtain rfl : q c = q' := Option.some.inj e1
    obtain ⟨s1, s2⟩ := hshare c hc
    have e3 : |(frequency d c : ℝ) - q c / ((List.range N).map fun c => (q c : ℝ)).sum| ≤
        (N * (q c / ((List.range N).map fun c => (q c : ℝ)).sum) + 3) / 2 ^ 52 := by
      rw [← hcast]
      exact_mod_cast e2
    have hP0 : 0 ≤ A c / ((List.range N).map A).sum := div_nonneg (k4 c hc) hs.le
    have hP1 : A c / ((List.range N).map A).sum ≤ 1 := by
      rw [div_le_one hs]
      refine List.single_le_sum ?_ _ (List.mem_map.2 ⟨c, List.mem_range.2 hc, rfl⟩)
      intro v hv
      obtain ⟨b, hb, rfl⟩ := List.mem_map.1 hv
      exact k4 b (List.mem_range.1 hb)
    have hfac : 2 * slack e δ / (1 - slack e δ) ≤ 1 / 2 ^ 18 - 1 / 2 ^ 41 := by
      rw [div_le_iff₀ (by linarith)]
      norm_num at hη ⊢
      linarith
    generalize A c / ((List.range N).map A).sum = P at *
    generalize (q c : ℝ) / ((List.range N).map fun c => (q c : ℝ)).sum = Q at *
    have hfac' := mul_le_mul_of_nonneg_left hfac hP0
    have hQ : Q ≤ 5 / 4 := by
      have := (abs_le.1 s2).2
      norm_num at hfac'
      linarith
    have hNr : (N : ℝ) ≤ 1352 := by exact_mod_cast hN
    have hQ0 : 0 ≤ Q := by
      have := (abs_le.1 s2).1
      norm_num at hfac'
      linarith
    have hNQ : (N : ℝ) * Q ≤ 1352 * Q := mul_le_mul_of_nonneg_right hNr hQ0
    have h1 := abs_sub_le (frequency d c : ℝ) Q P
    have h2 : ((N : ℝ) * Q + 3) / 2 ^ 52 ≤ (1352 * (5 / 4) + 3) / 2 ^ 52 := by gcongr
    have h3 : ((1352 : ℝ) * (5 / 4) + 3) / 2 ^ 52 ≤ 1 / 2 ^ 41 := by norm_num
    have h4 : P * (1 / 2 ^ 18 - 1 / 2 ^ 41) ≤ P / 2 ^ 18 := by
      rw [div_eq_mul_one_div P (2 ^ 18)]
      refine mul_le_mul_of_nonneg_left ?_ hP0
      norm_num
    linarith
  · intro r hr
    have hl : entries N p = (weights N p).map .fin := by
      simp [entries, weights, p, entry]
    rw [hl] at hd
    obtain ⟨w, w1, w2⟩ := C107_positive (by
      intro w hw
      obtain ⟨c, hc, rfl⟩ := List.mem_map.1 hw
      exact held_widen (k2 c (List.mem_range.1 hc))) hd hr
    have hlt : d.sample r < N := by
      have := (List.getElem?_eq_some_iff.1 w1).1
      simpa [weights] using this
    refine ⟨hlt, lt_of_le_of_ne (k4 _ hlt) fun h0 => ?_⟩
    have hz := k5 _ hlt h0.symm
    have : w = q (d.sample r) := by
      simp [weights, p, hlt] at w1
      exact w1.symm
    rw [this, hz] at w2
    exact lt_irrefl _ w2

/-! ## The theorem -/

/-- C138: after a batched search of 1 to `2^23` iterations, for a temperature of at least 1/5 and a power function with a
relative error of at most `2^-22`, whatever the order of adding up the visits: the draw is possible; the probability of
each legal move, over the 64 random bits, is within `2^-18` of itself and `2^-41` of `v^(1/temperature)`, divided by the
sum of these powers for all children, `v` being the visits of the child; and every drawn code is that of a legal move
whose child was visited. -/
theorem C138_played {R : G.S → Prop} (hs : SafeNet G R) (hc : Coded G R) (hN : G.actionSpace ≤ 1352) {net : Mcts.Net Fl}
    (ha : net.alphaOk = true) {states : List G.S} (hne : states ≠ []) (hstates : ∀ s ∈ states, R s) {order : List Nat}
    (ho : order.Perm (List.range states.length)) {iterations : Nat} (hi : iterations ≠ 0) (hI : iterations ≤ 2 ^ 23)
    {st : Store G Fl} {t t' : Tape} (h : alphaMctsParallel net order states iterations ([] : Store G Fl) t = .ok (st, t'))
    {T : SumTree} (hT : T.codes.Perm (List.range G.actionSpace)) {temperature δ : ℝ} (htemp : 1 / 5 ≤ temperature)
    (hδ : δ ≤ 1 / 2 ^ 22) {pow : Num → Num} (hp : Power (1 / temperature) δ pow)
    {j : Nat} {s : G.S} {ms : List G.Mv} (hj : states[j]? = some s) (hms : G.moves s = .ok ms) (hmne : ms ≠ []) :
    ∃ (n : Node G Fl) (ws : List (Nat × Val)) (d : Draw64), st[j]? = some n ∧ n.state = s ∧
      childVisits n.state st n = .ok ws ∧ drawNew (drawn pow G.actionSpace (shares32 T ws)) = .ok d ∧
      (∀ a ∈ ms, ∃ c m code, c ∈ n.children ∧ st[c]? = some m ∧ m.action = some a ∧ G.encode s a = .ok code ∧
        |(frequency d code : ℝ) - powerShare temperature st n c| ≤ powerShare temperature st n c / 2 ^ 18 + 1 / 2 ^ 41) ∧
      ∀ r, r < 2 ^ 64 → ∃ a ∈ ms, ∃ c m, c ∈ n.children ∧ st[c]? = some m ∧ m.action = some a ∧ m.visits ≠ 0 ∧
        G.encode s a = .ok (d.sample r) := by
  have htpos : 0 < temperature := lt_of_lt_of_le (by norm_num) htemp
  have he : 0 < 1 / temperature := by positivity
  have he5 : 1 / temperature ≤ 5 := by
    rw [div_le_iff₀ htpos]
    linarith
  obtain ⟨rows, hrows, hlen, hclose⟩ := C136_finished hs hc ha hne hstates ho hi hI h hT
  obtain ⟨n, ws, row, g1, g2, g3, g4⟩ := hclose j s ms hj hms hmne
  obtain ⟨n', d', f1, f2, f3, f4, f5⟩ := C98_search hs hc ha hne hstates ho hi h hrows hj g3 hms hmne htpos
  obtain rfl : n = n' := Option.some.inj (g1.symm.trans f1)
  -- the shares
  obtain ⟨st0, t0, h0, hR⟩ := alphaMctsParallel_progress (Fl := Fl) hs ha hne hstates ho iterations t
  rw [h] at h0
  cases h0
  have f := alphaMctsParallel_forest ho h
  have hjl := (List.getElem?_eq_some_iff.1 hj).1
  have hnode : (getRootNodes st)[j]? = some n := by
    rw [getRootNodes_take f, List.getElem?_take, if_pos hjl]
    exact g1
  obtain ⟨rows', r1, r2, r3⟩ := C39_rows hc f.wf hR (nodes := getRootNodes st) (by
    intro n hn
    exact List.getElem?_of_mem (List.mem_of_mem_filter hn))
  rw [hrows] at r1
  cases r1
  have hsh := r3 j n row hnode g3
  obtain ⟨nv, msv, v1, v2, v3, -, v5⟩ := alphaMctsParallel_visited ho h j s hj
  rw [hms] at v3
  cases v3
  obtain rfl : n = nv := Option.some.inj (g1.symm.trans v1)
  obtain ⟨cv, cv1, cv2⟩ := v5 hi hmne
  have hvis : ∃ c ∈ n.children, visitsAt st c ≠ 0 := ⟨cv, cv1, by omega⟩
  subst f2
  have hV := search_children ho h hjl g1
  let A : Nat → ℝ := fun c => (((row c).getD 0 : Rat) : ℝ) ^ (1 / temperature)
  have hrow : ∀ c < G.actionSpace, ∀ a, row c = some a →
      (a = 0 ∨ 1 / 2 ^ 24 ≤ a) ∧ a ≤ 1 ∧ A c = (a : ℝ) ^ (1 / temperature) := by
    intro c hcN a hca
    have hA : A c = (a : ℝ) ^ (1 / temperature) := by simp only [A, hca, Option.getD_some]
    by_cases hex : ∃ b ∈ ms, G.encode n.state b = .ok c
    · obtain ⟨b, hb, hbc⟩ := hex
      obtain ⟨k, m, code, k1, k2, k3, k4, -⟩ := f4 b hb
      have hv := hsh.share hvis k c m b k1 k2 k3 hbc
      rw [hca] at hv
      have hle : m.visits ≤ (n.children.map (visitsAt st)).sum := by
        have : visitsAt st k = m.visits := by unfold visitsAt; rw [k2]; rfl
        rw [← this]
        exact List.single_le_sum (by simp) _ (List.mem_map_of_mem k1)
      have h3 : (0 : Rat) < ((n.children.map (visitsAt st)).sum : Nat) := by
        have := Nat.lt_of_lt_of_le cv2 (List.single_le_sum (by simp) _ (List.mem_map_of_mem (f := visitsAt st) cv1))
        exact_mod_cast this
      refine ⟨?_, ?_, hA⟩
      · rw [Option.some.inj hv]
        by_cases hm0 : m.visits = 0
        · left; rw [hm0]; simp
        · right
          have h1 : (1 : Rat) ≤ m.visits := by exact_mod_cast Nat.one_le_iff_ne_zero.2 hm0
          have h2 : (((n.children.map (visitsAt st)).sum : Nat) : Rat) ≤ 2 ^ 24 := by
            have : (n.children.map (visitsAt st)).sum ≤ 2 ^ 24 := by
              have : (2 : Nat) ^ 24 = 2 * 2 ^ 23 := by norm_num
              omega
            exact_mod_cast this
          gcongr
      · rw [Option.some.inj hv, div_le_one h3]
        exact_mod_cast hle
    · have hz := hsh.zero hvis c ms hms fun b hb hbc => hex ⟨b, hb, hbc⟩
      rw [hca] at hz
      rw [Option.some.inj hz] at hA ⊢
      exact ⟨.inl rfl, by norm_num, hA⟩
  have hsome : ∀ c < G.actionSpace, ∃ a, row c = some a := fun c hcN => by
    obtain ⟨a, b, e1, -⟩ := g4.near c hcN
    exact ⟨a, e1⟩
  have htemp' : tempered temperature G.actionSpace row = ((List.range G.actionSpace).map A).map some := by
    unfold tempered
    rw [List.map_map]
    refine List.map_congr_left fun c hcm => ?_
    obtain ⟨a, ea⟩ := hsome c (List.mem_range.1 hcm)
    show _ = some ((((row c).getD 0 : Rat) : ℝ) ^ (1 / temperature))
    rw [ea]
    rfl
  rw [htemp'] at f3
  have hnn : ∀ c < G.actionSpace, 0 ≤ A c := by
    intro c hcN
    obtain ⟨a, ea⟩ := hsome c hcN
    obtain ⟨q1, -, q3⟩ := hrow c hcN a ea
    rw [q3]
    refine Real.rpow_nonneg ?_ _
    rcases q1 with rfl | q1
    · simp
    · exact_mod_cast le_trans (by norm_num) q1
  have hsum : 0 < ((List.range G.actionSpace).map A).sum := by
    obtain ⟨l, e1, -, e3, e4, -⟩ := weightedIndexNew_ok.1 f3
    obtain rfl : (List.range G.actionSpace).map A = l := List.map_injective_iff.2 (Option.some_injective ℝ) e1
    exact lt_of_le_of_ne (List.sum_nonneg e3) (Ne.symm e4)
  have hchance : ∀ c < G.actionSpace, chance d' c = ENNReal.ofReal (A c / ((List.range G.actionSpace).map A).sum) := by
    intro c hcN
    rw [C98_weights f3 c]
    simp [hcN]
  obtain ⟨d, d1, d2, d3⟩ := drawn_near hN he he5 hδ hp g4 (fun c _ b hb => shares32_rep hb) hrow hsum
  refine ⟨n, ws, d, g1, rfl, g2, d1, ?_, ?_⟩
  · intro a ham
    obtain ⟨c, m, code, k1, k2, k3, k4, k5⟩ := f4 a ham
    refine ⟨c, m, code, k1, k2, k3, k4, ?_⟩
    obtain ⟨code', q1, hcode, -⟩ := hc.code n.state ms a (hR j n g1) hms ham
    rw [k4] at q1
    obtain rfl := Except.ok.inj q1
    have hP : A code / ((List.range G.actionSpace).map A).sum = powerShare temperature st n c := by
      rw [hchance code hcode] at k5
      refine (ENNReal.ofReal_eq_ofReal_iff (div_nonneg (hnn _ hcode) hsum.le) ?_).1 k5
      exact div_nonneg (by positivity) (powers_pos hvis _).le
    rw [← hP]
    exact d2 code hcode
  · intro r hr
    obtain ⟨p1, p2⟩ := d3 r hr
    by_contra hno
    have hz : chance d' (d.sample r) = 0 ∨ ∃ a ∈ ms, G.encode n.state a = .ok (d.sample r) := by
      by_cases hex : ∃ a ∈ ms, G.encode n.state a = .ok (d.sample r)
      · exact .inr hex
      · exact .inl (f5 _ fun a ham hae => hex ⟨a, ham, hae⟩)
    have hposP : 0 < A (d.sample r) / ((List.range G.actionSpace).map A).sum := div_pos p2 hsum
    rcases hz with hz | ⟨a, ham, hae⟩
    · rw [hchance _ p1, ENNReal.ofReal_eq_zero] at hz
      exact absurd hposP (not_lt.2 hz)
    · obtain ⟨c, m, code, k1, k2, k3, k4, k5⟩ := f4 a ham
      rw [hae] at k4
      obtain rfl := Except.ok.inj k4
      refine hno ⟨a, ham, c, m, k1, k2, k3, fun hv0 => ?_, hae⟩
      have : visitsAt st c = 0 := by unfold visitsAt; rw [k2]; exact hv0
      rw [hchance _ p1] at k5
      have hP : powerShare temperature st n c = 0 := by
        unfold powerShare
        rw [this, Nat.cast_zero, Real.zero_rpow he.ne', zero_div]
      rw [hP, ENNReal.ofReal_zero, ENNReal.ofReal_eq_zero] at k5
      exact absurd hposP (not_lt.2 k5)

/-- C138 for Backgammon: after a batched search from well-formed positions (those of games are), every draw succeeds, and each legal move is
drawn with the probability its visits give it, up to `2^-18` of itself and `2^-41`. -/
theorem C138_backgammon (pf : Profile) {net : Mcts.Net Fl} (ha : net.alphaOk = true) {states : List BG.State}
    (hne : states ≠ []) (hstates : ∀ s ∈ states, Spec.StateOK s) {order : List Nat}
    (ho : order.Perm (List.range states.length)) {iterations : Nat} (hi : iterations ≠ 0) (hI : iterations ≤ 2 ^ 23)
    {st : Store (BG.game pf) Fl} {t t' : Tape}
    (h : alphaMctsParallel net order states iterations ([] : Store (BG.game pf) Fl) t = .ok (st, t'))
    {T : SumTree} (hT : T.codes.Perm (List.range 1352)) {temperature δ : ℝ} (htemp : 1 / 5 ≤ temperature)
    (hδ : δ ≤ 1 / 2 ^ 22) {pow : Num → Num} (hp : Power (1 / temperature) δ pow)
    {j : Nat} {s : BG.State} {ms : List (BG.game pf).Mv} (hj : states[j]? = some s) (hms : (BG.game pf).moves s = .ok ms)
    (hmne : ms ≠ []) :
    ∃ (n : Node (BG.game pf) Fl) (ws : List (Nat × Val)) (d : Draw64), st[j]? = some n ∧
      childVisits n.state st n = .ok ws ∧ drawNew (drawn pow 1352 (shares32 T ws)) = .ok d ∧
      ∀ a ∈ ms, ∃ c m code, c ∈ n.children ∧ st[c]? = some m ∧ m.action = some a ∧ (BG.game pf).encode s a = .ok code ∧
        |(frequency d code : ℝ) - powerShare temperature st n c| ≤ powerShare temperature st n c / 2 ^ 18 + 1 / 2 ^ 41 := by
  obtain ⟨n, ws, d, h1, -, h3, h4, h5, -⟩ := C138_played (bg_safeNet pf) (bg_coded pf) (le_refl _) ha hne hstates ho hi hI h hT
    htemp hδ hp hj hms hmne
  exact ⟨n, ws, d, h1, h3, h4, h5⟩

/-! ## Examples -/

/-- The power, rounded once, has the accuracy. -/
noncomputable def roundedPow (e : ℝ) : Num → Num
  | .fin x => .round f32 ((x : ℝ) ^ e)
  | n => n

theorem roundedPow_power {e : ℝ} (he : 0 < e) (he5 : e ≤ 5) : Power e (1 / 2 ^ 24) (roundedPow e) where
  zero := by
    show Num.round f32 (((0 : Rat) : ℝ) ^ e) = _
    rw [Rat.cast_zero, Real.zero_rpow he.ne']
    have h0 : rnd f32 (0 : ℝ) = 0 := by simpa using rnd_exact (K := ℝ) hprec rep_zero
    unfold Num.round
    rw [h0, if_pos (by norm_num [f32])]
  near := by
    intro x _ h0 h2 hbig
    have hx0 : (0 : ℝ) < x := by exact_mod_cast h0
    have hx2 : (x : ℝ) ≤ 2 := by exact_mod_cast h2
    have hpos : 0 < (x : ℝ) ^ e := Real.rpow_pos_of_pos hx0 e
    have hle : (x : ℝ) ^ e ≤ 32 := by
      have h1 : (x : ℝ) ^ e ≤ 2 ^ e := Real.rpow_le_rpow hx0.le hx2 he.le
      have h2 : (2 : ℝ) ^ e ≤ 2 ^ (5 : ℝ) := Real.rpow_le_rpow_of_exponent_le (by norm_num) he5
      have h3 : (2 : ℝ) ^ (5 : ℝ) = 32 := by
        rw [show (5 : ℝ) = ((5 : Nat) : ℝ) by norm_num, Real.rpow_natCast]
        norm_num
      linarith
    have hrel := rnd_rel (φ := f32) ((x : ℝ) ^ e) (by
      rw [abs_of_pos hpos]
      show (2 : ℝ) ^ (-126 : Int) ≤ _
      rw [zpow_neg, inv_le_iff_one_le_mul₀ (by positivity)]
      exact_mod_cast hbig)
    rw [abs_of_pos hpos] at hrel
    have hrel' : |(rnd f32 ((x : ℝ) ^ e) : ℝ) - (x : ℝ) ^ e| ≤ 1 / 2 ^ 24 * (x : ℝ) ^ e := by
      rw [abs_sub_comm, one_div_mul_eq_div]
      exact hrel
    refine ⟨rnd f32 ((x : ℝ) ^ e), ?_, rnd_representable hprec _, hrel'⟩
    show Num.round f32 ((x : ℝ) ^ e) = _
    unfold Num.round
    rw [if_pos]
    have hb := abs_le.1 hrel'
    have h1 : |(rnd f32 ((x : ℝ) ^ e) : ℝ)| < 64 := by
      rw [abs_lt]
      norm_num at hb
      constructor <;> linarith
    have h3 : |rnd f32 ((x : ℝ) ^ e)| < 64 := by exact_mod_cast h1
    exact lt_trans h3 (by norm_num [f32])

/-- The initial TicTacToe position after 12 iterations, at the temperature 1.25 of the sample configuration: the last cell is
drawn with the probability its visits give it, up to the errors of rounding. -/
example : ∃ (st : Store (TTT.game .debug) S.demoFloats) (t' : Tape) (n : Node (TTT.game .debug) S.demoFloats)
    (ws : List (Nat × Val)) (d : Draw64) (c : Nat), demoRun [1, 0] demoBatch 12 = .ok (st, t') ∧ st[1]? = some n ∧
    childVisits n.state st n = .ok ws ∧ drawNew (drawn (roundedPow (1 / (5 / 4))) 9 (shares32 (SumTree.inOrder 9) ws)) = .ok d ∧
    c ∈ n.children ∧ |(frequency d 8 : ℝ) - powerShare (5 / 4) st n c| ≤ powerShare (5 / 4) st n c / 2 ^ 18 + 1 / 2 ^ 41 := by
  have hm8 : (8 : Nat) ∈ TTT.getValidMoves TTT.new := by decide
  have hp : ∀ s ∈ demoBatch, s.player = 1 ∨ s.player = -1 := by decide
  obtain ⟨st, t', h, -⟩ := alphaMctsParallel_progress (Fl := S.demoFloats) (ttt_safeNet .debug) (net := demoNet) rfl
    (states := demoBatch) (List.cons_ne_nil _ _) hp (order := [1, 0]) (by decide) 12 S.demoTape
  obtain ⟨n, ws, d, h1, -, h3, h4, h5, -⟩ := C138_played (ttt_safeNet .debug) (ttt_coded .debug)
    (show 9 ≤ 1352 by norm_num) rfl (List.cons_ne_nil _ _) hp (by decide) (by decide) (by norm_num) h
    (T := SumTree.inOrder 9) (by rw [inOrder_codes]; exact List.Perm.refl _) (temperature := 5 / 4) (δ := 1 / 2 ^ 24)
    (by norm_num) (by norm_num) (roundedPow_power (by norm_num) (by norm_num)) (j := 1) (s := TTT.new) rfl
    (ms := TTT.getValidMoves TTT.new) rfl (List.ne_nil_of_mem hm8)
  obtain ⟨c, m, code, k1, -, -, k4, k5⟩ := h5 (8 : Nat) hm8
  have k4 : (Except.ok 8 : Res Nat) = .ok code := k4
  rw [← Except.ok.inj k4] at k5
  exact ⟨st, t', n, ws, d, c, h, h1, h3, h4, k1, k5⟩

end DieE.Props.Py
