import Verif.Fp.Shares
import Verif.Props.Puct32

/-!
# C136: visit shares and priors in single precision

What the rounded sums and quotients of `src/mcts/utils.rs` and the rounded mixture of `src/mcts/noise.rs` return, whatever
the order in which libtorch adds the entries of a row.
-/

namespace DieE.Props.Sa
open DieE DieE.Fp DieE.Props.Fn

/-- `n` is the finite non-negative `f32` with value `q`, at most 2. -/
structure Entry (n : Num) (q : Rat) : Prop where
  val : n = .fin q
  nonneg : 0 ≤ q
  le : q ≤ 2
  rep : Representable f32 q

theorem hprec : 0 < f32.prec := by decide

theorem rep_zero : Representable f32 0 := ⟨0, 0, by norm_num [f32], by norm_num [f32], by norm_num⟩

theorem rep_one : Representable f32 1 := ⟨1, 0, by norm_num [f32], by norm_num [f32], by norm_num⟩

/-- Rounding a number that is representable changes nothing. -/
theorem rnd_rep {q : Rat} (h : Representable f32 q) : rnd f32 q = q := by
  have := rnd_exact (K := Rat) hprec h
  simpa using this

theorem round_nn {x : Rat} (h0 : 0 ≤ x) (h : x ≤ 16777216) : Num.round f32 x = .fin (rnd f32 x) :=
  round_rat (by rw [abs_of_nonneg h0]; exact h)

theorem rnd_nn {x : Rat} (h0 : 0 ≤ x) : 0 ≤ rnd f32 x := rep_le (K := Rat) hprec rep_zero (by simpa using h0)

/-- A small sum of two numbers of `f32` is one. -/
theorem rep_multiple {q : Rat} (h : Representable f32 q) : ∃ m : Int, q = m * 2 ^ (-149 : Int) := by
  obtain ⟨m, e, -, he, rfl⟩ := h
  have he' : (-149 : Int) ≤ e := he
  refine ⟨m * 2 ^ (e + 149).toNat, ?_⟩
  rw [two_zpow_split he']
  push_cast
  rw [show e - -149 = e + 149 by ring]
  ring

theorem rep_small {m : Int} (h : |(m : Rat) * 2 ^ (-149 : Int)| < 2 ^ (-126 : Int)) :
    Representable f32 (m * 2 ^ (-149 : Int)) := by
  refine ⟨m, -149, ?_, le_refl _, rfl⟩
  rw [abs_mul, abs_of_pos (a := (2 : Rat) ^ (-149 : Int)) (by positivity)] at h
  rw [show (2 : Rat) ^ (-126 : Int) = 2 ^ (23 : Nat) * 2 ^ (-149 : Int) by
    rw [← zpow_natCast, ← zpow_add₀ (by norm_num)]; norm_num] at h
  have h' := lt_of_mul_lt_mul_right h (by positivity)
  have h2 : |m| < 2 ^ 23 := by exact_mod_cast h'
  exact lt_trans h2 (by norm_num [f32])

/-- The sum of two numbers of `f32` is rounded with a relative error of at most `2^-24`, however small it is. -/
theorem rnd_add {a b : Rat} (ha : Representable f32 a) (hb : Representable f32 b) :
    |a + b - rnd f32 (a + b)| ≤ |a + b| / 2 ^ 24 := by
  by_cases h : (2 : Rat) ^ (-126 : Int) ≤ |a + b|
  · have := rnd_rel (φ := f32) (a + b) (by simpa [f32] using h)
    simpa [f32] using this
  · obtain ⟨m, rfl⟩ := rep_multiple ha
    obtain ⟨n, rfl⟩ := rep_multiple hb
    have hr : Representable f32 ((m : Rat) * 2 ^ (-149 : Int) + n * 2 ^ (-149 : Int)) := by
      have e : (m : Rat) * 2 ^ (-149 : Int) + n * 2 ^ (-149 : Int) = ((m + n : Int) : Rat) * 2 ^ (-149 : Int) := by
        push_cast; ring
      rw [e] at h ⊢
      exact rep_small (not_le.1 h)
    rw [rnd_rep hr, sub_self, abs_zero]
    positivity

/-- A share is rounded with a relative error of at most `2^-24` and an absolute one of at most `2^-150`. -/
theorem rnd_share {x : Rat} (h0 : 0 ≤ x) : |rnd f32 x - x| ≤ x / 2 ^ 24 + 1 / 2 ^ 150 := by
  rw [abs_sub_comm]
  by_cases h : (2 : Rat) ^ (-126 : Int) ≤ |x|
  · have := rnd_rel (φ := f32) x (by simpa [f32] using h)
    rw [abs_of_nonneg h0] at this
    refine le_trans (by simpa [f32] using this) ?_
    have : (0 : Rat) ≤ 1 / 2 ^ 150 := by positivity
    linarith
  · have := rnd_abs (φ := f32) x (e := -149) (lt_of_lt_of_le (not_le.1 h) (by
      refine zpow_le_zpow_right₀ (by norm_num) (by norm_num [f32]))) (le_refl _)
    have e : ((2 : Rat) ^ (-149 : Int)) / 2 = 1 / 2 ^ 150 := by norm_num
    rw [e] at this
    have h2 : (0 : Rat) ≤ x / 2 ^ 24 := by positivity
    have h3 : |x - rnd f32 x| ≤ 1 / 2 ^ 150 := by simpa using this
    linarith

/-- The rounding error of one operation. -/
def ulp : Rat := 1 / 2 ^ 24

theorem ulp_pos : 0 < ulp := by norm_num [ulp]
theorem ulp_small : ulp ≤ 1 := by norm_num [ulp]

/-- What is known of the computed sum `s` of entries `q`. -/
structure Summed (q : Nat → Rat) (codes : List Nat) (s : Rat) : Prop where
  rep : Representable f32 s
  nonneg : 0 ≤ s
  le : s ≤ 2 * codes.length
  max : ∀ c ∈ codes, q c ≤ s
  none : codes.countP (fun c => q c ≠ 0) = 0 → s = 0
  lower : (1 - ulp) ^ codes.countP (fun c => q c ≠ 0) * (codes.map q).sum ≤ s
  upper : s ≤ (1 + ulp) ^ codes.countP (fun c => q c ≠ 0) * (codes.map q).sum

/-- Every order of adding up gives a finite sum that is at least as large as every entry and has a relative error of at
most `2^-24` for every entry that is not zero. -/
theorem sum_entries {p : Nat → Num} {q : Nat → Rat} (T : SumTree) (h : ∀ c ∈ T.codes, Entry (p c) (q c))
    (hn : T.codes.length ≤ 2 ^ 23) : ∃ s, T.sum p = .fin s ∧ Summed q T.codes s := by
  induction T with
  | zero => exact ⟨0, rfl, rep_zero, le_refl _, by simp [SumTree.codes], by simp [SumTree.codes], fun _ => rfl, by simp [SumTree.codes], by simp [SumTree.codes]⟩
  | entry c =>
    have e := h c (by simp [SumTree.codes])
    refine ⟨q c, e.val, e.rep, e.nonneg, by simpa [SumTree.codes] using e.le, by simp [SumTree.codes], ?_, ?_, ?_⟩
    · intro h0
      by_contra hne
      simp [SumTree.codes, hne] at h0
    · by_cases h0 : q c = 0
      · simp [SumTree.codes, h0]
      · simp only [SumTree.codes, List.countP_cons, List.countP_nil, ne_eq, h0, not_false_eq_true, decide_true, if_true,
          zero_add, pow_one, List.map_cons, List.map_nil, List.sum_cons, List.sum_nil, add_zero]
        have := mul_nonneg ulp_pos.le e.nonneg
        linarith
    · by_cases h0 : q c = 0
      · simp [SumTree.codes, h0]
      · simp only [SumTree.codes, List.countP_cons, List.countP_nil, ne_eq, h0, not_false_eq_true, decide_true, if_true,
          zero_add, pow_one, List.map_cons, List.map_nil, List.sum_cons, List.sum_nil, add_zero]
        have := mul_nonneg ulp_pos.le e.nonneg
        linarith
  | node l r ihl ihr =>
    simp only [SumTree.codes, List.length_append] at hn
    obtain ⟨a, ha, A⟩ := ihl (fun c hc => h c (List.mem_append_left _ hc)) (by omega)
    obtain ⟨b, hb, B⟩ := ihr (fun c hc => h c (List.mem_append_right _ hc)) (by omega)
    have hab0 : 0 ≤ a + b := add_nonneg A.nonneg B.nonneg
    have hle : a + b ≤ ((2 * (l.codes.length + r.codes.length) : Int) : Rat) := by
      have := A.le; have := B.le; push_cast; linarith
    have hN : ((2 * (l.codes.length + r.codes.length) : Int) : Rat) ≤ 16777216 := by
      have : (2 * (l.codes.length + r.codes.length) : Int) ≤ 16777216 := by omega
      exact_mod_cast this
    have hrepN : Representable f32 ((2 * (l.codes.length + r.codes.length) : Int) : Rat) := by
      refine rep_int ?_
      rw [abs_of_nonneg (by positivity)]
      omega
    have hs : (SumTree.node l r).sum p = .fin (rnd f32 (a + b)) := by
      show Num.add f32 (l.sum p) (r.sum p) = _
      rw [ha, hb]
      exact round_nn hab0 (le_trans hle hN)
    have hsum : ((l.codes ++ r.codes).map q).sum = (l.codes.map q).sum + (r.codes.map q).sum := by simp
    have nn : ∀ L : List Nat, (∀ c ∈ L, 0 ≤ q c) → 0 ≤ (L.map q).sum := fun L hL => List.sum_nonneg (by
      intro x hx
      obtain ⟨c, hc, rfl⟩ := List.mem_map.1 hx
      exact hL c hc)
    have nl := nn l.codes fun c hc => (h c (List.mem_append_left _ hc)).nonneg
    have nr := nn r.codes fun c hc => (h c (List.mem_append_right _ hc)).nonneg
    have err := rnd_add A.rep B.rep
    rw [abs_of_nonneg hab0] at err
    have err' := abs_le.1 err
    have u0 := ulp_pos
    have hdiv : (a + b) / 2 ^ 24 = ulp * (a + b) := by unfold ulp; ring
    rw [hdiv] at err'
    have hzero : ∀ L : List Nat, L.countP (fun c => q c ≠ 0) = 0 → (L.map q).sum = 0 := by
      intro L hL
      refine List.sum_eq_zero ?_
      intro x hx
      obtain ⟨c, hc, rfl⟩ := List.mem_map.1 hx
      have := List.countP_eq_zero.1 hL c hc
      simpa using this
    refine ⟨rnd f32 (a + b), hs, rnd_representable hprec _, rnd_nn hab0, ?_, ?_, ?_, ?_, ?_⟩
    · have := le_rep (K := Rat) hprec hrepN (by simpa using hle)
      refine le_trans this ?_
      simp [SumTree.codes]
    · intro c hc
      rcases List.mem_append.1 hc with hc | hc
      · refine le_trans (A.max c hc) (rep_le (K := Rat) hprec A.rep ?_)
        have := B.nonneg
        simpa using this
      · refine le_trans (B.max c hc) (rep_le (K := Rat) hprec B.rep ?_)
        have := A.nonneg
        simpa using this
    · intro h0
      rw [SumTree.codes, List.countP_append] at h0
      rw [A.none (by omega), B.none (by omega), add_zero]
      exact rnd_rep rep_zero
    · rw [SumTree.codes, List.countP_append, hsum]
      rcases Nat.eq_zero_or_pos (l.codes.countP fun c => q c ≠ 0) with h0 | h0
      · rw [A.none h0, zero_add, rnd_rep B.rep, h0, zero_add, hzero _ h0, zero_add]
        exact B.lower
      · rcases Nat.eq_zero_or_pos (r.codes.countP fun c => q c ≠ 0) with h1 | h1
        · rw [B.none h1, add_zero, rnd_rep A.rep, h1, add_zero, hzero _ h1, add_zero]
          exact A.lower
        · have hu : 0 ≤ 1 - ulp := by have := ulp_small; linarith
          have hu1 : 1 - ulp ≤ 1 := by linarith
          have e1 : (1 - ulp) ^ (l.codes.countP (fun c => q c ≠ 0) + r.codes.countP (fun c => q c ≠ 0)) ≤
              (1 - ulp) * (1 - ulp) ^ l.codes.countP (fun c => q c ≠ 0) := by
            rw [← pow_succ']
            exact pow_le_pow_of_le_one hu hu1 (by omega)
          have e2 : (1 - ulp) ^ (l.codes.countP (fun c => q c ≠ 0) + r.codes.countP (fun c => q c ≠ 0)) ≤
              (1 - ulp) * (1 - ulp) ^ r.codes.countP (fun c => q c ≠ 0) := by
            rw [← pow_succ']
            exact pow_le_pow_of_le_one hu hu1 (by omega)
          have e3 := mul_le_mul_of_nonneg_right e1 nl
          have e4 := mul_le_mul_of_nonneg_right e2 nr
          have e5 := mul_le_mul_of_nonneg_left A.lower hu
          have e6 := mul_le_mul_of_nonneg_left B.lower hu
          rw [mul_add]
          rw [mul_assoc] at e3 e4
          linarith [err'.2]
    · rw [SumTree.codes, List.countP_append, hsum]
      rcases Nat.eq_zero_or_pos (l.codes.countP fun c => q c ≠ 0) with h0 | h0
      · rw [A.none h0, zero_add, rnd_rep B.rep, h0, zero_add, hzero _ h0, zero_add]
        exact B.upper
      · rcases Nat.eq_zero_or_pos (r.codes.countP fun c => q c ≠ 0) with h1 | h1
        · rw [B.none h1, add_zero, rnd_rep A.rep, h1, add_zero, hzero _ h1, add_zero]
          exact A.upper
        · have hu : 0 ≤ 1 + ulp := by linarith
          have hu1 : 1 ≤ 1 + ulp := by linarith
          have e1 : (1 + ulp) * (1 + ulp) ^ l.codes.countP (fun c => q c ≠ 0) ≤
              (1 + ulp) ^ (l.codes.countP (fun c => q c ≠ 0) + r.codes.countP (fun c => q c ≠ 0)) := by
            rw [← pow_succ']
            exact pow_le_pow_right₀ hu1 (by omega)
          have e2 : (1 + ulp) * (1 + ulp) ^ r.codes.countP (fun c => q c ≠ 0) ≤
              (1 + ulp) ^ (l.codes.countP (fun c => q c ≠ 0) + r.codes.countP (fun c => q c ≠ 0)) := by
            rw [← pow_succ']
            exact pow_le_pow_right₀ hu1 (by omega)
          have e3 := mul_le_mul_of_nonneg_right e1 nl
          have e4 := mul_le_mul_of_nonneg_right e2 nr
          have e5 := mul_le_mul_of_nonneg_left A.upper hu
          have e6 := mul_le_mul_of_nonneg_left B.upper hu
          rw [mul_add]
          rw [mul_assoc] at e3 e4
          linarith [err'.1]

/-! ## Rows -/

theorem sum_congr {p p' : Nat → Num} (T : SumTree) (h : ∀ c ∈ T.codes, p c = p' c) : T.sum p = T.sum p' := by
  induction T with
  | zero => rfl
  | entry c => exact h c (by simp [SumTree.codes])
  | node l r ihl ihr =>
    show Num.add f32 (l.sum p) (r.sum p) = Num.add f32 (l.sum p') (r.sum p')
    rw [ihl fun c hc => h c (List.mem_append_left _ hc), ihr fun c hc => h c (List.mem_append_right _ hc)]

theorem put_snoc (p : Nat → Num) (ws : List (Nat × Num)) (w : Nat × Num) (c : Nat) :
    put p (ws ++ [w]) c = if c = w.1 then w.2 else put p ws c := by
  simp [put, List.foldl_append]

/-- Writes whose value depends on the place only. -/
theorem put_map (p f : Nat → Num) (codes : List Nat) (c : Nat) :
    put p (codes.map fun c => (c, f c)) c = if c ∈ codes then f c else p c := by
  induction codes using List.reverseRecOn with
  | nil => rfl
  | append_singleton l d ih =>
    rw [List.map_append, List.map_cons, List.map_nil, put_snoc, ih]
    by_cases h : c = d
    · subst h; simp
    · simp [h]

/-- The legal entries of a row, zero elsewhere. -/
def kept (q : Nat → Rat) (codes : List Nat) : Nat → Rat := fun c => if c ∈ codes then q c else 0

theorem kept_sum_filter (q : Nat → Rat) (codes L : List Nat) :
    (L.map (kept q codes)).sum = ((L.filter (· ∈ codes)).map q).sum := by
  induction L with
  | nil => rfl
  | cons c L ih =>
    by_cases h : c ∈ codes
    · simp [kept, h, ih]
    · simp [kept, h]
      exact ih

theorem kept_filter {codes : List Nat} (hnd : codes.Nodup) {N : Nat} (hlt : ∀ k ∈ codes, k < N) :
    ((List.range N).filter (· ∈ codes)).Perm codes := by
  refine (List.perm_ext_iff_of_nodup (List.nodup_range.filter _) hnd).2 fun k => ?_
  simp only [List.mem_filter, List.mem_range, decide_eq_true_eq]
  exact ⟨fun h => h.2, fun h => ⟨hlt k h, h⟩⟩

theorem kept_sum (q : Nat → Rat) {codes : List Nat} (hnd : codes.Nodup) {N : Nat} (hlt : ∀ k ∈ codes, k < N) {L : List Nat}
    (hL : L.Perm (List.range N)) : (L.map (kept q codes)).sum = (codes.map q).sum := by
  rw [(hL.map _).sum_eq, kept_sum_filter, ((kept_filter hnd hlt).map _).sum_eq]

theorem kept_count (q : Nat → Rat) {codes : List Nat} (hnd : codes.Nodup) {N : Nat} (hlt : ∀ k ∈ codes, k < N) {L : List Nat}
    (hL : L.Perm (List.range N)) : L.countP (fun c => kept q codes c ≠ 0) ≤ codes.length := by
  rw [hL.countP_eq, ← (kept_filter hnd hlt).length_eq, List.countP_eq_length_filter]
  have : (List.range N).filter (fun c => decide (kept q codes c ≠ 0)) =
      ((List.range N).filter (· ∈ codes)).filter (fun c => decide (kept q codes c ≠ 0)) := by
    rw [List.filter_filter]
    refine List.filter_congr fun c _ => ?_
    by_cases h : c ∈ codes
    · simp [h]
    · simp [h, kept]
  rw [this]
  exact List.length_filter_le _ _

/-! ## Shares -/

/-- The relative error of a share computed from `m` entries that are not zero. -/
def tolerance (m : Nat) : Rat := (m + 1) / (2 ^ 24 - m)

/-- The numbers `x` in the row `p` of width `N` are rounded shares of the entries `q` at `codes`. -/
structure Shares (N : Nat) (q : Nat → Rat) (codes : List Nat) (p : Nat → Num) (x : Nat → Rat) : Prop where
  val : ∀ k < N, p k = .fin (x k)
  range : ∀ k < N, 0 ≤ x k ∧ x k ≤ 1
  other : ∀ k < N, k ∉ codes → x k = 0
  mono : ∀ j ∈ codes, ∀ k ∈ codes, q j ≤ q k → x j ≤ x k
  near : ∀ k ∈ codes, |x k - q k / (codes.map q).sum| ≤ tolerance codes.length * (q k / (codes.map q).sum) + 1 / 2 ^ 150

theorem bern_low {u : Rat} (h0 : 0 ≤ u) (h1 : u ≤ 1) (m : Nat) : 1 - m * u ≤ (1 - u) ^ m := by
  have := one_add_mul_le_pow (a := -u) (by linarith) m
  rw [← sub_eq_add_neg] at this
  linarith

/-- The quotient of an entry and the computed sum. -/
theorem near_share {q s t : Rat} {m : Nat} (hq : 0 ≤ q) (ht : 0 < t) (hs : 0 < s) (hm : m < 2 ^ 23)
    (hlo : (1 - ulp) ^ m * t ≤ s) (hup : s ≤ (1 + ulp) ^ m * t) :
    |rnd f32 (q / s) - q / t| ≤ tolerance m * (q / t) + 1 / 2 ^ 150 := by
  have u0 := ulp_pos
  have hqs : 0 ≤ q / s := div_nonneg hq hs.le
  have hqt : 0 ≤ q / t := div_nonneg hq ht.le
  have hr := abs_le.1 (rnd_share hqs)
  have hdiv : q / s / 2 ^ 24 = ulp * (q / s) := by unfold ulp; ring
  rw [hdiv] at hr
  have hm' : (m : Rat) < 2 ^ 23 := by exact_mod_cast hm
  have hm0 : (0 : Rat) ≤ m := Nat.cast_nonneg _
  have hD : (0 : Rat) < 2 ^ 24 - m := by linarith [show (2 : Rat) ^ 23 < 2 ^ 24 by norm_num]
  have hmu : (m : Rat) * ulp < 1 := by
    unfold ulp
    rw [mul_one_div, div_lt_one (by norm_num)]
    linarith [show (2 : Rat) ^ 23 < 2 ^ 24 by norm_num]
  have htol : tolerance m * (1 - m * ulp) = (m + 1) * ulp := by
    unfold tolerance ulp
    field_simp
  have htol0 : 0 ≤ tolerance m := div_nonneg (by linarith) hD.le
  have b1 := bern_low u0.le ulp_small m
  -- from above
  have h1 : (1 - m * ulp) * (q / s) ≤ q / t := by
    have : (1 - m * ulp) * t ≤ s := le_trans (mul_le_mul_of_nonneg_right b1 ht.le) hlo
    rw [le_div_iff₀ ht]
    have h2 : (1 - m * ulp) * (q / s) * t = q * (((1 - m * ulp) * t) / s) := by field_simp
    rw [h2]
    have h3 : ((1 - m * ulp) * t) / s ≤ 1 := (div_le_one hs).2 this
    calc q * (((1 - m * ulp) * t) / s) ≤ q * 1 := mul_le_mul_of_nonneg_left h3 hq
      _ = q := mul_one q
  -- from below
  have h2 : (1 - m * ulp) * (q / t) ≤ q / s := by
    have e1 : (1 - m * ulp) * (1 + ulp) ^ m ≤ 1 := by
      have e2 : (1 - m * ulp) * (1 + ulp) ^ m ≤ (1 - ulp) ^ m * (1 + ulp) ^ m :=
        mul_le_mul_of_nonneg_right b1 (by positivity)
      have e3 : (1 - ulp) ^ m * (1 + ulp) ^ m = (1 - ulp ^ 2) ^ m := by
        rw [← mul_pow]; congr 1; ring
      have e4 : (1 - ulp ^ 2) ^ m ≤ 1 := by
        refine pow_le_one₀ ?_ ?_
        · norm_num [ulp]
        · norm_num [ulp]
      linarith [e3.le]
    have e5 : (1 - m * ulp) * s ≤ t := by
      have := mul_le_mul_of_nonneg_left hup (by linarith : (0 : Rat) ≤ 1 - m * ulp)
      have e6 := mul_le_mul_of_nonneg_right e1 ht.le
      rw [mul_assoc, one_mul] at e6
      linarith
    rw [le_div_iff₀ hs]
    have e6 : (1 - m * ulp) * (q / t) * s = q * (((1 - m * ulp) * s) / t) := by field_simp
    rw [e6]
    have e7 : ((1 - m * ulp) * s) / t ≤ 1 := (div_le_one ht).2 e5
    calc q * (((1 - m * ulp) * s) / t) ≤ q * 1 := mul_le_mul_of_nonneg_left e7 hq
      _ = q := mul_one q
  rw [abs_le]
  have hc : 0 < 1 - m * ulp := by linarith
  constructor
  · -- lower
    have e1 : (1 - ulp) * ((1 - m * ulp) * (q / t)) ≤ (1 - ulp) * (q / s) :=
      mul_le_mul_of_nonneg_left h2 (by have := ulp_small; linarith)
    have e2 : (1 - (m + 1) * ulp) * (q / t) ≤ (1 - ulp) * ((1 - m * ulp) * (q / t)) := by
      have : 0 ≤ m * ulp * ulp * (q / t) := by positivity
      nlinarith
    have e3 : (m + 1) * ulp * (q / t) ≤ tolerance m * (q / t) := by
      refine mul_le_mul_of_nonneg_right ?_ hqt
      rw [← htol]
      have : tolerance m * (1 - m * ulp) ≤ tolerance m * 1 :=
        mul_le_mul_of_nonneg_left (by have := mul_nonneg hm0 u0.le; linarith) htol0
      linarith
    linarith [hr.1]
  · -- upper
    have e1 : (1 + ulp) * (q / s) ≤ (1 + tolerance m) * (q / t) := by
      have e2 : (1 + ulp) = (1 + tolerance m) * (1 - m * ulp) := by
        rw [add_mul, htol]; ring
      rw [e2, mul_assoc]
      exact mul_le_mul_of_nonneg_left h1 (by linarith)
    linarith [hr.2]

/-- The tolerance grows with the number of entries. -/
theorem tolerance_mono {m n : Nat} (h : m ≤ n) (hn : n < 2 ^ 23) : tolerance m ≤ tolerance n := by
  have h' : (m : Rat) ≤ n := by exact_mod_cast h
  have hn' : (n : Rat) < 2 ^ 23 := by exact_mod_cast hn
  have : (2 : Rat) ^ 23 < 2 ^ 24 := by norm_num
  unfold tolerance
  exact div_le_div₀ (by have : (0 : Rat) ≤ n := Nat.cast_nonneg _; linarith) (by linarith) (by linarith) (by linarith)

/-- A row with the entries `q` at `codes` and zeros elsewhere, divided by its sum in any order. -/
theorem shares_row {N : Nat} (hN : N < 2 ^ 23) {T : SumTree} (hT : T.codes.Perm (List.range N)) {q : Nat → Rat}
    {codes : List Nat} (hnd : codes.Nodup) (hlt : ∀ k ∈ codes, k < N) {row : Nat → Num}
    (hrow : ∀ k < N, row k = .fin (kept q codes k)) (hq : ∀ k ∈ codes, 0 ≤ q k ∧ q k ≤ 2 ∧ Representable f32 (q k))
    (hpos : ∃ k ∈ codes, 0 < q k) :
    ∃ x, Shares N q codes (fun k => Num.div f32 (row k) (T.sum row)) x := by
  have hE : ∀ c ∈ T.codes, Entry (row c) (kept q codes c) := by
    intro c hc
    have hc' := List.mem_range.1 (hT.mem_iff.1 hc)
    by_cases h : c ∈ codes
    · have e : kept q codes c = q c := by simp [kept, h]
      obtain ⟨h1, h2, h3⟩ := hq c h
      exact ⟨hrow c hc', by rw [e]; exact h1, by rw [e]; exact h2, by rw [e]; exact h3⟩
    · have e : kept q codes c = 0 := by simp [kept, h]
      exact ⟨hrow c hc', by rw [e], by rw [e]; norm_num, by rw [e]; exact rep_zero⟩
  obtain ⟨s, hs, S⟩ := sum_entries T hE (by rw [hT.length_eq, List.length_range]; omega)
  have hmax : ∀ k ∈ codes, q k ≤ s := by
    intro k hk
    have := S.max k (hT.mem_iff.2 (List.mem_range.2 (hlt k hk)))
    simpa [kept, hk] using this
  have hspos : 0 < s := by
    obtain ⟨k, hk, h⟩ := hpos
    exact lt_of_lt_of_le h (hmax k hk)
  have hsum := kept_sum q hnd hlt hT
  have hcount := kept_count q hnd hlt hT
  have hlen : codes.length ≤ N := by
    have := (kept_filter hnd hlt).length_eq
    have h2 := List.length_filter_le (· ∈ codes) (List.range N)
    rw [List.length_range] at h2
    omega
  have htpos : 0 < (codes.map q).sum := by
    obtain ⟨k, hk, h⟩ := hpos
    refine lt_of_lt_of_le h (List.single_le_sum ?_ _ (List.mem_map.2 ⟨k, hk, rfl⟩))
    intro x hx
    obtain ⟨c, hc, rfl⟩ := List.mem_map.1 hx
    exact (hq c hc).1
  have hk0 : ∀ k, 0 ≤ kept q codes k ∧ kept q codes k ≤ s := by
    intro k
    unfold kept
    split
    · rename_i h; exact ⟨(hq k h).1, hmax k h⟩
    · exact ⟨le_refl _, hspos.le⟩
  have hr : ∀ k, 0 ≤ kept q codes k / s ∧ kept q codes k / s ≤ 1 := fun k =>
    ⟨div_nonneg (hk0 k).1 hspos.le, (div_le_one hspos).2 (hk0 k).2⟩
  refine ⟨fun k => rnd f32 (kept q codes k / s), ?_, ?_, ?_, ?_, ?_⟩
  · intro k hk
    show Num.div f32 (row k) (T.sum row) = _
    rw [hs, hrow k hk]
    show (if s = 0 then _ else _) = _
    rw [if_neg hspos.ne']
    exact round_nn (hr k).1 (le_trans (hr k).2 (by norm_num))
  · intro k _
    exact ⟨rnd_nn (hr k).1, le_rep (K := Rat) hprec rep_one (by simpa using (hr k).2)⟩
  · intro k _ hk
    show rnd f32 (kept q codes k / s) = 0
    rw [show kept q codes k = 0 by simp [kept, hk], zero_div]
    exact rnd_rep rep_zero
  · intro j hj k hk h
    refine rnd_mono hprec ?_
    simp only [kept, hj, hk, if_true]
    exact div_le_div_of_nonneg_right h hspos.le
  · intro k hk
    show |rnd f32 (kept q codes k / s) - _| ≤ _
    rw [show kept q codes k = q k by simp [kept, hk]]
    have h1 := near_share (q := q k) (s := s) (t := (codes.map q).sum) (hq k hk).1 htpos hspos
      (m := T.codes.countP fun c => kept q codes c ≠ 0) (by omega)
      (by rw [← hsum]; exact S.lower) (by rw [← hsum]; exact S.upper)
    refine le_trans h1 ?_
    have := mul_le_mul_of_nonneg_right (tolerance_mono hcount (by omega)) (div_nonneg (hq k hk).1 htpos.le)
    linarith

theorem Shares.congr {N : Nat} {q : Nat → Rat} {codes : List Nat} {p p' : Nat → Num} {x : Nat → Rat}
    (h : Shares N q codes p x) (e : ∀ k < N, p' k = p k) : Shares N q codes p' x :=
  ⟨fun k hk => (e k hk).trans (h.val k hk), h.range, h.other, h.mono, h.near⟩

/-- A legal entry of at least `2^-149` of the sum has a positive share. -/
theorem C136_pos {N : Nat} {q : Nat → Rat} {codes : List Nat} {p : Nat → Num} {x : Nat → Rat} (h : Shares N q codes p x)
    (hl : codes.length < 2 ^ 22) {k : Nat} (hk : k ∈ codes) (hs : 1 / 2 ^ 149 ≤ q k / (codes.map q).sum) : 0 < x k := by
  have h1 := (abs_le.1 (h.near k hk)).1
  have h2 : tolerance codes.length < 1 / 2 := by
    have h3 : (codes.length : Rat) < 2 ^ 22 := by exact_mod_cast hl
    have h4 : (0 : Rat) < 2 ^ 24 - codes.length := by linarith [show (2 : Rat) ^ 22 < 2 ^ 24 by norm_num]
    unfold tolerance
    rw [div_lt_div_iff₀ h4 (by norm_num)]
    have : ((codes.length : Rat) + 1) ≤ 2 ^ 22 := by exact_mod_cast hl
    linarith [show (2 : Rat) ^ 22 * 3 < 2 ^ 24 by norm_num]
  have h5 : tolerance codes.length * (q k / (codes.map q).sum) ≤ 1 / 2 * (q k / (codes.map q).sum) :=
    mul_le_mul_of_nonneg_right h2.le (le_trans (by positivity) hs)
  have h6 : (0 : Rat) < 1 / 2 ^ 149 := by positivity
  have h7 : tolerance codes.length * (q k / (codes.map q).sum) < 1 / 2 * (q k / (codes.map q).sum) :=
    mul_lt_mul_of_pos_right h2 (lt_of_lt_of_le h6 hs)
  have h8 : (1 : Rat) / 2 ^ 150 = 1 / 2 * (1 / 2 ^ 149) := by norm_num
  linarith

/-- The shares add up to one, but for the rounding errors. -/
theorem C136_total {N : Nat} {q : Nat → Rat} {codes : List Nat} {p : Nat → Num} {x : Nat → Rat} (h : Shares N q codes p x)
    (ht : 0 < (codes.map q).sum) : |(codes.map x).sum - 1| ≤ tolerance codes.length + codes.length / 2 ^ 150 := by
  have key : ∀ L : List Nat, (∀ k ∈ L, k ∈ codes) →
      |(L.map x).sum - (L.map q).sum / (codes.map q).sum| ≤
        tolerance codes.length * ((L.map q).sum / (codes.map q).sum) + L.length / 2 ^ 150 := by
    intro L
    induction L with
    | nil => intro _; simp
    | cons k L ih =>
      intro hL
      have h1 := abs_le.1 (ih fun j hj => hL j (List.mem_cons_of_mem _ hj))
      have h2 := abs_le.1 (h.near k (hL k (List.mem_cons_self ..)))
      simp only [List.map_cons, List.sum_cons, List.length_cons, Nat.cast_add, Nat.cast_one, add_div, mul_add]
      rw [abs_le]
      constructor
      · linarith [h1.1, h2.1]
      · linarith [h1.2, h2.2]
  have := key codes fun _ h => h
  rwa [div_self ht.ne', mul_one] at this

/-! ## C136 for the priors -/

/-- What the three functions of `utils.rs` are given: a row of finite non-negative entries of which a legal one is
positive, and the codes of the legal moves. -/
structure Policy (N : Nat) (pol : Nat → Num) (q : Nat → Rat) (codes : List Nat) : Prop where
  entry : ∀ k < N, Entry (pol k) (q k)
  nodup : codes.Nodup
  lt : ∀ k ∈ codes, k < N
  pos : ∃ k ∈ codes, 0 < q k

theorem Policy.legal {N : Nat} {pol : Nat → Num} {q : Nat → Rat} {codes : List Nat} (h : Policy N pol q codes) :
    ∀ k ∈ codes, 0 ≤ q k ∧ q k ≤ 2 ∧ Representable f32 (q k) := fun k hk =>
  let e := h.entry k (h.lt k hk)
  ⟨e.nonneg, e.le, e.rep⟩

theorem batch_row {N : Nat} {pol : Nat → Num} {q : Nat → Rat} {codes : List Nat} (h : ∀ k < N, Entry (pol k) (q k)) :
    ∀ k < N, Num.mul f32 (pol k) (put (fun _ => .fin 0) (codes.map fun c => (c, .fin 1)) k) = .fin (kept q codes k) := by
  intro k hk
  have e := h k hk
  rw [put_map (fun _ => .fin 0) (fun _ => .fin 1), e.val]
  by_cases hc : k ∈ codes
  · rw [if_pos hc]
    show Num.round f32 (q k * 1) = _
    rw [mul_one, round_nn e.nonneg (le_trans e.le (by norm_num)), rnd_rep e.rep]
    simp [kept, hc]
  · rw [if_neg hc]
    show Num.round f32 (q k * 0) = _
    rw [mul_zero, round_nn (le_refl _) (by norm_num), rnd_rep rep_zero]
    simp [kept, hc]

theorem tensor_row {N : Nat} {pol : Nat → Num} {q : Nat → Rat} {codes : List Nat} (h : ∀ k < N, Entry (pol k) (q k)) :
    ∀ k < N, put (fun _ => .fin 0) (codes.map fun c => (c, pol c)) k = .fin (kept q codes k) := by
  intro k hk
  rw [put_map, (h k hk).val]
  by_cases hc : k ∈ codes
  · simp [kept, hc]
  · simp [kept, hc]

/-- C136 for `turn_policy_to_probs_tensor_parallel`: in every order of adding up, the priors are shares. -/
theorem C136_batch {N : Nat} (hN : N < 2 ^ 23) {T : SumTree} (hT : T.codes.Perm (List.range N)) {pol : Nat → Num}
    {q : Nat → Rat} {codes : List Nat} (h : Policy N pol q codes) : ∃ x, Shares N q codes (priorBatch T pol codes) x :=
  shares_row hN hT h.nodup h.lt (batch_row h.entry) h.legal h.pos

/-- C136 for `turn_policy_to_probs_tensor`. -/
theorem C136_tensor {N : Nat} (hN : N < 2 ^ 23) {T : SumTree} (hT : T.codes.Perm (List.range N)) {pol : Nat → Num}
    {q : Nat → Rat} {codes : List Nat} (h : Policy N pol q codes) : ∃ x, Shares N q codes (priorTensor T pol codes) x :=
  shares_row hN hT h.nodup h.lt (tensor_row h.entry) h.legal h.pos

theorem inOrder_codes (N : Nat) : (SumTree.inOrder N).codes = List.range N := by
  have key : ∀ (L : List Nat) (T : SumTree), (L.foldl (fun s c => SumTree.node s (.entry c)) T).codes = T.codes ++ L := by
    intro L
    induction L with
    | nil => intro T; simp
    | cons c L ih => intro T; rw [List.foldl_cons, ih]; simp [SumTree.codes]
  simpa [SumTree.codes, SumTree.inOrder] using key (List.range N) .zero

/-- The loop that divides the selected entries. -/
theorem divide_loop (f : Num → Num) {codes : List Nat} (hnd : codes.Nodup) (v : Nat → Num) (d : Nat) :
    codes.foldl (fun v c => fun d => if d = c then f (v c) else v d) v d = if d ∈ codes then f (v d) else v d := by
  induction codes generalizing v with
  | nil => rfl
  | cons c codes ih =>
    rw [List.foldl_cons, ih (List.nodup_cons.1 hnd).2]
    have hc := (List.nodup_cons.1 hnd).1
    by_cases h : d = c
    · subst h; simp [hc]
    · simp [h]

theorem priorVec_at {N : Nat} {pol : Nat → Num} {codes : List Nat} (hnd : codes.Nodup) (d : Nat) :
    priorVec N pol codes d = if d ∈ codes then Num.div f32 (pol d)
      ((SumTree.inOrder N).sum (put (fun _ => .fin 0) (codes.map fun c => (c, pol c)))) else .fin 0 := by
  unfold priorVec
  rw [divide_loop (fun v => Num.div f32 v _) hnd, put_map]
  by_cases h : d ∈ codes
  · simp [h]
  · simp [h]

/-- C136 for `turn_policy_to_probs`. -/
theorem C136_vec {N : Nat} (hN : N < 2 ^ 23) {pol : Nat → Num} {q : Nat → Rat} {codes : List Nat}
    (h : Policy N pol q codes) : ∃ x, Shares N q codes (priorVec N pol codes) x := by
  obtain ⟨x, hx⟩ := shares_row hN (T := SumTree.inOrder N) (by rw [inOrder_codes]) h.nodup h.lt (tensor_row h.entry)
    h.legal h.pos
  refine ⟨x, hx.congr fun k hk => ?_⟩
  rw [priorVec_at h.nodup]
  by_cases hc : k ∈ codes
  · rw [if_pos hc]
    show _ = Num.div f32 (put _ _ k) _
    rw [put_map, if_pos hc]
  · rw [if_neg hc, hx.val k hk, hx.other k hk hc]

/-- C136: if all legal entries are zero, for example because the network rounds them to zero, all priors are NaN, those of
the other moves included; `turn_policy_to_probs` leaves the other ones at zero. -/
theorem C136_nan {N : Nat} (hN : N < 2 ^ 23) {T : SumTree} (hT : T.codes.Perm (List.range N)) {pol : Nat → Num}
    {q : Nat → Rat} {codes : List Nat} (he : ∀ k < N, Entry (pol k) (q k)) (hnd : codes.Nodup) (hlt : ∀ k ∈ codes, k < N)
    (h0 : ∀ k ∈ codes, q k = 0) :
    (∀ k < N, priorBatch T pol codes k = .nan ∧ priorTensor T pol codes k = .nan) ∧
      (∀ k ∈ codes, priorVec N pol codes k = .nan) ∧ ∀ k < N, k ∉ codes → priorVec N pol codes k = .fin 0 := by
  have hk : ∀ k, kept q codes k = 0 := by
    intro k
    unfold kept
    split
    · rename_i h; exact h0 k h
    · rfl
  have key : ∀ (T : SumTree) (row : Nat → Num), T.codes.Perm (List.range N) → (∀ k < N, row k = .fin (kept q codes k)) →
      T.sum row = .fin 0 := by
    intro T row hT hrow
    obtain ⟨s, hs, S⟩ := sum_entries (q := fun _ => 0) T (p := row) (fun c hc => ⟨by
      rw [hrow c (List.mem_range.1 (hT.mem_iff.1 hc)), hk], le_refl _, by norm_num, rep_zero⟩)
      (by rw [hT.length_eq, List.length_range]; omega)
    rw [hs, S.none (by simp)]
  have key2 : ∀ (T : SumTree) (row : Nat → Num), T.codes.Perm (List.range N) → (∀ k < N, row k = .fin (kept q codes k)) →
      ∀ k < N, Num.div f32 (row k) (T.sum row) = .nan := by
    intro T row hT hrow k hkN
    rw [key T row hT hrow, hrow k hkN, hk]
    rfl
  refine ⟨fun k hkN => ⟨key2 T _ hT (batch_row he) k hkN, key2 T _ hT (tensor_row he) k hkN⟩, ?_, ?_⟩
  · intro k hc
    rw [priorVec_at hnd, if_pos hc]
    have := key2 (SumTree.inOrder N) _ (by rw [inOrder_codes]) (tensor_row he (codes := codes)) k (hlt k hc)
    rwa [put_map, if_pos hc] at this
  · intro k _ hc
    rw [priorVec_at hnd, if_neg hc]

/-! ## C136 for the visits -/

/-- Whole numbers are added up without error as long as the total is at most `2^24`. -/
theorem sum_visits {p : Nat → Num} {v : Nat → Nat} (T : SumTree) (h : ∀ c ∈ T.codes, p c = .fin (v c))
    (hV : (T.codes.map v).sum ≤ 2 ^ 24) : T.sum p = .fin ((T.codes.map v).sum : Nat) := by
  induction T with
  | zero => simp [SumTree.sum, SumTree.codes]
  | entry c => simpa [SumTree.sum, SumTree.codes] using h c (by simp [SumTree.codes])
  | node l r ihl ihr =>
    simp only [SumTree.codes, List.map_append, List.sum_append] at hV
    show Num.add f32 (l.sum p) (r.sum p) = _
    rw [ihl (fun c hc => h c (List.mem_append_left _ hc)) (by omega),
      ihr (fun c hc => h c (List.mem_append_right _ hc)) (by omega)]
    show Num.round f32 (_ + _) = _
    simp only [SumTree.codes, List.map_append, List.sum_append]
    generalize (l.codes.map v).sum = a at hV ⊢
    generalize (r.codes.map v).sum = b at hV ⊢
    have := round_int (n := (a + b : Nat)) (by
      rw [abs_of_nonneg (by positivity)]; omega)
    push_cast at this ⊢
    exact this

/-- C136 for `get_prob_tensor` and `get_prob_tensor_parallel`: with at most `2^24` visits in total, in every order of adding
up, the entry of a child is its share of the visits with a relative error of at most `2^-24`, zero exactly for children
without visits and for codes without a child; below `2^24`, more visits give a larger entry. -/
theorem C136_visits {N : Nat} {T : SumTree} (hT : T.codes.Perm (List.range N)) {codes : List Nat} (hnd : codes.Nodup)
    (hlt : ∀ k ∈ codes, k < N) {v : Nat → Nat} (hV0 : 0 < (codes.map v).sum) (hV : (codes.map v).sum ≤ 2 ^ 24) :
    ∃ x : Nat → Rat, (∀ k < N, visitShares T (codes.map fun c => (c, .fin (v c))) k = .fin (x k)) ∧
      (∀ k < N, k ∉ codes → x k = 0) ∧
      (∀ k ∈ codes, |x k - (v k : Rat) / (codes.map v).sum| ≤ (v k : Rat) / (codes.map v).sum / 2 ^ 24) ∧
      (∀ k ∈ codes, 0 ≤ x k ∧ x k ≤ 1 ∧ (x k = 0 ↔ v k = 0)) ∧
      (∀ j ∈ codes, ∀ k ∈ codes, v j ≤ v k → x j ≤ x k) ∧
      ((codes.map v).sum < 2 ^ 24 → ∀ j ∈ codes, ∀ k ∈ codes, v j < v k → x j < x k) := by
  have hrow : ∀ k, put (fun _ => .fin 0) (codes.map fun c => (c, Num.fin (v c))) k =
      .fin ((if k ∈ codes then v k else 0 : Nat) : Rat) := by
    intro k
    rw [put_map _ fun c => Num.fin (v c)]
    split <;> simp
  have hsumv : (T.codes.map fun k => if k ∈ codes then v k else 0).sum = (codes.map v).sum := by
    have := kept_sum (fun k => (v k : Rat)) hnd hlt hT
    have e1 : ∀ L : List Nat, ((L.map v).sum : Rat) = (L.map fun k => (v k : Rat)).sum := by
      intro L; induction L with
      | nil => rfl
      | cons a L ih => simp [ih]
    have e2 : ∀ L : List Nat, ((L.map fun k => if k ∈ codes then v k else 0).sum : Rat) =
        (L.map (kept (fun k => (v k : Rat)) codes)).sum := by
      intro L; induction L with
      | nil => rfl
      | cons a L ih =>
        simp only [List.map_cons, List.sum_cons, Nat.cast_add, ih]
        congr 1
        unfold kept
        split <;> simp
    have e3 : ((T.codes.map fun k => if k ∈ codes then v k else 0).sum : Rat) = ((codes.map v).sum : Rat) := by
      rw [e1, e2, this]
    exact_mod_cast e3
  have hs := sum_visits (v := fun k => if k ∈ codes then v k else 0) T (fun c _ => hrow c) (by rw [hsumv]; exact hV)
  rw [hsumv] at hs
  generalize hVd : (codes.map v).sum = V at *
  have hVpos : (0 : Rat) < V := by exact_mod_cast hV0
  have hle : ∀ k ∈ codes, v k ≤ V := fun k hk => by
    rw [← hVd]; exact List.single_le_sum (fun _ _ => Nat.zero_le _) _ (List.mem_map.2 ⟨k, hk, rfl⟩)
  have hV' : (V : Rat) ≤ 2 ^ 24 := by exact_mod_cast hV
  have hsh : ∀ k ∈ codes, 0 ≤ (v k : Rat) / V ∧ (v k : Rat) / V ≤ 1 := fun k hk =>
    ⟨by positivity, (div_le_one hVpos).2 (by exact_mod_cast hle k hk)⟩
  have hrel : ∀ k ∈ codes, |rnd f32 ((v k : Rat) / V) - (v k : Rat) / V| ≤ (v k : Rat) / V / 2 ^ 24 := by
    intro k hk
    rcases Nat.eq_zero_or_pos (v k) with h0 | h0
    · rw [h0, Nat.cast_zero, zero_div, rnd_rep rep_zero]; simp
    · rw [abs_sub_comm]
      have h1 : (1 : Rat) / 2 ^ 24 ≤ (v k : Rat) / V :=
        div_le_div₀ (Nat.cast_nonneg _) (by exact_mod_cast h0) hVpos hV'
      have := rnd_rel (φ := f32) ((v k : Rat) / V) (by
        rw [abs_of_nonneg (hsh k hk).1]
        refine le_trans ?_ h1
        show (2 : Rat) ^ ((-149 : Int) + (24 : Nat) - 1) ≤ _
        norm_num)
      rw [abs_of_nonneg (hsh k hk).1] at this
      simpa [f32] using this
  refine ⟨fun k => rnd f32 (((if k ∈ codes then v k else 0 : Nat) : Rat) / V), ?_, ?_, ?_, ?_, ?_, ?_⟩
  · intro k _
    show Num.div f32 (put _ _ k) (T.sum (put _ _)) = _
    rw [hs, hrow]
    show (if (V : Rat) = 0 then _ else _) = _
    rw [if_neg hVpos.ne']
    refine round_nn (by positivity) ?_
    split
    · rename_i h; exact le_trans (hsh k h).2 (by norm_num)
    · simp
  · intro k _ hk
    simp only [hk, if_false, Nat.cast_zero, zero_div]
    exact rnd_rep rep_zero
  · intro k hk
    simp only [hk, if_true]
    exact hrel k hk
  · intro k hk
    simp only [hk, if_true]
    refine ⟨rnd_nn (hsh k hk).1, le_rep (K := Rat) hprec rep_one (by simpa using (hsh k hk).2), ?_⟩
    constructor
    · intro h
      have := hrel k hk
      rw [h, zero_sub, abs_neg, abs_of_nonneg (hsh k hk).1] at this
      by_contra hne
      have h2 : (0 : Rat) < (v k : Rat) / V := div_pos (by exact_mod_cast Nat.pos_of_ne_zero hne) hVpos
      have h3 : (v k : Rat) / V / 2 ^ 24 < (v k : Rat) / V := div_lt_self h2 (by norm_num)
      linarith
    · intro h
      rw [h, Nat.cast_zero, zero_div]
      exact rnd_rep rep_zero
  · intro j hj k hk h
    simp only [hj, hk, if_true]
    refine rnd_mono hprec (div_le_div_of_nonneg_right (by exact_mod_cast h) hVpos.le)
  · intro hlt24 j hj k hk h
    simp only [hj, hk, if_true]
    have hV24 : (V : Rat) < 2 ^ 24 := by exact_mod_cast hlt24
    have herr : ∀ k ∈ codes, |(v k : Rat) / V - rnd f32 ((v k : Rat) / V)| ≤ 1 / 2 ^ 25 := by
      intro k hk
      rcases eq_or_lt_of_le (hsh k hk).2 with h1 | h1
      · rw [h1, rnd_rep rep_one]; norm_num
      · have := rnd_abs (φ := f32) ((v k : Rat) / V) (e := -24) (by
          rw [abs_of_nonneg (hsh k hk).1]
          refine lt_of_lt_of_le h1 ?_
          show (1 : Rat) ≤ 2 ^ ((-24 : Int) + (24 : Nat))
          norm_num) (by norm_num [f32])
        have e : ((2 : Rat) ^ (-24 : Int)) / 2 = 1 / 2 ^ 25 := by norm_num
        rw [e] at this
        simpa using this
    have h1 := abs_le.1 (herr j hj)
    have h2 := abs_le.1 (herr k hk)
    have h3 : (v j : Rat) / V + 1 / V ≤ (v k : Rat) / V := by
      rw [← add_div]
      exact div_le_div_of_nonneg_right (by exact_mod_cast h) hVpos.le
    have h4 : (1 : Rat) / 2 ^ 24 < 1 / V := one_div_lt_one_div_of_lt hVpos hV24
    have h5 : (1 : Rat) / 2 ^ 24 = 1 / 2 ^ 25 + 1 / 2 ^ 25 := by norm_num
    linarith [h1.1, h2.2]

/-! ## C136 for the noise -/

/-- `n` is an `f32` between 0 and 1. -/
def Unit32 (n : Num) (q : Rat) : Prop := n = .fin q ∧ 0 ≤ q ∧ q ≤ 1 ∧ Representable f32 q

theorem mul_unit {a b : Rat} (ha0 : 0 ≤ a) (ha1 : a ≤ 1) (hb0 : 0 ≤ b) (hb1 : b ≤ 1) :
    Unit32 (Num.mul f32 (.fin a) (.fin b)) (rnd f32 (a * b)) := by
  have h0 := mul_nonneg ha0 hb0
  have h1 : a * b ≤ 1 := mul_le_one₀ ha1 hb0 hb1
  exact ⟨round_nn h0 (le_trans h1 (by norm_num)), rnd_nn h0, le_rep (K := Rat) hprec rep_one (by simpa using h1),
    rnd_representable hprec _⟩

theorem rest_unit {eps : Rat} (h0 : 0 ≤ eps) (h1 : eps ≤ 1) : Unit32 (rest eps) (rnd f32 (1 - eps)) := by
  have h2 : 0 ≤ 1 - eps := by linarith
  refine ⟨?_, rnd_nn h2, le_rep (K := Rat) hprec rep_one (by simpa using h0), rnd_representable hprec _⟩
  show Num.round f32 (1 + -eps) = _
  rw [← sub_eq_add_neg]
  exact round_nn h2 (by linarith)

/-- The mixture of two numbers of `f32` between 0 and 1: finite, not negative, at most 2, and positive if the policy entry
is a normal number and at least half of it is kept. -/
theorem C136_mix {eps : Rat} (h0 : 0 ≤ eps) (h1 : eps ≤ 1) {p n : Num} {a b : Rat} (hp : Unit32 p a) (hn : Unit32 n b) :
    (∃ y, Entry (mixTensor eps p n) y ∧ (eps ≤ 1 / 2 → 1 / 2 ^ 126 ≤ a → 0 < y)) ∧ mixChild eps p n = mixTensor eps p n := by
  obtain ⟨rfl, ha0, ha1, -⟩ := hp
  obtain ⟨rfl, hb0, hb1, -⟩ := hn
  have hr := rest_unit h0 h1
  obtain ⟨x1, x2, x3, -⟩ := mul_unit hr.2.1 hr.2.2.1 ha0 ha1
  obtain ⟨y1, y2, y3, -⟩ := mul_unit h0 h1 hb0 hb1
  have hm : mixTensor eps (.fin a) (.fin b) = Num.round f32 (rnd f32 (rnd f32 (1 - eps) * a) + rnd f32 (eps * b)) := by
    unfold mixTensor
    rw [hr.1, x1, y1]
    rfl
  have hs0 : 0 ≤ rnd f32 (rnd f32 (1 - eps) * a) + rnd f32 (eps * b) := add_nonneg x2 y2
  have hs2 : rnd f32 (rnd f32 (1 - eps) * a) + rnd f32 (eps * b) ≤ 2 := by linarith
  have rep_two : Representable f32 2 := ⟨1, 1, by norm_num [f32], by norm_num [f32], by norm_num⟩
  refine ⟨⟨rnd f32 (rnd f32 (rnd f32 (1 - eps) * a) + rnd f32 (eps * b)), ⟨?_, rnd_nn hs0,
    le_rep (K := Rat) hprec rep_two (by simpa using hs2), rnd_representable hprec _⟩, ?_⟩, ?_⟩
  · rw [hm]
    exact round_nn hs0 (le_trans hs2 (by norm_num))
  · intro he ha
    have rep_half : Representable f32 (1 / 2) := ⟨1, -1, by norm_num [f32], by norm_num [f32], by norm_num⟩
    have e1 : (1 : Rat) / 2 ≤ rnd f32 (1 - eps) := rep_le (K := Rat) hprec rep_half (by
      have : (1 : Rat) / 2 ≤ 1 - eps := by linarith
      simpa using this)
    have rep_tiny : Representable f32 (1 / 2 ^ 127) := ⟨1, -127, by norm_num [f32], by norm_num [f32], by norm_num⟩
    have e2 : (1 : Rat) / 2 ^ 127 ≤ rnd f32 (1 - eps) * a := by
      have := mul_le_mul e1 ha (by positivity) hr.2.1
      refine le_trans (le_of_eq ?_) this
      norm_num
    have e3 : (1 : Rat) / 2 ^ 127 ≤ rnd f32 (rnd f32 (1 - eps) * a) := rep_le (K := Rat) hprec rep_tiny (by simpa using e2)
    have e4 : (1 : Rat) / 2 ^ 127 ≤ rnd f32 (rnd f32 (rnd f32 (1 - eps) * a) + rnd f32 (eps * b)) :=
      rep_le (K := Rat) hprec rep_tiny (by
        have : (1 : Rat) / 2 ^ 127 ≤ rnd f32 (rnd f32 (1 - eps) * a) + rnd f32 (eps * b) := by linarith
        simpa using this)
    exact lt_of_lt_of_le (by positivity) e4
  · obtain ⟨z1, -⟩ := mul_unit ha0 ha1 hr.2.1 hr.2.2.1
    obtain ⟨w1, -⟩ := mul_unit hb0 hb1 h0 h1
    unfold mixChild
    rw [hr.1, z1, w1, hm]
    show Num.round f32 _ = _
    rw [add_comm, mul_comm a, mul_comm b]

/-! ## C136 for the search -/

open DieE.Mcts DieE.Props.Pu
variable {G : Game}

/-- The network computes priors and mixtures with noise as `utils.rs` and `noise.rs` do, in `f32`, in some order of adding
up that may depend on the row; its policy and the noise are numbers between 0 and 1. -/
structure Computed (N : Nat) (eps : Rat) {c : Num} {ln : Num → Num} (net : Mcts.Net (single c ln)) : Prop where
  width : N < 2 ^ 23
  low : 0 ≤ eps
  half : eps ≤ 1 / 2
  batch : ∀ (pol : Nat → Num) codes, ∃ T : SumTree, T.codes.Perm (List.range N) ∧
    net.priorBatch pol codes = Fp.priorBatch T pol codes
  mix : ∀ p n : Num, net.mixTensor p n = Fp.mixTensor eps p n
  policy : ∀ x row, ∀ k < N, ∃ q, Unit32 (net.policy x row k) q
  noise : ∀ r, ∀ k < N, ∃ q, Unit32 (net.noise r k) q

/-- If a legal move has a policy entry of at least `2^-126` in every row, the priors of the legal moves in the batched
search are finite and between 0 and 1. -/
theorem C136_priors {N : Nat} {eps : Rat} {c : Num} {ln : Num → Num} {net : Mcts.Net (single c ln)} (C : Computed N eps net)
    {s : G.S} {ms : List G.Mv} (hc : ∀ codes, ms.mapM (G.encode s) = .ok codes → codes.Nodup ∧ (∀ k ∈ codes, k < N) ∧
      ∀ x row, ∃ k ∈ codes, ∀ q, net.policy x row k = Num.fin q → 1 / 2 ^ 126 ≤ q) :
    PriorsAre (G := G) FinShare net s ms := by
  intro codes hm x row r k hk
  obtain ⟨hnd, hlt, hpos⟩ := hc codes hm
  have hent : ∀ j < N, ∃ y, Entry (net.mixTensor (net.policy x row j) (net.noise r j)) y ∧
      ((∀ q, net.policy x row j = Num.fin q → 1 / 2 ^ 126 ≤ q) → 0 < y) := by
    intro j hj
    obtain ⟨a, ha⟩ := C.policy x row j hj
    obtain ⟨b, hb⟩ := C.noise r j hj
    obtain ⟨⟨y, h1, h2⟩, -⟩ := C136_mix C.low (le_trans C.half (by norm_num)) ha hb
    exact ⟨y, ⟨(C.mix _ _).trans h1.val, h1.nonneg, h1.le, h1.rep⟩, fun h => h2 C.half (h a ha.1)⟩
  let q : Nat → Rat := fun j => if h : j < N then (hent j h).choose else 0
  have hq : ∀ j (h : j < N), q j = (hent j h).choose := fun j h => by simp [q, h]
  obtain ⟨T, hT, e⟩ := C.batch (fun c => net.mixTensor (net.policy x row c) (net.noise r c)) codes
  obtain ⟨y, hy⟩ := C136_batch C.width hT (q := q) (codes := codes)
    (pol := fun c => net.mixTensor (net.policy x row c) (net.noise r c))
    ⟨fun j hj => by rw [hq j hj]; exact (hent j hj).choose_spec.1, hnd, hlt, by
      obtain ⟨j, hj, h⟩ := hpos x row
      exact ⟨j, hj, by rw [hq j (hlt j hj)]; exact (hent j (hlt j hj)).choose_spec.2 h⟩⟩
  refine ⟨y k, ?_, hy.range k (hlt k hk)⟩
  rw [e]
  exact hy.val k (hlt k hk)

/-- C103 in `f32` with the priors computed as in the code: nothing is assumed of the priors any more. -/
theorem C136_search {N : Nat} {eps c : Rat} (hc0 : 0 ≤ c) (hc4 : c ≤ 4) {ln : Num → Num} {net : Mcts.Net (single (.fin c) ln)}
    (C : Computed N eps net) (he : ∀ x row, FinWithin 1 (net.eval x row))
    {states : List G.S} {order : List Nat} (ho : order.Perm (List.range states.length)) {iterations : Nat}
    (hN : 1 + iterations * (states.length + 1) < 2 ^ 24) {st st' : Store G (single (.fin c) ln)} {t t' : Tape}
    (h : alphaMctsParallel net order states iterations st t = .ok (st', t')) {g : Nat} {s : G.S}
    (hg : states[g]? = some s) {ms : List G.Mv} (hm : G.moves s = .ok ms)
    (hc : ∀ codes, ms.mapM (G.encode s) = .ok codes → codes.Nodup ∧ (∀ k ∈ codes, k < N) ∧
      ∀ x row, ∃ k ∈ codes, ∀ q, net.policy x row k = Num.fin q → 1 / 2 ^ 126 ≤ q) {a : G.Mv} (ha : a ∈ ms) :
    ∃ (rn n : Node G (single (.fin c) ln)) (i : Nat) (q : Rat), st'[g]? = some rn ∧ i ∈ rn.children ∧ st'[i]? = some n ∧
      n.action = some a ∧ n.policy = Num.fin q ∧
      ((q : ℝ) * iterations ≤ 2 * ms.length * (n.visits + 1) ∨
        c * q * Real.sqrt ((iterations : ℝ) / ms.length) ≤ (4 + 1 / 32) * (n.visits + 1)) :=
  C103_single hc0 hc4 he ho hN h hg hm (C136_priors C hc) ha

/-! ## Examples -/

/-- A network for TicTacToe which prefers the first square, adds up rows in the opposite order and mixes in a quarter of
noise. -/
noncomputable def plainNet (ln : Num → Num) : Mcts.Net (single (.fin 2) ln) where
  policy := fun _ _ k => Num.fin (if k = 0 then 1 / 2 else 1 / 16)
  eval := fun _ _ => Num.fin (-1)
  priorBatch := Fp.priorBatch (((List.range 9).reverse.map SumTree.entry).foldl .node .zero)
  priorTensor := Fp.priorTensor (SumTree.inOrder 9)
  priorVec := Fp.priorVec 1352
  noise := fun _ _ => Num.fin (1 / 8)
  mixTensor := Fp.mixTensor (1 / 4)
  mixChild := Fp.mixChild (1 / 4)
  alphaOk := true

theorem plainNet_computed (ln : Num → Num) : Computed 9 (1 / 4) (plainNet ln) where
  width := by norm_num
  low := by norm_num
  half := by norm_num
  batch := fun _ _ => ⟨_, by decide, rfl⟩
  mix := fun _ _ => rfl
  policy := by
    intro _ _ k _
    refine ⟨if k = 0 then 1 / 2 else 1 / 16, rfl, ?_, ?_, ?_⟩
    · split <;> norm_num
    · split <;> norm_num
    · split
      · exact ⟨1, -1, by norm_num [f32], by norm_num [f32], by norm_num⟩
      · exact ⟨1, -4, by norm_num [f32], by norm_num [f32], by norm_num⟩
  noise := fun _ _ _ => ⟨1 / 8, rfl, by norm_num, by norm_num, 1, -3, by norm_num [f32], by norm_num [f32], by norm_num⟩

/-- The hypotheses of `C136_search` are met by the batch of the examples, for every random stream. -/
example (ln : Num → Num) (t : Tape) : ∃ st t',
    alphaMctsParallel (G := TTT.game .debug) (plainNet ln) [1, 0] A.demoBatch 1000 [] t = .ok (st, t') ∧
    Computed 9 (1 / 4) (plainNet ln) ∧ (∀ x row, FinWithin 1 ((plainNet ln).eval x row)) ∧
    1 + 1000 * (A.demoBatch.length + 1) < 2 ^ 24 ∧
    ∀ codes, (TTT.getValidMoves TTT.new).mapM ((TTT.game .debug).encode TTT.new) = .ok codes →
      codes.Nodup ∧ (∀ k ∈ codes, k < 9) ∧
      ∀ x row, ∃ k ∈ codes, ∀ q, (plainNet ln).policy x row k = Num.fin q → 1 / 2 ^ 126 ≤ q := by
  have ho : [1, 0].Perm (List.range A.demoBatch.length) := by decide
  obtain ⟨st, t', h, -⟩ := alphaMctsParallel_progress (Fl := single (.fin 2) ln) (A.ttt_safeNet .debug) (net := plainNet ln) rfl
    (states := A.demoBatch) (List.cons_ne_nil _ _)
    (show ∀ s ∈ A.demoBatch, TTT.State.player s = 1 ∨ TTT.State.player s = -1 by
      simp [A.demoBatch, A.lastTTT, TTT.new]) ho 1000 t
  refine ⟨st, t', h, plainNet_computed ln, fun _ _ => ⟨-1, rfl, by norm_num⟩, by
    show 1 + 1000 * (2 + 1) < 2 ^ 24
    norm_num, ?_⟩
  intro codes hc
  have e : (TTT.getValidMoves TTT.new).mapM ((TTT.game .debug).encode TTT.new) = .ok [0, 1, 2, 3, 4, 5, 6, 7, 8] := by
    decide
  cases e.symm.trans hc
  refine ⟨by decide, by decide, fun x row => ⟨0, by simp, ?_⟩⟩
  intro q hq
  have : Num.fin (1 / 2) = Num.fin q := hq
  cases this
  norm_num

/-- A policy of three entries, one of them illegal: the hypotheses of `C136_batch`, `C136_tensor` and `C136_vec` are met. -/
example : Policy 3 (fun k => Num.fin (if k = 1 then 1 / 2 else 1 / 4)) (fun k => if k = 1 then 1 / 2 else 1 / 4) [2, 0] where
  entry := by
    intro k _
    refine ⟨rfl, ?_, ?_, ?_⟩
    · split <;> norm_num
    · split <;> norm_num
    · split
      · exact ⟨1, -1, by norm_num [f32], by norm_num [f32], by norm_num⟩
      · exact ⟨1, -2, by norm_num [f32], by norm_num [f32], by norm_num⟩
  nodup := by decide
  lt := by decide
  pos := ⟨2, by simp, by norm_num⟩

/-- Rounding matters: 1, 2 and 3 visits of 6 are a third, a sixth and a half, of which the first two are no numbers of `f32`,
and the hypotheses of `C136_visits` are met. -/
example : ([4, 1, 7].map fun k => if k = 4 then 2 else if k = 1 then 1 else 3).sum = 6 ∧
    ¬ Representable f32 (1 / 3) ∧ (SumTree.node (.inOrder 5) (.node (.entry 6) (.node (.entry 5) (.entry 7)))).codes.Perm
      (List.range 8) := by
  refine ⟨by decide, ?_, by decide⟩
  intro h
  obtain ⟨m, e⟩ := rep_multiple h
  have : (3 * m : Int) = 2 ^ 149 := by
    have h2 : ((3 * m : Int) : Rat) = ((2 ^ 149 : Int) : Rat) := by
      push_cast
      have : (2 : Rat) ^ (-149 : Int) = 1 / 2 ^ 149 := by norm_num
      rw [this] at e
      field_simp at e
      linarith
    exact_mod_cast h2
  omega

end DieE.Props.Sa
