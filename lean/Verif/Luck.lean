import Verif.Prelude
import Mathlib.Probability.ProductMeasure

/-!
# Random tapes

If, whatever has been drawn before, the next number shows every residue with at least a fixed positive probability, then
with probability one the tape contains, arbitrarily late, blocks of any length of numbers with the same residue.
-/

namespace DieE.Luck
open DieE MeasureTheory Filter

/-- The set is determined by the first `n` numbers of the tape. -/
def Past (n : Nat) (A : Set Tape) : Prop := ∀ t t' : Tape, (∀ i < n, t i = t' i) → (t ∈ A ↔ t' ∈ A)

/-- Whatever the first `n` numbers are, the next number modulo 6 is each of the six residues with probability at least `ε`. -/
def Lively (ε : ENNReal) (μ : Measure Tape) : Prop :=
  ∀ n A, Past n A → ∀ j < 6, ε * μ A ≤ μ (A ∩ {t | t n % 6 = j})

/-- For each residue the tape contains arbitrarily late blocks of any length of numbers with this residue. -/
def Rich (t : Tape) : Prop := ∀ j < 6, ∀ l p, ∃ q, p ≤ q ∧ ∀ i < l, t (q + i) % 6 = j

/-- All numbers in block `n` of length `l` after `p` have residue `j`. -/
def event (j l p n : Nat) : Set Tape := {t | ∀ i < l, t (p + l * n + i) % 6 = j}

/-- None of the first `n` blocks is such a block. -/
def without (j l p n : Nat) : Set Tape := {t | ∀ m < n, t ∉ event j l p m}

theorem event_past (j l p n : Nat) : Past (p + l * (n + 1)) (event j l p n) := by
  intro t t' h
  have e : ∀ i < l, t (p + l * n + i) = t' (p + l * n + i) := fun i hi => h _ (by rw [Nat.mul_add, Nat.mul_one]; omega)
  exact ⟨fun h1 i hi => by rw [← e i hi]; exact h1 i hi, fun h1 i hi => by rw [e i hi]; exact h1 i hi⟩

theorem without_past (j l p n : Nat) : Past (p + l * n) (without j l p n) := by
  intro t t' h
  have e : ∀ m < n, (t ∈ event j l p m ↔ t' ∈ event j l p m) := fun m hm =>
    event_past j l p m t t' fun i hi => h i (by have := Nat.mul_le_mul_left l (show m + 1 ≤ n from hm); omega)
  exact ⟨fun h1 m hm => fun h2 => h1 m hm ((e m hm).2 h2), fun h1 m hm => fun h2 => h1 m hm ((e m hm).1 h2)⟩

theorem event_measurable (j l p n : Nat) : MeasurableSet (event j l p n) := by
  have : event j l p n = ⋂ i ∈ Finset.range l, (fun t : Tape => t (p + l * n + i)) ⁻¹' {x | x % 6 = j} := by
    ext t
    simp [event]
  rw [this]
  exact Finset.measurableSet_biInter _ fun i _ => (measurable_pi_apply _) .of_discrete

variable {ε : ENNReal} {μ : Measure Tape}

theorem block_prob (h : Lively ε μ) {j : Nat} (hj : j < 6) (l p n i : Nat) (hi : i ≤ l) :
    ε ^ i * μ (without j l p n) ≤ μ (without j l p n ∩ {t | ∀ k < i, t (p + l * n + k) % 6 = j}) := by
  induction i with
  | zero => simp
  | succ i ih =>
    have hpast : Past (p + l * n + i) (without j l p n ∩ {t | ∀ k < i, t (p + l * n + k) % 6 = j}) := by
      intro t t' e
      refine and_congr (without_past j l p n t t' fun k hk => e k (by omega)) ?_
      have e' : ∀ k < i, t (p + l * n + k) = t' (p + l * n + k) := fun k hk => e _ (by omega)
      exact ⟨fun h1 k hk => by rw [← e' k hk]; exact h1 k hk, fun h1 k hk => by rw [e' k hk]; exact h1 k hk⟩
    calc ε ^ (i + 1) * μ (without j l p n) = ε * (ε ^ i * μ (without j l p n)) := by rw [pow_succ]; ring
      _ ≤ ε * μ (without j l p n ∩ {t | ∀ k < i, t (p + l * n + k) % 6 = j}) := by gcongr; exact ih (by omega)
      _ ≤ μ ((without j l p n ∩ {t | ∀ k < i, t (p + l * n + k) % 6 = j}) ∩ {t | t (p + l * n + i) % 6 = j}) := h _ _ hpast j hj
      _ ≤ _ := by
        refine measure_mono ?_
        rintro t ⟨⟨h1, h2⟩, h3⟩
        refine ⟨h1, fun k hk => ?_⟩
        rcases Nat.lt_succ_iff_lt_or_eq.1 hk with h4 | rfl
        · exact h2 k h4
        · exact h3

variable [IsProbabilityMeasure μ]

theorem without_prob (h : Lively ε μ) {j : Nat} (hj : j < 6) (l p n : Nat) : μ (without j l p n) ≤ (1 - ε ^ l) ^ n := by
  induction n with
  | zero => rw [pow_zero]; exact prob_le_one
  | succ n ih =>
    have h1 : without j l p (n + 1) = without j l p n \ event j l p n := by
      ext t
      refine ⟨fun h1 => ⟨fun m hm => h1 m (by omega), h1 n (by omega)⟩, fun ⟨h1, h2⟩ m hm => ?_⟩
      rcases Nat.lt_succ_iff_lt_or_eq.1 hm with h4 | rfl
      · exact h1 m h4
      · exact h2
    have h2 := measure_inter_add_sdiff (μ := μ) (without j l p n) (event_measurable j l p n)
    have h3 : ε ^ l * μ (without j l p n) ≤ μ (without j l p n ∩ event j l p n) := block_prob h hj l p n l (le_refl l)
    rw [h1]
    calc μ (without j l p n \ event j l p n)
        = μ (without j l p n) - μ (without j l p n ∩ event j l p n) := by
          rw [← h2, ENNReal.add_sub_cancel_left (measure_ne_top _ _)]
      _ ≤ μ (without j l p n) - ε ^ l * μ (without j l p n) := tsub_le_tsub_left h3 _
      _ = (1 - ε ^ l) * μ (without j l p n) := by
          rw [ENNReal.sub_mul (fun _ _ => measure_ne_top _ _), one_mul]
      _ ≤ (1 - ε ^ l) * (1 - ε ^ l) ^ n := by gcongr
      _ = _ := by rw [pow_succ]; ring

theorem ae_rich (hε : ε ≠ 0) (h : Lively ε μ) : ∀ᵐ t ∂μ, Rich t := by
  have key : ∀ (j : Fin 6) (l p : Nat), ∀ᵐ t ∂μ, ∃ q, p ≤ q ∧ ∀ i < l, t (q + i) % 6 = j.1 := by
    intro j l p
    have h0 : μ (⋂ n, without j.1 l p n) = 0 := by
      have h1 : Tendsto (fun n : Nat => (1 - ε ^ l) ^ n) atTop (nhds 0) :=
        ENNReal.tendsto_pow_atTop_nhds_zero_of_lt_one (ENNReal.sub_lt_self (by simp) (by simp) (pow_ne_zero _ hε))
      refine le_antisymm (ge_of_tendsto' h1 fun n => ?_) bot_le
      exact (measure_mono (Set.iInter_subset _ n)).trans (without_prob h j.2 l p n)
    rw [ae_iff]
    refine measure_mono_null ?_ h0
    intro t ht
    rw [Set.mem_iInter]
    intro n m hm he
    exact ht ⟨p + l * m, by omega, he⟩
  have : ∀ᵐ t ∂μ, ∀ (j : Fin 6) (l p : Nat), ∃ q, p ≤ q ∧ ∀ i < l, t (q + i) % 6 = j.1 := by
    rw [ae_all_iff]; intro j
    rw [ae_all_iff]; intro l
    rw [ae_all_iff]; intro p
    exact key j l p
  filter_upwards [this] with t ht j hj
  exact ht ⟨j, hj⟩

/-! ## Independent draws -/

/-- The tapes that begin with `w`. -/
def cyl (n : Nat) (w : Fin n → Nat) : Set Tape := {t | ∀ i : Fin n, t i = w i}

/-- Independent draws from the same distribution are lively, if every residue is possible. -/
theorem lively_iid (ν : Measure Nat) [IsProbabilityMeasure ν] (hν : ∀ j < 6, ε ≤ ν {x | x % 6 = j}) :
    Lively ε (Measure.infinitePi (fun _ : Nat => ν) : Measure Tape) := by
  intro n A hA j hj
  have hcyl : ∀ w, MeasurableSet (cyl n w) := by
    intro w
    have : cyl n w = ⋂ i : Fin n, (fun t : Tape => t i) ⁻¹' {w i} := by
      ext t
      simp [cyl]
    rw [this]
    exact MeasurableSet.iInter fun i => (measurable_pi_apply _) .of_discrete
  have hS : MeasurableSet {t : Tape | t n % 6 = j} := 
    show MeasurableSet ((fun t : Tape => t n) ⁻¹' {x : Nat | x % 6 = j}) from (measurable_pi_apply (X := fun _ : Nat => Nat) n) .of_discrete
  have hdis : Pairwise (Function.onFun Disjoint (cyl n)) := by
    intro w w' hne
    rw [Function.onFun, Set.disjoint_left]
    intro t h1 h2
    exact hne (funext fun i => (h1 i).symm.trans (h2 i))
  have hU : A = ⋃ w : { w // (fun i => if h : i < n then w ⟨i, h⟩ else 0 : Tape) ∈ A }, cyl n w.1 := by
    ext t
    rw [Set.mem_iUnion]
    constructor
    · intro ht
      refine ⟨⟨fun i => t i, (hA _ _ fun i hi => ?_).2 ht⟩, fun i => rfl⟩
      exact dif_pos hi
    · rintro ⟨⟨w, hw⟩, ht⟩
      refine (hA _ _ fun i hi => ?_).2 hw
      rw [dif_pos hi]
      exact ht ⟨i, hi⟩
  have hone : ∀ w, (Measure.infinitePi (fun _ : Nat => ν) : Measure Tape) (cyl n w ∩ {t | t n % 6 = j}) =
      (Measure.infinitePi (fun _ : Nat => ν) : Measure Tape) (cyl n w) * ν {x | x % 6 = j} := by
    intro w
    have e1 : cyl n w = Set.pi (Finset.range n) (fun i => if h : i < n then {w ⟨i, h⟩} else Set.univ) := by
      ext t
      simp only [cyl, Set.mem_ofPred_eq, Set.mem_pi, Finset.coe_range, Set.mem_Iio]
      constructor
      · intro h1 i hi
        rw [dif_pos hi]
        exact h1 ⟨i, hi⟩
      · intro h1 i
        have := h1 i.1 i.2
        rw [dif_pos i.2] at this
        exact this
    have e2 : cyl n w ∩ {t | t n % 6 = j} =
        Set.pi (Finset.range (n + 1)) (fun i => if h : i < n then {w ⟨i, h⟩} else {x | x % 6 = j}) := by
      ext t
      simp only [cyl, Set.mem_inter_iff, Set.mem_ofPred_eq, Set.mem_pi, Finset.coe_range, Set.mem_Iio]
      constructor
      · rintro ⟨h1, h2⟩ i hi
        by_cases hi' : i < n
        · rw [dif_pos hi']
          exact h1 ⟨i, hi'⟩
        · rw [dif_neg hi']
          rwa [show i = n by omega]
      · intro h1
        refine ⟨fun i => ?_, ?_⟩
        · have := h1 i.1 (by omega)
          rw [dif_pos i.2] at this
          exact this
        · have := h1 n (by omega)
          rwa [dif_neg (by omega)] at this
    rw [e1, ← e1, e2, Measure.infinitePi_pi _ (fun _ _ => .of_discrete), e1, Measure.infinitePi_pi _ (fun _ _ => .of_discrete),
      Finset.prod_range_succ, dif_neg (by omega)]
    congr 1
    refine Finset.prod_congr rfl fun i hi => ?_
    rw [Finset.mem_range] at hi
    rw [dif_pos hi, dif_pos hi]
  have h1 : (Measure.infinitePi (fun _ : Nat => ν) : Measure Tape) (A ∩ {t | t n % 6 = j}) =
      (Measure.infinitePi (fun _ : Nat => ν) : Measure Tape) A * ν {x | x % 6 = j} := by
    have hsub : Pairwise (Function.onFun Disjoint fun w : { w // (fun i => if h : i < n then w ⟨i, h⟩ else 0 : Tape) ∈ A } => cyl n w.1) :=
      fun w w' hne => hdis fun e => hne (Subtype.ext e)
    rw [hU, Set.iUnion_inter, measure_iUnion (fun w w' hne => (hsub hne).mono Set.inter_subset_left Set.inter_subset_left)
      (fun w => (hcyl _).inter hS), measure_iUnion hsub (fun w => hcyl _), ← ENNReal.tsum_mul_right]
    exact tsum_congr fun w => hone w.1
  rw [h1, mul_comm]
  gcongr
  exact hν j hj

end DieE.Luck
