import Verif.Luck
import Mathlib.Probability.ProbabilityMassFunction.Monad
import Mathlib.Probability.ProbabilityMassFunction.Constructions

/-!
# Distributions of results

If the numbers of the tape are drawn independently from one distribution `ν`, a computation that reads finitely many of
them has a distribution of results.  `Prog` is the decision tree of such a computation, `law` the distribution of its
results, and `prob_eq` says that this is the probability under the product measure on tapes.
-/

namespace DieE.Prob
open DieE MeasureTheory
variable {α β : Type}

/-- A computation that reads numbers one after the other. -/
inductive Prog (α : Type) where
  /-- finished -/
  | done (a : α)
  /-- reads the next number -/
  | read (f : ℕ → Prog α)

/-- The tape without its first number. -/
def tail (t : Tape) : Tape := fun n => t (n + 1)

/-- Runs on a tape. -/
def Prog.run : Prog α → Tape → α × Tape
  | .done a, t => (a, t)
  | .read f, t => (f (t 0)).run (tail t)

/-- Distribution of the results, if the numbers read are independent with distribution `ν`. -/
noncomputable def Prog.law (ν : PMF ℕ) : Prog α → PMF α
  | .done a => PMF.pure a
  | .read f => ν.bind fun n => (f n).law ν

/-- The tape of independent numbers with distribution `ν`. -/
noncomputable def iid (ν : PMF ℕ) : Measure Tape := Measure.infinitePi fun _ : ℕ => ν.toMeasure

instance (ν : PMF ℕ) : IsProbabilityMeasure (iid ν) := by unfold iid; infer_instance

/-- A tape from its first number and the others. -/
def cons (p : ℕ × Tape) : Tape
  | 0 => p.1
  | n + 1 => p.2 n

theorem cons_measurable : Measurable cons := by
  refine measurable_pi_iff.2 fun n => ?_
  cases n with
  | zero => exact measurable_fst
  | succ n => exact (measurable_pi_apply n).comp measurable_snd

theorem tail_measurable : Measurable tail := measurable_pi_iff.2 fun n => measurable_pi_apply (n + 1)

theorem tail_cons (p : ℕ × Tape) : tail (cons p) = p.2 := rfl

/-- The first number is independent of the others, which are distributed like the whole tape. -/
theorem iid_cons (ν : PMF ℕ) : (ν.toMeasure.prod (iid ν)).map cons = iid ν := by
  refine Measure.eq_infinitePi (μ := fun _ : ℕ => ν.toMeasure) fun s A hA => ?_
  rw [Measure.map_apply cons_measurable (.pi s.countable_toSet fun i _ => hA i)]
  have hpre : cons ⁻¹' (Set.pi s A) = (if 0 ∈ s then A 0 else Set.univ) ×ˢ
      (Set.pi ((s.erase 0).image Nat.pred) fun i => A (i + 1)) := by
    ext p
    simp only [Set.mem_preimage, Set.mem_pi, Set.mem_prod, Finset.mem_coe, Finset.mem_image, Finset.mem_erase]
    constructor
    · intro h
      refine ⟨?_, ?_⟩
      · split
        · next h0 => exact h 0 h0
        · trivial
      · rintro i ⟨j, ⟨hj, hs⟩, rfl⟩
        obtain ⟨k, rfl⟩ := Nat.exists_eq_succ_of_ne_zero hj
        exact h _ hs
    · rintro ⟨h1, h2⟩ i hi
      cases i with
      | zero => rw [if_pos hi] at h1; exact h1
      | succ k => exact h2 k ⟨k + 1, ⟨by omega, hi⟩, rfl⟩
  rw [hpre, Measure.prod_prod]
  unfold iid
  rw [Measure.infinitePi_pi _ fun i _ => hA (i + 1)]
  rw [Finset.prod_image]
  · have e : ∏ x ∈ s.erase 0, ν.toMeasure (A (x.pred + 1)) = ∏ x ∈ s.erase 0, ν.toMeasure (A x) :=
      Finset.prod_congr rfl fun x hx => by rw [Nat.pred_eq_sub_one, Nat.sub_add_cancel (Nat.pos_of_ne_zero (Finset.ne_of_mem_erase hx))]
    rw [e]
    by_cases h0 : 0 ∈ s
    · rw [if_pos h0, Finset.mul_prod_erase s (fun x => ν.toMeasure (A x)) h0]
    · rw [if_neg h0, measure_univ, one_mul, Finset.erase_eq_of_notMem h0]
  · intro a ha b hb e
    have ha := Finset.ne_of_mem_erase ha
    have hb := Finset.ne_of_mem_erase hb
    simp only [Nat.pred_eq_sub_one] at e
    omega

theorem run_measurable (T : Prog α) (A : Set α) : MeasurableSet {t | (T.run t).1 ∈ A} := by
  induction T with
  | done a =>
    by_cases h : a ∈ A
    · exact (show {t : Tape | ((Prog.done a).run t).1 ∈ A} = Set.univ from Set.eq_univ_of_forall fun _ => h) ▸ MeasurableSet.univ
    · exact (show {t : Tape | ((Prog.done a).run t).1 ∈ A} = ∅ from Set.eq_empty_of_forall_notMem fun _ => h) ▸ MeasurableSet.empty
  | read f ih =>
    have : {t : Tape | ((Prog.read f).run t).1 ∈ A} = ⋃ n : ℕ, {t | t 0 = n} ∩ tail ⁻¹' {t | ((f n).run t).1 ∈ A} := by
      ext t
      simp [Prog.run]
    rw [this]
    exact .iUnion fun n => ((measurable_pi_apply 0 : Measurable fun t : Tape => t 0) (measurableSet_singleton n)).inter (tail_measurable (ih n))

/-- The distribution of the results is their probability on random tapes. -/
theorem run_prob (ν : PMF ℕ) (T : Prog α) (A : Set α) : iid ν {t | (T.run t).1 ∈ A} = (T.law ν).toOuterMeasure A := by
  classical
  induction T with
  | done a =>
    rw [Prog.law, PMF.toOuterMeasure_pure_apply]
    by_cases h : a ∈ A
    · rw [if_pos h, show {t : Tape | ((Prog.done a).run t).1 ∈ A} = Set.univ from Set.eq_univ_of_forall fun _ => h, measure_univ]
    · rw [if_neg h, show {t : Tape | ((Prog.done a).run t).1 ∈ A} = ∅ from Set.eq_empty_of_forall_notMem fun _ => h, measure_empty]
  | read f ih =>
    rw [Prog.law, PMF.toOuterMeasure_bind_apply]
    conv_lhs => rw [← iid_cons]
    rw [Measure.map_apply cons_measurable (run_measurable _ _), Measure.prod_apply (cons_measurable (run_measurable _ _))]
    have e : ∀ n, iid ν (Prod.mk n ⁻¹' (cons ⁻¹' {t | ((Prog.read f).run t).1 ∈ A})) = ((f n).law ν).toOuterMeasure A := by
      intro n
      rw [← ih n]
      rfl
    simp_rw [e]
    rw [lintegral_countable']
    refine tsum_congr fun n => ?_
    rw [PMF.toMeasure_apply_singleton _ _ (measurableSet_singleton n), mul_comm]

/-- Results that have positive probability occur. -/
theorem support_run (ν : PMF ℕ) (T : Prog α) {a : α} (h : a ∈ (T.law ν).support) : ∃ t, (T.run t).1 = a := by
  induction T with
  | done b =>
    rw [Prog.law, PMF.mem_support_pure_iff] at h
    exact ⟨fun _ => 0, h.symm⟩
  | read f ih =>
    rw [Prog.law, PMF.mem_support_bind_iff] at h
    obtain ⟨n, -, h⟩ := h
    obtain ⟨t, ht⟩ := ih n h
    exact ⟨cons (n, t), ht⟩

/-- Goes on with the result unless there was a panic. -/
def Prog.andThen (g : α → Prog (Res β)) : Prog (Res α) → Prog (Res β)
  | .done (.ok a) => g a
  | .done (.error e) => .done (.error e)
  | .read f => .read fun n => (f n).andThen g

/-- The distribution of a computation that goes on. -/
noncomputable def andThen (p : PMF (Res α)) (q : α → PMF (Res β)) : PMF (Res β) := p.bind fun
  | .ok a => q a
  | .error e => PMF.pure (.error e)

theorem law_andThen (ν : PMF ℕ) (T : Prog (Res α)) (g : α → Prog (Res β)) :
    (T.andThen g).law ν = andThen (T.law ν) fun a => (g a).law ν := by
  unfold andThen
  induction T with
  | done r =>
    cases r with
    | ok a => rw [Prog.law, PMF.pure_bind]; rfl
    | error e => rw [Prog.law, PMF.pure_bind]; rfl
  | read f ih =>
    rw [Prog.law, PMF.bind_bind]
    show ν.bind (fun n => ((f n).andThen g).law ν) = _
    congr 1
    funext n
    exact ih n

/-- The decision tree of a computation. -/
def Rep (m : M α) (T : Prog (Res α)) : Prop := ∀ t, m t = (T.run t).1.map fun a => (a, (T.run t).2)

/-- The distribution of the results of a computation. -/
def Law (ν : PMF ℕ) (m : M α) (p : PMF (Res α)) : Prop := ∃ T, Rep m T ∧ T.law ν = p

/-- The result of a computation without the rest of the tape. -/
def value (m : M α) (t : Tape) : Res α := (m t).map Prod.fst

/-- The computation reads finitely many numbers. -/
def Short (m : M α) : Prop := ∃ T, Rep m T

theorem Rep.value {m : M α} {T : Prog (Res α)} (h : Rep m T) (t : Tape) : value m t = (T.run t).1 := by
  unfold Prob.value
  rw [h t]
  cases (T.run t).1 <;> rfl

/-- The probabilities of the results on a random tape. -/
theorem Law.prob {ν : PMF ℕ} {m : M α} {p : PMF (Res α)} (h : Law ν m p) (A : Set (Res α)) :
    iid ν {t | value m t ∈ A} = p.toOuterMeasure A := by
  obtain ⟨T, h1, rfl⟩ := h
  rw [← run_prob]
  congr 1
  ext t
  show value m t ∈ A ↔ (T.run t).1 ∈ A
  rw [h1.value]

theorem Law.unique {ν : PMF ℕ} {m : M α} {p q : PMF (Res α)} (h : Law ν m p) (h' : Law ν m q) : p = q := by
  apply PMF.toOuterMeasure_injective
  ext A
  rw [← h.prob, ← h'.prob]

theorem Law.support {ν : PMF ℕ} {m : M α} {p : PMF (Res α)} (h : Law ν m p) {r : Res α} (hr : r ∈ p.support) :
    ∃ t, value m t = r := by
  obtain ⟨T, h1, rfl⟩ := h
  obtain ⟨t, ht⟩ := support_run ν T hr
  exact ⟨t, (h1.value t).trans ht⟩

theorem Law.short {ν : PMF ℕ} {m : M α} {p : PMF (Res α)} (h : Law ν m p) : Short m := h.imp fun _ => And.left

theorem Short.law {m : M α} (h : Short m) (ν : PMF ℕ) : ∃ p, Law ν m p := h.elim fun T hT => ⟨_, T, hT, rfl⟩

theorem rep_bind {m : M α} {T : Prog (Res α)} {f : α → M β} {g : α → Prog (Res β)} (h : Rep m T) (h' : ∀ a, Rep (f a) (g a)) :
    Rep (m >>= f) (T.andThen g) := by
  have key : ∀ (T : Prog (Res α)) (t : Tape), (match ((T.run t).1.map fun a => (a, (T.run t).2) : Res (α × Tape)) with
      | .error e => .error e
      | .ok (a, t') => f a t') = (((T.andThen g).run t).1.map fun b => (b, ((T.andThen g).run t).2) : Res (β × Tape)) := by
    intro T
    induction T with
    | done r =>
      intro t
      cases r with
      | ok a => exact h' a t
      | error e => rfl
    | read k ih => exact fun t => ih (t 0) (tail t)
  intro t
  rw [← key T t, ← h t]
  rfl

theorem law_bind {ν : PMF ℕ} {m : M α} {p : PMF (Res α)} {f : α → M β} {q : α → PMF (Res β)} (h : Law ν m p)
    (h' : ∀ a, Law ν (f a) (q a)) : Law ν (m >>= f) (andThen p q) := by
  obtain ⟨T, h1, rfl⟩ := h
  choose g h2 h3 using h'
  exact ⟨T.andThen g, rep_bind h1 h2, by rw [law_andThen]; simp_rw [h3]⟩

theorem law_pure (ν : PMF ℕ) (a : α) : Law ν (pure a : M α) (PMF.pure (.ok a)) := ⟨.done (.ok a), fun _ => rfl, rfl⟩

theorem law_lift (ν : PMF ℕ) (r : Res α) : Law ν (M.lift r) (PMF.pure r) :=
  ⟨.done r, fun t => by cases r <;> rfl, rfl⟩

theorem law_fail (ν : PMF ℕ) (e : Panic) : Law ν (M.fail e : M α) (PMF.pure (.error e)) := ⟨.done (.error e), fun _ => rfl, rfl⟩

theorem law_draw (ν : PMF ℕ) : Law ν M.draw (ν.bind fun n => PMF.pure (.ok n)) := ⟨.read fun n => .done (.ok n), fun _ => rfl, rfl⟩

theorem Short.bind {m : M α} {f : α → M β} (h : Short m) (h' : ∀ a, Short (f a)) : Short (m >>= f) := by
  obtain ⟨T, h1⟩ := h
  choose g h2 using h'
  exact ⟨_, rep_bind h1 h2⟩

theorem short_pure (a : α) : Short (pure a : M α) := ⟨.done (.ok a), fun _ => rfl⟩
theorem short_lift (r : Res α) : Short (M.lift r) := ⟨.done r, fun t => by cases r <;> rfl⟩
theorem short_draw : Short M.draw := ⟨.read fun n => .done (.ok n), fun _ => rfl⟩
theorem short_die : Short M.die := short_draw.bind fun _ => short_pure _
theorem short_choose (l : List α) : Short (M.choose l) := by
  cases l with
  | nil => exact short_pure none
  | cons a l => exact short_draw.bind fun _ => short_pure _

/-- Two computations with the same distribution of results, whatever the distribution of the numbers. -/
def Same (m m' : M α) : Prop := ∀ ν, ∃ p, Law ν m p ∧ Law ν m' p

theorem Same.symm {m m' : M α} (h : Same m m') : Same m' m := fun ν => (h ν).imp fun _ => And.symm

theorem Same.trans {m m' m'' : M α} (h : Same m m') (h' : Same m' m'') : Same m m'' := by
  intro ν
  obtain ⟨p, h1, h2⟩ := h ν
  obtain ⟨q, h3, h4⟩ := h' ν
  rw [h2.unique h3] at h1
  exact ⟨q, h1, h4⟩

theorem Short.same {m : M α} (h : Short m) : Same m m := fun ν => (h.law ν).imp fun _ h => ⟨h, h⟩

theorem Same.short {m m' : M α} (h : Same m m') : Short m := let ⟨_, h1, _⟩ := h (PMF.pure 0); h1.short

theorem bind_congr_support {γ δ : Type} (p : PMF γ) {q q' : γ → PMF δ} (h : ∀ a ∈ p.support, q a = q' a) : p.bind q = p.bind q' := by
  ext b
  rw [PMF.bind_apply, PMF.bind_apply]
  refine tsum_congr fun a => ?_
  by_cases ha : a ∈ p.support
  · rw [h a ha]
  · rw [PMF.mem_support_iff, not_not] at ha
    rw [ha, zero_mul, zero_mul]

/-- Going on in the same way, for the results that can occur. -/
theorem Same.bind {m m' : M α} {f f' : α → M β} (h : Same m m') {P : α → Prop}
    (hP : ∀ t a t', m t = .ok (a, t') → P a) (hf : ∀ a, Short (f a)) (hf' : ∀ a, Short (f' a)) (hs : ∀ a, P a → Same (f a) (f' a)) :
    Same (m >>= f) (m' >>= f') := by
  intro ν
  obtain ⟨p, h1, h2⟩ := h ν
  choose q hq using fun a => (hf a).law ν
  choose q' hq' using fun a => (hf' a).law ν
  refine ⟨_, law_bind h1 hq, ?_⟩
  have e : andThen p q = andThen p q' := by
    unfold andThen
    refine bind_congr_support p fun r hr => ?_
    cases r with
    | error e => rfl
    | ok a =>
      obtain ⟨t, ht⟩ := h1.support hr
      have : P a := by
        unfold value at ht
        cases hm : m t with
        | error e => rw [hm] at ht; cases ht
        | ok x =>
          rw [hm] at ht
          cases ht
          exact hP t x.1 x.2 hm
      obtain ⟨s, g1, g2⟩ := hs a this ν
      exact ((hq a).unique g1).trans (g2.unique (hq' a))
  rw [e]
  exact law_bind h2 hq'

/-- A computation that always returns and whose result does not matter can be left out. -/
theorem Same.skip {m : M α} {f : α → M β} {m' : M β} (hm : Short m) {P : α → Prop}
    (hP : ∀ t, ∃ a t', m t = .ok (a, t') ∧ P a) (hf : ∀ a, Short (f a)) (hs : ∀ a, P a → Same (f a) m') (h' : Short m') :
    Same (m >>= f) m' := by
  intro ν
  obtain ⟨p, h1⟩ := hm.law ν
  obtain ⟨c, h2⟩ := h'.law ν
  choose q hq using fun a => (hf a).law ν
  refine ⟨c, ?_, h2⟩
  have e : andThen p q = c := by
    unfold andThen
    rw [← PMF.bind_const p c]
    refine bind_congr_support p fun r hr => ?_
    obtain ⟨t, ht⟩ := h1.support hr
    obtain ⟨a, t', h3, h4⟩ := hP t
    unfold value at ht
    rw [h3] at ht
    cases ht
    obtain ⟨s, g1, g2⟩ := hs a h4 ν
    exact ((hq a).unique g1).trans (g2.unique h2)
  rw [← e]
  exact law_bind h1 hq

/-- The probabilities of all results are the same. -/
theorem Same.prob {m m' : M α} (h : Same m m') (ν : PMF ℕ) (A : Set (Res α)) :
    iid ν {t | value m t ∈ A} = iid ν {t | value m' t ∈ A} := by
  obtain ⟨p, h1, h2⟩ := h ν
  rw [h1.prob, h2.prob]

/-- A distribution in which all numbers occur. -/
theorem exists_full : ∃ ν : PMF ℕ, ∀ n, n ∈ ν.support := by
  have h : ∑' n : ℕ, (2⁻¹ : ENNReal) ^ n = 2 := by rw [ENNReal.tsum_geometric, ENNReal.one_sub_inv_two, inv_inv]
  refine ⟨PMF.normalize (fun n : ℕ => (2⁻¹ : ENNReal) ^ n) (by rw [h]; exact two_ne_zero) (by rw [h]; exact ENNReal.ofNat_ne_top), fun n => ?_⟩
  rw [PMF.mem_support_normalize_iff]
  exact pow_ne_zero _ (ENNReal.inv_ne_zero.2 ENNReal.ofNat_ne_top)

theorem run_support {ν : PMF ℕ} (hν : ∀ n, n ∈ ν.support) (T : Prog α) (t : Tape) : (T.run t).1 ∈ (T.law ν).support := by
  induction T generalizing t with
  | done a => rw [Prog.law, PMF.mem_support_pure_iff]; rfl
  | read f ih => rw [Prog.law, PMF.mem_support_bind_iff]; exact ⟨t 0, hν _, ih _ _⟩

/-- The possible results are the same. -/
theorem Same.possible {m m' : M α} (h : Same m m') (t : Tape) : ∃ t', value m' t' = value m t := by
  obtain ⟨ν, hν⟩ := exists_full
  obtain ⟨p, ⟨T, h1, rfl⟩, h2⟩ := h ν
  refine h2.support ?_
  rw [h1.value]
  exact run_support hν T t

end DieE.Prob
