import Verif.Schedule

/-!
# Independent computations

A computation that runs several others, whose results are independent.
-/

namespace DieE.Prob
open DieE MeasureTheory
variable {α β : Type}

/-- The distribution of the results of independent computations with the given distributions, or of a panic. -/
noncomputable def joint : List (PMF (Res α)) → PMF (Option (List α))
  | [] => PMF.pure (some [])
  | q :: qs => q.bind fun r => match r with
    | .ok a => (joint qs).map (Option.map (a :: ·))
    | .error _ => PMF.pure none

theorem joint_done (as : List α) : joint (as.map fun a => PMF.pure (.ok a)) = PMF.pure (some as) := by
  induction as with
  | nil => rfl
  | cons a as ih =>
    rw [List.map_cons, joint, PMF.pure_bind]
    simp only
    rw [ih, PMF.pure_map]
    rfl

theorem joint_panic {qs : List (PMF (Res α))} {e : Panic} (h : PMF.pure (.error e) ∈ qs) : joint qs = PMF.pure none := by
  induction qs with
  | nil => cases h
  | cons q qs ih =>
    rw [joint]
    rcases List.mem_cons.1 h with h | h
    · rw [← h, PMF.pure_bind]
    · rw [ih h]
      refine Eq.trans ?_ (PMF.bind_const q (PMF.pure none))
      congr 1
      funext r
      cases r with
      | ok a => exact PMF.pure_map _ _
      | error e => rfl

theorem joint_bind {γ : Type} {qs : List (PMF (Res α))} {i : Nat} {p : PMF γ} {k : γ → PMF (Res α)} (h : qs[i]? = some (p.bind k)) :
    joint qs = p.bind fun x => joint (qs.set i (k x)) := by
  induction qs generalizing i with
  | nil => cases h
  | cons q qs ih =>
    cases i with
    | zero =>
      obtain rfl : q = p.bind k := Option.some.inj h
      simp only [List.set_cons_zero]
      rw [joint, PMF.bind_bind]
      rfl
    | succ i =>
      simp only [List.set_cons_succ, joint]
      rw [PMF.bind_comm]
      congr 1
      funext r
      cases r with
      | error e => rw [PMF.bind_const]
      | ok a =>
        simp only
        rw [ih (i := i) h, PMF.map_bind]

/-- The probabilities of independent results multiply. -/
theorem joint_prob (qs : List (PMF (Res α))) (As : List (Set α)) (h : As.length = qs.length) :
    (joint qs).toOuterMeasure {o | ∃ l, o = some l ∧ List.Forall₂ (fun a A => a ∈ A) l As} =
      (List.zipWith (fun (q : PMF (Res α)) A => q.toOuterMeasure {r | ∃ a ∈ A, r = .ok a}) qs As).prod := by
  induction qs generalizing As with
  | nil =>
    obtain rfl := List.length_eq_zero_iff.1 h
    rw [joint, PMF.toOuterMeasure_pure_apply, if_pos ⟨[], rfl, .nil⟩]
    rfl
  | cons q qs ih =>
    cases As with
    | nil => cases h
    | cons A As =>
      rw [List.zipWith_cons_cons, List.prod_cons, ← ih As (by simpa using h), joint, PMF.toOuterMeasure_bind_apply,
        PMF.toOuterMeasure_apply q, ← ENNReal.tsum_mul_right]
      refine tsum_congr fun r => ?_
      cases r with
      | error e =>
        rw [Set.indicator_of_notMem (by rintro ⟨_, _, h⟩; cases h), zero_mul, PMF.toOuterMeasure_pure_apply,
          if_neg (by rintro ⟨_, h, _⟩; cases h), mul_zero]
      | ok a =>
        simp only
        by_cases ha : a ∈ A
        · rw [Set.indicator_of_mem (show Except.ok a ∈ {r : Res α | ∃ a ∈ A, r = .ok a} from ⟨a, ha, rfl⟩), PMF.toOuterMeasure_map_apply]
          congr 2
          ext o
          cases o with
          | none => exact iff_of_false (fun ⟨_, h, _⟩ => nomatch h) (fun ⟨_, h, _⟩ => nomatch h)
          | some l =>
            constructor
            · rintro ⟨l', h1, h2⟩
              obtain rfl : a :: l = l' := Option.some.inj h1
              cases h2 with
              | cons _ h2 => exact ⟨l, rfl, h2⟩
            · rintro ⟨l', h1, h2⟩
              obtain rfl : l = l' := Option.some.inj h1
              exact ⟨a :: l, rfl, .cons ha h2⟩
        · rw [Set.indicator_of_notMem (by rintro ⟨_, h1, h2⟩; cases h2; exact ha h1), zero_mul, PMF.toOuterMeasure_map_apply]
          rw [show (Option.map (a :: ·) ⁻¹' {o | ∃ l, o = some l ∧ List.Forall₂ (fun a A => a ∈ A) l (A :: As)} : Set (Option (List α))) = ∅ from ?_]
          · simp
          · ext o
            refine iff_of_false ?_ (Set.notMem_empty _)
            rintro ⟨l, h1, h2⟩
            cases o with
            | none => cases h1
            | some l' =>
              obtain rfl : a :: l' = l := Option.some.inj h1
              cases h2 with
              | cons h2 _ => exact ha h2

/-- The results of `m` are those of the computations `F 0`, …, `F (n - 1)`, which are independent. -/
def Ind (n : Nat) (F : Nat → M α) (m : M (List α)) : Prop :=
  ∀ ν, ∃ p q, Law ν m p ∧ (∀ i, Law ν (F i) (q i)) ∧ p.map known = joint ((List.range n).map q)

theorem Ind.done (n : Nat) (g : Nat → α) {F : Nat → M α} (h : ∀ i, Short (F i)) (hF : ∀ i < n, F i = pure (g i)) :
    Ind n F (pure ((List.range n).map g)) := by
  intro ν
  choose q hq using fun i => (h i).law ν
  refine ⟨_, q, law_pure ν _, hq, ?_⟩
  have : (List.range n).map q = ((List.range n).map g).map fun a => PMF.pure (.ok a) := by
    rw [List.map_map]
    refine List.map_congr_left fun i hi => ?_
    have := hq i
    rw [hF i (List.mem_range.1 hi)] at this
    exact this.unique (law_pure ν _)
  rw [this, joint_done, PMF.pure_map]
  rfl

theorem Ind.fail {n : Nat} {F : Nat → M α} (h : ∀ i, Short (F i)) {i : Nat} (hi : i < n) {e : Panic} (hF : F i = M.fail e) (e' : Panic) :
    Ind n F (M.fail e') := by
  intro ν
  choose q hq using fun i => (h i).law ν
  refine ⟨_, q, law_fail ν e', hq, ?_⟩
  have : q i = PMF.pure (.error e) := by
    have := hq i
    rw [hF] at this
    exact this.unique (law_fail ν e)
  rw [joint_panic (e := e) (List.mem_map.2 ⟨i, List.mem_range.2 hi, this⟩), PMF.pure_map]
  rfl

theorem set_map_range (n : Nat) {γ : Type} (q q' : Nat → γ) (i : Nat) (x : γ) (hi : q' i = x) (hj : ∀ j, j ≠ i → q' j = q j) :
    ((List.range n).map q).set i x = (List.range n).map q' := by
  refine List.ext_getElem (by simp) fun j h1 h2 => ?_
  rw [List.getElem_set]
  split
  · next h => subst h; simp [hi]
  · next h => simp [hj j (Ne.symm h)]

/-- The next thing that happens is a part of the computation `F i`. -/
theorem Ind.seg {γ : Type} {n : Nat} {F : Nat → M α} {i : Nat} (hi : i < n) {m : M γ} {k : γ → M α} (hF : F i = m >>= k)
    (hm : Short m) (hk : ∀ a, Short (k a)) (hFs : ∀ j, Short (F j)) {T : γ → M (List α)} (hT : ∀ a, Short (T a))
    (h : ∀ a t t', m t = .ok (a, t') → Ind n (Function.update F i (k a)) (T a)) : Ind n F (m >>= T) := by
  intro ν
  obtain ⟨p, hp⟩ := hm.law ν
  choose qk hqk using fun a => (hk a).law ν
  choose Q hQ using fun a => (hT a).law ν
  choose q hq using fun j => (hFs j).law ν
  refine ⟨_, q, law_bind hp hQ, hq, ?_⟩
  have e : q i = andThen p qk := by
    have := hq i
    rw [hF] at this
    exact this.unique (law_bind hp hqk)
  rw [joint_bind (i := i) (p := p) (k := fun r => match r with
    | .ok a => qk a
    | .error e => PMF.pure (.error e)) (by
      rw [List.getElem?_map, List.getElem?_range hi, Option.map_some, e]; rfl)]
  unfold andThen
  rw [PMF.map_bind]
  refine bind_congr_support p fun r hr => ?_
  cases r with
  | error e =>
    rw [joint_panic (e := e) (List.mem_iff_getElem.2 ⟨i, by simpa using hi, by simp⟩), PMF.pure_map]
    rfl
  | ok a =>
    obtain ⟨t, ht⟩ := hp.support hr
    have : ∃ t', m t = .ok (a, t') := by
      unfold value at ht
      cases hmt : m t with
      | error e => rw [hmt] at ht; cases ht
      | ok x => rw [hmt] at ht; cases ht; exact ⟨x.2, rfl⟩
    obtain ⟨t', ht⟩ := this
    obtain ⟨p', q', h1, h2, h3⟩ := h a t t' ht ν
    rw [h1.unique (hQ a)] at h3
    show PMF.map known (Q a) = joint (List.set _ i (qk a))
    rw [h3]
    rw [set_map_range n q q' i (qk a)]
    · have := h2 i
      rw [Function.update_self] at this
      exact this.unique (hqk a)
    · intro j hj
      have := h2 j
      rw [Function.update_of_ne hj] at this
      exact this.unique (hq j)

theorem Ind.congr {n : Nat} {F F' : Nat → M α} {m : M (List α)} (h : Ind n F m) (hF : ∀ i < n, F' i = F i) (hs : ∀ i, Short (F' i)) :
    Ind n F' m := by
  intro ν
  obtain ⟨p, q, h1, h2, h3⟩ := h ν
  choose q' hq' using fun j => (hs j).law ν
  refine ⟨p, q', h1, hq', h3.trans ?_⟩
  congr 1
  refine List.map_congr_left fun i hi => ?_
  have := hq' i
  rw [hF i (List.mem_range.1 hi)] at this
  exact (h2 i).unique this

/-- The probabilities of the results multiply. -/
theorem Ind.prob {n : Nat} {F : Nat → M α} {m : M (List α)} (h : Ind n F m) (ν : PMF ℕ) (A : Nat → Set α) :
    iid ν {t | ∃ l, value m t = .ok l ∧ List.Forall₂ (fun a i => a ∈ A i) l (List.range n)} =
      ∏ i ∈ Finset.range n, iid ν {t | ∃ a ∈ A i, value (F i) t = .ok a} := by
  obtain ⟨p, q, h1, h2, h3⟩ := h ν
  have e1 : iid ν {t | ∃ l, value m t = .ok l ∧ List.Forall₂ (fun a i => a ∈ A i) l (List.range n)} =
      (p.map known).toOuterMeasure {o | ∃ l, o = some l ∧ List.Forall₂ (fun a B => a ∈ B) l ((List.range n).map A)} := by
    rw [PMF.toOuterMeasure_map_apply, ← h1.prob]
    congr 1
    ext t
    show (∃ l, value m t = .ok l ∧ _) ↔ ∃ l, known (value m t) = some l ∧ _
    refine exists_congr fun l => ?_
    rw [List.forall₂_map_right_iff]
    refine and_congr_left fun _ => ?_
    cases value m t with
    | ok b => exact ⟨fun h => by cases h; rfl, fun h => by cases h; rfl⟩
    | error e => exact iff_of_false (fun h => nomatch h) (fun h => nomatch h)
  rw [e1, h3, joint_prob _ _ (by simp), Finset.prod_eq_multiset_prod, Finset.range_val, Multiset.range, Multiset.map_coe,
    Multiset.prod_coe]
  congr 1
  refine List.ext_getElem (by simp) fun i h1 h2' => ?_
  simp only [List.getElem_zipWith, List.getElem_map, List.getElem_range]
  rw [← (h2 i).prob]
  rfl

end DieE.Prob
