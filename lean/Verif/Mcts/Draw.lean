import Verif.Mcts.Probs
import Mathlib.Algebra.Order.BigOperators.Group.List
import Mathlib.Algebra.Order.Field.Basic

/-!
# Drawing an index

`weighted_select_tensor_idx` (alphazero.rs:129-137) hands the entries of the tempered row to `WeightedIndex::new` of the
crate `rand` (version 0.8) and samples.  `Probs.lean` models this by a choice among the entries that are not zero.  Here
the two functions of the crate are modelled as they are written, so that probabilities can be stated.  The numbers are
those of an ordered field: rounding is not modelled.  `none` is NaN.
-/

namespace DieE.Mcts
open DieE

/-- `WeightedError` of `rand` 0.8, as far as `WeightedIndex::new` uses it. -/
inductive WeightedError
  | noItem
  | invalidWeight
  | allWeightsZero
  deriving DecidableEq

/-- The fields of `WeightedIndex` of `rand` 0.8: the running totals before each item but the first, and the total. -/
structure WeightedIndex (K : Type) where
  cumulative : List K
  total : K
  deriving DecidableEq

variable {K : Type} [LinearOrder K] [Zero K] [Add K]

/-- The loop of `WeightedIndex::new` (alphazero.rs:135 calls it): each further weight is checked (`!(w >= 0)` holds for
NaN), the total so far is pushed, and the weight added. -/
def accumulate : List K → K → List (Option K) → Except WeightedError (WeightedIndex K)
  | acc, total, [] => if total = 0 then .error .allWeightsZero else .ok ⟨acc, total⟩
  | _, _, none :: _ => .error .invalidWeight
  | acc, total, some w :: ws => if 0 ≤ w then accumulate (acc ++ [total]) (total + w) ws else .error .invalidWeight

/-- `WeightedIndex::new` (alphazero.rs:135 calls it). -/
def weightedIndexNew : List (Option K) → Except WeightedError (WeightedIndex K)
  | [] => .error .noItem
  | none :: _ => .error .invalidWeight
  | some w :: ws => if 0 ≤ w then accumulate [] w ws else .error .invalidWeight

/-- `binary_search_by` of the standard library, if no element compares equal: the position is between `l` and `r`. -/
def bisect (less : Nat → Bool) (l r : Nat) : Nat :=
  if l < r then
    if less (l + (r - l) / 2) then bisect less (l + (r - l) / 2 + 1) r else bisect less l (l + (r - l) / 2)
  else l
termination_by r - l

/-- `WeightedIndex::sample` (alphazero.rs:136 calls it); `x` is the number drawn from `[0, total)`. -/
def WeightedIndex.sample (d : WeightedIndex K) (x : K) : Nat :=
  bisect (fun j => decide (d.cumulative.getD j 0 ≤ x)) 0 d.cumulative.length

theorem bisect_spec {less : Nat → Bool} (hm : ∀ i j, i ≤ j → less j = true → less i = true) (l r : Nat) (h : l ≤ r) :
    l ≤ bisect less l r ∧ bisect less l r ≤ r ∧ (∀ i, l ≤ i → i < bisect less l r → less i = true) ∧
      ∀ i, bisect less l r ≤ i → i < r → less i = false := by
  induction hn : r - l using Nat.strongRecOn generalizing l r with
  | ind n ih =>
    unfold bisect
    by_cases hlr : l < r
    · rw [if_pos hlr]
      have hmid : l + (r - l) / 2 < r := by omega
      by_cases hle : less (l + (r - l) / 2) = true
      · rw [if_pos hle]
        obtain ⟨h1, h2, h3, h4⟩ := ih (r - (l + (r - l) / 2 + 1)) (by omega) (l + (r - l) / 2 + 1) r (by omega) rfl
        refine ⟨by omega, h2, ?_, h4⟩
        intro i hi hi'
        by_cases hc : i ≤ l + (r - l) / 2
        · exact hm _ _ hc hle
        · exact h3 i (by omega) hi'
      · rw [if_neg hle]
        obtain ⟨h1, h2, h3, h4⟩ := ih (l + (r - l) / 2 - l) (by omega) l (l + (r - l) / 2) (by omega) rfl
        refine ⟨h1, by omega, h3, ?_⟩
        intro i hi hi'
        by_cases hc : i < l + (r - l) / 2
        · exact h4 i hi hc
        · exact Bool.eq_false_iff.2 fun hh => hle (hm _ _ (by omega) hh)
    · rw [if_neg hlr]
      exact ⟨Nat.le_refl _, h, fun i h1 h2 => absurd h2 (by omega), fun i h1 h2 => absurd h2 (by omega)⟩

end DieE.Mcts

namespace DieE.Mcts
variable {K : Type} [Field K] [LinearOrder K] [IsStrictOrderedRing K]

/-- The sum of the first `k` weights. -/
def before (l : List K) (k : Nat) : K := (l.take k).sum

theorem accumulate_ok {acc : List K} {total : K} {ws : List (Option K)} {d : WeightedIndex K} :
    accumulate acc total ws = .ok d ↔ ∃ l : List K, ws = l.map some ∧ (∀ w ∈ l, 0 ≤ w) ∧ total + l.sum ≠ 0 ∧
      d = ⟨acc ++ (List.range l.length).map (fun k => total + before l k), total + l.sum⟩ := by
  induction ws generalizing acc total with
  | nil =>
    unfold accumulate
    constructor
    · intro h
      split at h
      · cases h
      · rename_i h0
        injection h with h
        exact ⟨[], rfl, by simp, by simpa using h0, by rw [← h]; simp⟩
    · rintro ⟨l, h1, -, h3, rfl⟩
      obtain rfl : l = [] := List.map_eq_nil_iff.1 h1.symm
      rw [if_neg (by simpa using h3)]
      simp
  | cons w ws ih =>
    cases w with
    | none =>
      unfold accumulate
      constructor
      · intro h; cases h
      · rintro ⟨l, h1, -⟩
        cases l with
        | nil => cases h1
        | cons a l => simp at h1
    | some w =>
      unfold accumulate
      have key : ∀ l : List K, acc ++ (List.range (w :: l).length).map (fun k => total + before (w :: l) k) =
          acc ++ [total] ++ (List.range l.length).map (fun k => total + w + before l k) := by
        intro l
        rw [List.length_cons, List.range_succ_eq_map]
        simp [before, add_assoc, Function.comp_def]
      constructor
      · intro h
        split at h
        · rename_i h0
          obtain ⟨l, h1, h2, h3, h4⟩ := ih.1 h
          refine ⟨w :: l, by rw [h1]; rfl, ?_, ?_, ?_⟩
          · intro v hv
            rcases List.mem_cons.1 hv with rfl | hv
            · exact h0
            · exact h2 v hv
          · rw [List.sum_cons, ← add_assoc]; exact h3
          · rw [h4, key, List.sum_cons, ← add_assoc]
        · cases h
      · rintro ⟨l, h1, h2, h3, rfl⟩
        cases l with
        | nil => cases h1
        | cons a l =>
          simp only [List.map_cons, List.cons.injEq, Option.some.injEq] at h1
          obtain ⟨rfl, h1⟩ := h1
          rw [if_pos (h2 w (List.mem_cons_self ..))]
          refine ih.2 ⟨l, h1, fun v hv => h2 v (List.mem_cons_of_mem _ hv), ?_, ?_⟩
          · rw [List.sum_cons, ← add_assoc] at h3; exact h3
          · rw [key, List.sum_cons, ← add_assoc]

/-- `WeightedIndex::new` succeeds exactly on non-empty lists of non-negative weights that are not all zero. -/
theorem weightedIndexNew_ok {ws : List (Option K)} {d : WeightedIndex K} :
    weightedIndexNew ws = .ok d ↔ ∃ l : List K, ws = l.map some ∧ l ≠ [] ∧ (∀ w ∈ l, 0 ≤ w) ∧ l.sum ≠ 0 ∧
      d = ⟨(List.range (l.length - 1)).map (fun k => before l (k + 1)), l.sum⟩ := by
  unfold weightedIndexNew
  split
  · constructor
    · intro h; cases h
    · rintro ⟨l, h1, h2, -⟩
      exact absurd (List.map_eq_nil_iff.1 h1.symm) h2
  · constructor
    · intro h; cases h
    · rintro ⟨l, h1, -⟩
      cases l with
      | nil => cases h1
      | cons a l => simp at h1
  · rename_i w ws
    constructor
    · intro h
      split at h
      · rename_i h0
        obtain ⟨l, h1, h2, h3, h4⟩ := accumulate_ok.1 h
        refine ⟨w :: l, by rw [h1]; rfl, by simp, ?_, ?_, ?_⟩
        · intro v hv
          rcases List.mem_cons.1 hv with rfl | hv
          · exact h0
          · exact h2 v hv
        · rw [List.sum_cons]; exact h3
        · rw [h4]; simp [before]
      · cases h
    · rintro ⟨l, h1, -, h2, h3, rfl⟩
      cases l with
      | nil => cases h1
      | cons a l =>
        simp only [List.map_cons, List.cons.injEq, Option.some.injEq] at h1
        obtain ⟨rfl, h1⟩ := h1
        rw [if_pos (h2 w (List.mem_cons_self ..))]
        refine accumulate_ok.2 ⟨l, h1, fun v hv => h2 v (List.mem_cons_of_mem _ hv), ?_, ?_⟩
        · rw [List.sum_cons] at h3; exact h3
        · simp [before]

theorem before_mono {l : List K} (h : ∀ w ∈ l, 0 ≤ w) {i j : Nat} (hij : i ≤ j) : before l i ≤ before l j := by
  unfold before
  obtain ⟨k, rfl⟩ := Nat.exists_eq_add_of_le hij
  rw [List.take_add, List.sum_append]
  exact le_add_of_nonneg_right (List.sum_nonneg fun w hw => h w (List.mem_of_mem_drop (List.mem_of_mem_take hw)))

theorem before_succ {l : List K} {i : Nat} {w : K} (h : l[i]? = some w) : before l (i + 1) = before l i + w := by
  unfold before
  rw [List.take_add_one, h, List.sum_append]
  simp

/-- Which index is drawn: the one whose interval contains the number. -/
theorem sample_iff {ws : List (Option K)} {d : WeightedIndex K} {l : List K} (hl : ws = l.map some)
    (h : weightedIndexNew ws = .ok d) {x : K} (h0 : 0 ≤ x) (h1 : x < d.total) (i : Nat) :
    d.sample x = i ↔ i < l.length ∧ before l i ≤ x ∧ x < before l (i + 1) := by
  obtain ⟨l', e1, e2, e3, -, rfl⟩ := weightedIndexNew_ok.1 h
  obtain rfl : l' = l := by
    have := e1.symm.trans hl
    exact List.map_injective_iff.2 (Option.some_injective K) this
  clear e1
  have hpos : 0 < l'.length := List.length_pos_iff.2 e2
  set d : WeightedIndex K := ⟨(List.range (l'.length - 1)).map (fun k => before l' (k + 1)), l'.sum⟩ with hd
  have hlen : d.cumulative.length = l'.length - 1 := by simp [hd]
  have hget : ∀ j, j < l'.length - 1 → d.cumulative.getD j 0 = before l' (j + 1) := by
    intro j hj
    simp [hd, List.getD_eq_getElem?_getD, hj]
  have hfull : before l' l'.length = l'.sum := by simp [before]
  have hx : x < before l' l'.length := by rw [hfull]; exact h1
  -- outside the list `bisect` does not look: compare with a monotone predicate
  have hcongr : ∀ (p q : Nat → Bool) (a b : Nat), (∀ j, a ≤ j → j < b → p j = q j) → bisect p a b = bisect q a b := by
    intro p q a b
    induction hn : b - a using Nat.strongRecOn generalizing a b with
    | ind n ih =>
      intro hpq
      unfold bisect
      by_cases hab : a < b
      · rw [if_pos hab, if_pos hab, hpq _ (by omega) (by omega),
          ih (b - (a + (b - a) / 2 + 1)) (by omega) _ _ rfl fun j k1 k2 => hpq j (by omega) k2,
          ih (a + (b - a) / 2 - a) (by omega) _ _ rfl fun j k1 k2 => hpq j k1 (by omega)]
      · rw [if_neg hab, if_neg hab]
  have hs : d.sample x = bisect (fun j => decide (before l' (j + 1) ≤ x)) 0 (l'.length - 1) := by
    unfold WeightedIndex.sample
    rw [hlen]
    refine hcongr _ _ _ _ ?_
    intro j _ hj
    rw [hget j hj]
  rw [hs]
  obtain ⟨-, k2, k3, k4⟩ := bisect_spec (less := fun j => decide (before l' (j + 1) ≤ x)) (by
    intro i j hij h
    exact decide_eq_true (le_trans (before_mono e3 (by omega)) (of_decide_eq_true h))) 0 (l'.length - 1) (by omega)
  generalize bisect (fun j => decide (before l' (j + 1) ≤ x)) 0 (l'.length - 1) = r at k2 k3 k4
  have hr : before l' r ≤ x ∧ x < before l' (r + 1) := by
    constructor
    · cases r with
      | zero => simpa [before] using h0
      | succ r => exact of_decide_eq_true (k3 r (by omega) (by omega))
    · by_cases hlt : r < l'.length - 1
      · exact not_le.1 (of_decide_eq_false (k4 r (Nat.le_refl _) hlt))
      · rw [show r + 1 = l'.length by omega]; exact hx
  constructor
  · rintro rfl
    exact ⟨by omega, hr⟩
  · rintro ⟨g1, g2, g3⟩
    by_contra hne
    rcases Nat.lt_or_gt_of_ne hne with hlt | hlt
    · exact absurd (lt_of_lt_of_le hr.2 (before_mono e3 (show r + 1 ≤ i by omega))) (not_lt.2 g2)
    · exact absurd (lt_of_lt_of_le g3 (before_mono e3 (show i + 1 ≤ r by omega))) (not_lt.2 hr.1)

/-- A number is drawn by some `x` exactly if its weight is positive. -/
theorem sample_support {l : List K} {d : WeightedIndex K} (h : weightedIndexNew (l.map some) = .ok d) (i : Nat) :
    (∃ x, 0 ≤ x ∧ x < d.total ∧ d.sample x = i) ↔ ∃ w, l[i]? = some w ∧ 0 < w := by
  obtain ⟨l', e1, e2, e3, -, e5⟩ := weightedIndexNew_ok.1 h
  obtain rfl : l = l' := List.map_injective_iff.2 (Option.some_injective K) e1
  constructor
  · rintro ⟨x, h0, h1, hs⟩
    obtain ⟨g1, g2, g3⟩ := (sample_iff rfl h h0 h1 i).1 hs
    refine ⟨l[i], List.getElem?_eq_getElem g1, ?_⟩
    rw [before_succ (List.getElem?_eq_getElem g1)] at g3
    exact lt_of_add_lt_add_left (a := before l i) (by rw [add_zero]; exact lt_of_le_of_lt g2 g3)
  · rintro ⟨w, hw, hp⟩
    have hi := (List.getElem?_eq_some_iff.1 hw).1
    have h0 : 0 ≤ before l i := List.sum_nonneg fun v hv => e3 v (List.mem_of_mem_take hv)
    have hlt : before l i < before l (i + 1) := by rw [before_succ hw]; exact lt_add_of_pos_right _ hp
    have h1 : before l i < d.total := by
      refine lt_of_lt_of_le hlt ?_
      rw [e5]
      have : before l l.length = l.sum := by simp [before]
      rw [← this]
      exact before_mono e3 (by omega)
    exact ⟨before l i, h0, h1, (sample_iff rfl h h0 h1 i).2 ⟨hi, le_refl _, hlt⟩⟩

end DieE.Mcts
