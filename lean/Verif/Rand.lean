import Mathlib.Probability.Distributions.Uniform
import Mathlib.Algebra.Order.BigOperators.Group.Finset
import Verif.Prob

/-!
# Drawing numbers from a range

The code draws dice with `gen_range(1..=6)` (backgammon_logic.rs:101-102), moves with `choose` (node.rs:189, versus.rs:311)
and shuffles the training data with `shuffle` (alphazero.rs:203-204).  The rest of the model reads one number per draw and
takes a remainder.  Here the functions of the crate `rand` (version 0.8, as in `Cargo.toml`; written down from its
documented algorithm, the crate itself is not part of the repository) are modelled on a source of 32-bit words: widening
multiplication with rejection.
-/

namespace DieE.Rand
open DieE DieE.Prob MeasureTheory

/-- The number of 32-bit words. -/
def words : Nat := 2 ^ 32

/-- `zone` in `UniformInt::sample_single_inclusive` for types of at most 16 bits: `u32::MAX - (u32::MAX - range + 1) % range`. -/
def zoneSmall (range : Nat) : Nat := (words - 1) - (words - 1 - range + 1) % range

/-- `leading_zeros` of a `u32`. -/
def leadingZeros (x : Nat) : Nat := 31 - Nat.log2 x

/-- `zone` for `u32`: `(range << range.leading_zeros()).wrapping_sub(1)`. -/
def zoneWord (range : Nat) : Nat := (range * 2 ^ leadingZeros range % words + (words - 1)) % words

/-- The type drawn: at most 16 bits, or `u32`. -/
inductive Kind
  /-- `i8` -/
  | small
  /-- `u32` -/
  | word

/-- `zone` in `sample_single_inclusive`. -/
def zone : Kind → Nat → Nat
  | .small => zoneSmall
  | .word => zoneWord

/-- One pass of the loop in `sample_single_inclusive`: `(hi, lo) = v.wmul(range)`, accepted if `lo <= zone`. -/
def accept (k : Kind) (range v : Nat) : Option Nat :=
  if v * range % words ≤ zone k range then some (v * range / words) else none

/-- The loop: words are read until one is accepted; gives the result and the remaining words. -/
inductive Loop (acc : Nat → Option Nat) : Tape → Nat → Tape → Prop
  | hit {t : Tape} {h : Nat} : acc (t 0) = some h → Loop acc t h (tail t)
  | miss {t t' : Tape} {h : Nat} : acc (t 0) = none → Loop acc (tail t) h t' → Loop acc t h t'

/-- A computation that draws numbers from ranges. -/
inductive Ask (α : Type) where
  /-- finished -/
  | done (a : α)
  /-- draws a number from `0..=n` with `sample_single_inclusive` -/
  | ask (k : Kind) (n : Nat) (f : Nat → Ask α)

variable {α β : Type}

/-- The computation gives the result when it reads these words. -/
inductive Ran : Ask α → Tape → α → Prop
  | done {a : α} {t : Tape} : Ran (.done a) t a
  | ask {k : Kind} {n : Nat} {f : Nat → Ask α} {t t' : Tape} {h : Nat} {a : α} : Loop (accept k (n + 1)) t h t' → Ran (f h) t' a →
      Ran (.ask k n f) t a

/-- The two dice of `roll_die`, backgammon_logic.rs:100-104: `gen_range(1..=6)` is `1` plus a number from `0..=5`. -/
def dice : Ask (Int × Int) := .ask .small 5 fun a => .ask .small 5 fun b => .done ((a : Int) + 1, (b : Int) + 1)

/-- `SliceRandom::choose`, node.rs:189 and versus.rs:311: `None` for the empty slice, otherwise the element at
`gen_index(len)`, which is `gen_range(0..len as u32)` (slices of less than `2^32` elements). -/
def choose (l : List α) : Ask (Option α) :=
  match l with
  | [] => .done none
  | a :: l' => .ask .word l'.length fun i => .done (some ((a :: l').getD i a))

/-- `swap` of a slice. -/
def swap (l : List α) (i j : Nat) : List α :=
  match l[i]?, l[j]? with
  | some a, some b => (l.set i b).set j a
  | _, _ => l

/-- The loop of `SliceRandom::shuffle`, `for i in (1..len).rev() { self.swap(i, gen_index(rng, i + 1)) }`, from `i` on. -/
def shuffleFrom : Nat → List α → Ask (List α)
  | 0, l => .done l
  | i + 1, l => .ask .word (i + 1) fun j => shuffleFrom i (swap l (i + 1) j)

/-- `SliceRandom::shuffle`, alphazero.rs:203-204. -/
def shuffle (l : List α) : Ask (List α) := shuffleFrom (l.length - 1) l

/-! ## The loop -/

theorem Loop.unique {acc : Nat → Option Nat} {t t1 t2 : Tape} {h1 h2 : Nat} (a : Loop acc t h1 t1) (b : Loop acc t h2 t2) :
    h1 = h2 ∧ t1 = t2 := by
  induction a with
  | hit h =>
    cases b with
    | hit h' => rw [h] at h'; exact ⟨Option.some.inj h', rfl⟩
    | miss h' _ => rw [h] at h'; cases h'
  | miss h _ ih =>
    cases b with
    | hit h' => rw [h] at h'; cases h'
    | miss _ h' => exact ih h'

/-- The words from which the loop gives `h` and leaves words in `B`. -/
def Gives (acc : Nat → Option Nat) (h : Nat) (B : Set Tape) : Set Tape := {t | ∃ t', Loop acc t h t' ∧ t' ∈ B}

theorem gives_eq (acc : Nat → Option Nat) (h : Nat) (B : Set Tape) :
    Gives acc h B = {t | acc (t 0) = some h ∧ tail t ∈ B} ∪ {t | acc (t 0) = none ∧ tail t ∈ Gives acc h B} := by
  ext t
  constructor
  · rintro ⟨t', h1, h2⟩
    cases h1 with
    | hit h1 => exact .inl ⟨h1, h2⟩
    | miss h1 h3 => exact .inr ⟨h1, t', h3, h2⟩
  · rintro (⟨h1, h2⟩ | ⟨h1, t', h2, h3⟩)
    · exact ⟨_, .hit h1, h2⟩
    · exact ⟨t', .miss h1 h2, h3⟩

/-- The words of which the `n`-th is the first accepted one. -/
def tries (acc : Nat → Option Nat) (h : Nat) (B : Set Tape) : Nat → Set Tape
  | 0 => {t | acc (t 0) = some h ∧ tail t ∈ B}
  | n + 1 => {t | acc (t 0) = none ∧ tail t ∈ tries acc h B n}

theorem gives_measurable (acc : Nat → Option Nat) (h : Nat) {B : Set Tape} (hB : MeasurableSet B) : MeasurableSet (Gives acc h B) := by
  have h0 : ∀ (P : Nat → Prop), MeasurableSet {t : Tape | P (t 0)} := fun P =>
    (measurable_pi_apply 0 : Measurable fun t : Tape => t 0) (MeasurableSet.of_discrete (s := {n | P n}))
  have hE : ∀ n, MeasurableSet (tries acc h B n) := by
    intro n
    induction n with
    | zero => exact (h0 fun n => acc n = some h).inter (tail_measurable hB)
    | succ n ih => exact (h0 fun n => acc n = none).inter (tail_measurable ih)
  have : Gives acc h B = ⋃ n, tries acc h B n := by
    ext t
    rw [Set.mem_iUnion]
    constructor
    · rintro ⟨t', h1, h2⟩
      clear hE
      induction h1 with
      | hit h1 => exact ⟨0, h1, h2⟩
      | miss h1 _ ih =>
        obtain ⟨n, hn⟩ := ih h2
        exact ⟨n + 1, h1, hn⟩
    · rintro ⟨n, hn⟩
      induction n generalizing t with
      | zero => exact ⟨_, .hit hn.1, hn.2⟩
      | succ n ih =>
        obtain ⟨t', h2, h3⟩ := ih _ hn.2
        exact ⟨t', .miss hn.1 h2, h3⟩
  rw [this]
  exact .iUnion hE

theorem head_prob (ν : PMF ℕ) (P : Nat → Prop) {B : Set Tape} (hB : MeasurableSet B) :
    iid ν {t | P (t 0) ∧ tail t ∈ B} = ν.toMeasure {n | P n} * iid ν B := by
  have hm : MeasurableSet {t : Tape | P (t 0) ∧ tail t ∈ B} :=
    ((measurable_pi_apply 0 : Measurable fun t : Tape => t 0) (MeasurableSet.of_discrete (s := {n | P n}))).inter
      (tail_measurable hB)
  conv_lhs => rw [← iid_cons]
  rw [Measure.map_apply cons_measurable hm]
  have : cons ⁻¹' {t : Tape | P (t 0) ∧ tail t ∈ B} = {n | P n} ×ˢ B := by
    ext p
    rfl
  rw [this, Measure.prod_prod]

/-- The chance of a result of the loop is its chance among the accepted words; the remaining words are like the words at
the start. -/
theorem loop_prob (ν : PMF ℕ) (acc : Nat → Option Nat) (h : Nat) {B : Set Tape} (hB : MeasurableSet B) :
    ν.toMeasure {n | acc n ≠ none} * iid ν (Gives acc h B) = ν.toMeasure {n | acc n = some h} * iid ν B := by
  have hG := gives_measurable acc h hB
  have e : iid ν (Gives acc h B) =
      ν.toMeasure {n | acc n = some h} * iid ν B + ν.toMeasure {n | acc n = none} * iid ν (Gives acc h B) := by
    conv_lhs => rw [gives_eq]
    rw [measure_union, head_prob ν (fun n => acc n = some h) hB, head_prob ν (fun n => acc n = none) hG]
    · rw [Set.disjoint_left]
      rintro t ⟨h1, -⟩ ⟨h2, -⟩
      rw [h1] at h2
      cases h2
    · exact ((measurable_pi_apply 0 : Measurable fun t : Tape => t 0)
        (MeasurableSet.of_discrete (s := {n | acc n = none}))).inter (tail_measurable hG)
  have hc : ν.toMeasure {n | acc n ≠ none} + ν.toMeasure {n | acc n = none} = 1 := by
    rw [← measure_union (by rw [Set.disjoint_left]; intro n h1 h2; exact h1 h2) MeasurableSet.of_discrete]
    rw [show {n | acc n ≠ none} ∪ {n | acc n = none} = Set.univ from Set.eq_univ_of_forall fun n => by
      by_cases h : acc n = none
      · exact .inr h
      · exact .inl h]
    exact measure_univ
  have e2 : ν.toMeasure {n | acc n ≠ none} * iid ν (Gives acc h B) + ν.toMeasure {n | acc n = none} * iid ν (Gives acc h B) =
      ν.toMeasure {n | acc n = some h} * iid ν B + ν.toMeasure {n | acc n = none} * iid ν (Gives acc h B) := by
    rw [← add_mul, hc, one_mul]
    exact e
  exact (ENNReal.add_left_inj (ENNReal.mul_ne_top (measure_ne_top _ _) (measure_ne_top _ _))).1 e2

/-! ## Counting the accepted words -/

theorem accept_iff {k : Kind} {r m v h : Nat} (hz : zone k r + 1 = r * m) (hw : r * m ≤ words) :
    accept k r v = some h ↔ h * words ≤ v * r ∧ v * r < h * words + r * m := by
  unfold accept
  have hd := Nat.div_add_mod (v * r) words
  have hW : 0 < words := by decide
  have hl := Nat.mod_lt (v * r) hW
  constructor
  · intro h1
    split at h1
    · rename_i h2
      have h3 := Option.some.inj h1
      rw [h3, Nat.mul_comm] at hd
      omega
    · cases h1
  · rintro ⟨h1, h2⟩
    have h3 : v * r / words = h := Nat.div_eq_of_lt_le h1 (by rw [Nat.add_mul, Nat.one_mul]; omega)
    rw [h3, Nat.mul_comm] at hd
    rw [if_pos (by omega), h3]

theorem accept_lt {k : Kind} {r v h : Nat} (hr : 0 < r) (hv : v < words) (ha : accept k r v = some h) : h < r := by
  unfold accept at ha
  split at ha
  · rw [← Option.some.inj ha]
    exact Nat.div_lt_of_lt_mul (Nat.mul_lt_mul_of_pos_right hv hr)
  · cases ha

/-- Each result comes from the same number of words. -/
theorem accept_card {k : Kind} {r m h : Nat} (hz : zone k r + 1 = r * m) (hw : r * m ≤ words) (hr : 0 < r) (hh : h < r) :
    ((Finset.range words).filter fun v => accept k r v = some h).card = m := by
  have : ((Finset.range words).filter fun v => accept k r v = some h) =
      Finset.Ico ((h * words + (r - 1)) / r) ((h * words + (r - 1)) / r + m) := by
    ext v
    rw [Finset.mem_filter, Finset.mem_range, Finset.mem_Ico, accept_iff hz hw, ← Nat.add_mul_div_left _ _ hr]
    have c1 : (h * words + (r - 1)) / r ≤ v ↔ h * words ≤ v * r := by
      rw [Nat.div_le_iff_le_mul_add_pred hr, Nat.mul_comm r v]
      omega
    have c2 : v < (h * words + (r - 1) + r * m) / r ↔ v * r < h * words + r * m := by
      rw [Nat.lt_iff_add_one_le, Nat.le_div_iff_mul_le hr, Nat.add_mul, Nat.one_mul]
      omega
    rw [c1, c2]
    constructor
    · exact fun h => h.2
    · intro h'
      refine ⟨?_, h'⟩
      by_contra hv
      have h1 : words * r ≤ v * r := Nat.mul_le_mul_right _ (by omega)
      have h2 : (h + 1) * words ≤ r * words := Nat.mul_le_mul_right _ hh
      rw [Nat.add_mul, Nat.one_mul] at h2
      rw [Nat.mul_comm] at h1
      omega
  rw [this, Nat.card_Ico]
  omega

/-- The number of words per result. -/
theorem zone_spec (k : Kind) {r : Nat} (hr : 0 < r) (hw : r < words) : ∃ m, 0 < m ∧ zone k r + 1 = r * m ∧ r * m ≤ words := by
  cases k with
  | small =>
    refine ⟨words / r, Nat.div_pos hw.le hr, ?_, Nat.mul_div_le _ _⟩
    show zoneSmall r + 1 = _
    unfold zoneSmall
    have h1 := Nat.div_add_mod words r
    have h2 := Nat.mod_lt words hr
    have h3 : (words - 1 - r + 1) % r = words % r := by
      rw [show words - 1 - r + 1 = words - r by omega, ← Nat.mod_eq_sub_mod hw.le]
    rw [h3]
    omega
  | word =>
    refine ⟨2 ^ leadingZeros r, Nat.two_pow_pos _, ?_⟩
    have hl : Nat.log2 r < 32 := (Nat.log2_lt (by omega)).2 hw
    have h1 : r * 2 ^ leadingZeros r < words := by
      have h2 : r < 2 ^ (Nat.log2 r + 1) := (Nat.log2_lt (by omega)).1 (Nat.lt_succ_self _)
      calc r * 2 ^ leadingZeros r < 2 ^ (Nat.log2 r + 1) * 2 ^ leadingZeros r := Nat.mul_lt_mul_of_pos_right h2 (Nat.two_pow_pos _)
        _ = words := by
          rw [← Nat.pow_add]
          unfold leadingZeros words
          congr 1
          omega
    refine ⟨?_, h1.le⟩
    have h3 : 0 < r * 2 ^ leadingZeros r := Nat.mul_pos hr (Nat.two_pow_pos _)
    show zoneWord r + 1 = _
    unfold zoneWord
    rw [Nat.mod_eq_of_lt h1, show r * 2 ^ leadingZeros r + (words - 1) = r * 2 ^ leadingZeros r - 1 + words by omega,
      Nat.add_mod_right, Nat.mod_eq_of_lt (by omega)]
    omega

/-! ## Probabilities -/

theorem words_nonempty : (Finset.range words).Nonempty := Finset.nonempty_range_iff.2 (by decide)

/-- A uniformly distributed word. -/
noncomputable def uniform : PMF ℕ := PMF.uniformOfFinset (Finset.range words) words_nonempty

theorem uniform_prob (P : Nat → Prop) [DecidablePred P] :
    uniform.toMeasure {n | P n} = ((Finset.range words).filter P).card / (words : ENNReal) := by
  rw [PMF.toMeasure_apply_eq_toOuterMeasure_apply _ MeasurableSet.of_discrete]
  unfold uniform
  rw [PMF.toOuterMeasure_uniformOfFinset_apply, Finset.card_range]
  refine congrArg (fun x : ℕ => (x : ENNReal) / (words : ENNReal)) (congrArg _ ?_)
  ext v
  simp only [Finset.mem_filter, Set.mem_ofPred_eq]

theorem accepted_prob {k : Kind} {r m : Nat} (hz : zone k r + 1 = r * m) (hw : r * m ≤ words) (hr : 0 < r) :
    uniform.toMeasure {v | accept k r v ≠ none} = (r * m : Nat) / (words : ENNReal) := by
  rw [uniform_prob]
  refine congrArg (fun x : ℕ => (x : ENNReal) / (words : ENNReal)) ?_
  have : ((Finset.range words).filter fun v => accept k r v ≠ none) =
      (Finset.range r).biUnion fun h => (Finset.range words).filter fun v => accept k r v = some h := by
    ext v
    simp only [Finset.mem_filter, Finset.mem_biUnion, Finset.mem_range]
    constructor
    · rintro ⟨h1, h2⟩
      obtain ⟨x, hx⟩ := Option.ne_none_iff_exists'.1 h2
      exact ⟨x, accept_lt hr h1 hx, h1, hx⟩
    · rintro ⟨x, h1, h2, h3⟩
      exact ⟨h2, by rw [h3]; simp⟩
  rw [this, Finset.card_biUnion, Finset.sum_congr rfl fun h hh => accept_card hz hw hr (Finset.mem_range.1 hh),
    Finset.sum_const, Finset.card_range, smul_eq_mul]
  intro x _ y _ hxy
  refine Finset.disjoint_left.2 ?_
  intro v hv hv'
  rw [Finset.mem_filter] at hv hv'
  rw [hv.2] at hv'
  exact hxy (Option.some.inj hv'.2)

theorem words_ne_zero : (words : ENNReal) ≠ 0 := by
  rw [Nat.cast_ne_zero]
  decide

theorem words_ne_top : (words : ENNReal) ≠ ⊤ := ENNReal.natCast_ne_top _

/-- The loop gives no number outside the range. -/
theorem draw_none (k : Kind) {n h : Nat} (hn : n + 1 < words) (hh : n < h) {B : Set Tape} (hB : MeasurableSet B) :
    iid uniform (Gives (accept k (n + 1)) h B) = 0 := by
  obtain ⟨m, hm, hz, hw⟩ := zone_spec k (Nat.succ_pos n) hn
  have e := loop_prob uniform (accept k (n + 1)) h hB
  have h1 : uniform.toMeasure {v | accept k (n + 1) v = some h} = 0 := by
    rw [uniform_prob, Finset.filter_false_of_mem, Finset.card_empty, Nat.cast_zero, ENNReal.zero_div]
    intro v hv ha
    have := accept_lt (Nat.succ_pos n) (Finset.mem_range.1 hv) ha
    omega
  rw [h1, accepted_prob hz hw (Nat.succ_pos n), zero_mul] at e
  refine (mul_eq_zero.1 e).resolve_left (ENNReal.div_ne_zero.2 ⟨?_, words_ne_top⟩)
  rw [Nat.cast_ne_zero]
  exact (Nat.mul_pos (Nat.succ_pos n) hm).ne'

/-- The loop gives every number of the range with the same probability, whatever happens to the remaining words. -/
theorem draw_prob (k : Kind) {n h : Nat} (hn : n + 1 < words) (hh : h ≤ n) {B : Set Tape} (hB : MeasurableSet B) :
    iid uniform (Gives (accept k (n + 1)) h B) = (n + 1 : ENNReal)⁻¹ * iid uniform B := by
  obtain ⟨m, hm, hz, hw⟩ := zone_spec k (Nat.succ_pos n) hn
  have e := loop_prob uniform (accept k (n + 1)) h hB
  have h1 : uniform.toMeasure {v | accept k (n + 1) v = some h} = m / (words : ENNReal) := by
    rw [uniform_prob, accept_card hz hw (Nat.succ_pos n) (by omega)]
  rw [h1, accepted_prob hz hw (Nat.succ_pos n)] at e
  have hW := words_ne_zero
  have hWt := words_ne_top
  have hm0 : (m : ENNReal) ≠ 0 := by
    rw [Nat.cast_ne_zero]
    omega
  have hn0 : ((n + 1 : Nat) : ENNReal) ≠ 0 := by
    rw [Nat.cast_ne_zero]
    omega
  have hq : (m : ENNReal) / words ≠ 0 := ENNReal.div_ne_zero.2 ⟨hm0, hWt⟩
  have hqt : (m : ENNReal) / words ≠ ⊤ := ENNReal.div_ne_top (ENNReal.natCast_ne_top _) hW
  have e2 : (m : ENNReal) / words * (((n + 1 : Nat) : ENNReal) * iid uniform (Gives (accept k (n + 1)) h B)) =
      m / words * iid uniform B := by
    rw [← e, Nat.cast_mul, ← mul_assoc]
    congr 1
    rw [mul_div_assoc, mul_comm]
  have e3 := (ENNReal.mul_right_inj hq hqt).1 e2
  rw [← e3, ← mul_assoc]
  push_cast at hn0 ⊢
  rw [ENNReal.inv_mul_cancel hn0 (by rw [← Nat.cast_one, ← Nat.cast_add]; exact ENNReal.natCast_ne_top _), one_mul]

/-! ## Computations -/

/-- All ranges are smaller than the words. -/
def Ask.Small : Ask α → Prop
  | .done _ => True
  | .ask _ n f => n + 1 < words ∧ ∀ h ≤ n, (f h).Small

/-- Distribution of the results, if every draw is uniform in its range. -/
noncomputable def Ask.law : Ask α → PMF α
  | .done a => PMF.pure a
  | .ask _ n f => (PMF.uniformOfFinset (Finset.range (n + 1)) (Finset.nonempty_range_iff.2 (Nat.succ_ne_zero n))).bind fun h => (f h).law

/-- The words for which the result is in `A`. -/
def Outcome (T : Ask α) (A : Set α) : Set Tape := {t | ∃ a, Ran T t a ∧ a ∈ A}

theorem outcome_ask (k : Kind) (n : Nat) (f : Nat → Ask α) (A : Set α) :
    Outcome (.ask k n f) A = ⋃ h : Nat, Gives (accept k (n + 1)) h (Outcome (f h) A) := by
  ext t
  rw [Set.mem_iUnion]
  constructor
  · rintro ⟨a, h1, h2⟩
    cases h1 with
    | ask h3 h4 => exact ⟨_, _, h3, _, h4, h2⟩
  · rintro ⟨h, t', h3, a, h4, h2⟩
    exact ⟨a, .ask h3 h4, h2⟩

theorem outcome_measurable (T : Ask α) (A : Set α) : MeasurableSet (Outcome T A) := by
  induction T with
  | done a =>
    by_cases h : a ∈ A
    · rw [show Outcome (.done a) A = Set.univ from Set.eq_univ_of_forall fun t => ⟨a, .done, h⟩]
      exact .univ
    · rw [show Outcome (.done a) A = ∅ from Set.eq_empty_of_forall_notMem fun t ⟨b, hb, hA⟩ => by cases hb; exact h hA]
      exact .empty
  | ask k n f ih =>
    rw [outcome_ask]
    exact .iUnion fun h => gives_measurable _ _ (ih h)

/-- With uniform words, the draws of `rand` are uniform and independent. -/
theorem ran_prob {T : Ask α} (hT : T.Small) (A : Set α) : iid uniform (Outcome T A) = T.law.toOuterMeasure A := by
  classical
  induction T with
  | done a =>
    rw [Ask.law, PMF.toOuterMeasure_pure_apply]
    by_cases h : a ∈ A
    · rw [if_pos h, show Outcome (.done a) A = Set.univ from Set.eq_univ_of_forall fun t => ⟨a, .done, h⟩, measure_univ]
    · rw [if_neg h, show Outcome (.done a) A = ∅ from Set.eq_empty_of_forall_notMem fun t ⟨b, hb, hA⟩ => by cases hb; exact h hA,
        measure_empty]
  | ask k n f ih =>
    rw [outcome_ask, measure_iUnion, Ask.law, PMF.toOuterMeasure_bind_apply]
    · refine tsum_congr fun h => ?_
      rw [PMF.uniformOfFinset_apply, Finset.card_range]
      by_cases hh : h ≤ n
      · rw [draw_prob k hT.1 hh (outcome_measurable _ _), ih h (hT.2 h hh), if_pos (Finset.mem_range.2 (by omega))]
        push_cast
        rfl
      · rw [if_neg (by rw [Finset.mem_range]; omega), zero_mul]
        exact draw_none k hT.1 (by omega) (outcome_measurable _ _)
    · intro x y hxy
      rw [Function.onFun, Set.disjoint_left]
      rintro t ⟨t1, h1, -⟩ ⟨t2, h2, -⟩
      exact hxy (h1.unique h2).1
    · exact fun h => gives_measurable _ _ (outcome_measurable _ _)

end DieE.Rand
