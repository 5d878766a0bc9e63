import Verif.Props.Smooth
import Verif.Props.NetSpec
import Verif.Props.Trained

/-!
# C118: the first training step lowers the loss of its batch if the learning rate is small enough
-/

namespace DieE.Props.Ds
open DieE DieE.Mcts DieE.Train DieE.Net DieE.Props.Ad
open DieE.Props.N (realArith Built)
open DieE.Props.V (res_bind)
open DieE.Props.Tb (entry netW image)

/-! ## The statement -/

/-- The indices of a shape. -/
def indices : List ℕ → List (List ℕ)
  | [] => [[]]
  | d :: ds => (List.range d).flatMap fun i => (indices ds).map (i :: ·)

/-- The entries of the named variables. -/
def places (vs : VarStore ℝ) (names : List Name) : Finset (Name × List ℕ) :=
  (names.flatMap fun n => match vs.get n with
    | some t => (indices t.shape).map fun idx => (n, idx)
    | none => []).toFinset

/-- The named variables moved in direction `δ` by the factor `s`. -/
noncomputable def move (names : List Name) (vs : VarStore ℝ) (δ : Name → List ℕ → ℝ) (s : ℝ) : VarStore ℝ :=
  mapVars (fun n x => if n ∈ names then ⟨x.shape, fun idx => x.at' idx + s * δ n idx⟩ else x) vs

/-- A direction is zero outside of the entries. -/
def Supported (P : Finset (Name × List ℕ)) (δ : Name → List ℕ → ℝ) : Prop := ∀ n idx, (n, idx) ∉ P → δ n idx = 0

/-- `g` is the gradient of `L` with respect to the named variables: the derivative in each direction is the scalar product. -/
structure IsGradient (L : VarStore ℝ → ℝ) (names : List Name) (vs : VarStore ℝ) (g : Name → List ℕ → ℝ) : Prop where
  supp : Supported (places vs names) g
  deriv : ∀ δ, Supported (places vs names) δ →
    HasDerivAt (fun s => L (move names vs δ s)) (∑ q ∈ places vs names, g q.1 q.2 * δ q.1 q.2) 0

/-- Sum of the squares of the entries. -/
noncomputable def energy (names : List Name) (vs : VarStore ℝ) : ℝ := ∑ q ∈ places vs names, entry vs q.1 q.2 ^ 2

/-- Entries that do not exist are zero. -/
def Tidy (names : List Name) (vs : VarStore ℝ) : Prop := ∀ n ∈ names, ∀ idx, (n, idx) ∉ places vs names → entry vs n idx = 0

/-! ## The optimizer -/

theorem entries_entry (vs : VarStore ℝ) (n : Name) (idx : List ℕ) : entries (vs.get n) idx = entry vs n idx := by
  unfold entries entry
  cases vs.get n <;> rfl

/-- The direction of the first step. -/
noncomputable def firstDirection (wd : ℝ) (vs : VarStore ℝ) (g : Name → List ℕ → ℝ) (n : Name) (idx : List ℕ) : ℝ :=
  -((g n idx + wd * entry vs n idx) / (|g n idx + wd * entry vs n idx| + adamEps))

theorem stride_first (lr g : ℝ) : stride lr 1 (firstMoment 0 g) (secondMoment 0 g) = lr * (g / (|g| + adamEps)) := by
  unfold stride firstMoment secondMoment
  have e2 : beta2 * 0 + (1 - beta2) * (g * g) = (1 - beta2 ^ 1) * g ^ 2 := by ring
  have c2 : 0 < 1 - beta2 ^ 1 := corr2_pos (by decide)
  have c1 : 1 - beta1 ≠ 0 := by unfold beta1; norm_num
  rw [e2, Real.sqrt_mul c2.le, Real.sqrt_sq_eq_abs, mul_div_cancel_left₀ _ (Real.sqrt_pos.2 c2).ne', pow_one]
  have hd : |g| + adamEps ≠ 0 := (add_pos_of_nonneg_of_pos (abs_nonneg _) eps_pos).ne'
  field_simp
  ring

theorem adam_first (op : OptimizerParams) (names : List Name) (g : Name → List ℕ → ℝ) (vs : VarStore ℝ) :
    (adamStep op names g (.new vs)).vs = move names vs (firstDirection op.wd vs g) op.lr := by
  unfold adamStep move Weights.new
  simp only
  congr 1
  funext n x
  by_cases hn : n ∈ names
  · rw [if_pos hn, if_pos hn]
    congr 1
    funext idx
    show x.at' idx - stride op.lr (0 + 1) (firstMoment 0 (decayed op (entries (vs.get n) idx) (g n idx)))
      (secondMoment 0 (decayed op (entries (vs.get n) idx) (g n idx))) = _
    rw [Nat.zero_add, stride_first, entries_entry]
    unfold firstDirection decayed
    ring
  · rw [if_neg hn, if_neg hn]

theorem move_congr {names : List Name} {vs : VarStore ℝ} {δ δ' : Name → List ℕ → ℝ} (h : ∀ n ∈ names, ∀ idx, δ n idx = δ' n idx) (s : ℝ) :
    move names vs δ s = move names vs δ' s := by
  unfold move
  congr 1
  funext n x
  by_cases hn : n ∈ names
  · rw [if_pos hn, if_pos hn]
    congr 1
    funext idx
    rw [h n hn]
  · rw [if_neg hn, if_neg hn]

theorem get_move (names : List Name) (vs : VarStore ℝ) (δ : Name → List ℕ → ℝ) (s : ℝ) (n : Name) : (move names vs δ s).get n =
    (vs.get n).map fun x => if n ∈ names then ⟨x.shape, fun idx => x.at' idx + s * δ n idx⟩ else x := get_mapVars _ _ _

theorem places_move (names : List Name) (vs : VarStore ℝ) (δ : Name → List ℕ → ℝ) (s : ℝ) :
    places (move names vs δ s) names = places vs names := by
  unfold places
  congr 2
  funext n
  rw [get_move]
  cases h : vs.get n with
  | none => rfl
  | some t =>
    simp only [Option.map_some]
    split <;> rfl

theorem mem_places {vs : VarStore ℝ} {names : List Name} {n : Name} {idx : List ℕ} (h : (n, idx) ∈ places vs names) :
    n ∈ names ∧ ∃ t, vs.get n = some t := by
  unfold places at h
  rw [List.mem_toFinset, List.mem_flatMap] at h
  obtain ⟨m, hm, h⟩ := h
  cases hg : vs.get m with
  | none => rw [hg] at h; cases h
  | some t =>
    rw [hg] at h
    obtain ⟨i, -, e⟩ := List.mem_map.1 h
    obtain ⟨rfl, rfl⟩ := Prod.mk.inj e
    exact ⟨hm, t, hg⟩

theorem entry_move {names : List Name} {vs : VarStore ℝ} (δ : Name → List ℕ → ℝ) (s : ℝ) {n : Name} (hn : n ∈ names) {t : Tensor ℝ}
    (ht : vs.get n = some t) (idx : List ℕ) : entry (move names vs δ s) n idx = entry vs n idx + s * δ n idx := by
  unfold entry
  rw [get_move, ht]
  simp only [Option.map_some, if_pos hn]

theorem energy_deriv (names : List Name) (vs : VarStore ℝ) (δ : Name → List ℕ → ℝ) :
    HasDerivAt (fun s => energy names (move names vs δ s)) (∑ q ∈ places vs names, 2 * entry vs q.1 q.2 * δ q.1 q.2) 0 := by
  have h : (fun s => energy names (move names vs δ s)) = fun s => ∑ q ∈ places vs names, (entry vs q.1 q.2 + s * δ q.1 q.2) ^ 2 := by
    funext s
    unfold energy
    rw [places_move]
    refine Finset.sum_congr rfl fun q hq => ?_
    obtain ⟨h1, t, h2⟩ := mem_places hq
    rw [entry_move δ s h1 h2]
  rw [h]
  refine HasDerivAt.fun_sum fun q _ => ?_
  have := (((hasDerivAt_id (0 : ℝ)).mul_const (δ q.1 q.2)).const_add (entry vs q.1 q.2)).fun_pow 2
  simpa using this

/-- A function with a negative derivative decreases. -/
theorem lower {f : ℝ → ℝ} {d : ℝ} (h : HasDerivAt f d 0) (hd : d < 0) : ∃ r, 0 < r ∧ ∀ s, 0 < s → s < r → f s < f 0 := by
  have h1 := (hasDerivAt_iff_tendsto_slope.1 h).eventually (gt_mem_nhds hd)
  rw [eventually_nhdsWithin_iff, Metric.eventually_nhds_iff] at h1
  obtain ⟨r, hr, h1⟩ := h1
  refine ⟨r, hr, fun s hs hsr => ?_⟩
  have := h1 (y := s) (by rw [Real.dist_eq, sub_zero, abs_of_pos hs]; exact hsr) hs.ne'
  rw [slope_def_field, sub_zero, div_lt_iff₀ hs, zero_mul] at this
  linarith

/-- C118 for the optimizer: the first step lowers the loss plus `wd / 2` times the squares of the variables, for each loss with a
gradient, unless the gradient of this sum is zero. -/
theorem C118_optimizer {L : VarStore ℝ → ℝ} {names : List Name} {vs : VarStore ℝ} {g : Name → List ℕ → ℝ} {wd : ℝ}
    (hg : IsGradient L names vs g) (ht : wd = 0 ∨ Tidy names vs)
    (hne : ∃ q ∈ places vs names, g q.1 q.2 + wd * entry vs q.1 q.2 ≠ 0) : ∃ r, 0 < r ∧ ∀ lr, 0 < lr → lr < r →
      let vs' := (adamStep ⟨wd, lr⟩ names g (.new vs)).vs
      L vs' + wd / 2 * energy names vs' < L vs + wd / 2 * energy names vs := by
  set δ : Name → List ℕ → ℝ := fun n idx => if n ∈ names then firstDirection wd vs g n idx else 0 with hδ
  have hsupp : Supported (places vs names) δ := by
    intro n idx hn
    simp only [hδ]
    split
    · rename_i hm
      have h1 := hg.supp n idx hn
      have h2 : wd * entry vs n idx = 0 := by
        rcases ht with h | h
        · rw [h, zero_mul]
        · rw [h n hm idx hn, mul_zero]
      unfold firstDirection
      rw [h1, h2]
      simp
    · rfl
  have hd := (hg.deriv δ hsupp).add ((energy_deriv names vs δ).const_mul (wd / 2))
  have hneg : (∑ q ∈ places vs names, g q.1 q.2 * δ q.1 q.2) + wd / 2 * (∑ q ∈ places vs names, 2 * entry vs q.1 q.2 * δ q.1 q.2) < 0 := by
    have e : (∑ q ∈ places vs names, g q.1 q.2 * δ q.1 q.2) + wd / 2 * (∑ q ∈ places vs names, 2 * entry vs q.1 q.2 * δ q.1 q.2) =
        -∑ q ∈ places vs names, (g q.1 q.2 + wd * entry vs q.1 q.2) ^ 2 / (|g q.1 q.2 + wd * entry vs q.1 q.2| + adamEps) := by
      rw [Finset.mul_sum, ← Finset.sum_add_distrib, ← Finset.sum_neg_distrib]
      refine Finset.sum_congr rfl fun q hq => ?_
      have : δ q.1 q.2 = firstDirection wd vs g q.1 q.2 := if_pos (mem_places hq).1
      rw [this]
      unfold firstDirection
      ring
    rw [e, neg_lt_zero]
    obtain ⟨q, hq, hne⟩ := hne
    refine Finset.sum_pos' (fun q _ => ?_) ⟨q, hq, ?_⟩
    · have := eps_pos; positivity
    · have := eps_pos; positivity
  obtain ⟨r, hr, h⟩ := lower hd hneg
  refine ⟨r, hr, fun lr h1 h2 => ?_⟩
  have := h lr h1 h2
  have e0 : move names vs δ 0 = move names vs (fun _ _ => 0) 0 := by
    unfold move
    simp only [zero_mul]
  have e1 : move names vs δ 0 = vs := by
    unfold move mapVars
    simp only [zero_mul, add_zero]
    obtain ⟨l⟩ := vs
    simp only [ite_self, List.map_id']
  simp only [Pi.add_apply, e1] at this
  simp only [adam_first]
  rw [move_congr (δ' := δ) fun n hn idx => by simp only [hδ, if_pos hn]]
  exact this

end DieE.Props.Ds
