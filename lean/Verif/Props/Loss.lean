import Verif.Train.Loss
import Verif.Props.Data
import Verif.Props.Underflow
import Mathlib.Analysis.SpecialFunctions.Log.NegMulLog

/-! # C82, C83: the loss and its targets -/

namespace DieE.Props.Ls
open DieE.Props.S DieE.Props.A
open DieE DieE.Mcts DieE.Train DieE.Net
open DieE.Props.N (realArith Built)
open DieE.Props.V (res_bind)

/-! ## Gibbs' inequality -/

theorem total_congr {n : Nat} {f g : Nat → ℝ} (h : ∀ i, i < n → f i = g i) : total n f = total n g := by
  unfold total
  rw [List.map_congr_left fun i hi => h i (List.mem_range.1 hi)]

theorem total_add (n : Nat) (f g : Nat → ℝ) : total n (fun i => f i + g i) = total n f + total n g := by
  unfold total
  exact List.sum_map_add

theorem total_mul (n : Nat) (f : Nat → ℝ) (r : ℝ) : total n (fun i => f i * r) = total n f * r := by
  unfold total
  rw [List.sum_map_mul_right]

theorem total_nonneg {n : Nat} {f : Nat → ℝ} (h : ∀ i, i < n → 0 ≤ f i) : 0 ≤ total n f := by
  unfold total
  refine List.sum_nonneg ?_
  intro x hx
  obtain ⟨i, hi, rfl⟩ := List.mem_map.1 hx
  exact h i (List.mem_range.1 hi)

theorem total_eq_zero {n : Nat} {f : Nat → ℝ} (h : ∀ i, i < n → 0 ≤ f i) : total n f = 0 ↔ ∀ i, i < n → f i = 0 := by
  constructor
  · intro h0 i hi
    have h1 : f i ≤ total n f := by
      unfold total
      refine List.single_le_sum ?_ _ (List.mem_map_of_mem (List.mem_range.2 hi))
      intro x hx
      obtain ⟨j, hj, rfl⟩ := List.mem_map.1 hx
      exact h j (List.mem_range.1 hj)
    exact le_antisymm (h0 ▸ h1) (h i hi)
  · intro h0
    rw [total_congr h0]
    unfold total
    simp

/-- One term of Gibbs' inequality. -/
theorem gibbs_term {p q : ℝ} (hp : 0 ≤ p) (hq : 0 < q) :
    0 ≤ p * (Real.log p - Real.log q) - p + q ∧ (p * (Real.log p - Real.log q) - p + q = 0 ↔ q = p) := by
  rcases lt_or_eq_of_le hp with hp | hp
  · have hr : 0 < q / p := div_pos hq hp
    have hl : Real.log p - Real.log q = - Real.log (q / p) := by
      rw [Real.log_div hq.ne' hp.ne']; ring
    have hqp : q = p * (q / p) := by field_simp
    have he : p * (Real.log p - Real.log q) - p + q = p * (q / p - 1 - Real.log (q / p)) := by
      rw [hl]
      nlinarith [hqp]
    rw [he]
    constructor
    · exact mul_nonneg hp.le (by linarith [Real.log_le_sub_one_of_pos hr])
    · constructor
      · intro h
        rcases mul_eq_zero.1 h with h | h
        · exact absurd h hp.ne'
        · by_contra hne
          have h1 : q / p ≠ 1 := fun h1 => hne ((div_eq_one_iff_eq hp.ne').1 h1)
          linarith [Real.log_lt_sub_one_of_pos hr h1]
      · intro h
        rw [h, div_self hp.ne', Real.log_one]
        ring
  · rw [← hp]
    constructor
    · linarith
    · constructor
      · intro h; linarith
      · intro h; linarith

/-- Gibbs' inequality with weights `p` of sum `s`: the weighted sum of `- log q` over distributions `q` is least at
`p / s`. -/
theorem gibbs {m : Nat} {p q : Nat → ℝ} (hp : ∀ c, c < m → 0 ≤ p c) (hs : 0 < total m p) (hq : ∀ c, c < m → 0 < q c)
    (hq1 : total m q = 1) :
    (total m fun c => -(p c * Real.log (p c / total m p))) ≤ (total m fun c => -(p c * Real.log (q c))) ∧
    ((total m fun c => -(p c * Real.log (q c))) = (total m fun c => -(p c * Real.log (p c / total m p))) ↔
      ∀ c, c < m → q c = p c / total m p) := by
  set s := total m p with hsdef
  have hterm : ∀ c, c < m → 0 ≤ (p c / s) * (Real.log (p c / s) - Real.log (q c)) - p c / s + q c ∧
      ((p c / s) * (Real.log (p c / s) - Real.log (q c)) - p c / s + q c = 0 ↔ q c = p c / s) :=
    fun c hc => gibbs_term (div_nonneg (hp c hc) hs.le) (hq c hc)
  have hdiff : (total m fun c => -(p c * Real.log (q c))) = (total m fun c => -(p c * Real.log (p c / s))) +
      (total m fun c => (p c / s) * (Real.log (p c / s) - Real.log (q c)) - p c / s + q c) * s := by
    rw [← total_mul, ← total_add]
    have h1 : (total m fun c => -(p c * Real.log (p c / s)) +
        ((p c / s) * (Real.log (p c / s) - Real.log (q c)) - p c / s + q c) * s) =
        total m fun c => -(p c * Real.log (q c)) + (-(1 : ℝ) * p c + s * q c) := by
      refine total_congr fun c _ => ?_
      field_simp
      ring
    rw [h1, total_add, total_add]
    have h2 : total m (fun c => -(1 : ℝ) * p c) = - s := by
      rw [total_congr (g := fun c => p c * (-1)) (fun c _ => by ring), total_mul, ← hsdef]; ring
    have h3 : total m (fun c => s * q c) = s := by
      rw [total_congr (g := fun c => q c * s) (fun c _ => by ring), total_mul, hq1]; ring
    rw [h2, h3]
    ring
  have h0 := total_nonneg fun c hc => (hterm c hc).1
  constructor
  · rw [hdiff]
    nlinarith [mul_nonneg h0 hs.le]
  · rw [hdiff]
    constructor
    · intro h c hc
      have : (total m fun c => (p c / s) * (Real.log (p c / s) - Real.log (q c)) - p c / s + q c) * s = 0 := by linarith
      rcases mul_eq_zero.1 this with h1 | h1
      · exact (hterm c hc).2.1 ((total_eq_zero fun c hc => (hterm c hc).1).1 h1 c hc)
      · exact absurd h1 hs.ne'
    · intro h
      rw [(total_eq_zero fun c hc => (hterm c hc).1).2 fun c hc => (hterm c hc).2.2 (h c hc)]
      ring

/-! ## C82 -/

/-- The least policy loss of a row with targets `p`: that of the distribution proportional to `p`. -/
noncomputable def least (m : Nat) (p : Nat → ℝ) : ℝ := total m fun c => -(p c * Real.log (p c / total m p))

theorem realSum (eps : ℝ) (n : Nat) (f : Nat → ℝ) : (realArith eps).sum n f = total n f := N.sum_eq eps n f

/-- `log_softmax` is the logarithm of the policy that the network returns when it plays. -/
theorem log_policy {eps : ℝ} {x q : Tensor ℝ} {n m : Nat} (hx : x.shape = [n, m]) (hm : 0 < m)
    (h : softmax (A := realArith eps) x = .ok q) (i c : Nat) :
    Real.log (q.at' [i, c]) = logSoftmax m (fun k => x.at' [i, k]) c := by
  unfold softmax at h
  rw [hx] at h
  have hp : q.at' [i, c] = Real.exp (x.at' [i, c]) / total m fun k => Real.exp (x.at' [i, k]) := by
    rw [← Except.ok.inj h, ← realSum eps]
    rfl
  have hpos : 0 < total m fun k => Real.exp (x.at' [i, k]) := by
    refine N.sum_pos_of (by simp; omega) ?_
    intro y hy
    obtain ⟨k, -, rfl⟩ := List.mem_map.1 hy
    exact Real.exp_pos _
  rw [hp, Real.log_div (Real.exp_pos _).ne' hpos.ne', Real.log_exp]
  rfl

/-- C82, for targets of positive sum: the loss of a batch is at least that of the policies proportional to the targets
and of the exact outcomes, and equal only to that.  `q` and `v` are what the network returns for the batch. -/
theorem C82_any (eps : ℝ) {z : Sizes} (hz : 0 < z.actions) {net : ResNet} {vs : VarStore ℝ} (hb : Built z net vs)
    {h w : Nat} (hh : 0 < h) (hw : 0 < w) (hc : h * w = z.convOut) {sample : List Mem} (hn : 2 ≤ sample.length * h * w)
    {x : Tensor Int × Tensor Val × Tensor Int} (hx : Holds z.actions [z.channels, h, w] sample x)
    {p : Nat → Nat → ℝ} (hp : ∀ j m, sample[j]? = some m → ∀ c, c < z.actions →
      (∃ r : Rat, m.ps.at' [c] = some r ∧ (r : ℝ) = p j c) ∧ 0 ≤ p j c)
    (hs : ∀ j, j < sample.length → 0 < total z.actions (p j)) :
    ∃ l q v, batchLoss eps net vs x = .ok l ∧
      net.forward (realArith eps) vs true (mapT (realArith eps).ofInt x.2.2) = .ok (q, v) ∧
      (total sample.length fun j => least z.actions (p j)) / sample.length ≤ l ∧
      (l = (total sample.length fun j => least z.actions (p j)) / sample.length ↔
        ∀ j m, sample[j]? = some m → (∀ c, c < z.actions → q.at' [j, c] = p j c / total z.actions (p j)) ∧
          v.at' [j, 0] = (m.outcome : ℝ)) := by
  have hsh : (mapT (realArith eps).ofInt x.2.2).shape = [sample.length, z.channels, h, w] := hx.sShape
  obtain ⟨y, e, s⟩ := ResNet.trunk_ok (A := realArith eps) (train := true) hb.fits hh hw (fun _ => hn) hsh
  obtain ⟨(lg : Tensor ℝ), e1, s1⟩ := ResNet.policyHead_ok (A := realArith eps) (train := true) hb.fits hh hw (fun _ => hn) hc s
  obtain ⟨(q : Tensor ℝ), e2, s2⟩ := softmax_ok (A := realArith eps) s1
  obtain ⟨(v : Tensor ℝ), e3, s3⟩ := ResNet.valueHead_ok (A := realArith eps) (train := true) hb.fits hh hw (fun _ => hn) hc s
  have hfw : net.forward (realArith eps) vs true (mapT (realArith eps).ofInt x.2.2) = .ok (q, v) :=
    res_bind.2 ⟨y, e, res_bind.2 ⟨lg, e1, res_bind.2 ⟨q, e2, res_bind.2 ⟨v, e3, rfl⟩⟩⟩⟩
  have hft : net.forwardTrain (realArith eps) vs true (mapT (realArith eps).ofInt x.2.2) = .ok (lg, v) :=
    res_bind.2 ⟨y, e, res_bind.2 ⟨lg, e1, res_bind.2 ⟨v, e3, rfl⟩⟩⟩
  have hget : ∀ j, j < sample.length → ∃ m, sample[j]? = some m := fun j hj => ⟨_, List.getElem?_eq_getElem hj⟩
  have hfin : finite x.2.1 = true := by
    unfold finite
    rw [hx.pShape]
    simp only [List.all_eq_true, List.mem_range]
    intro j hj c hcl
    obtain ⟨m, hm⟩ := hget j hj
    obtain ⟨⟨r, hr, -⟩, -⟩ := hp j m hm c hcl
    rw [hx.ps j m hm c hcl, hr]
    rfl
  have htar : ∀ j, j < sample.length → ∀ c, c < z.actions → (((x.2.1.at' [j, c]).getD 0 : Rat) : ℝ) = p j c := by
    intro j hj c hcl
    obtain ⟨m, hm⟩ := hget j hj
    obtain ⟨⟨r, hr, hr'⟩, -⟩ := hp j m hm c hcl
    rw [hx.ps j m hm c hcl, hr]
    exact hr'
  have hnn : 0 < sample.length := by
    rcases Nat.eq_zero_or_pos sample.length with h0 | h0
    · rw [h0] at hn; omega
    · exact h0
  have hnr : (0 : ℝ) < sample.length := by exact_mod_cast hnn
  -- the two parts of the loss
  have hce : crossEntropy lg (mapT (fun v : Val => ((v.getD 0 : Rat) : ℝ)) x.2.1) =
      .ok ((total sample.length fun j => total z.actions fun c => -(p j c * Real.log (q.at' [j, c]))) / sample.length) := by
    unfold crossEntropy
    rw [s1]
    simp only
    rw [if_pos (show (mapT (fun v : Val => ((v.getD 0 : Rat) : ℝ)) x.2.1).shape = _ from hx.pShape)]
    congr 2
    refine total_congr fun j hj => total_congr fun c hcl => ?_
    rw [log_policy s1 hz e2 j c]
    show -((((x.2.1.at' [j, c]).getD 0 : Rat) : ℝ) * _) = _
    rw [htar j hj c hcl]
  have hmse : mseLoss v (mapT (fun o : Int => (o : ℝ)) x.1) =
      .ok ((total sample.length fun j => (v.at' [j, 0] - (x.1.at' [j, 0] : ℝ)) ^ 2) / sample.length) := by
    unfold mseLoss
    rw [s3]
    simp only
    rw [if_pos (show (mapT (fun o : Int => (o : ℝ)) x.1).shape = _ from hx.oShape)]
    rfl
  refine ⟨_, q, v, res_bind.2 ⟨(lg, v), hft, res_bind.2 ⟨_, hce, res_bind.2 ⟨_, hmse, res_bind.2 ⟨(), ?_, rfl⟩⟩⟩⟩, hfw, ?_⟩
  · unfold assert
    rw [if_pos hfin]
  have hg : ∀ j, j < sample.length →
      least z.actions (p j) ≤ (total z.actions fun c => -(p j c * Real.log (q.at' [j, c]))) ∧
      ((total z.actions fun c => -(p j c * Real.log (q.at' [j, c]))) = least z.actions (p j) ↔
        ∀ c, c < z.actions → q.at' [j, c] = p j c / total z.actions (p j)) := by
    intro j hj
    obtain ⟨m, hm⟩ := hget j hj
    obtain ⟨d1, d2⟩ := N.softmax_rows s1 hz e2 j
    exact gibbs (fun c hcl => (hp j m hm c hcl).2) (hs j hj)
      (fun c hcl => d1 _ (List.mem_map_of_mem (List.mem_range.2 hcl))) d2
  -- the loss minus the bound, as a sum of nonnegative terms
  set D : Nat → ℝ := fun j => ((total z.actions fun c => -(p j c * Real.log (q.at' [j, c]))) - least z.actions (p j)) +
    (v.at' [j, 0] - (x.1.at' [j, 0] : ℝ)) ^ 2 with hD
  have hD0 : ∀ j, j < sample.length → 0 ≤ D j := by
    intro j hj
    have := (hg j hj).1
    have h2 := sq_nonneg (v.at' [j, 0] - (x.1.at' [j, 0] : ℝ))
    show 0 ≤ _ + _
    linarith
  have hsplit : (total sample.length fun j => total z.actions fun c => -(p j c * Real.log (q.at' [j, c]))) / sample.length +
      (total sample.length fun j => (v.at' [j, 0] - (x.1.at' [j, 0] : ℝ)) ^ 2) / sample.length =
      (total sample.length fun j => least z.actions (p j)) / sample.length + total sample.length D / sample.length := by
    rw [← add_div, ← add_div, ← total_add, ← total_add]
    congr 1
    refine total_congr fun j _ => ?_
    simp only [hD]
    ring
  rw [hsplit]
  have hT := total_nonneg hD0
  constructor
  · have := div_nonneg hT hnr.le
    linarith
  · have h1 : ((total sample.length fun j => least z.actions (p j)) / sample.length + total sample.length D / sample.length =
        (total sample.length fun j => least z.actions (p j)) / sample.length) ↔ total sample.length D = 0 := by
      rw [add_eq_left, div_eq_zero_iff]
      constructor
      · rintro (h | h)
        · exact h
        · exact absurd h hnr.ne'
      · exact Or.inl
    rw [h1, total_eq_zero hD0]
    constructor
    · intro h0 j m hm
      have hj : j < sample.length := (List.getElem?_eq_some_iff.1 hm).1
      have h2 := h0 j hj
      have h3 := (hg j hj).1
      have h4 := sq_nonneg (v.at' [j, 0] - (x.1.at' [j, 0] : ℝ))
      simp only [hD] at h2
      refine ⟨(hg j hj).2.1 (by linarith), ?_⟩
      have h5 : (v.at' [j, 0] - (x.1.at' [j, 0] : ℝ)) ^ 2 = 0 := by linarith
      rw [hx.outcome j m hm] at h5
      exact (sub_eq_zero (G := ℝ)).1 (pow_eq_zero_iff (two_ne_zero)|>.1 h5)
    · intro h0 j hj
      obtain ⟨m, hm⟩ := hget j hj
      obtain ⟨h2, h3⟩ := h0 j m hm
      simp only [hD]
      rw [(hg j hj).2.2 h2, hx.outcome j m hm, h3]
      ring

/-- The entropy of a distribution. -/
noncomputable def entropy (m : Nat) (p : Nat → ℝ) : ℝ := total m fun c => Real.negMulLog (p c)

theorem least_entropy {m : Nat} {p : Nat → ℝ} (h : total m p = 1) : least m p = entropy m p := by
  unfold least entropy
  refine total_congr fun c _ => ?_
  rw [h, div_one]
  unfold Real.negMulLog
  ring

/-- The fragment has the target distribution `p` (and the other entries of the tensor do not matter). -/
def Targets (N : Nat) (m : Mem) (p : Nat → Rat) : Prop :=
  (∀ c, c < N → m.ps.at' [c] = some (p c) ∧ 0 ≤ p c) ∧ ((List.range N).map p).sum = 1

theorem total_cast (N : Nat) (p : Nat → Rat) : total N (fun c => (p c : ℝ)) = ((((List.range N).map p).sum : Rat) : ℝ) := by
  unfold total
  induction (List.range N) with
  | nil => simp
  | cons a l ih => simp [ih]

/-- C82: the loss of a batch whose targets are distributions is at least the mean entropy of the targets, and it is that
only if for every position of the batch the network's policy is the target and its value is the outcome. -/
theorem C82_loss (eps : ℝ) {z : Sizes} (hz : 0 < z.actions) {net : ResNet} {vs : VarStore ℝ} (hb : Built z net vs)
    {h w : Nat} (hh : 0 < h) (hw : 0 < w) (hc : h * w = z.convOut) {sample : List Mem} (hne : sample ≠ [])
    (hn : 2 ≤ sample.length * h * w) (hps : ∀ m ∈ sample, m.ps.shape = [z.actions])
    (hst : (∀ m ∈ sample, m.state.shape = [1, z.channels, h, w]) ∨
      ((∀ m ∈ sample, m.state.shape = [z.channels, h, w]) ∧ z.channels ≠ 1))
    {p : Nat → Nat → Rat} (hp : ∀ j m, sample[j]? = some m → Targets z.actions m (p j)) :
    ∃ x l q v, batchTensors sample = .ok x ∧ batchLoss eps net vs x = .ok l ∧
      net.forward (realArith eps) vs true (mapT (realArith eps).ofInt x.2.2) = .ok (q, v) ∧
      (total sample.length fun j => entropy z.actions fun c => p j c) / sample.length ≤ l ∧
      (l = (total sample.length fun j => entropy z.actions fun c => p j c) / sample.length ↔
        ∀ j m, sample[j]? = some m → (∀ c, c < z.actions → q.at' [j, c] = ((p j c : Rat) : ℝ)) ∧
          v.at' [j, 0] = (m.outcome : ℝ)) := by
  obtain ⟨x, hx1, hx2⟩ := D.C65_batch (N := z.actions) (sh := [z.channels, h, w]) (by simp) hne hps (by
    rcases hst with h | ⟨h, h'⟩
    · exact .inl h
    · exact .inr ⟨h, by simpa using h'⟩)
  have hget : ∀ j, j < sample.length → ∃ m, sample[j]? = some m := fun j hj => ⟨_, List.getElem?_eq_getElem hj⟩
  have hsum : ∀ j, j < sample.length → total z.actions (fun c => ((p j c : Rat) : ℝ)) = 1 := by
    intro j hj
    obtain ⟨m, hm⟩ := hget j hj
    rw [total_cast, (hp j m hm).2]
    norm_num
  obtain ⟨l, q, v, h1, h2, h3, h4⟩ := C82_any eps hz hb hh hw hc hn hx2 (p := fun j c => ((p j c : Rat) : ℝ)) (by
      intro j m hm c hcl
      obtain ⟨h1, h2⟩ := (hp j m hm).1 c hcl
      exact ⟨⟨_, h1, rfl⟩, by exact_mod_cast h2⟩) (by
      intro j hj
      rw [hsum j hj]
      exact one_pos)
  have he : (total sample.length fun j => least z.actions fun c => ((p j c : Rat) : ℝ)) =
      total sample.length fun j => entropy z.actions fun c => p j c :=
    total_congr fun j hj => least_entropy (hsum j hj)
  rw [he] at h3 h4
  refine ⟨x, l, q, v, hx1, h1, h2, h3, h4.trans ?_⟩
  refine forall_congr' fun j => forall_congr' fun m => ⟨fun h hm => ?_, fun h hm => ?_⟩
  · obtain ⟨a, b⟩ := h hm
    refine ⟨fun c hcl => ?_, b⟩
    rw [a c hcl, hsum j (List.getElem?_eq_some_iff.1 hm).1, div_one]
  · obtain ⟨a, b⟩ := h hm
    refine ⟨fun c hcl => ?_, b⟩
    rw [a c hcl, hsum j (List.getElem?_eq_some_iff.1 hm).1, div_one]

/-- A batch with the shapes of TicTacToe meets the hypotheses on the fragments. -/
example : ∀ (j : Nat) m, [D.demoMem 1 5, D.demoMem (-1) 7][j]? = some m →
    Targets 9 m (fun c => if c = 4 then 1 else 0) ∧ m.ps.shape = [9] ∧ m.state.shape = [1, 3, 3, 3] := by
  intro j m hm
  have hm := List.mem_of_getElem? hm
  have key : ∀ o v, Targets 9 (D.demoMem o v) (fun c => if c = 4 then 1 else 0) := by
    intro o v
    refine ⟨?_, by decide +kernel⟩
    intro c hc
    constructor
    · show (if [c] = [4] then some (1 : Rat) else some 0) = some (if c = 4 then 1 else 0)
      by_cases h : c = 4
      · rw [if_pos (by rw [h]), if_pos h]
      · rw [if_neg (by simpa using h), if_neg h]
    · show (0 : Rat) ≤ if c = 4 then 1 else 0
      split <;> decide +kernel
  rcases List.mem_cons.1 hm with rfl | hm
  · exact ⟨key _ _, rfl, rfl⟩
  · rw [List.mem_singleton.1 hm]
    exact ⟨key _ _, rfl, rfl⟩

/-! ## C83 -/

variable {G : Game} {Fl : Floats}

/-- Every fragment returned by self-play belongs to a move of one of the games. -/
theorem run_move {R : G.S → Prop} (hs : SafeNet G R) (hc : Coded G R) (hst : Starts G R) {net : Mcts.Net Fl}
    (ha : net.alphaOk = true) {cfg : SelfPlayConfig} (hpw : PwOK cfg.pw) (hit : cfg.iterations ≠ 0) {o : Orders G}
    (ho : o.Valid) {n : Nat} {t t' : Tape} {sp : SelfPlay G}
    (h : selfPlayRun net cfg o n (cfg.limit + 1) t = .ok (sp, t')) (f : Frag) (hf : f ∈ sp.all) :
    ∃ i, i < n ∧ ∃ s a s', Turn.move s f.ps a s' ∈ sp.turns i ∧ G.tensor s = .ok f.state := by
  obtain ⟨D, hD, h2, -⟩ := L.run_facts hs hc hst ha hpw hit ho h
  have key : ∀ (g : Int → Int) (l : List (Turn G)), ∀ f ∈ frags g l,
      ∃ s a s', Turn.move s f.ps a s' ∈ l ∧ G.tensor s = .ok f.state := by
    intro g l f hf
    obtain ⟨tn, hm, hf⟩ := List.mem_flatMap.1 hf
    cases tn with
    | skip => simp [fragOf] at hf
    | move s ps a s' =>
      simp only [fragOf] at hf
      split at hf
      · next x hx =>
        rw [List.mem_singleton.1 hf]
        exact ⟨s, a, s', hm, hx⟩
      · simp at hf
  rw [h2] at hf
  obtain ⟨i, hi, hf⟩ := List.mem_flatMap.1 hf
  refine ⟨i, List.mem_range.1 (hD.mem_iff.1 hi), ?_⟩
  unfold emitted at hf
  rcases List.mem_append.1 hf with hf | hf
  · split at hf
    · obtain ⟨s, a, s', h3, h4⟩ := key _ _ f hf
      exact ⟨s, a, s', List.mem_of_mem_take h3, h4⟩
    · simp at hf
  · split at hf
    · exact key _ _ f hf
    · simp at hf

/-- C83: the policy targets returned by self-play are probability distributions. -/
def C83_statement : Prop :=
  ∀ (G : Game) (R : G.S → Prop) (Fl : Floats) (net : Mcts.Net Fl) (cfg : SelfPlayConfig) (o : Orders G) (n : Nat)
    (t t' : Tape) (sp : SelfPlay G), SafeNet G R → Coded G R → Starts G R → net.alphaOk = true → PwOK cfg.pw →
    cfg.iterations ≠ 0 → o.Valid → selfPlayRun net cfg o n (cfg.limit + 1) t = .ok (sp, t') →
    ∀ f ∈ sp.all, IsDist G.actionSpace f.ps

/-- What holds: the target of a position is a distribution over its legal moves with `pw` applied to every entry, and
does not vanish.  Missing for the full statement: the sum is not 1 (`C83_refuted`), because `pow_` changes the recorded
tensor in place and nothing divides by the new sum. -/
theorem C83_partial {R : G.S → Prop} (hs : SafeNet G R) (hc : Coded G R) (hst : Starts G R) {net : Mcts.Net Fl}
    (ha : net.alphaOk = true) {cfg : SelfPlayConfig} (hpw : PwOK cfg.pw) (hit : cfg.iterations ≠ 0) {o : Orders G}
    (ho : o.Valid) {n : Nat} {t t' : Tape} {sp : SelfPlay G}
    (h : selfPlayRun net cfg o n (cfg.limit + 1) t = .ok (sp, t')) (f : Frag) (hf : f ∈ sp.all) :
    ∃ (s : G.S) (ms : List G.Mv) (q : Row), G.tensor s = .ok f.state ∧ G.moves s = .ok ms ∧ IsDist G.actionSpace q ∧
      (∀ c, f.ps c = (q c).map cfg.pw) ∧ (∀ c x, q c = some x → x ≠ 0 → ∃ a ∈ ms, G.encode s a = .ok c) ∧
      ∃ c x, c < G.actionSpace ∧ f.ps c = some x ∧ 0 < x := by
  obtain ⟨i, hi, s, a, s', hm, hten⟩ := run_move hs hc hst ha hpw hit ho h f hf
  obtain ⟨⟨s0, sl, -, -, -, hlog⟩, -, -⟩ := L.C64_games hs hc hst ha cfg hpw hit ho (Nat.le_refl _) h i hi
  obtain ⟨⟨ms, hms, -⟩, -, ⟨c, x, hc, -, hx, hx0⟩, q, hq, hps, hcode⟩ := Uf.log_fair hlog _ hm
  refine ⟨s, ms, q, hten, hms, hq, hps, ?_, c, x, hc, hx, hx0⟩
  intro c x hc hx
  obtain ⟨ms', h1, h2⟩ := hcode c x hc hx
  rw [hms] at h1
  rw [Except.ok.inj h1]
  exact h2

/-- At temperature 1 the targets are distributions. -/
theorem C83_unit_partial {R : G.S → Prop} (hs : SafeNet G R) (hc : Coded G R) (hst : Starts G R) {net : Mcts.Net Fl}
    (ha : net.alphaOk = true) {cfg : SelfPlayConfig} (hpw : ∀ x, 0 ≤ x → cfg.pw x = x) (hit : cfg.iterations ≠ 0)
    {o : Orders G} (ho : o.Valid) {n : Nat} {t t' : Tape} {sp : SelfPlay G}
    (h : selfPlayRun net cfg o n (cfg.limit + 1) t = .ok (sp, t')) (f : Frag) (hf : f ∈ sp.all) :
    IsDist G.actionSpace f.ps := by
  obtain ⟨-, -, q, -, -, ⟨r, hr, hsum⟩, hps, -⟩ :=
    C83_partial hs hc hst ha ⟨hpw 0 le_rfl, fun x hx => by rw [hpw x hx]; exact hx⟩ hit ho h f hf
  refine ⟨r, fun c hcl => ⟨?_, (hr c hcl).2⟩, hsum⟩
  rw [hps, (hr c hcl).1, Option.map_some, hpw _ (hr c hcl).2]

/-- Two iterations per search at temperature 1/2. -/
def squareConfig : SelfPlayConfig := { iterations := 2, limit := 1, pw := fun x => x * x }

def squareRun : Res (SelfPlay (TTT.game .debug) × Tape) :=
  selfPlayRun demoNet squareConfig (L.demoOrders _) 1 2 demoTape

theorem square_sums : (squareRun.toOption.map fun r => r.1.all.map fun f => rowSum 9 f.ps) = some [some (1 / 2)] := by
  decide +kernel

/-- C83 is false: at temperature 1/2 two moves with half of the visits each give the targets 1/4 and 1/4. -/
theorem C83_refuted : ¬ C83_statement := by
  intro h
  have hc := square_sums
  cases hr : squareRun with
  | error e => rw [hr] at hc; cases hc
  | ok r =>
    rw [hr] at hc
    obtain ⟨sp, t'⟩ := r
    have hc : sp.all.map (fun f => rowSum 9 f.ps) = [some (1 / 2)] := Option.some.inj hc
    have h1 := h (TTT.game .debug) _ demoFloats demoNet squareConfig (L.demoOrders _) 1 demoTape t' sp
      (ttt_safeNet .debug) (ttt_coded .debug) (L.ttt_starts .debug) rfl ⟨by decide +kernel, fun x hx => mul_nonneg hx hx⟩
      (by decide) (L.demoOrders_valid _) hr
    cases ha : sp.all with
    | nil => rw [ha] at hc; cases hc
    | cons f l =>
      rw [ha] at hc
      have hc : rowSum 9 f.ps = some (1 / 2) := (List.cons.inj hc).1
      obtain ⟨q, hq, hs⟩ := h1 f (by rw [ha]; exact List.mem_cons_self ..)
      rw [rowSum_some (N := 9) fun c hcl => (hq c hcl).1] at hc
      have hs : ((List.range 9).map q).sum = 1 := hs
      rw [hs] at hc
      exact absurd hc (by decide +kernel)

/-! ## What the network is trained to -/

theorem frag_entries {R : G.S → Prop} (hs : SafeNet G R) (hc : Coded G R) (hst : Starts G R) {net : Mcts.Net Fl}
    (ha : net.alphaOk = true) {cfg : SelfPlayConfig} (hpw : PwOK cfg.pw) (hit : cfg.iterations ≠ 0) {o : Orders G}
    (ho : o.Valid) {n : Nat} {t t' : Tape} {sp : SelfPlay G}
    (h : selfPlayRun net cfg o n (cfg.limit + 1) t = .ok (sp, t')) (f : Frag) (hf : f ∈ sp.all) :
    (∀ c, c < G.actionSpace → ∃ r : Rat, f.ps c = some r ∧ 0 ≤ r) ∧
      0 < total G.actionSpace fun c => (((f.ps c).getD 0 : Rat) : ℝ) := by
  obtain ⟨-, -, q, -, -, ⟨r, hr, -⟩, hps, -, c, x, hcl, hx, hx0⟩ := C83_partial hs hc hst ha hpw hit ho h f hf
  have h1 : ∀ c, c < G.actionSpace → ∃ r : Rat, f.ps c = some r ∧ 0 ≤ r := by
    intro c hcl
    exact ⟨cfg.pw (r c), by rw [hps, (hr c hcl).1]; rfl, hpw.nonneg _ (hr c hcl).2⟩
  refine ⟨h1, ?_⟩
  have h2 : ∀ c, c < G.actionSpace → 0 ≤ (((f.ps c).getD 0 : Rat) : ℝ) := by
    intro c hcl
    obtain ⟨r, e, hr⟩ := h1 c hcl
    rw [e]
    exact_mod_cast hr
  refine lt_of_le_of_ne (total_nonneg h2) fun h0 => ?_
  have h3 := (total_eq_zero h2).1 h0.symm c hcl
  rw [hx] at h3
  have h3 : (x : ℝ) = 0 := h3
  have hx0 : (0 : ℝ) < x := by exact_mod_cast hx0
  exact absurd h3 hx0.ne'

/-- The recorded row of a fragment as real numbers. -/
noncomputable def row (f : Frag) (c : Nat) : ℝ := (((f.ps c).getD 0 : Rat) : ℝ)

/-- The least loss of a batch of fragments: it depends on the recorded rows alone. -/
noncomputable def floorLoss (N : Nat) (fs : List Frag) : ℝ := (fs.map fun f => least N (row f)).sum / fs.length

theorem total_list (fs : List Frag) (g : Nat → ℝ) (k : Frag → ℝ) (h : ∀ (j : Nat) f, fs[j]? = some f → g j = k f) :
    total fs.length g = (fs.map k).sum := by
  induction fs generalizing g with
  | nil => rfl
  | cons f l ih =>
    have h1 : total (l.length + 1) g = g 0 + total l.length fun j => g (j + 1) := by
      unfold total
      rw [List.range_succ_eq_map]
      simp [List.map_map, Function.comp_def]
    rw [List.length_cons, h1, h 0 f rfl, ih (fun j => g (j + 1)) fun j f' hj => h (j + 1) f' hj]
    rfl

/-- C82 for batches of self-play, at every temperature: the loss is least exactly if every policy is proportional to the
recorded row and every value is the recorded outcome. -/
theorem C82_selfplay (eps : ℝ) {z : Sizes} {rn : ResNet} {vs : VarStore ℝ} (hb : Built z rn vs)
    {h w : Nat} (hh : 0 < h) (hw : 0 < w) (hhw : h * w = z.convOut) (hhw2 : 2 ≤ h * w) (hz : z.actions = G.actionSpace)
    (hsh : ∀ s x, G.tensor s = .ok x → x.shape = [1, z.channels, h, w])
    {R : G.S → Prop} (hs : SafeNet G R) (hc : Coded G R) (hst : Starts G R) {net : Mcts.Net Fl}
    (ha : net.alphaOk = true) {cfg : SelfPlayConfig} (hpw : PwOK cfg.pw) (hit : cfg.iterations ≠ 0) {o : Orders G}
    (ho : o.Valid) {n : Nat} {t t' : Tape} {sp : SelfPlay G}
    (hrun : selfPlayRun net cfg o n (cfg.limit + 1) t = .ok (sp, t')) {fs : List Frag} (hne : fs ≠ [])
    (hfs : ∀ f ∈ fs, f ∈ sp.all) :
    ∃ x l q v, batchTensors (fs.map (Frag.mem G.actionSpace)) = .ok x ∧ batchLoss eps rn vs x = .ok l ∧
      rn.forward (realArith eps) vs true (mapT (realArith eps).ofInt x.2.2) = .ok (q, v) ∧ floorLoss G.actionSpace fs ≤ l ∧
      (l = floorLoss G.actionSpace fs ↔ ∀ (j : Nat) f, fs[j]? = some f →
        (∀ c, c < G.actionSpace → q.at' [j, c] = row f c / total G.actionSpace (row f)) ∧ v.at' [j, 0] = (f.outcome : ℝ)) := by
  have hpos : 0 < fs.length := List.length_pos_of_ne_nil hne
  have hz0 : 0 < z.actions := by
    obtain ⟨f, hf⟩ := List.exists_mem_of_ne_nil _ hne
    obtain ⟨-, -, -, -, -, -, -, -, c, -, hcl, -⟩ := C83_partial hs hc hst ha hpw hit ho hrun f (hfs f hf)
    omega
  obtain ⟨x, hx1, hx2⟩ := D.C65_batch (N := G.actionSpace) (sh := [z.channels, h, w])
    (sample := fs.map (Frag.mem G.actionSpace)) (by simp) (by simpa using hne)
    (fun m hm => by obtain ⟨f, -, rfl⟩ := List.mem_map.1 hm; rfl) (.inl fun m hm => by
      obtain ⟨f, hf, rfl⟩ := List.mem_map.1 hm
      obtain ⟨s, -, -, hten, -⟩ := C83_partial hs hc hst ha hpw hit ho hrun f (hfs f hf)
      exact hsh s _ hten)
  have hent := fun f hf => frag_entries hs hc hst ha hpw hit ho hrun f (hfs f hf)
  let p : Nat → Nat → ℝ := fun j c => (((((fs[j]?).map Frag.ps).getD (fun _ => none)) c).getD 0 : Rat)
  have hp : ∀ j f, fs[j]? = some f → ∀ c, p j c = row f c := by
    intro j f hj c
    show (((((fs[j]?).map Frag.ps).getD (fun _ => none)) c).getD 0 : Rat) = row f c
    rw [hj]
    rfl
  rw [← hz] at hx2 hent
  obtain ⟨l, q, v, h1, h2, h3, h4⟩ := C82_any eps hz0 hb hh hw hhw
    (by rw [List.length_map, Nat.mul_assoc]; exact le_trans hhw2 (Nat.le_mul_of_pos_left _ hpos)) hx2 (p := p) (by
      intro j m hm c hcl
      rw [List.getElem?_map, Option.map_eq_some_iff] at hm
      obtain ⟨f, hf, rfl⟩ := hm
      obtain ⟨r, e, hr⟩ := (hent f (List.mem_of_getElem? hf)).1 c hcl
      rw [hp j f hf c, show row f c = (r : ℝ) by unfold row; rw [e]; rfl]
      exact ⟨⟨r, e, rfl⟩, by exact_mod_cast hr⟩) (by
      intro j hj
      rw [List.length_map] at hj
      rw [total_congr fun c _ => hp j _ (List.getElem?_eq_getElem hj) c]
      exact (hent _ (List.getElem_mem hj)).2)
  have hm : (total (fs.map (Frag.mem z.actions)).length fun j => least z.actions (p j)) /
      ((fs.map (Frag.mem z.actions)).length : ℕ) = floorLoss z.actions fs := by
    rw [List.length_map]
    unfold floorLoss
    rw [total_list fs _ fun f => least z.actions (row f)]
    intro j f hj
    rw [show p j = row f from funext fun c => hp j f hj c]
  rw [hm] at h3 h4
  rw [← hz]
  refine ⟨x, l, q, v, by rw [hz]; exact hx1, h1, h2, h3, h4.trans ?_⟩
  refine forall_congr' fun j => ⟨fun g f hf => ?_, fun g m hm => ?_⟩
  · obtain ⟨g1, g2⟩ := g (f.mem z.actions) (by rw [List.getElem?_map, hf]; rfl)
    refine ⟨fun c hcl => ?_, g2⟩
    rw [g1 c hcl, hp j f hf c, total_congr fun c _ => hp j f hf c]
  · rw [List.getElem?_map, Option.map_eq_some_iff] at hm
    obtain ⟨f, hf, rfl⟩ := hm
    obtain ⟨g1, g2⟩ := g f hf
    refine ⟨fun c hcl => ?_, g2⟩
    rw [g1 c hcl, hp j f hf c, total_congr fun c _ => hp j f hf c]

/-- ... for TicTacToe. -/
theorem C82_tictactoe (pf : Profile) (eps : ℝ) {rn : ResNet} {vs : VarStore ℝ} (hb : Built tttSizes rn vs)
    {net : Mcts.Net Fl} (ha : net.alphaOk = true) {cfg : SelfPlayConfig} (hpw : PwOK cfg.pw) (hit : cfg.iterations ≠ 0)
    {o : Orders (TTT.game pf)} (ho : o.Valid) {n : Nat} {t t' : Tape} {sp : SelfPlay (TTT.game pf)}
    (hrun : selfPlayRun net cfg o n (cfg.limit + 1) t = .ok (sp, t')) {fs : List Frag} (hne : fs ≠ [])
    (hfs : ∀ f ∈ fs, f ∈ sp.all) :
    ∃ x l q v, batchTensors (fs.map (Frag.mem 9)) = .ok x ∧ batchLoss eps rn vs x = .ok l ∧
      rn.forward (realArith eps) vs true (mapT (realArith eps).ofInt x.2.2) = .ok (q, v) ∧ floorLoss 9 fs ≤ l ∧
      (l = floorLoss 9 fs ↔ ∀ (j : Nat) f, fs[j]? = some f →
        (∀ c, c < 9 → q.at' [j, c] = row f c / total 9 (row f)) ∧ v.at' [j, 0] = (f.outcome : ℝ)) :=
  C82_selfplay (G := TTT.game pf) eps hb (h := 3) (w := 3) (by decide) (by decide) (by decide) (by decide) rfl
    (fun _ x hx => (D.ttt_shaped pf (f := ⟨0, fun _ => none, x⟩) hx).2) (ttt_safeNet pf) (ttt_coded pf) (L.ttt_starts pf)
    ha hpw hit ho hrun hne hfs

/-- ... and for Backgammon. -/
theorem C82_backgammon (pf : Profile) (eps : ℝ) {rn : ResNet} {vs : VarStore ℝ} (hb : Built bgSizes rn vs)
    {net : Mcts.Net Fl} (ha : net.alphaOk = true) {cfg : SelfPlayConfig} (hpw : PwOK cfg.pw) (hit : cfg.iterations ≠ 0)
    {o : Orders (BG.game pf)} (ho : o.Valid) {n : Nat} {t t' : Tape} {sp : SelfPlay (BG.game pf)}
    (hrun : selfPlayRun net cfg o n (cfg.limit + 1) t = .ok (sp, t')) {fs : List Frag} (hne : fs ≠ [])
    (hfs : ∀ f ∈ fs, f ∈ sp.all) :
    ∃ x l q v, batchTensors (fs.map (Frag.mem 1352)) = .ok x ∧ batchLoss eps rn vs x = .ok l ∧
      rn.forward (realArith eps) vs true (mapT (realArith eps).ofInt x.2.2) = .ok (q, v) ∧ floorLoss 1352 fs ≤ l ∧
      (l = floorLoss 1352 fs ↔ ∀ (j : Nat) f, fs[j]? = some f →
        (∀ c, c < 1352 → q.at' [j, c] = row f c / total 1352 (row f)) ∧ v.at' [j, 0] = (f.outcome : ℝ)) :=
  C82_selfplay (G := BG.game pf) eps hb (h := 4) (w := 6) (by decide) (by decide) (by decide) (by decide) rfl
    (fun _ x hx => (D.bg_shaped pf (f := ⟨0, fun _ => none, x⟩) hx).2) (bg_safeNet pf) (bg_coded pf) (L.bg_starts pf)
    ha hpw hit ho hrun hne hfs

/-- The run above returns a fragment, so there are such batches. -/
example : (squareRun.toOption.map fun r => r.1.all.length) = some 1 := by decide +kernel

end DieE.Props.Ls
