import Verif.Props.Net
import Mathlib.Analysis.Complex.Trigonometric

/-! # The network in exact arithmetic (C69) -/

namespace DieE.Props.N
open DieE.Net DieE.Tensor
open DieE.Props.V (res_bind)

/-- The operations of the network on real numbers, `eps` is the constant of `nn::BatchNormConfig`. -/
noncomputable def realArith (eps : ℝ) : Arith where
  F := ℝ
  zero := 0
  add := (· + ·)
  mul := (· * ·)
  div := (· / ·)
  ofInt := fun n => (n : ℝ)
  relu := fun x => max x 0
  tanh := Real.tanh
  exp := Real.exp
  norm := fun x m v w b => (x - m) / Real.sqrt (v + eps) * w + b
  mean := fun l => l.sum / l.length
  var := fun l => (l.map fun x => (x - l.sum / l.length) ^ 2).sum / l.length

/-- A list of numbers is a distribution without zeros. -/
def PositiveDistribution (l : List ℝ) : Prop := (∀ x ∈ l, 0 < x) ∧ l.sum = 1

/-- Row `i` of a matrix of the given width. -/
def rowOf {F : Type} (t : Tensor F) (i width : Nat) : List F := (List.range width).map fun c => t.at' [i, c]

theorem sum_eq (eps : ℝ) (n : Nat) (f : Nat → ℝ) :
    (realArith eps).sum n f = ((List.range n).map f).sum := by
  unfold Arith.sum
  have : ∀ (l : List Nat) (acc : ℝ), l.foldl (fun acc i => acc + f i) acc = acc + (l.map f).sum := by
    intro l
    induction l with
    | nil => intro acc; simp
    | cons a l ih => intro acc; rw [List.foldl_cons, ih, List.map_cons, List.sum_cons, add_assoc]
  exact (this _ _).trans (zero_add _)

theorem sum_pos_of {l : List ℝ} (hne : l ≠ []) (h : ∀ x ∈ l, 0 < x) : 0 < l.sum := by
  induction l with
  | nil => exact absurd rfl hne
  | cons a l ih =>
    rw [List.sum_cons]
    have ha := h a (List.mem_cons_self ..)
    by_cases hl : l = []
    · subst hl; simpa using ha
    · exact add_pos ha (ih hl fun x hx => h x (List.mem_cons_of_mem _ hx))

theorem softmax_rows {eps : ℝ} {x p : Tensor ℝ} {n m : Nat} (hx : x.shape = [n, m]) (hm : 0 < m)
    (h : softmax (A := realArith eps) x = .ok p) (i : Nat) : PositiveDistribution (rowOf p i m) := by
  unfold softmax at h
  rw [hx] at h
  have hp : ∀ c, p.at' [i, c] = Real.exp (x.at' [i, c]) / ((List.range m).map fun k => Real.exp (x.at' [i, k])).sum := by
    intro c
    rw [← Except.ok.inj h, ← sum_eq eps]
    rfl
  have hpos : 0 < ((List.range m).map fun k => Real.exp (x.at' [i, k])).sum := by
    refine sum_pos_of (by simp; omega) ?_
    intro y hy
    obtain ⟨k, -, rfl⟩ := List.mem_map.1 hy
    exact Real.exp_pos _
  constructor
  · intro y hy
    obtain ⟨c, -, rfl⟩ := List.mem_map.1 hy
    rw [hp]
    exact div_pos (Real.exp_pos _) hpos
  · have : rowOf p i m = (((List.range m).map fun k => Real.exp (x.at' [i, k])).map
          (· * (((List.range m).map fun k => Real.exp (x.at' [i, k])).sum)⁻¹)) := by
      rw [List.map_map]
      exact List.map_congr_left fun c _ => (hp c).trans (div_eq_mul_inv _ _)
    rw [this, List.sum_map_mul_right, List.map_id', mul_inv_cancel₀ hpos.ne']

/-- The value head ends with `tanh`. -/
theorem tanh_bounds (x : ℝ) : -1 < Real.tanh x ∧ Real.tanh x < 1 := ⟨Real.neg_one_lt_tanh x, Real.tanh_lt_one x⟩

/-- C69: in exact arithmetic every row of the policy of a network of the program is a distribution in which every code
has positive probability, and every value is strictly between -1 and 1; in evaluation and in training mode. -/
theorem C69_outputs (eps : ℝ) {z : Sizes} (hz : 0 < z.actions) {net : ResNet} {vs : VarStore ℝ} (hb : Built z net vs)
    {train : Bool} {n h w : Nat} (hh : 0 < h) (hw : 0 < w) (hc : h * w = z.convOut) (ht : train = true → 2 ≤ n * h * w)
    {x : Tensor ℝ} (hx : x.shape = [n, z.channels, h, w]) :
    ∃ p v : Tensor ℝ, net.forward (realArith eps) vs train x = .ok (p, v) ∧
      (∀ i, i < n → PositiveDistribution (rowOf p i z.actions)) ∧ ∀ i, i < n → -1 < v.at' [i, 0] ∧ v.at' [i, 0] < 1 := by
  obtain ⟨y, e, s⟩ := ResNet.trunk_ok (A := realArith eps) (train := train) hb.fits hh hw ht hx
  obtain ⟨q, e1, s1⟩ := ResNet.policyHead_ok (A := realArith eps) (train := train) hb.fits hh hw ht hc s
  obtain ⟨p, e2, -⟩ := softmax_ok s1
  obtain ⟨v, e3, -⟩ := ResNet.valueHead_ok (A := realArith eps) (train := train) hb.fits hh hw ht hc s
  refine ⟨p, v, ?_, fun i _ => softmax_rows s1 hz e2 i, fun i _ => ?_⟩
  · exact res_bind.2 ⟨y, e, res_bind.2 ⟨q, e1, res_bind.2 ⟨p, e2, res_bind.2 ⟨v, e3, rfl⟩⟩⟩⟩
  · obtain ⟨y1, f1, e3⟩ := res_bind.1 e3
    obtain ⟨y2, f2, e3⟩ := res_bind.1 e3
    obtain ⟨y3, f3, e3⟩ := res_bind.1 e3
    obtain ⟨y4, f4, e3⟩ := res_bind.1 e3
    cases e3
    exact tanh_bounds _

/-- C69 for TicTacToe: batches of positions. -/
theorem C69_tictactoe (eps : ℝ) {net : ResNet} {vs : VarStore ℝ} (hb : Built tttSizes net vs) {ss : List TTT.State}
    (hne : ss ≠ []) : ∃ (ts : List (Tensor Int)) (x : Tensor Int) (p v : Tensor ℝ), ss.mapM TTT.asTensor = .ok ts ∧ Mcts.batchTensor ts = .ok x ∧
      net.forward (realArith eps) vs false (mapT (realArith eps).ofInt x) = .ok (p, v) ∧
      ∀ i, i < ss.length → PositiveDistribution (rowOf p i 9) ∧ -1 < v.at' [i, 0] ∧ v.at' [i, 0] < 1 := by
  obtain ⟨ts, x, h1, h2, h3⟩ := batch_of hne fun s _ => ttt_tensor s
  obtain ⟨p, v, h4, h5, h6⟩ := C69_outputs eps (z := tttSizes) (by decide) hb (train := false) (h := 3) (w := 3) (by decide)
    (by decide) (by decide) (by simp) (x := mapT (realArith eps).ofInt x) h3
  exact ⟨ts, x, p, v, h1, h2, h4, fun i hi => ⟨h5 i hi, h6 i hi⟩⟩

/-- C69 for Backgammon. -/
theorem C69_backgammon (eps : ℝ) {net : ResNet} {vs : VarStore ℝ} (hb : Built bgSizes net vs) {ss : List BG.State}
    (hne : ss ≠ []) (hr : ∀ s ∈ ss, s.roll ≠ (0, 0)) : ∃ (ts : List (Tensor Int)) (x : Tensor Int) (p v : Tensor ℝ), ss.mapM BG.asTensor = .ok ts ∧
      Mcts.batchTensor ts = .ok x ∧ net.forward (realArith eps) vs false (mapT (realArith eps).ofInt x) = .ok (p, v) ∧
      ∀ i, i < ss.length → PositiveDistribution (rowOf p i 1352) ∧ -1 < v.at' [i, 0] ∧ v.at' [i, 0] < 1 := by
  obtain ⟨ts, x, h1, h2, h3⟩ := batch_of hne fun s hs => bg_tensor (hr s hs)
  obtain ⟨p, v, h4, h5, h6⟩ := C69_outputs eps (z := bgSizes) (by decide) hb (train := false) (h := 4) (w := 6) (by decide)
    (by decide) (by decide) (by simp) (x := mapT (realArith eps).ofInt x) h3
  exact ⟨ts, x, p, v, h1, h2, h4, fun i hi => ⟨h5 i hi, h6 i hi⟩⟩

example : ∃ (net : ResNet) (vs : VarStore ℝ), Built bgSizes net vs := ⟨_, _, built_new (fun _ _ => (1 : ℝ)) _⟩

end DieE.Props.N
