import Mathlib.Algebra.BigOperators.Intervals
import Mathlib.Analysis.Complex.Trigonometric
import Mathlib.Analysis.Real.Sqrt

/-!
# What the network is meant to compute

A residual network in the notation of textbooks: images are functions of channel, row and column with integer
coordinates, a batch is a family of images, layers are given by formulas.  Nothing here refers to the model of the
program.
-/

namespace DieE.Net.Textbook

/-- An image: channel, row, column. -/
abbrev Img := ℕ → ℤ → ℤ → ℝ

/-- A convolution with kernels of 3 by 3. -/
structure ConvW where
  /-- output channel, input channel, row, column -/
  w : ℕ → ℕ → ℕ → ℕ → ℝ
  /-- bias -/
  b : ℕ → ℝ

/-- A normalisation. -/
structure NormW where
  /-- running mean -/
  mean : ℕ → ℝ
  /-- running variance -/
  var : ℕ → ℝ
  /-- scale -/
  scale : ℕ → ℝ
  /-- shift -/
  shift : ℕ → ℝ

/-- A fully connected layer. -/
structure DenseW where
  /-- output, input -/
  w : ℕ → ℕ → ℝ
  /-- bias -/
  b : ℕ → ℝ

/-- Zero outside of a board with `h` rows and `w` columns. -/
def inside (h w : ℕ) (f : Img) : Img := fun c y x => if 0 ≤ y ∧ y < h ∧ 0 ≤ x ∧ x < w then f c y x else 0

/-- Each output channel is a weighted sum over the `C` input channels of the neighbours at distance at most one. -/
def conv (k : ConvW) (C : ℕ) (f : Img) : Img := fun o y x =>
  k.b o + ∑ c ∈ Finset.range C, ∑ u ∈ Finset.range 3, ∑ v ∈ Finset.range 3, k.w o c u v * f c (y + (u - 1)) (x + (v - 1))

/-- Mean of a channel over a batch of `n` boards. -/
noncomputable def mean (n h w : ℕ) (f : ℕ → Img) (c : ℕ) : ℝ :=
  (∑ i ∈ Finset.range n, ∑ y ∈ Finset.range h, ∑ x ∈ Finset.range w, f i c y x) / (n * h * w)

/-- Variance of a channel over a batch of `n` boards. -/
noncomputable def variance (n h w : ℕ) (f : ℕ → Img) (c : ℕ) : ℝ :=
  (∑ i ∈ Finset.range n, ∑ y ∈ Finset.range h, ∑ x ∈ Finset.range w, (f i c y x - mean n h w f c) ^ 2) / (n * h * w)

/-- Values are shifted and scaled by mean and variance of their channel, then by the learned scale and shift. -/
noncomputable def affine (eps m v : ℝ) (p : NormW) (c : ℕ) (x : ℝ) : ℝ := p.scale c * ((x - m) / Real.sqrt (v + eps)) + p.shift c

/-- Normalisation of a batch: by the running statistics, in training by those of the batch. -/
noncomputable def norm (eps : ℝ) (train : Bool) (n h w : ℕ) (p : NormW) (f : ℕ → Img) : ℕ → Img := fun i c y x =>
  if train then affine eps (mean n h w f c) (variance n h w f c) p c (f i c y x)
  else affine eps (p.mean c) (p.var c) p c (f i c y x)

/-- Negative values become zero. -/
def relu (f : Img) : Img := fun c y x => max (f c y x) 0

/-- A residual block. -/
structure BlockW where
  /-- first convolution -/
  k1 : ConvW
  /-- first normalisation -/
  n1 : NormW
  /-- second convolution -/
  k2 : ConvW
  /-- second normalisation -/
  n2 : NormW

/-- Convolution and normalisation on a batch of boards. -/
noncomputable def layer (eps : ℝ) (train : Bool) (n h w C : ℕ) (k : ConvW) (p : NormW) (f : ℕ → Img) : ℕ → Img :=
  norm eps train n h w p fun i => conv k C (inside h w (f i))

/-- A residual block adds its input to the result of two layers. -/
noncomputable def block (eps : ℝ) (train : Bool) (n h w F : ℕ) (b : BlockW) (f : ℕ → Img) : ℕ → Img :=
  let g := fun i => relu (layer eps train n h w F b.k1 b.n1 f i)
  let r := layer eps train n h w F b.k2 b.n2 g
  fun i => relu fun c y x => f i c y x + r i c y x

/-- A fully connected layer on an image with `C` channels; the inputs are numbered channel by channel, row by row. -/
def dense (l : DenseW) (C h w : ℕ) (f : Img) (o : ℕ) : ℝ :=
  l.b o + ∑ c ∈ Finset.range C, ∑ y ∈ Finset.range h, ∑ x ∈ Finset.range w, l.w o (c * (h * w) + (y * w + x)) * f c y x

/-- The weights of a network. -/
structure NetW where
  /-- first layer -/
  k0 : ConvW
  /-- its normalisation -/
  n0 : NormW
  /-- residual blocks -/
  blocks : List BlockW
  /-- policy head -/
  kp : ConvW
  /-- its normalisation -/
  np : NormW
  /-- its outputs -/
  dp : DenseW
  /-- value head -/
  kv : ConvW
  /-- its normalisation -/
  nv : NormW
  /-- its output -/
  dv : DenseW

section Net
variable (eps : ℝ) (train : Bool) (n h w C F : ℕ) (N : NetW) (f : ℕ → Img)

/-- First layer and residual blocks, with `C` input channels and `F` filters. -/
noncomputable def trunk : ℕ → Img :=
  N.blocks.foldl (fun g b => block eps train n h w F b g) fun i => relu (layer eps train n h w C N.k0 N.n0 f i)

/-- Outputs of the policy head before the softmax; the head has 32 filters. -/
noncomputable def logits (i a : ℕ) : ℝ :=
  dense N.dp 32 h w (relu (layer eps train n h w F N.kp N.np (trunk eps train n h w C F N f) i)) a

/-- Probability of a code among `A`. -/
noncomputable def policy (A i a : ℕ) : ℝ :=
  Real.exp (logits eps train n h w C F N f i a) / ∑ b ∈ Finset.range A, Real.exp (logits eps train n h w C F N f i b)

/-- Expected outcome; the value head has 3 filters. -/
noncomputable def outcome (i : ℕ) : ℝ :=
  Real.tanh (dense N.dv 3 h w (relu (layer eps train n h w F N.kv N.nv (trunk eps train n h w C F N f) i)) 0)

end Net

end DieE.Net.Textbook
