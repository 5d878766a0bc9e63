import Verif.Net.Textbook
import Mathlib.Analysis.SpecialFunctions.Log.Basic

/-!
# The loss of a batch by a formula, and the points where the network has no kink

Nothing here refers to the model of the program.
-/

namespace DieE.Net.Textbook

section
variable (eps : ℝ) (n h w C F : ℕ)

/-- Cross entropy of the policy with the targets `p` plus mean squared error of the expected outcomes with the targets `o`,
for a batch of `n` boards `f` and `A` codes, in training mode. -/
noncomputable def loss (A : ℕ) (N : NetW) (f : ℕ → Img) (p : ℕ → ℕ → ℝ) (o : ℕ → ℝ) : ℝ :=
  (∑ i ∈ Finset.range n, ∑ a ∈ Finset.range A, -(p i a * (logits eps true n h w C F N f i a -
      Real.log (∑ b ∈ Finset.range A, Real.exp (logits eps true n h w C F N f i b))))) / n +
  (∑ i ∈ Finset.range n, (outcome eps true n h w C F N f i - o i) ^ 2) / n

/-- None of the values on the boards is zero. -/
def NonZero (f : ℕ → Img) : Prop := ∀ i c y x : ℕ, i < n → c < C → y < h → x < w → f i c y x ≠ 0

/-- No unit of the residual blocks is at the kink of the rectifier. -/
def SmoothBlocks : List BlockW → (ℕ → Img) → Prop
  | [], _ => True
  | b :: bs, f =>
    let r := layer eps true n h w F b.k1 b.n1 f
    NonZero n h w F r ∧ NonZero n h w F (fun i c y x => f i c y x + layer eps true n h w F b.k2 b.n2 (fun i => relu (r i)) i c y x) ∧
      SmoothBlocks bs (block eps true n h w F b f)

/-- No unit of the network is at the kink of the rectifier. -/
structure Smooth (N : NetW) (f : ℕ → Img) : Prop where
  first : NonZero n h w F (layer eps true n h w C N.k0 N.n0 f)
  blocks : SmoothBlocks eps n h w F N.blocks fun i => relu (layer eps true n h w C N.k0 N.n0 f i)
  policy : NonZero n h w 32 (layer eps true n h w F N.kp N.np (trunk eps true n h w C F N f))
  value : NonZero n h w 3 (layer eps true n h w F N.kv N.nv (trunk eps true n h w C F N f))

end

end DieE.Net.Textbook
