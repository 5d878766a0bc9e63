import Verif.Net.BookLoss
import Mathlib.Analysis.Calculus.FDeriv.Mul
import Mathlib.Analysis.Calculus.FDeriv.Pow
import Mathlib.Analysis.Calculus.Deriv.Inv
import Mathlib.Analysis.SpecialFunctions.ExpDeriv
import Mathlib.Analysis.SpecialFunctions.Log.Deriv
import Mathlib.Analysis.SpecialFunctions.Sqrt
import Mathlib.Analysis.SpecialFunctions.Trigonometric.DerivHyp

/-!
# The loss of a batch is differentiable in the weights where no unit is at a kink
-/

namespace DieE.Props.Ds
open DieE.Net DieE.Net.Textbook

variable {E : Type} [NormedAddCommGroup E] [NormedSpace ℝ E] {e₀ : E}

/-- Each weight of the convolution is differentiable. -/
structure DConv (e₀ : E) (k : E → ConvW) : Prop where
  w : ∀ o c u v, DifferentiableAt ℝ (fun e => (k e).w o c u v) e₀
  b : ∀ o, DifferentiableAt ℝ (fun e => (k e).b o) e₀

/-- Scale and shift of the normalisation are differentiable. -/
structure DNorm (e₀ : E) (k : E → NormW) : Prop where
  scale : ∀ c, DifferentiableAt ℝ (fun e => (k e).scale c) e₀
  shift : ∀ c, DifferentiableAt ℝ (fun e => (k e).shift c) e₀

/-- Each weight of the fully connected layer is differentiable. -/
structure DDense (e₀ : E) (k : E → DenseW) : Prop where
  w : ∀ o i, DifferentiableAt ℝ (fun e => (k e).w o i) e₀
  b : ∀ o, DifferentiableAt ℝ (fun e => (k e).b o) e₀

/-- Each weight of the block is differentiable. -/
structure DBlock (e₀ : E) (b : E → BlockW) : Prop where
  k1 : DConv e₀ fun e => (b e).k1
  n1 : DNorm e₀ fun e => (b e).n1
  k2 : DConv e₀ fun e => (b e).k2
  n2 : DNorm e₀ fun e => (b e).n2

/-- The values on the boards are differentiable. -/
def Dif (e₀ : E) (n h w C : ℕ) (f : E → ℕ → Img) : Prop :=
  ∀ i c y x : ℕ, i < n → c < C → y < h → x < w → DifferentiableAt ℝ (fun e => f e i c y x) e₀

theorem dif_inside {n h w C : ℕ} {f : E → ℕ → Img} (hf : Dif e₀ n h w C f) {i c : ℕ} (hi : i < n) (hc : c < C) (y x : ℤ) :
    DifferentiableAt ℝ (fun e => inside h w (f e i) c y x) e₀ := by
  unfold inside
  by_cases hr : 0 ≤ y ∧ y < h ∧ 0 ≤ x ∧ x < w
  · simp only [if_pos hr]
    obtain ⟨h1, h2, h3, h4⟩ := hr
    have := hf i c y.toNat x.toNat hi hc (by omega) (by omega)
    rwa [Int.toNat_of_nonneg h1, Int.toNat_of_nonneg h3] at this
  · simp only [if_neg hr]
    exact differentiableAt_const _

theorem dif_conv {n h w C : ℕ} (O : ℕ) {k : E → ConvW} (hk : DConv e₀ k) {f : E → ℕ → Img} (hf : Dif e₀ n h w C f) :
    Dif e₀ n h w O fun e i => conv (k e) C (inside h w (f e i)) := by
  intro i o y x hi _ _ _
  unfold conv
  refine (hk.b o).add ?_
  refine DifferentiableAt.fun_sum fun c hc => DifferentiableAt.fun_sum fun u _ => DifferentiableAt.fun_sum fun v _ => ?_
  exact (hk.w o c u v).mul (dif_inside hf hi (Finset.mem_range.1 hc) _ _)

theorem dif_mean {n h w C : ℕ} {f : E → ℕ → Img} (hf : Dif e₀ n h w C f) {c : ℕ} (hc : c < C) :
    DifferentiableAt ℝ (fun e => mean n h w (f e) c) e₀ := by
  unfold mean
  simp only [div_eq_mul_inv]
  refine DifferentiableAt.mul_const ?_ _
  refine DifferentiableAt.fun_sum fun i hi => DifferentiableAt.fun_sum fun y hy => DifferentiableAt.fun_sum fun x hx => ?_
  exact hf i c y x (Finset.mem_range.1 hi) hc (Finset.mem_range.1 hy) (Finset.mem_range.1 hx)

theorem dif_variance {n h w C : ℕ} {f : E → ℕ → Img} (hf : Dif e₀ n h w C f) {c : ℕ} (hc : c < C) :
    DifferentiableAt ℝ (fun e => variance n h w (f e) c) e₀ := by
  unfold variance
  simp only [div_eq_mul_inv]
  refine DifferentiableAt.mul_const ?_ _
  refine DifferentiableAt.fun_sum fun i hi => DifferentiableAt.fun_sum fun y hy => DifferentiableAt.fun_sum fun x hx => ?_
  exact ((hf i c y x (Finset.mem_range.1 hi) hc (Finset.mem_range.1 hy) (Finset.mem_range.1 hx)).sub (dif_mean hf hc)).pow 2

theorem variance_nonneg (n h w : ℕ) (f : ℕ → Img) (c : ℕ) : 0 ≤ variance n h w f c := by
  unfold variance
  refine div_nonneg ?_ (by positivity)
  exact Finset.sum_nonneg fun i _ => Finset.sum_nonneg fun y _ => Finset.sum_nonneg fun x _ => sq_nonneg _

theorem dif_norm {eps : ℝ} (heps : 0 < eps) {n h w C : ℕ} {p : E → NormW} (hp : DNorm e₀ p) {f : E → ℕ → Img} (hf : Dif e₀ n h w C f) :
    Dif e₀ n h w C fun e => Textbook.norm eps true n h w (p e) (f e) := by
  intro i c y x hi hc hy hx
  simp only [Textbook.norm, if_true, affine, div_eq_mul_inv]
  have hv : variance n h w (f e₀) c + eps ≠ 0 := by
    have := variance_nonneg n h w (f e₀) c
    positivity
  refine ((hp.scale c).mul (((hf i c y x hi hc hy hx).sub (dif_mean hf hc)).mul (DifferentiableAt.fun_inv (((dif_variance hf hc).add_const eps).sqrt hv) ?_))).add
    (hp.shift c)
  exact (Real.sqrt_pos.2 (lt_of_le_of_ne (add_nonneg (variance_nonneg ..) heps.le) hv.symm)).ne'

theorem dif_layer {eps : ℝ} (heps : 0 < eps) {n h w C : ℕ} (O : ℕ) {k : E → ConvW} (hk : DConv e₀ k) {p : E → NormW} (hp : DNorm e₀ p)
    {f : E → ℕ → Img} (hf : Dif e₀ n h w C f) : Dif e₀ n h w O fun e => layer eps true n h w C (k e) (p e) (f e) :=
  dif_norm heps hp (dif_conv O hk hf)

theorem dif_max {f : E → ℝ} (hf : DifferentiableAt ℝ f e₀) (h : f e₀ ≠ 0) : DifferentiableAt ℝ (fun e => max (f e) 0) e₀ := by
  rcases lt_or_gt_of_ne h with h | h
  · refine (differentiableAt_const (0 : ℝ)).congr_of_eventuallyEq ?_
    filter_upwards [hf.continuousAt.eventually (gt_mem_nhds h)] with e he
    exact max_eq_right he.le
  · refine hf.congr_of_eventuallyEq ?_
    filter_upwards [hf.continuousAt.eventually (lt_mem_nhds h)] with e he
    exact max_eq_left he.le

theorem dif_relu {n h w C : ℕ} {f : E → ℕ → Img} (hf : Dif e₀ n h w C f) (hz : NonZero n h w C (f e₀)) :
    Dif e₀ n h w C fun e i => relu (f e i) :=
  fun i c y x hi hc hy hx => dif_max (hf i c y x hi hc hy hx) (hz i c y x hi hc hy hx)

theorem dif_block {eps : ℝ} (heps : 0 < eps) {n h w F : ℕ} {b : E → BlockW} (hb : DBlock e₀ b) {f : E → ℕ → Img} (hf : Dif e₀ n h w F f)
    (h1 : NonZero n h w F (layer eps true n h w F (b e₀).k1 (b e₀).n1 (f e₀)))
    (h2 : NonZero n h w F (fun i c y x => f e₀ i c y x + layer eps true n h w F (b e₀).k2 (b e₀).n2
      (fun i => relu (layer eps true n h w F (b e₀).k1 (b e₀).n1 (f e₀) i)) i c y x)) :
    Dif e₀ n h w F fun e => block eps true n h w F (b e) (f e) := by
  have d1 := dif_relu (dif_layer heps F hb.k1 hb.n1 hf) h1
  have d2 := dif_layer heps F hb.k2 hb.n2 d1
  have d3 : Dif e₀ n h w F fun e i c y x => f e i c y x + layer eps true n h w F (b e).k2 (b e).n2
      (fun i => relu (layer eps true n h w F (b e).k1 (b e).n1 (f e) i)) i c y x :=
    fun i c y x hi hc hy hx => (hf i c y x hi hc hy hx).add (d2 i c y x hi hc hy hx)
  exact dif_relu d3 h2

theorem dif_blocks {eps : ℝ} (heps : 0 < eps) {n h w F : ℕ} : ∀ (bs : List (E → BlockW)), (∀ b ∈ bs, DBlock e₀ b) → ∀ {f : E → ℕ → Img},
    Dif e₀ n h w F f → SmoothBlocks eps n h w F (bs.map fun b => b e₀) (f e₀) →
    Dif e₀ n h w F fun e => (bs.map fun b => b e).foldl (fun g b => block eps true n h w F b g) (f e)
  | [], _, f, hf, _ => hf
  | b :: bs, hb, f, hf, hs => by
    obtain ⟨h1, h2, h3⟩ := hs
    exact dif_blocks heps bs (fun b h => hb b (List.mem_cons_of_mem _ h)) (dif_block heps (hb b (List.mem_cons_self ..)) hf h1 h2) h3

theorem dif_dense {n h w C : ℕ} {l : E → DenseW} (hl : DDense e₀ l) {f : E → ℕ → Img} (hf : Dif e₀ n h w C f) {i : ℕ} (hi : i < n) (o : ℕ) :
    DifferentiableAt ℝ (fun e => dense (l e) C h w (f e i) o) e₀ := by
  unfold dense
  refine (hl.b o).add ?_
  refine DifferentiableAt.fun_sum fun c hc => DifferentiableAt.fun_sum fun y hy => DifferentiableAt.fun_sum fun x hx => ?_
  exact (hl.w o _).mul (hf i c y x hi (Finset.mem_range.1 hc) (Finset.mem_range.1 hy) (Finset.mem_range.1 hx))

theorem differentiable_tanh : Differentiable ℝ Real.tanh := by
  have : Real.tanh = fun x => Real.sinh x / Real.cosh x := funext Real.tanh_eq_sinh_div_cosh
  rw [this]
  exact Real.differentiable_sinh.fun_div Real.differentiable_cosh fun x => (Real.cosh_pos x).ne'

/-- Each weight of the network is differentiable. -/
structure DNet (e₀ : E) (N : E → NetW) : Prop where
  k0 : DConv e₀ fun e => (N e).k0
  n0 : DNorm e₀ fun e => (N e).n0
  blocks : ∃ bs : List (E → BlockW), (∀ e, (N e).blocks = bs.map fun b => b e) ∧ ∀ b ∈ bs, DBlock e₀ b
  kp : DConv e₀ fun e => (N e).kp
  np : DNorm e₀ fun e => (N e).np
  dp : DDense e₀ fun e => (N e).dp
  kv : DConv e₀ fun e => (N e).kv
  nv : DNorm e₀ fun e => (N e).nv
  dv : DDense e₀ fun e => (N e).dv

section
variable {eps : ℝ} (heps : 0 < eps) {n h w C F : ℕ} {N : E → NetW} (hN : DNet e₀ N) {f : ℕ → Img} (hs : Smooth eps n h w C F (N e₀) f)
include heps hN hs

theorem dif_trunk : Dif e₀ n h w F fun e => trunk eps true n h w C F (N e) f := by
  obtain ⟨bs, h1, h2⟩ := hN.blocks
  have hf : Dif e₀ n h w C fun _ : E => f := fun i c y x _ _ _ _ => differentiableAt_const _
  have d0 := dif_relu (dif_layer heps F hN.k0 hN.n0 hf) hs.first
  have hb := hs.blocks
  rw [h1] at hb
  have := dif_blocks heps bs h2 d0 hb
  unfold trunk
  simpa only [h1] using this

theorem dif_logits {i : ℕ} (hi : i < n) (a : ℕ) : DifferentiableAt ℝ (fun e => logits eps true n h w C F (N e) f i a) e₀ :=
  dif_dense hN.dp (dif_relu (dif_layer heps 32 hN.kp hN.np (dif_trunk heps hN hs)) hs.policy) hi a

theorem dif_outcome {i : ℕ} (hi : i < n) : DifferentiableAt ℝ (fun e => outcome eps true n h w C F (N e) f i) e₀ :=
  differentiable_tanh.differentiableAt.comp e₀
    (dif_dense hN.dv (dif_relu (dif_layer heps 3 hN.kv hN.nv (dif_trunk heps hN hs)) hs.value) hi 0)

/-- The loss is differentiable in the weights. -/
theorem dif_loss (A : ℕ) (p : ℕ → ℕ → ℝ) (o : ℕ → ℝ) : DifferentiableAt ℝ (fun e => loss eps n h w C F A (N e) f p o) e₀ := by
  unfold loss
  simp only [div_eq_mul_inv]
  refine DifferentiableAt.add (DifferentiableAt.mul_const ?_ _) (DifferentiableAt.mul_const ?_ _)
  · refine DifferentiableAt.fun_sum fun i hi => DifferentiableAt.fun_sum fun a ha => ?_
    have hi := Finset.mem_range.1 hi
    refine (DifferentiableAt.const_mul ((dif_logits heps hN hs hi a).sub (DifferentiableAt.log ?_ ?_)) _).neg
    · exact DifferentiableAt.fun_sum fun b _ => (dif_logits heps hN hs hi b).exp
    · exact (Finset.sum_pos (fun b _ => Real.exp_pos _) ⟨a, ha⟩).ne'
  · exact DifferentiableAt.fun_sum fun i hi => ((dif_outcome heps hN hs (Finset.mem_range.1 hi)).sub_const _).pow 2

end

end DieE.Props.Ds
