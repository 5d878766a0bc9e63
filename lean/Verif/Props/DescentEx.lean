import Verif.Props.DescentNet
import Verif.Props.TrainedRun

/-!
# C118: the hypotheses can be met, and later steps and the loss without decay are different
-/

namespace DieE.Props.Ds
open DieE DieE.Mcts DieE.Train DieE.Net DieE.Props.Ad
open DieE.Props.N (realArith Built)
open DieE.Props.V (res_bind)
open DieE.Props.Tb (entry netW image convW normW denseW blockW)
open DieE.Net.Textbook (NonZero SmoothBlocks Smooth)

/-! ## A network without a kink and with a gradient -/

/-- Names of a layer with weights and biases. -/
def Mark (w b : Name) : Prop := weight <+: w ∧ bias <+: b

/-- Names of the layers that matter here. -/
structure Marked (net : ResNet) : Prop where
  bn : Mark net.bn.w net.bn.b
  res : ∀ r ∈ net.res, Mark r.bn1.w r.bn1.b ∧ Mark r.bn2.w r.bn2.b
  pBn : Mark net.pBn.w net.pBn.b
  pLin : Mark net.pLin.w net.pLin.b
  vBn : Mark net.vBn.w net.vBn.b
  vLin : Mark net.vLin.w net.vLin.b

theorem norm_mark {F : Type} (init : Nat → List Nat → F) (vs : VarStore F) (o : Nat) : Mark (Norm.new init vs o).1.w (Norm.new init vs o).1.b :=
  ⟨fresh_prefix _ _, fresh_prefix _ _⟩
theorem linear_mark {F : Type} (init : Nat → List Nat → F) (vs : VarStore F) (i o : Nat) :
    Mark (Linear.new init vs i o).1.w (Linear.new init vs i o).1.b := ⟨fresh_prefix _ _, fresh_prefix _ _⟩

theorem blocks_marked {F : Type} (init : Nat → List Nat → F) (f k : Nat) (vs : VarStore F) : ∀ r ∈ (ResBlock.newAll init f k vs).1,
    Mark r.bn1.w r.bn1.b ∧ Mark r.bn2.w r.bn2.b := by
  induction k generalizing vs with
  | zero => intro r hr; cases hr
  | succ k ih =>
    intro r hr
    rcases List.mem_cons.1 hr with rfl | hr
    · exact ⟨norm_mark .., norm_mark ..⟩
    · exact ih _ r hr

theorem built_marked {F : Type} {z : Sizes} {net : ResNet} {vs : VarStore F} (h : Built z net vs) : Marked net := by
  obtain ⟨init, rfl, -⟩ := h
  exact ⟨norm_mark .., fun r hr => blocks_marked _ _ _ _ r hr, norm_mark .., linear_mark .., norm_mark .., linear_mark ..⟩

theorem weight_not_bias {n : Name} (h : weight <+: n) : ¬ bias <+: n := by
  obtain ⟨t, rfl⟩ := h
  rintro ⟨s, h⟩
  simp [bias, weight] at h

section
open Classical

/-- All biases and shifts are one, all other variables are zero. -/
noncomputable def lit (vs : VarStore ℝ) : VarStore ℝ :=
  mapVars (fun n x => ⟨x.shape, fun idx => if bias <+: n ∧ idx ∈ indices x.shape then 1 else 0⟩) vs

/-- The direction of the biases. -/
noncomputable def up (names : List Name) (vs : VarStore ℝ) (n : Name) (idx : List ℕ) : ℝ :=
  if bias <+: n ∧ (n, idx) ∈ places vs names then 1 else 0

variable {z : Sizes} {net : ResNet} {vs : VarStore ℝ}

theorem lit_built (h : Built z net vs) : Built z net (lit vs) := by
  refine built_layout h ?_
  unfold lit
  exact layout_mapVars (fun _ _ => by rfl) vs

theorem get_lit (vs : VarStore ℝ) (n : Name) : (lit vs).get n =
    (vs.get n).map fun x => ⟨x.shape, fun idx => if bias <+: n ∧ idx ∈ indices x.shape then 1 else 0⟩ := get_mapVars _ _ _

theorem places_of {vs : VarStore ℝ} {names : List Name} {n : Name} (hn : n ∈ names) {t : Tensor ℝ} (ht : vs.get n = some t)
    {idx : List ℕ} : (n, idx) ∈ places vs names ↔ idx ∈ indices t.shape := by
  unfold places
  rw [List.mem_toFinset, List.mem_flatMap]
  constructor
  · rintro ⟨m, hm, h⟩
    cases hg : vs.get m with
    | none => rw [hg] at h; cases h
    | some t' =>
      rw [hg] at h
      obtain ⟨i, hi, e⟩ := List.mem_map.1 h
      obtain ⟨rfl, rfl⟩ := Prod.mk.inj e
      obtain rfl := Option.some.inj (hg.symm.trans ht)
      exact hi
  · intro h
    exact ⟨n, hn, by rw [ht]; exact List.mem_map_of_mem h⟩

theorem indices_one {k c : ℕ} (h : c < k) : [c] ∈ indices [k] := by
  simp only [indices, List.mem_flatMap, List.mem_range, List.map_cons, List.map_nil, List.mem_singleton]
  exact ⟨c, h, rfl⟩

theorem lit_tidy (names : List Name) (vs : VarStore ℝ) : Tidy names (lit vs) := by
  intro n hn idx h
  unfold entry
  cases hg : vs.get n with
  | none => rw [get_lit, hg]; rfl
  | some t =>
    have hl := get_lit vs n
    rw [hg, Option.map_some] at hl
    rw [hl]
    show (if _ then (1 : ℝ) else 0) = 0
    rw [if_neg]
    rintro ⟨-, hi⟩
    exact h ((places_of hn hl).2 hi)

theorem lit_weight (names : List Name) (vs : VarStore ℝ) (s : ℝ) {n : Name} (h : weight <+: n) (idx : List ℕ) :
    entry (move names (lit vs) (up names (lit vs)) s) n idx = 0 := by
  unfold entry
  rw [get_move, get_lit]
  cases vs.get n with
  | none => rfl
  | some t =>
    simp only [Option.map_some, up, weight_not_bias h, false_and, if_false, mul_zero, add_zero]
    split <;> rfl

theorem lit_bias {names : List Name} {vs : VarStore ℝ} (s : ℝ) {n : Name} (hn : n ∈ names) (h : bias <+: n) {k c : ℕ}
    (hh : Has vs n [k]) (hc : c < k) : entry (move names (lit vs) (up names (lit vs)) s) n [c] = 1 + s := by
  obtain ⟨t, ht, hs⟩ := hh
  have hl := get_lit vs n
  rw [ht, Option.map_some] at hl
  have hi : [c] ∈ indices t.shape := by rw [hs]; exact indices_one hc
  rw [entry_move _ s hn hl]
  have h1 : entry (lit vs) n [c] = 1 := by
    unfold entry
    rw [hl]
    show (if _ then (1 : ℝ) else 0) = 1
    rw [if_pos ⟨h, hi⟩]
  have h2 : up names (lit vs) n [c] = 1 := by
    unfold up
    rw [if_pos ⟨h, (places_of hn hl).2 hi⟩]
  rw [h1, h2, mul_one]

/-- A network which ignores its input. -/
structure Flat (A F : ℕ) (N : Textbook.NetW) (t : ℝ) : Prop where
  n0 : ∀ c < F, N.n0.scale c = 0 ∧ N.n0.shift c = t
  blocks : ∀ b ∈ N.blocks, ∀ c < F, b.n1.scale c = 0 ∧ b.n1.shift c = t ∧ b.n2.scale c = 0 ∧ b.n2.shift c = t
  np : ∀ c < 32, N.np.scale c = 0 ∧ N.np.shift c = t
  nv : ∀ c < 3, N.nv.scale c = 0 ∧ N.nv.shift c = t
  dp : ∀ a < A, (∀ i, N.dp.w a i = 0) ∧ N.dp.b a = t
  dv : (∀ i, N.dv.w 0 i = 0) ∧ N.dv.b 0 = t

theorem flat_lit (hb : Built z net vs) (s : ℝ) :
    Flat z.actions z.filters (netW (move (trainable net) (lit vs) (up (trainable net) (lit vs)) s) net) (1 + s) := by
  have hf := hb.fits
  have hm := built_marked hb
  have mem : ∀ r ∈ net.res, r.bn1.b ∈ trainable net ∧ r.bn2.b ∈ trainable net := by
    intro r hr
    unfold trainable
    simp only [List.mem_append, List.mem_flatMap]
    exact ⟨.inl (.inr ⟨r, hr, by simp⟩), .inl (.inr ⟨r, hr, by simp⟩)⟩
  refine ⟨fun c hc => ⟨lit_weight _ _ _ hm.bn.1 _, lit_bias s (by simp [trainable]) hm.bn.2 hf.bn.2.2.2 hc⟩, ?_,
    fun c hc => ⟨lit_weight _ _ _ hm.pBn.1 _, lit_bias s (by simp [trainable]) hm.pBn.2 hf.pBn.2.2.2 hc⟩,
    fun c hc => ⟨lit_weight _ _ _ hm.vBn.1 _, lit_bias s (by simp [trainable]) hm.vBn.2 hf.vBn.2.2.2 hc⟩,
    fun a ha => ⟨fun i => lit_weight _ _ _ hm.pLin.1 _, lit_bias s (by simp [trainable]) hm.pLin.2 hf.pLin.2 ha⟩,
    fun i => lit_weight _ _ _ hm.vLin.1 _, lit_bias s (by simp [trainable]) hm.vLin.2 hf.vLin.2 one_pos⟩
  intro b hb c hc
  obtain ⟨r, hr, rfl⟩ := List.mem_map.1 hb
  have h1 := hm.res r hr
  have h2 := hf.res r hr
  exact ⟨lit_weight _ _ _ h1.1.1 _, lit_bias s (mem r hr).1 h1.1.2 h2.2.2.1.2.2.2 hc, lit_weight _ _ _ h1.2.1 _,
    lit_bias s (mem r hr).2 h1.2.2 h2.2.2.2.2.2.2 hc⟩

end

section
variable {eps : ℝ} {n h w : ℕ}

theorem layer_flat {C : ℕ} {k : Textbook.ConvW} {p : Textbook.NormW} {f : ℕ → Textbook.Img} {c : ℕ} {t : ℝ} (h1 : p.scale c = 0)
    (h2 : p.shift c = t) (i : ℕ) (y x : ℤ) : Textbook.layer eps true n h w C k p f i c y x = t := by
  unfold Textbook.layer Textbook.norm Textbook.affine
  rw [if_pos rfl, h1, h2]
  ring

theorem blocks_flat {F : ℕ} {t : ℝ} (ht : 0 < t) (bs : List Textbook.BlockW)
    (hb : ∀ b ∈ bs, ∀ c < F, b.n1.scale c = 0 ∧ b.n1.shift c = t ∧ b.n2.scale c = 0 ∧ b.n2.shift c = t) (f : ℕ → Textbook.Img)
    (hf : ∀ i c y x, 0 ≤ f i c y x) : SmoothBlocks eps n h w F bs f := by
  induction bs generalizing f with
  | nil => trivial
  | cons b bs ih =>
    have h1 := hb b (List.mem_cons_self ..)
    refine ⟨fun i c y x _ hc _ _ => ?_, fun i c y x _ hc _ _ => ?_, ih (fun b h => hb b (List.mem_cons_of_mem _ h)) _ fun i c y x => le_max_right _ _⟩
    · rw [layer_flat (h1 c hc).1 (h1 c hc).2.1]
      exact ht.ne'
    · show _ + Textbook.layer eps true n h w F b.k2 b.n2 _ i c y x ≠ 0
      rw [layer_flat (h1 c hc).2.2.1 (h1 c hc).2.2.2]
      have := hf i c y x
      linarith

theorem flat_smooth {A C F : ℕ} {N : Textbook.NetW} {t : ℝ} (hN : Flat A F N t) (ht : 0 < t) (f : ℕ → Textbook.Img) :
    Smooth eps n h w C F N f :=
  ⟨fun i c y x _ hc _ _ => by rw [layer_flat (hN.n0 c hc).1 (hN.n0 c hc).2]; exact ht.ne',
    blocks_flat ht _ hN.blocks _ fun i c y x => le_max_right _ _,
    fun i c y x _ hc _ _ => by rw [layer_flat (hN.np c hc).1 (hN.np c hc).2]; exact ht.ne',
    fun i c y x _ hc _ _ => by rw [layer_flat (hN.nv c hc).1 (hN.nv c hc).2]; exact ht.ne'⟩

theorem flat_logits {A C F : ℕ} {N : Textbook.NetW} {t : ℝ} (hN : Flat A F N t) (f : ℕ → Textbook.Img) (i : ℕ) {a : ℕ} (ha : a < A) :
    Textbook.logits eps true n h w C F N f i a = t := by
  unfold Textbook.logits Textbook.dense
  simp only [(hN.dp a ha).1, (hN.dp a ha).2, zero_mul, Finset.sum_const_zero, add_zero]

theorem flat_outcome {A C F : ℕ} {N : Textbook.NetW} {t : ℝ} (hN : Flat A F N t) (f : ℕ → Textbook.Img) (i : ℕ) :
    Textbook.outcome eps true n h w C F N f i = Real.tanh t := by
  unfold Textbook.outcome Textbook.dense
  simp only [hN.dv.1, hN.dv.2, zero_mul, Finset.sum_const_zero, add_zero]

theorem flat_loss {A C F : ℕ} {N : Textbook.NetW} {t : ℝ} (hA : 0 < A) (hN : Flat A F N t) (f : ℕ → Textbook.Img) (p : ℕ → ℕ → ℝ) (o : ℕ → ℝ) :
    Textbook.loss eps n h w C F A N f p o = (∑ i ∈ Finset.range n, ∑ a ∈ Finset.range A, p i a * Real.log A) / n +
      (∑ i ∈ Finset.range n, (Real.tanh t - o i) ^ 2) / n := by
  unfold Textbook.loss
  have hs : ∀ i, ∑ b ∈ Finset.range A, Real.exp (Textbook.logits eps true n h w C F N f i b) = A * Real.exp t := by
    intro i
    rw [Finset.sum_congr rfl fun b hb => by rw [flat_logits hN f i (Finset.mem_range.1 hb)], Finset.sum_const, Finset.card_range, nsmul_eq_mul]
  simp only [hs, flat_outcome hN]
  rw [Real.log_mul (Nat.cast_ne_zero.2 hA.ne') (Real.exp_pos _).ne', Real.log_exp]
  congr 2
  refine Finset.sum_congr rfl fun i _ => Finset.sum_congr rfl fun a ha => ?_
  rw [flat_logits hN f i (Finset.mem_range.1 ha)]
  ring

end

theorem tanh_deriv (t : ℝ) : HasDerivAt Real.tanh (1 / Real.cosh t ^ 2) t := by
  have h := (Real.hasDerivAt_sinh t).div (Real.hasDerivAt_cosh t) (Real.cosh_pos t).ne'
  have e : Real.tanh = fun x => Real.sinh x / Real.cosh x := funext Real.tanh_eq_sinh_div_cosh
  rw [e]
  refine h.congr_deriv ?_
  congr 1
  have := Real.cosh_sq t
  nlinarith

variable {eps : ℝ} {z : Sizes} {net : ResNet} {height width : ℕ} {sample : List Mem} {x : Batch}

/-- The network `lit vs` has no unit at a kink, and no gradient of the loss is zero if all fragments of the batch are won. -/
theorem lit_example (hA : 0 < z.actions) {vs : VarStore ℝ} (hb : Built z net vs) (hx : GoodBatch z height width sample x)
    (hw : ∀ m ∈ sample, m.outcome = 1) : NoKink eps z net sample.length height width x (lit vs) ∧
      ∀ g, IsGradient (lossAt eps net x) (trainable net) (lit vs) g → ∃ q ∈ places (lit vs) (trainable net), g q.1 q.2 ≠ 0 := by
  have hn : 0 < sample.length := List.length_pos_iff.2 hx.filled
  constructor
  · have := flat_lit hb 0
    rw [move_zero, add_zero] at this
    exact flat_smooth this one_pos _
  · intro g hg
    by_contra hne
    push Not at hne
    have hd := hg.deriv (up (trainable net) (lit vs)) (fun n idx h => by unfold up; rw [if_neg fun h' => h h'.2])
    rw [Finset.sum_eq_zero fun q hq => by rw [hne q hq, zero_mul]] at hd
    have ho : ∀ i ∈ Finset.range sample.length, outcomeOf x i = 1 := by
      intro i hi
      have hi := Finset.mem_range.1 hi
      unfold outcomeOf
      rw [hx.holds.outcome i _ (List.getElem?_eq_getElem hi), hw _ (List.getElem_mem hi)]
      norm_num
    have hL : (fun s => lossAt eps net x (move (trainable net) (lit vs) (up (trainable net) (lit vs)) s)) = fun s : ℝ =>
        (∑ i ∈ Finset.range sample.length, ∑ a ∈ Finset.range z.actions, policyOf x i a * Real.log z.actions) / sample.length +
          (Real.tanh (1 + s) - 1) ^ 2 := by
      funext s
      have e := batchLoss_formula (eps := eps) (move_built (lit_built hb) (trainable net) (up (trainable net) (lit vs)) s) hx
      have e2 : ∑ i ∈ Finset.range sample.length, (Real.tanh (1 + s) - outcomeOf x i) ^ 2 = sample.length * (Real.tanh (1 + s) - 1) ^ 2 := by
        rw [Finset.sum_congr rfl fun i hi => by rw [ho i hi], Finset.sum_const, Finset.card_range, nsmul_eq_mul]
      unfold lossAt
      rw [e, flat_loss hA (flat_lit hb s), e2, mul_div_cancel_left₀ _ (Nat.cast_ne_zero.2 hn.ne')]
      rfl
    rw [hL] at hd
    have h1 : HasDerivAt (fun s : ℝ => Real.tanh (1 + s)) (1 / Real.cosh (1 + 0) ^ 2) 0 := by
      have := HasDerivAt.comp (0 : ℝ) (h := fun s : ℝ => 1 + s) (tanh_deriv (1 + 0)) ((hasDerivAt_id (0 : ℝ)).const_add 1)
      rw [mul_one] at this
      exact this
    have h2 := ((h1.sub_const 1).pow 2).const_add
      ((∑ i ∈ Finset.range sample.length, ∑ a ∈ Finset.range z.actions, policyOf x i a * Real.log z.actions) / sample.length)
    have h3 := hd.unique h2
    have h4 : Real.tanh (1 + 0) < 1 := Real.tanh_lt_one _
    have h5 : 0 < 1 / Real.cosh (1 + 0) ^ 2 := by have := Real.cosh_pos (1 + 0); positivity
    have h6 : Real.tanh (1 + 0) - 1 ≠ 0 := by linarith
    simp only [Nat.cast_ofNat, Nat.add_one_sub_one, pow_one] at h3
    have := mul_ne_zero (mul_ne_zero two_ne_zero h6) h5.ne'
    exact this h3.symm

/-- A fragment of a won game of Tic-tac-toe. -/
def wonFragment : Mem := { outcome := 1, ps := ⟨[9], fun _ => some (1 / 9)⟩, state := ⟨[1, 3, 3, 3], fun _ => 1⟩ }

/-- The hypotheses of `C118_gradient` and `C118_partial` can be met: there are a network for Tic-tac-toe, a batch, and a gradient
which is not zero. -/
example (heps : 0 < eps) : ∃ net vs x g, Built tttSizes net vs ∧ GoodBatch tttSizes 3 3 [wonFragment] x ∧
    NoKink eps tttSizes net 1 3 3 x vs ∧ IsGradient (lossAt eps net x) (trainable net) vs g ∧ Tidy (trainable net) vs ∧
    ∃ q ∈ places vs (trainable net), g q.1 q.2 + 0 * entry vs q.1 q.2 ≠ 0 := by
  obtain ⟨net, vs, hb, -⟩ := exists_built tttSizes
  obtain ⟨x, -, hx⟩ := batchTensors_spec (N := 9) (sh := [3, 3, 3]) (by simp) (sample := [wonFragment]) (by simp)
    (by intro m hm; rw [List.mem_singleton.1 hm]; rfl) (.inl (by intro m hm; rw [List.mem_singleton.1 hm]; rfl))
  have hg : GoodBatch tttSizes 3 3 [wonFragment] x := ⟨by decide, by decide, rfl, by simp, by
    intro m hm
    rw [List.mem_singleton.1 hm]
    exact ⟨⟨rfl, rfl⟩, fun _ _ => rfl⟩, hx⟩
  obtain ⟨h1, h2⟩ := lit_example (eps := eps) (by decide) hb hg (by intro m hm; rw [List.mem_singleton.1 hm]; rfl)
  obtain ⟨g, h3⟩ := C118_gradient heps (lit_built hb) hg h1
  obtain ⟨q, h4, h5⟩ := h2 g h3
  exact ⟨net, lit vs, x, g, lit_built hb, hg, h1, h3, lit_tidy _ _, q, h4, by rwa [zero_mul, add_zero]⟩

/-! ## Later steps and the loss without the squares -/

/-- The optimizer after some steps; step `j` uses the gradient of loss `j`. -/
noncomputable def run (op : OptimizerParams) (names : List Name) (g : ℕ → VarStore ℝ → Name → List ℕ → ℝ) (vs : VarStore ℝ) : ℕ → Weights
  | 0 => .new vs
  | j + 1 => adamStep op names (g j (run op names g vs j).vs) (run op names g vs j)

/-- After `k` steps with other losses, the next step lowers its loss, if the learning rate is small enough and the gradient is
not zero anywhere. -/
def C118_statement (wd : ℝ) (k : ℕ) : Prop :=
  ∀ (L : ℕ → VarStore ℝ → ℝ) (g : ℕ → VarStore ℝ → Name → List ℕ → ℝ) (names : List Name) (vs : VarStore ℝ),
    (∀ j vs', IsGradient (L j) names vs' (g j vs')) →
    (∀ j vs', layout vs' = layout vs → ∃ q ∈ places vs' names, g j vs' q.1 q.2 ≠ 0) → ∃ r, 0 < r ∧ ∀ lr, 0 < lr → lr < r →
      L k (run ⟨wd, lr⟩ names g vs (k + 1)).vs < L k (run ⟨wd, lr⟩ names g vs k).vs

/-- C118: the first step without weight decay. -/
theorem C118_first : C118_statement 0 0 := by
  intro L g names vs hg hne
  obtain ⟨q, hq, h⟩ := hne 0 vs rfl
  obtain ⟨r, hr, h⟩ := C118_optimizer (wd := 0) (hg 0 vs) (.inl rfl) ⟨q, hq, by rwa [zero_mul, add_zero]⟩
  refine ⟨r, hr, fun lr h1 h2 => ?_⟩
  have := h lr h1 h2
  simp only [zero_div, zero_mul, add_zero] at this
  exact this

open Classical in
/-- The gradient of a multiple of an entry. -/
noncomputable def gradOf (c : ℝ) (n₀ : Name) (i₀ : List ℕ) (names : List Name) (vs : VarStore ℝ) (n : Name) (idx : List ℕ) : ℝ :=
  if (n, idx) = (n₀, i₀) ∧ (n, idx) ∈ places vs names then c else 0

theorem gradOf_gradient (c : ℝ) (n₀ : Name) (i₀ : List ℕ) (names : List Name) (vs : VarStore ℝ) :
    IsGradient (fun vs => c * entry vs n₀ i₀) names vs (gradOf c n₀ i₀ names vs) := by
  refine ⟨fun n idx h => if_neg fun h' => h h'.2, fun δ hδ => ?_⟩
  by_cases h : (n₀, i₀) ∈ places vs names
  · obtain ⟨h1, t, ht⟩ := mem_places h
    rw [Finset.sum_eq_single (n₀, i₀)]
    · simp only [entry_move δ _ h1 ht]
      unfold gradOf
      rw [if_pos ⟨rfl, h⟩]
      have := (((hasDerivAt_id (0 : ℝ)).mul_const (δ n₀ i₀)).const_add (entry vs n₀ i₀)).const_mul c
      rw [one_mul] at this
      exact this
    · intro q _ hq
      unfold gradOf
      rw [if_neg fun h' => hq h'.1, zero_mul]
    · exact fun h' => absurd h h'
  · have e : ∀ s, entry (move names vs δ s) n₀ i₀ = entry vs n₀ i₀ := by
      intro s
      unfold entry
      rw [get_move]
      cases vs.get n₀ with
      | none => rfl
      | some t =>
        simp only [Option.map_some]
        split
        · show t.at' i₀ + s * δ n₀ i₀ = _
          rw [hδ n₀ i₀ h, mul_zero, add_zero]
        · rfl
    simp only [e]
    rw [Finset.sum_eq_zero]
    · exact hasDerivAt_const _ _
    · intro q hq
      unfold gradOf
      have hne : ¬ ((q.1, q.2) = (n₀, i₀) ∧ (q.1, q.2) ∈ places vs names) := fun h' => h (h'.1 ▸ h'.2)
      rw [if_neg hne, zero_mul]

/-- A store with one number. -/
def single (x : ℝ) : VarStore ℝ := ⟨[(weight, ⟨[], fun _ => x⟩)]⟩

theorem single_place (x : ℝ) : (weight, []) ∈ places (single x) [weight] :=
  (places_of (List.mem_singleton_self _) (t := ⟨[], fun _ => x⟩) rfl).2 (List.mem_singleton_self _)

theorem single_layout {x : ℝ} {vs : VarStore ℝ} (h : layout vs = layout (single x)) : (weight, []) ∈ places vs [weight] := by
  have hk : Has (single x) weight [] := ⟨_, rfl, rfl⟩
  obtain ⟨t, ht, hs⟩ := keeps_of_layout h.symm _ _ hk
  refine (places_of (List.mem_singleton_self _) ht).2 ?_
  rw [hs]
  exact List.mem_singleton_self _

theorem run_layout (op : OptimizerParams) (names : List Name) (g : ℕ → VarStore ℝ → Name → List ℕ → ℝ) (vs : VarStore ℝ) (j : ℕ) :
    layout (run op names g vs j).vs = layout vs := by
  induction j with
  | zero => rfl
  | succ j ih =>
    rw [← ih]
    exact layout_mapVars (fun n x => by split <;> rfl) _

theorem run_count (op : OptimizerParams) (names : List Name) (g : ℕ → VarStore ℝ → Name → List ℕ → ℝ) (vs : VarStore ℝ) (j : ℕ) :
    (run op names g vs j).count = j := by
  induction j with
  | zero => rfl
  | succ j ih => exact congrArg (· + 1) ih

theorem run_m (op : OptimizerParams) (names : List Name) (g : ℕ → VarStore ℝ → Name → List ℕ → ℝ) (vs : VarStore ℝ) (j : ℕ) (n : Name)
    (idx : List ℕ) : (run op names g vs (j + 1)).m n idx = firstMoment ((run op names g vs j).m n idx)
      (g j (run op names g vs j).vs n idx + op.wd * entry (run op names g vs j).vs n idx) := by
  rw [← entries_entry]
  rfl

theorem run_entry (op : OptimizerParams) {names : List Name} (g : ℕ → VarStore ℝ → Name → List ℕ → ℝ) (vs : VarStore ℝ) (j : ℕ) {n : Name}
    {idx : List ℕ} (h : (n, idx) ∈ places (run op names g vs j).vs names) : entry (run op names g vs (j + 1)).vs n idx =
      entry (run op names g vs j).vs n idx - stride op.lr (j + 1) ((run op names g vs (j + 1)).m n idx) ((run op names g vs (j + 1)).v n idx) := by
  obtain ⟨h1, t, ht⟩ := mem_places h
  have hg : (run op names g vs (j + 1)).vs.get n = some ⟨t.shape, fun idx => t.at' idx - stride op.lr ((run op names g vs j).count + 1)
      ((run op names g vs (j + 1)).m n idx) ((run op names g vs (j + 1)).v n idx)⟩ := by
    show (mapVars _ (run op names g vs j).vs).get n = _
    rw [get_mapVars, ht, Option.map_some, if_pos h1]
    rfl
  unfold entry
  rw [hg, ht, run_count]

theorem stride_pos {lr m v : ℝ} (hl : 0 < lr) (j : ℕ) (hm : 0 < m) : 0 < stride lr (j + 1) m v := by
  unfold stride
  have h1 : 0 < 1 - beta1 ^ (j + 1) := corr1_pos (Nat.succ_ne_zero j)
  have h2 : 0 < Real.sqrt v / Real.sqrt (1 - beta2 ^ (j + 1)) + adamEps :=
    add_pos_of_nonneg_of_pos (div_nonneg (Real.sqrt_nonneg _) (Real.sqrt_nonneg _)) eps_pos
  positivity

theorem stride_neg {lr m v : ℝ} (j : ℕ) : stride lr (j + 1) (-m) v = -stride lr (j + 1) m v := by
  unfold stride
  ring

/-- C118 is false for the loss alone if there is weight decay: whatever the learning rate, the first step raises the loss `x`
of a variable which is negative enough. -/
theorem C118_refuted_decay {wd : ℝ} (hw : 0 < wd) : ¬ C118_statement wd 0 := by
  intro h
  obtain ⟨r, hr, h⟩ := h (fun _ vs => 1 * entry vs weight []) (fun _ vs => gradOf 1 weight [] [weight] vs) [weight] (single (-2 / wd))
    (fun _ _ => gradOf_gradient _ _ _ _ _)
    (fun _ vs' hl => ⟨_, single_layout hl, by unfold gradOf; rw [if_pos ⟨rfl, single_layout hl⟩]; exact one_ne_zero⟩)
  have h1 := h (r / 2) (by linarith) (by linarith)
  set op : OptimizerParams := ⟨wd, r / 2⟩
  have hp : (weight, []) ∈ places (run op [weight] (fun _ vs => gradOf 1 weight [] [weight] vs) (single (-2 / wd)) 0).vs [weight] :=
    single_place _
  simp only [one_mul, run_entry op _ _ 0 hp, run_m] at h1
  have hg : gradOf 1 weight [] [weight] (single (-2 / wd)) weight [] = 1 := by unfold gradOf; rw [if_pos ⟨rfl, single_place _⟩]
  have he : entry (single (-2 / wd)) weight [] = -2 / wd := rfl
  have hv : (run op [weight] (fun _ vs => gradOf 1 weight [] [weight] vs) (single (-2 / wd)) 0).vs = single (-2 / wd) := rfl
  have hm : (run op [weight] (fun _ vs => gradOf 1 weight [] [weight] vs) (single (-2 / wd)) 0).m weight [] = 0 := rfl
  rw [hv, hm, hg, he] at h1
  have e : firstMoment 0 (1 + op.wd * (-2 / wd)) = -(1 / 10) := by
    show beta1 * 0 + (1 - beta1) * (1 + wd * (-2 / wd)) = _
    have := hw.ne'
    unfold beta1
    field_simp
    norm_num
  rw [e, stride_neg] at h1
  have := stride_pos (lr := op.lr) (v := (run op [weight] (fun _ vs => gradOf 1 weight [] [weight] vs) (single (-2 / wd)) (0 + 1)).v weight [])
    (show 0 < r / 2 by linarith) 0 (show (0 : ℝ) < 1 / 10 by norm_num)
  linarith

/-- C118 is false for every step but the first, even without weight decay: whatever the learning rate, the moments of the
earlier steps can carry the variable uphill. -/
theorem C118_refuted {k : ℕ} (hk : k ≠ 0) : ¬ C118_statement 0 k := by
  intro h
  set c : ℕ → ℝ := fun j => if j = k then -(1 / 10) else 1 with hc
  have hc0 : ∀ j, c j ≠ 0 := by intro j; simp only [hc]; split <;> norm_num
  obtain ⟨r, hr, h⟩ := h (fun j vs => c j * entry vs weight []) (fun j vs => gradOf (c j) weight [] [weight] vs) [weight] (single 0)
    (fun _ _ => gradOf_gradient _ _ _ _ _)
    (fun j vs' hl => ⟨_, single_layout hl, by unfold gradOf; rw [if_pos ⟨rfl, single_layout hl⟩]; exact hc0 j⟩)
  have h1 := h (r / 2) (by linarith) (by linarith)
  set op : OptimizerParams := ⟨0, r / 2⟩
  set G : ℕ → VarStore ℝ → Name → List ℕ → ℝ := fun j vs => gradOf (c j) weight [] [weight] vs
  have hp : ∀ j, (weight, []) ∈ places (run op [weight] G (single 0) j).vs [weight] := fun j => single_layout (run_layout _ _ _ _ j)
  have hg : ∀ j, G j (run op [weight] G (single 0) j).vs weight [] = c j := by
    intro j
    show gradOf _ _ _ _ _ _ _ = _
    unfold gradOf
    rw [if_pos ⟨rfl, hp j⟩]
  have hm : ∀ j, (run op [weight] G (single 0) (j + 1)).m weight [] = firstMoment ((run op [weight] G (single 0) j).m weight []) (c j) := by
    intro j
    rw [run_m, hg]
    show firstMoment _ (c j + 0 * _) = _
    rw [zero_mul, add_zero]
  have hk1 : ∀ j, j ≤ k → (run op [weight] G (single 0) j).m weight [] = 1 - beta1 ^ j := by
    intro j
    induction j with
    | zero => intro _; show (0 : ℝ) = _; norm_num
    | succ j ih =>
      intro hj
      rw [hm, ih (by omega)]
      have : c j = 1 := if_neg (by omega)
      rw [this]
      unfold firstMoment
      ring
  have hck : c k = -(1 / 10) := if_pos rfl
  simp only [run_entry op _ _ k (hp k), hm, hk1 k le_rfl, hck] at h1
  have hb : beta1 ^ k ≤ beta1 := by
    have := pow_le_pow_of_le_one (a := beta1) (by unfold beta1; norm_num) (by unfold beta1; norm_num) (Nat.one_le_iff_ne_zero.2 hk)
    rwa [pow_one] at this
  have hpos : 0 < firstMoment (1 - beta1 ^ k) (-(1 / 10)) := by
    unfold firstMoment
    have e : beta1 = 9 / 10 := rfl
    rw [e] at hb ⊢
    linarith
  have := stride_pos (lr := op.lr) (v := (run op [weight] G (single 0) (k + 1)).v weight []) (show 0 < r / 2 by linarith) k hpos
  linarith

end DieE.Props.Ds
