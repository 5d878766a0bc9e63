import Verif.Props.Adam
import Verif.Props.Loss
import Verif.Props.Learn

/-!
# C108, C110: the network during training

The variables of a network in training: what the forward pass and the optimizer do with them.
-/

namespace DieE.Props.Ad
open DieE DieE.Mcts DieE.Train DieE.Net
open DieE.Props.N (realArith Built asSearchNet)
open DieE.Props.V (res_bind)

/-! ## Names -/

/-- The name of a running statistic. -/
def Running (n : Name) : Prop := runningMean <+: n ∨ runningVar <+: n

theorem fresh_prefix {F : Type} (vs : VarStore F) (b : Name) : b <+: vs.fresh b := by
  unfold VarStore.fresh
  split
  · exact ⟨['_', '_'] ++ digits vs.named.length, by simp⟩
  · exact List.prefix_refl _

theorem not_running_weight {n : Name} (h : weight <+: n) : ¬ Running n := by
  obtain ⟨t, rfl⟩ := h
  rintro (⟨s, h⟩ | ⟨s, h⟩) <;> simp [weight, runningMean, runningVar] at h

theorem not_running_bias {n : Name} (h : bias <+: n) : ¬ Running n := by
  obtain ⟨t, rfl⟩ := h
  rintro (⟨s, h⟩ | ⟨s, h⟩) <;> simp [bias, runningMean, runningVar] at h

theorem not_var_of_mean {n : Name} (h : runningMean <+: n) : ¬ runningVar <+: n := by
  obtain ⟨t, rfl⟩ := h
  rintro ⟨s, h⟩
  simp [runningMean, runningVar] at h

/-- The names of a convolution. -/
def ConvNamed (c : Conv) : Prop := ¬ Running c.w ∧ ¬ Running c.b
/-- The names of a linear layer. -/
def LinearNamed (c : Linear) : Prop := ¬ Running c.w ∧ ¬ Running c.b
/-- The names of a normalisation. -/
def NormNamed (l : Norm) : Prop := runningMean <+: l.mean ∧ runningVar <+: l.var ∧ ¬ Running l.w ∧ ¬ Running l.b

/-- The names of a network. -/
structure Named (net : ResNet) : Prop where
  conv : ConvNamed net.conv
  bn : NormNamed net.bn
  res : ∀ r ∈ net.res, ConvNamed r.conv1 ∧ ConvNamed r.conv2 ∧ NormNamed r.bn1 ∧ NormNamed r.bn2
  pConv : ConvNamed net.pConv
  pBn : NormNamed net.pBn
  pLin : LinearNamed net.pLin
  vConv : ConvNamed net.vConv
  vBn : NormNamed net.vBn
  vLin : LinearNamed net.vLin

section Names
variable {F : Type} (init : Nat → List Nat → F)

theorem conv_named (vs : VarStore F) (i o : Nat) : ConvNamed (Conv.new init vs i o).1 :=
  ⟨not_running_weight (fresh_prefix _ _), not_running_bias (fresh_prefix _ _)⟩
theorem linear_named (vs : VarStore F) (i o : Nat) : LinearNamed (Linear.new init vs i o).1 :=
  ⟨not_running_weight (fresh_prefix _ _), not_running_bias (fresh_prefix _ _)⟩
theorem norm_named (vs : VarStore F) (o : Nat) : NormNamed (Norm.new init vs o).1 :=
  ⟨fresh_prefix _ _, fresh_prefix _ _, not_running_weight (fresh_prefix _ _), not_running_bias (fresh_prefix _ _)⟩

theorem blocks_named (f k : Nat) (vs : VarStore F) : ∀ r ∈ (ResBlock.newAll init f k vs).1,
    ConvNamed r.conv1 ∧ ConvNamed r.conv2 ∧ NormNamed r.bn1 ∧ NormNamed r.bn2 := by
  induction k generalizing vs with
  | zero => intro r hr; cases hr
  | succ k ih =>
    intro r hr
    rcases List.mem_cons.1 hr with rfl | hr
    · exact ⟨conv_named .., conv_named .., norm_named .., norm_named ..⟩
    · exact ih _ r hr

end Names

theorem built_named {F : Type} {z : Sizes} {net : ResNet} {vs : VarStore F} (h : Built z net vs) : Named net := by
  obtain ⟨init, rfl, -⟩ := h
  exact ⟨conv_named .., norm_named .., fun r hr => blocks_named _ _ _ _ r hr, conv_named .., norm_named .., linear_named .., conv_named ..,
    norm_named .., linear_named ..⟩

theorem trainable_named {net : ResNet} (h : Named net) : ∀ n ∈ trainable net, ¬ Running n := by
  intro n hn
  unfold trainable at hn
  rw [List.mem_append, List.mem_append] at hn
  rcases hn with (hn | hn) | hn
  · simp only [List.mem_cons, List.not_mem_nil, or_false] at hn
    rcases hn with rfl | rfl | rfl | rfl
    exacts [h.conv.1, h.conv.2, h.bn.2.2.1, h.bn.2.2.2]
  · obtain ⟨r, hr, hn⟩ := List.mem_flatMap.1 hn
    obtain ⟨h1, h2, h3, h4⟩ := h.res r hr
    simp only [List.mem_cons, List.not_mem_nil, or_false] at hn
    rcases hn with rfl | rfl | rfl | rfl | rfl | rfl | rfl | rfl
    exacts [h1.1, h1.2, h2.1, h2.2, h3.2.2.1, h3.2.2.2, h4.2.2.1, h4.2.2.2]
  · simp only [List.mem_cons, List.not_mem_nil, or_false] at hn
    rcases hn with rfl | rfl | rfl | rfl | rfl | rfl | rfl | rfl | rfl | rfl | rfl | rfl
    exacts [h.pConv.1, h.pConv.2, h.pBn.2.2.1, h.pBn.2.2.2, h.pLin.1, h.pLin.2, h.vConv.1, h.vConv.2, h.vBn.2.2.1,
      h.vBn.2.2.2, h.vLin.1, h.vLin.2]

/-! ## Changes of variables -/

theorem get_mapVars {F : Type} (f : Name → Tensor F → Tensor F) (vs : VarStore F) (n : Name) :
    (mapVars f vs).get n = (vs.get n).map (f n) := by
  obtain ⟨l⟩ := vs
  unfold mapVars VarStore.get
  simp only
  induction l with
  | nil => rfl
  | cons e l ih =>
    obtain ⟨k, x⟩ := e
    rw [List.map_cons, List.lookup_cons, List.lookup_cons]
    by_cases h : n = k
    · subst h; simp
    · have : (n == k) = false := by simpa using h
      simp only [this]
      exact ih

theorem layout_mapVars {F : Type} {f : Name → Tensor F → Tensor F} (h : ∀ n x, (f n x).shape = x.shape) (vs : VarStore F) :
    layout (mapVars f vs) = layout vs := by
  unfold layout mapVars
  rw [List.map_map]
  exact List.map_congr_left fun e _ => by simp [h]

/-- All running variances are positive. -/
def Positive (vs : VarStore ℝ) : Prop := ∀ n x, runningVar <+: n → vs.get n = some x → ∀ idx, 0 < x.at' idx

/-- What a forward pass in training mode may change: values of running statistics. -/
structure Tracked (vs vs' : VarStore ℝ) : Prop where
  layout : layout vs' = layout vs
  same : ∀ n, ¬ Running n → vs'.get n = vs.get n
  pos : Positive vs → Positive vs'

theorem Tracked.refl (vs : VarStore ℝ) : Tracked vs vs := ⟨rfl, fun _ _ => rfl, id⟩

theorem Tracked.trans {a b c : VarStore ℝ} (h : Tracked a b) (h' : Tracked b c) : Tracked a c :=
  ⟨h'.layout.trans h.layout, fun n hn => (h'.same n hn).trans (h.same n hn), fun hp => h'.pos (h.pos hp)⟩

theorem Tracked.value {vs vs' : VarStore ℝ} (h : Tracked vs vs') {n : Name} (hn : ¬ Running n) : value vs' n = value vs n := by
  unfold Net.value
  rw [h.same n hn]

theorem Tracked.shape {vs vs' : VarStore ℝ} (h : Tracked vs vs') {n : Name} {x : Tensor ℝ} (hx : Net.value vs n = .ok x) :
    ∃ x', Net.value vs' n = .ok x' ∧ x'.shape = x.shape := by
  have : Has vs n x.shape := by
    unfold Net.value at hx
    cases hg : vs.get n with
    | none => rw [hg] at hx; cases hx
    | some y => rw [hg] at hx; exact ⟨y, hg, by rw [Except.ok.inj hx]⟩
  exact value_ok (keeps_of_layout h.layout.symm _ _ this)

variable {eps : ℝ}

theorem Tracked.conv {vs vs' : VarStore ℝ} (h : Tracked vs vs') {c : Conv} (hc : ConvNamed c) (x : Tensor ℝ) :
    (c.apply (realArith eps) vs' x : Res (Tensor ℝ)) = c.apply (realArith eps) vs x := by
  unfold Conv.apply
  have h1 : Net.value (F := (realArith eps).F) vs' c.w = Net.value (F := (realArith eps).F) vs c.w := h.value hc.1
  have h2 : Net.value (F := (realArith eps).F) vs' c.b = Net.value (F := (realArith eps).F) vs c.b := h.value hc.2
  rw [h1, h2]

theorem Tracked.linear {vs vs' : VarStore ℝ} (h : Tracked vs vs') {c : Linear} (hc : LinearNamed c) (x : Tensor ℝ) :
    (c.apply (realArith eps) vs' x : Res (Tensor ℝ)) = c.apply (realArith eps) vs x := by
  unfold Linear.apply
  have h1 : Net.value (F := (realArith eps).F) vs' c.w = Net.value (F := (realArith eps).F) vs c.w := h.value hc.1
  have h2 : Net.value (F := (realArith eps).F) vs' c.b = Net.value (F := (realArith eps).F) vs c.b := h.value hc.2
  rw [h1, h2]

theorem batchNorm_stats {m v m' v' w b x : Tensor ℝ} (hm : m'.shape = m.shape) (hv : v'.shape = v.shape) :
    batchNorm (realArith eps) true m' v' w b x = batchNorm (realArith eps) true m v w b x := by
  unfold batchNorm
  rw [hm, hv]
  simp only [if_true]

theorem Tracked.norm {vs vs' : VarStore ℝ} (h : Tracked vs vs') {l : Norm} (hl : NormNamed l) {x y : Tensor ℝ}
    (hy : (l.apply (realArith eps) vs true x : Res (Tensor ℝ)) = .ok y) :
    (l.apply (realArith eps) vs' true x : Res (Tensor ℝ)) = .ok y := by
  obtain ⟨m, h1, hy⟩ := res_bind.1 hy
  obtain ⟨v, h2, hy⟩ := res_bind.1 hy
  obtain ⟨w, h3, hy⟩ := res_bind.1 hy
  obtain ⟨b, h4, hy⟩ := res_bind.1 hy
  obtain ⟨m', h5, h6⟩ := h.shape h1
  obtain ⟨v', h7, h8⟩ := h.shape h2
  refine res_bind.2 ⟨m', h5, res_bind.2 ⟨v', h7, res_bind.2 ⟨w, ?_, res_bind.2 ⟨b, ?_, ?_⟩⟩⟩⟩
  · exact (h.value hl.2.2.1).trans h3
  · exact (h.value hl.2.2.2).trans h4
  · exact (batchNorm_stats h6 h8).trans hy

theorem sum_sq_nonneg (l : List ℝ) (c : ℝ) : 0 ≤ (l.map fun x => (x - c) ^ 2).sum := by
  apply List.sum_nonneg
  intro y hy
  obtain ⟨x, -, rfl⟩ := List.mem_map.1 hy
  exact sq_nonneg _

theorem unbiased_nonneg (l : List ℝ) (h : l ≠ []) : 0 ≤ unbiased l := by
  unfold unbiased
  apply div_nonneg (sum_sq_nonneg l _)
  have : 1 ≤ l.length := List.length_pos_iff.2 h
  have : (1 : ℝ) ≤ l.length := by exact_mod_cast this
  linarith

theorem channel_length (x : Tensor ℝ) (n h w c : Nat) : (channel x n h w c).length = n * h * w := by
  unfold channel
  simp [List.length_flatMap, mul_assoc]

/-- A normalisation in training mode returns what `Norm.apply` returns. -/
theorem trackNorm_ok {vs : VarStore ℝ} {l : Norm} (hl : NormNamed l) {x y : Tensor ℝ}
    (hy : (l.apply (realArith eps) vs true x : Res (Tensor ℝ)) = .ok y) :
    ∃ vs', trackNorm eps vs l x = .ok (y, vs') ∧ Tracked vs vs' := by
  have hx : ∃ n c h w, x.shape = [n, c, h, w] ∧ 2 ≤ n * h * w := by
    obtain ⟨m, h1, hy⟩ := res_bind.1 hy
    obtain ⟨v, h2, hy⟩ := res_bind.1 hy
    obtain ⟨w, h3, hy⟩ := res_bind.1 hy
    obtain ⟨b, h4, hy⟩ := res_bind.1 hy
    unfold batchNorm at hy
    split at hy
    · next n c h wd hs =>
      split at hy
      · next hc => exact ⟨n, c, h, wd, hs, hc.2.2.2.2 rfl⟩
      · cases hy
    · cases hy
  obtain ⟨n, c, h, w, hs, h2⟩ := hx
  have hun : ∀ k, 0 ≤ unbiased (channel x n h w k) := fun k => unbiased_nonneg _ (by
    intro e
    have := channel_length x n h w k
    rw [e] at this
    have : 0 = n * h * w := this
    rw [← this] at h2
    omega)
  unfold trackNorm
  rw [hs]
  refine ⟨_, res_bind.2 ⟨y, hy, rfl⟩, ?_, ?_, ?_⟩
  · exact layout_mapVars (fun n x => by split <;> [rfl; (split <;> rfl)]) vs
  · intro k hk
    rw [get_mapVars]
    have h1 : k ≠ l.mean := fun e => hk (e ▸ .inl hl.1)
    have h2 : k ≠ l.var := fun e => hk (e ▸ .inr hl.2.1)
    simp [h1, h2]
  · intro hp k z hk hz idx
    rw [get_mapVars] at hz
    obtain ⟨o, ho, rfl⟩ := Option.map_eq_some_iff.1 hz
    have h0 := hp k o hk ho idx
    rw [if_neg (fun e : k = l.mean => not_var_of_mean hl.1 (e ▸ hk))]
    split
    · show 0 < towards _ _
      unfold towards
      have := hun (idx.getD 0 0)
      linarith
    · exact h0

/-- The values of a channel of a batch have the mean `b` and the (unbiased) variance `v`. -/
def ChannelStats (x : Tensor ℝ) (k : Nat) (b v : ℝ) : Prop :=
  ∃ n c h w, x.shape = [n, c, h, w] ∧ (channel x n h w k).sum = (n * h * w : Nat) * b ∧
    ((channel x n h w k).map fun y => (y - b) ^ 2).sum = ((n * h * w : Nat) - 1) * v

/-- C110: a normalisation moves the running statistics of a channel by a tenth of the way to those of the batch. -/
theorem C110_tenth {vs : VarStore ℝ} {l : Norm} (hl : NormNamed l) {x : Tensor ℝ} {r : Tensor ℝ × VarStore ℝ}
    (hr : trackNorm eps vs l x = .ok r) {k : Nat} {b v : ℝ} (hs : ChannelStats x k b v) {m s : Tensor ℝ} (hm : vs.get l.mean = some m)
    (hv : vs.get l.var = some s) :
    (∃ m', r.2.get l.mean = some m' ∧ m'.at' [k] - m.at' [k] = (b - m.at' [k]) / 10) ∧
      ∃ s', r.2.get l.var = some s' ∧ s'.at' [k] - s.at' [k] = (v - s.at' [k]) / 10 := by
  obtain ⟨n, c, h, w, hx, h1, h2⟩ := hs
  obtain ⟨y, hy, hr⟩ := res_bind.1 hr
  have h3 : 2 ≤ n * h * w := by
    obtain ⟨_, -, hy⟩ := res_bind.1 hy
    obtain ⟨_, -, hy⟩ := res_bind.1 hy
    obtain ⟨_, -, hy⟩ := res_bind.1 hy
    obtain ⟨_, -, hy⟩ := res_bind.1 hy
    unfold batchNorm at hy
    split at hy
    · next n' c' h' w' hs' =>
      obtain ⟨rfl, rfl, rfl, rfl⟩ : n = n' ∧ c = c' ∧ h = h' ∧ w = w' := by simpa using hx.symm.trans hs'
      split at hy
      · next hc => exact hc.2.2.2.2 rfl
      · cases hy
    · cases hy
  have h4 : ((n * h * w : Nat) : ℝ) ≠ 0 := by
    rw [Nat.cast_ne_zero]
    omega
  have h5 : ((n * h * w : Nat) : ℝ) - 1 ≠ 0 := by
    have : (2 : ℝ) ≤ ((n * h * w : Nat) : ℝ) := by exact_mod_cast h3
    linarith
  have e1 : (channel x n h w k).sum / (n * h * w : Nat) = b := by
    rw [h1, mul_div_cancel_left₀ _ h4]
  have e2 : unbiased (channel x n h w k) = v := by
    unfold unbiased
    rw [channel_length, e1, h2, mul_div_cancel_left₀ _ h5]
  rw [hx] at hr
  rw [← Except.ok.inj hr]
  constructor
  · refine ⟨_, by rw [get_mapVars, hm]; exact rfl, ?_⟩
    dsimp only
    rw [if_pos rfl]
    show towards _ ((channel x n h w k).sum / (n * h * w : Nat)) - _ = _
    rw [e1]
    unfold towards
    ring
  · refine ⟨_, by rw [get_mapVars, hv]; exact rfl, ?_⟩
    dsimp only
    rw [if_neg (fun e : l.var = l.mean => not_var_of_mean hl.1 (e ▸ hl.2.1)), if_pos rfl]
    show towards _ (unbiased (channel x n h w k)) - _ = _
    rw [e2]
    unfold towards
    ring

/-- Batches that are normalised one after the other. -/
inductive Batches (eps : ℝ) (l : Norm) (k : Nat) (b v : ℝ) : Nat → VarStore ℝ → VarStore ℝ → Prop
  | zero {vs : VarStore ℝ} : Batches eps l k b v 0 vs vs
  | succ {j : Nat} {vs vs' : VarStore ℝ} {x : Tensor ℝ} {r : Tensor ℝ × VarStore ℝ} : Batches eps l k b v j vs vs' → ChannelStats x k b v →
      trackNorm eps vs' l x = .ok r → Batches eps l k b v (j + 1) vs r.2

/-- C110: if all batches have the same mean and variance in a channel, the running statistics approach them geometrically,
whatever the network started with. -/
theorem C110_statistics {l : Norm} (hl : NormNamed l) {k : Nat} {b v : ℝ} {j : Nat} {vs vs' : VarStore ℝ} (h : Batches eps l k b v j vs vs')
    {m s : Tensor ℝ} (hm : vs.get l.mean = some m) (hv : vs.get l.var = some s) :
    (∃ m', vs'.get l.mean = some m' ∧ m'.at' [k] - b = (9 / 10) ^ j * (m.at' [k] - b)) ∧
      ∃ s', vs'.get l.var = some s' ∧ s'.at' [k] - v = (9 / 10) ^ j * (s.at' [k] - v) := by
  induction h with
  | zero => exact ⟨⟨m, hm, by ring⟩, s, hv, by ring⟩
  | succ _ h1 h2 ih =>
    obtain ⟨⟨m1, h3, h4⟩, s1, h5, h6⟩ := ih hm hv
    obtain ⟨⟨m2, h7, h8⟩, s2, h9, h10⟩ := C110_tenth hl h2 h1 h3 h5
    refine ⟨⟨m2, h7, ?_⟩, s2, h9, ?_⟩
    · rw [pow_succ]
      linarith
    · rw [pow_succ]
      linarith

/-- A normalisation of one channel, its store with the initial values, and a batch of the values 1 and 3. -/
def oneNorm : Norm := ⟨runningMean, runningVar, ['w'], ['b']⟩
noncomputable def oneStore : VarStore ℝ :=
  ⟨[(runningMean, ⟨[1], fun _ => 0⟩), (runningVar, ⟨[1], fun _ => 1⟩), (['w'], ⟨[1], fun _ => 1⟩), (['b'], ⟨[1], fun _ => 0⟩)]⟩
noncomputable def oneBatch : Tensor ℝ := ⟨[2, 1, 1, 1], fun idx => if idx.getD 0 0 = 0 then 1 else 3⟩

/-- The batch has mean 2 and variance 2. -/
theorem oneBatch_stats : ChannelStats oneBatch 0 2 2 := by
  refine ⟨2, 1, 1, 1, rfl, ?_, ?_⟩ <;> norm_num [channel, oneBatch, List.range, List.range.loop]

/-- After one batch the running mean is 0.2. -/
example : ∃ r m, trackNorm eps oneStore oneNorm oneBatch = .ok r ∧ r.2.get runningMean = some m ∧ m.at' [0] = 2 / 10 := by
  obtain ⟨y, hy⟩ : ∃ y, (oneNorm.apply (realArith eps) oneStore true oneBatch : Res (Tensor ℝ)) = .ok y := ⟨_, rfl⟩
  have hl : NormNamed oneNorm := by
    refine ⟨List.prefix_rfl, List.prefix_rfl, ?_, ?_⟩ <;> (unfold Running; decide)
  obtain ⟨vs', h, -⟩ := trackNorm_ok hl hy
  obtain ⟨⟨m', h1, h2⟩, -⟩ := C110_tenth hl h oneBatch_stats (m := ⟨[1], fun _ => 0⟩) (s := ⟨[1], fun _ => 1⟩) rfl rfl
  refine ⟨_, m', h, h1, ?_⟩
  have h2 : m'.at' [0] - 0 = (2 - 0) / 10 := h2
  linarith

theorem trackBlock_ok {vs0 vs : VarStore ℝ} (ht : Tracked vs0 vs) {r : ResBlock}
    (hr : ConvNamed r.conv1 ∧ ConvNamed r.conv2 ∧ NormNamed r.bn1 ∧ NormNamed r.bn2) {x y : Tensor ℝ}
    (hy : (r.apply (realArith eps) vs0 true x : Res (Tensor ℝ)) = .ok y) :
    ∃ vs', trackBlock eps vs r x = .ok (y, vs') ∧ Tracked vs0 vs' := by
  obtain ⟨hc1, hc2, hb1, hb2⟩ := hr
  obtain ⟨y1, e1, hy⟩ := res_bind.1 hy
  obtain ⟨y2, e2, hy⟩ := res_bind.1 hy
  obtain ⟨y3, e3, hy⟩ := res_bind.1 hy
  obtain ⟨y4, e4, hy⟩ := res_bind.1 hy
  obtain ⟨y5, e5, hy⟩ := res_bind.1 hy
  obtain ⟨v1, f2, t1⟩ := trackNorm_ok hb1 (ht.norm hb1 e2)
  have t1' := ht.trans t1
  obtain ⟨v2, f4, t2⟩ := trackNorm_ok hb2 (t1'.norm hb2 e4)
  refine ⟨v2, ?_, t1'.trans t2⟩
  refine res_bind.2 ⟨y1, (ht.conv hc1 x).trans e1, res_bind.2 ⟨(y2, v1), f2, res_bind.2 ⟨y3, (t1'.conv hc2 _).trans e3,
    res_bind.2 ⟨(y4, v2), f4, res_bind.2 ⟨y5, e5, ?_⟩⟩⟩⟩⟩
  exact congrArg (fun z => Except.ok (z, v2)) (Except.ok.inj hy)

theorem trackBlocks_ok {vs0 : VarStore ℝ} (rs : List ResBlock)
    (hr : ∀ r ∈ rs, ConvNamed r.conv1 ∧ ConvNamed r.conv2 ∧ NormNamed r.bn1 ∧ NormNamed r.bn2) {vs : VarStore ℝ}
    (ht : Tracked vs0 vs) {x y : Tensor ℝ}
    (hy : (rs.foldlM (fun y r => (r.apply (realArith eps) vs0 true y : Res (Tensor ℝ))) x) = .ok y) :
    ∃ vs', trackBlocks eps rs vs x = .ok (y, vs') ∧ Tracked vs0 vs' := by
  induction rs generalizing vs x with
  | nil => exact ⟨vs, congrArg (fun z => Except.ok (z, vs)) (Except.ok.inj hy), ht⟩
  | cons r rs ih =>
    have hy : ((r.apply (realArith eps) vs0 true x : Res (Tensor ℝ)) >>= fun y =>
      rs.foldlM (fun y r => (r.apply (realArith eps) vs0 true y : Res (Tensor ℝ))) y) = .ok y := hy
    obtain ⟨y1, e1, hy⟩ := res_bind.1 hy
    obtain ⟨v1, f1, t1⟩ := trackBlock_ok ht (hr r (List.mem_cons_self ..)) e1
    obtain ⟨v2, f2, t2⟩ := ih (fun r h => hr r (List.mem_cons_of_mem _ h)) t1 hy
    exact ⟨v2, res_bind.2 ⟨(y1, v1), f1, f2⟩, t2⟩

/-- C110: the forward pass of a training step returns what `forward_train` is modelled to return (C82), although it
changes the running statistics on its way; it changes nothing else, and running variances stay positive. -/
theorem C110_forward {net : ResNet} (hn : Named net) {vs : VarStore ℝ} {x p v : Tensor ℝ}
    (h : (net.forwardTrain (realArith eps) vs true x : Res (Tensor ℝ × Tensor ℝ)) = .ok (p, v)) :
    ∃ vs', trackTrain eps net vs x = .ok ((p, v), vs') ∧ Tracked vs vs' := by
  obtain ⟨y, h1, h⟩ := res_bind.1 h
  obtain ⟨a1, e1, h1⟩ := res_bind.1 h1
  obtain ⟨a2, e2, h1⟩ := res_bind.1 h1
  obtain ⟨p', h2, h⟩ := res_bind.1 h
  obtain ⟨v', h3, h⟩ := res_bind.1 h
  obtain ⟨b1, e3, h2⟩ := res_bind.1 h2
  obtain ⟨b2, e4, h2⟩ := res_bind.1 h2
  obtain ⟨b3, e5, h2⟩ := res_bind.1 h2
  obtain ⟨c1, e6, h3⟩ := res_bind.1 h3
  obtain ⟨c2, e7, h3⟩ := res_bind.1 h3
  obtain ⟨c3, e8, h3⟩ := res_bind.1 h3
  obtain ⟨c4, e9, h3⟩ := res_bind.1 h3
  obtain ⟨s1, f1, t1⟩ := trackNorm_ok hn.bn e2
  obtain ⟨s2, f2, t2⟩ := trackBlocks_ok net.res hn.res t1 h1
  obtain ⟨s3, f3, t3⟩ := trackNorm_ok hn.pBn (t2.norm hn.pBn e4)
  have t3' := t2.trans t3
  obtain ⟨s4, f4, t4⟩ := trackNorm_ok hn.vBn (t3'.norm hn.vBn e7)
  have t4' := t3'.trans t4
  obtain ⟨rfl, rfl⟩ := Prod.mk.inj (Except.ok.inj h)
  refine ⟨s4, ?_, t4'⟩
  refine res_bind.2 ⟨a1, e1, res_bind.2 ⟨(a2, s1), f1, res_bind.2 ⟨(y, s2), f2, res_bind.2 ⟨b1, (t2.conv hn.pConv _).trans e3,
    res_bind.2 ⟨(b2, s3), f3, res_bind.2 ⟨b3, e5, res_bind.2 ⟨p', (t3'.linear hn.pLin _).trans h2,
    res_bind.2 ⟨c1, (t3'.conv hn.vConv _).trans e6, res_bind.2 ⟨(c2, s4), f4, res_bind.2 ⟨c3, e8,
    res_bind.2 ⟨c4, (t4'.linear hn.vLin _).trans e9, ?_⟩⟩⟩⟩⟩⟩⟩⟩⟩⟩⟩
  exact congrArg (fun z => Except.ok ((p', z), s4)) (Except.ok.inj h3)

/-! ## A step -/

theorem trackNorm_tracked {vs : VarStore ℝ} {l : Norm} (hl : NormNamed l) {x : Tensor ℝ} {r : Tensor ℝ × VarStore ℝ}
    (h : trackNorm eps vs l x = .ok r) : Tracked vs r.2 := by
  obtain ⟨y, h1, -⟩ := res_bind.1 h
  obtain ⟨vs', h2, h3⟩ := trackNorm_ok hl h1
  rw [← Except.ok.inj (h2.symm.trans h)]
  exact h3

theorem trackBlock_tracked {vs : VarStore ℝ} {r : ResBlock} (h1 : NormNamed r.bn1) (h2 : NormNamed r.bn2) {x : Tensor ℝ}
    {s : Tensor ℝ × VarStore ℝ} (h : trackBlock eps vs r x = .ok s) : Tracked vs s.2 := by
  obtain ⟨y1, -, h⟩ := res_bind.1 h
  obtain ⟨s1, e1, h⟩ := res_bind.1 h
  obtain ⟨y2, -, h⟩ := res_bind.1 h
  obtain ⟨s2, e2, h⟩ := res_bind.1 h
  obtain ⟨y3, -, h⟩ := res_bind.1 h
  rw [← Except.ok.inj h]
  have t2 : Tracked s1.2 s2.2 := trackNorm_tracked h2 e2
  exact (trackNorm_tracked h1 e1).trans t2

theorem trackBlocks_tracked (rs : List ResBlock)
    (hr : ∀ r ∈ rs, ConvNamed r.conv1 ∧ ConvNamed r.conv2 ∧ NormNamed r.bn1 ∧ NormNamed r.bn2) {vs : VarStore ℝ} {x : Tensor ℝ}
    {s : Tensor ℝ × VarStore ℝ} (h : trackBlocks eps rs vs x = .ok s) : Tracked vs s.2 := by
  induction rs generalizing vs x with
  | nil => rw [← Except.ok.inj h]; exact .refl vs
  | cons r rs ih =>
    obtain ⟨s1, e1, h⟩ := res_bind.1 h
    obtain ⟨-, -, h1, h2⟩ := hr r (List.mem_cons_self ..)
    exact (trackBlock_tracked h1 h2 e1).trans (ih (fun r h => hr r (List.mem_cons_of_mem _ h)) h)

theorem trackTrain_tracked {net : ResNet} (hn : Named net) {vs : VarStore ℝ} {x : Tensor ℝ}
    {s : (Tensor ℝ × Tensor ℝ) × VarStore ℝ} (h : trackTrain eps net vs x = .ok s) : Tracked vs s.2 := by
  obtain ⟨y, -, h⟩ := res_bind.1 h
  obtain ⟨s1, e1, h⟩ := res_bind.1 h
  obtain ⟨s2, e2, h⟩ := res_bind.1 h
  obtain ⟨y, -, h⟩ := res_bind.1 h
  obtain ⟨s3, e3, h⟩ := res_bind.1 h
  obtain ⟨y, -, h⟩ := res_bind.1 h
  obtain ⟨y, -, h⟩ := res_bind.1 h
  obtain ⟨y, -, h⟩ := res_bind.1 h
  obtain ⟨s4, e4, h⟩ := res_bind.1 h
  obtain ⟨y, -, h⟩ := res_bind.1 h
  obtain ⟨y, -, h⟩ := res_bind.1 h
  rw [← Except.ok.inj h]
  exact (trackNorm_tracked hn.bn e1).trans ((trackBlocks_tracked _ hn.res e2).trans
    ((trackNorm_tracked hn.pBn e3).trans (trackNorm_tracked hn.vBn e4)))

/-- Batches. -/
abbrev Batch := Tensor Int × Tensor Val × Tensor Int

/-- Gradients: any function of the variables and the batch. -/
abbrev Gradient := VarStore ℝ → Batch → Name → List Nat → ℝ

variable {op : OptimizerParams} {net : ResNet} {grad : Gradient}

theorem trainStep_inv (hn : Named net) {w w' : Weights} {x : Batch} (h : trainStep eps op net grad w x = .ok w') :
    ∃ vs, Tracked w.vs vs ∧ w' = adamStep op (trainable net) (grad w.vs x) { w with vs := vs } := by
  obtain ⟨r, h1, h⟩ := res_bind.1 h
  obtain ⟨a, -, h⟩ := res_bind.1 h
  obtain ⟨b, -, h⟩ := res_bind.1 h
  obtain ⟨c, -, h⟩ := res_bind.1 h
  exact ⟨r.2, trackTrain_tracked hn h1, (Except.ok.inj h).symm⟩

/-- The state of a network of the program in training. -/
structure Trained (z : Sizes) (net : ResNet) (w : Weights) : Prop where
  /-- all variables have the names and shapes of a new network -/
  built : Built z net w.vs
  /-- running variances are positive -/
  pos : Positive w.vs
  /-- moments of gradients -/
  inv : ∀ n idx, Inv w.count (w.m n idx) (w.v n idx)

theorem trained_new {z : Sizes} {vs : VarStore ℝ} (hb : Built z net vs) (hp : Positive vs) : Trained z net (.new vs) :=
  ⟨hb, hp, fun _ _ => inv_zero⟩

theorem built_layout {z : Sizes} {vs vs' : VarStore ℝ} (hb : Built z net vs) (h : layout vs' = layout vs) : Built z net vs' := by
  obtain ⟨init, h1, h2⟩ := hb
  exact ⟨init, h1, h.trans h2⟩

theorem adamStep_trained {z : Sizes} {w : Weights} (h : Trained z net w) (g : Name → List Nat → ℝ) :
    Trained z net (adamStep op (trainable net) g w) := by
  refine ⟨built_layout h.built ?_, ?_, fun n idx => inv_step (h.inv n idx) _⟩
  · exact layout_mapVars (fun n x => by split <;> rfl) w.vs
  · intro n x hn hx idx
    have hx : (mapVars _ w.vs).get n = some x := hx
    rw [get_mapVars] at hx
    obtain ⟨o, ho, rfl⟩ := Option.map_eq_some_iff.1 hx
    rw [if_neg fun hm => trainable_named (built_named h.built) n hm (.inr hn)]
    exact h.pos n o hn ho idx

theorem trainStep_trained {z : Sizes} {w w' : Weights} (h : Trained z net w) {x : Batch}
    (hs : trainStep eps op net grad w x = .ok w') : Trained z net w' := by
  obtain ⟨vs, ht, rfl⟩ := trainStep_inv (built_named h.built) hs
  exact adamStep_trained (w := { w with vs := vs }) ⟨built_layout h.built ht.layout, ht.pos h.pos, h.inv⟩ _

/-- C110: a training step succeeds on every batch of fragments whose probabilities are numbers, and leaves a network which
can be trained and evaluated. -/
theorem C110_step {z : Sizes} {w : Weights} (h : Trained z net w) {height width : Nat}
    (hh : 0 < height) (hw : 2 ≤ width) (hc : height * width = z.convOut) {sample : List Mem} (hne : sample ≠ [])
    (hu : ∀ m ∈ sample, Lr.Usable z.actions [z.channels, height, width] m) {x : Batch}
    (hx : Holds z.actions [z.channels, height, width] sample x) :
    ∃ w' l, trainStep eps op net grad w x = .ok w' ∧ Trained z net w' ∧ batchLoss eps net w.vs x = .ok l := by
  have hn : 0 < sample.length := List.length_pos_iff.2 hne
  have h2 : 2 ≤ sample.length * height * width := by
    calc 2 ≤ 1 * width := by omega
      _ ≤ sample.length * height * width := Nat.mul_le_mul_right _ (Nat.mul_pos hn hh)
  have hsh : (mapT (realArith eps).ofInt x.2.2).shape = [sample.length, z.channels, height, width] := hx.sShape
  obtain ⟨-, (p : Tensor ℝ), (v : Tensor ℝ), e1, s1, s2⟩ := ResNet.forward_ok (A := realArith eps) (train := true) h.built.fits hh
    (by omega : 0 < width) (fun _ => h2) hc hsh
  obtain ⟨vs', e2, -⟩ := C110_forward (eps := eps) (built_named h.built) e1
  have hfin : finite x.2.1 = true := by
    unfold finite
    rw [hx.pShape]
    simp only [List.all_eq_true, List.mem_range]
    intro j hj c hcl
    rw [hx.ps j _ (List.getElem?_eq_getElem hj) c hcl]
    exact (hu _ (List.getElem_mem hj)).numeric c hcl
  have hce : ∃ l, crossEntropy p (mapT (fun v : Val => ((v.getD 0 : Rat) : ℝ)) x.2.1) = .ok l := by
    unfold crossEntropy
    rw [s1]
    simp only
    rw [if_pos (show (mapT (fun v : Val => ((v.getD 0 : Rat) : ℝ)) x.2.1).shape = _ from hx.pShape)]
    exact ⟨_, rfl⟩
  have hmse : ∃ l, mseLoss v (mapT (fun o : Int => (o : ℝ)) x.1) = .ok l := by
    unfold mseLoss
    rw [s2]
    simp only
    rw [if_pos (show (mapT (fun o : Int => (o : ℝ)) x.1).shape = _ from hx.oShape)]
    exact ⟨_, rfl⟩
  obtain ⟨l1, h3⟩ := hce
  obtain ⟨l2, h4⟩ := hmse
  have ha : assert (finite x.2.1) = .ok () := by unfold assert; rw [hfin]; rfl
  have hstep : trainStep eps op net grad w x = .ok (adamStep op (trainable net) (grad w.vs x) { w with vs := vs' }) :=
    res_bind.2 ⟨_, e2, res_bind.2 ⟨l1, h3, res_bind.2 ⟨l2, h4, res_bind.2 ⟨(), ha, rfl⟩⟩⟩⟩
  exact ⟨_, l1 + l2, hstep, trainStep_trained h hstep,
    res_bind.2 ⟨_, e1, res_bind.2 ⟨l1, h3, res_bind.2 ⟨l2, h4, res_bind.2 ⟨(), ha, rfl⟩⟩⟩⟩⟩

/-! ## Many steps -/

/-- Every entry of a variable which is no running statistic differs by at most `d`. -/
def Near (d : ℝ) (vs vs' : VarStore ℝ) : Prop :=
  ∀ n x x', ¬ Running n → vs.get n = some x → vs'.get n = some x' → ∀ idx, |x'.at' idx - x.at' idx| ≤ d

theorem trainStep_near {z : Sizes} (hlr : 0 ≤ op.lr) {w w' : Weights} (h : Trained z net w) {x : Batch}
    (hs : trainStep eps op net grad w x = .ok w') : Near (7271 / 1000 * op.lr) w.vs w'.vs := by
  obtain ⟨vs, ht, rfl⟩ := trainStep_inv (built_named h.built) hs
  intro n x0 x1 hn h0 h1 idx
  have h1 : (mapVars _ vs).get n = some x1 := h1
  rw [get_mapVars, ht.same n hn, h0] at h1
  obtain rfl := Option.some.inj h1
  split
  · show |x0.at' idx - stride op.lr (w.count + 1) _ _ - x0.at' idx| ≤ _
    rw [sub_sub_cancel_left, abs_neg]
    exact stride_abs (Nat.succ_ne_zero _) (inv_step (h.inv n idx) _) hlr
  · rw [sub_self, abs_zero]
    positivity

theorem get_some {a b : VarStore ℝ} (h : layout a = layout b) {n : Name} {x : Tensor ℝ} (hx : a.get n = some x) :
    ∃ y, b.get n = some y := by
  obtain ⟨y, hy, -⟩ := keeps_of_layout h n x.shape ⟨x, hx, rfl⟩
  exact ⟨y, hy⟩

theorem Near.trans {d d' : ℝ} {a b c : VarStore ℝ} (hl : layout a = layout b) (h : Near d a b) (h' : Near d' b c) :
    Near (d + d') a c := by
  intro n x y hn hx hy idx
  obtain ⟨z, hz⟩ := get_some hl hx
  have h1 := h n x z hn hx hz idx
  have h2 := h' n z y hn hz hy idx
  calc |y.at' idx - x.at' idx| = |(y.at' idx - z.at' idx) + (z.at' idx - x.at' idx)| := by ring_nf
    _ ≤ |y.at' idx - z.at' idx| + |z.at' idx - x.at' idx| := abs_add_le _ _
    _ ≤ _ := by linarith

theorem near_refl (vs : VarStore ℝ) : Near 0 vs vs := by
  intro n x y _ hx hy idx
  rw [hx] at hy
  rw [Option.some.inj hy]
  simp

theorem layout_of_built {z : Sizes} {a b : VarStore ℝ} (ha : Built z net a) (hb : Built z net b) : layout a = layout b := by
  obtain ⟨i, -, h1⟩ := ha
  obtain ⟨j, -, h2⟩ := hb
  exact h1.trans ((ResNet.new_alike i j z (a := VarStore.empty ℝ) (b := VarStore.empty ℝ) rfl).2.trans h2.symm)

/-- C108, C110 for many steps: each moves every weight by at most 7.271 learning rates. -/
theorem C108_drift {z : Sizes} (hlr : 0 ≤ op.lr) {xs : List (List Mem)} {w w' : Weights} (h : Trained z net w)
    (hs : Steps (trainStep eps op net grad) xs w w') :
    Trained z net w' ∧ Near (7271 / 1000 * op.lr * xs.length) w.vs w'.vs := by
  induction hs with
  | nil w => exact ⟨h, by simpa using near_refl w.vs⟩
  | @cons x xs y w w1 w2 _ h2 _ ih =>
    have h1 := trainStep_trained h h2
    obtain ⟨h3, h4⟩ := ih h1
    refine ⟨h3, ?_⟩
    have := (trainStep_near hlr h h2).trans (layout_of_built h.built h1.built) h4
    rw [List.length_cons]
    convert this using 1
    push_cast
    ring

/-- The gradients of an entry which are met in training on the given batches. -/
def Met (eps : ℝ) (op : OptimizerParams) (net : ResNet) (grad : Gradient) (xs : List (List Mem)) (w : Weights) (n : Name) (idx : List Nat)
    (g : ℝ) : Prop :=
  ∃ ys x zs w' y, xs = ys ++ x :: zs ∧ Steps (trainStep eps op net grad) ys w w' ∧ batchTensors x = .ok y ∧ g = grad w'.vs y n idx

/-- C109: an entry of a trainable variable follows `follow`, with the gradients of the steps. -/
theorem C109_follow {z : Sizes} {xs : List (List Mem)} {vs : VarStore ℝ} {w' : Weights} (hb : Built z net vs) (hp : Positive vs)
    (hs : Steps (trainStep eps op net grad) xs (.new vs) w') {n : Name} (hn : n ∈ trainable net) {x : Tensor ℝ}
    (hx : vs.get n = some x) (idx : List Nat) :
    ∃ gs : List ℝ, gs.length = xs.length ∧ (∀ g ∈ gs, Met eps op net grad xs (.new vs) n idx g) ∧ ∃ x', w'.vs.get n = some x' ∧
      follow op (x.at' idx) gs = (x'.at' idx, w'.m n idx, w'.v n idx, w'.count) := by
  have key : ∀ {xs : List (List Mem)} {w w' : Weights}, Trained z net w → Steps (trainStep eps op net grad) xs w w' →
      ∀ {x : Tensor ℝ}, w.vs.get n = some x → ∃ gs : List ℝ, gs.length = xs.length ∧ (∀ g ∈ gs, Met eps op net grad xs w n idx g) ∧
        ∃ x', w'.vs.get n = some x' ∧ gs.foldl (fun s g =>
          let g := decayed op s.1 g
          let m := firstMoment s.2.1 g
          let v := secondMoment s.2.2.1 g
          (s.1 - stride op.lr (s.2.2.2 + 1) m v, m, v, s.2.2.2 + 1)) (x.at' idx, w.m n idx, w.v n idx, w.count) =
          (x'.at' idx, w'.m n idx, w'.v n idx, w'.count) := by
    intro xs w w' h hs
    induction hs with
    | nil w => intro x hx; exact ⟨[], rfl, fun _ h => (nomatch h), x, hx, rfl⟩
    | @cons b xs y w w1 w2 hb2 h2 _ ih =>
      intro x hx
      have h1 := trainStep_trained h h2
      obtain ⟨vs1, ht, e⟩ := trainStep_inv (built_named h.built) h2
      have hg : vs1.get n = some x := (ht.same n (trainable_named (built_named h.built) n hn)).trans hx
      have hx1 : w1.vs.get n = some ⟨x.shape, fun idx => x.at' idx - stride op.lr (w.count + 1)
          (firstMoment (w.m n idx) (decayed op (x.at' idx) (grad w.vs y n idx)))
          (secondMoment (w.v n idx) (decayed op (x.at' idx) (grad w.vs y n idx)))⟩ := by
        rw [e]
        show (mapVars _ vs1).get n = _
        rw [get_mapVars, hg]
        simp only [Option.map_some, if_pos hn, hg, entries]
      obtain ⟨gs, h3, hgs, x', h4, h5⟩ := ih h1 hx1
      refine ⟨grad w.vs y n idx :: gs, by simp [h3], List.forall_mem_cons.2 ⟨⟨[], b, xs, w, y, rfl, .nil w, hb2, rfl⟩, fun g hg => ?_⟩,
        x', h4, ?_⟩
      · obtain ⟨ys, x, zs, w3, y', rfl, h6, h7, rfl⟩ := hgs g hg
        exact ⟨b :: ys, x, zs, w3, y', rfl, .cons hb2 h2 h6, h7, rfl⟩
      rw [← h5, List.foldl_cons]
      congr 1
      subst e
      simp only [adamStep, hg, entries]
  exact key (trained_new hb hp) hs hx

end DieE.Props.Ad
