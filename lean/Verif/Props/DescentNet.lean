import Verif.Props.Descent

/-!
# C118: the network of the program
-/

namespace DieE.Props.Ds
open DieE DieE.Mcts DieE.Train DieE.Net DieE.Props.Ad
open DieE.Props.N (realArith Built)
open DieE.Props.V (res_bind)
open DieE.Props.Tb (entry netW image convW normW denseW blockW)

variable {eps : ℝ} {z : Sizes} {net : ResNet}

/-! ## The loss as a formula -/

/-- The boards of a batch. -/
noncomputable def boardsOf (eps : ℝ) (x : Batch) : ℕ → Textbook.Img := image (mapT (realArith eps).ofInt x.2.2)
/-- The target probabilities of a batch. -/
noncomputable def policyOf (x : Batch) (i a : ℕ) : ℝ := ((x.2.1.at' [i, a]).getD 0 : Rat)
/-- The target outcomes of a batch. -/
noncomputable def outcomeOf (x : Batch) (i : ℕ) : ℝ := (x.1.at' [i, 0] : Int)

/-- The batches that training uses: fragments whose probabilities are numbers. -/
structure GoodBatch (z : Sizes) (height width : ℕ) (sample : List Mem) (x : Batch) : Prop where
  tall : 0 < height
  wide : 2 ≤ width
  size : height * width = z.convOut
  filled : sample ≠ []
  usable : ∀ m ∈ sample, Lr.Usable z.actions [z.channels, height, width] m
  holds : Train.Holds z.actions [z.channels, height, width] sample x

theorem total_sum (n : ℕ) (f : ℕ → ℝ) : total n f = ∑ i ∈ Finset.range n, f i := Tb.sum_range_eq n f

variable {height width : ℕ} {sample : List Mem} {x : Batch}

/-- The loss of the program is the one of the formula. -/
theorem batchLoss_formula {vs : VarStore ℝ} (hb : Built z net vs) (hx : GoodBatch z height width sample x) :
    batchLoss eps net vs x = .ok (Textbook.loss eps sample.length height width z.channels z.filters z.actions (netW vs net)
      (boardsOf eps x) (policyOf x) (outcomeOf x)) := by
  have hn : 0 < sample.length := List.length_pos_iff.2 hx.filled
  have h2 : 2 ≤ sample.length * height * width := by
    have := hx.wide
    calc 2 ≤ 1 * width := by omega
      _ ≤ sample.length * height * width := Nat.mul_le_mul_right _ (Nat.mul_pos hn hx.tall)
  have hw : 0 < width := by have := hx.wide; omega
  have hsh : (mapT (realArith eps).ofInt x.2.2).shape = [sample.length, z.channels, height, width] := hx.holds.sShape
  obtain ⟨-, (p' : Tensor ℝ), (v' : Tensor ℝ), e1, s1, s2⟩ := ResNet.forward_ok (A := realArith eps) (train := true) hb.fits hx.tall
    hw (fun _ => h2) hx.size hsh
  obtain ⟨q, p, v, -, e2, -, h3⟩ := Tb.C114_network (train := true) eps hb hx.tall hw hx.size (fun _ => h2) (Tb.holds_image hsh)
  obtain ⟨rfl, rfl⟩ := Prod.mk.inj (Except.ok.inj (e1.symm.trans e2))
  have hfin : finite x.2.1 = true := by
    unfold finite
    rw [hx.holds.pShape]
    simp only [List.all_eq_true, List.mem_range]
    intro j hj c hcl
    rw [hx.holds.ps j _ (List.getElem?_eq_getElem hj) c hcl]
    exact (hx.usable _ (List.getElem_mem hj)).numeric c hcl
  have ha : assert (finite x.2.1) = .ok () := by unfold assert; rw [hfin]; rfl
  have hce : crossEntropy p' (mapT (fun v : Val => ((v.getD 0 : Rat) : ℝ)) x.2.1) = .ok
      ((∑ i ∈ Finset.range sample.length, ∑ a ∈ Finset.range z.actions, -(policyOf x i a *
        (Textbook.logits eps true sample.length height width z.channels z.filters (netW vs net) (boardsOf eps x) i a -
        Real.log (∑ b ∈ Finset.range z.actions, Real.exp
          (Textbook.logits eps true sample.length height width z.channels z.filters (netW vs net) (boardsOf eps x) i b))))) / sample.length) := by
    unfold crossEntropy
    rw [s1]
    simp only
    rw [if_pos (show (mapT (fun v : Val => ((v.getD 0 : Rat) : ℝ)) x.2.1).shape = _ from hx.holds.pShape)]
    simp only [total_sum, logSoftmax]
    refine congrArg (fun s : ℝ => Except.ok (s / sample.length)) ?_
    refine Finset.sum_congr rfl fun i hi => Finset.sum_congr rfl fun a ha => ?_
    have hl := (h3 i (Finset.mem_range.1 hi)).2
    have hs : ∑ k ∈ Finset.range z.actions, Real.exp (p'.at' [i, k]) = ∑ b ∈ Finset.range z.actions, Real.exp
        (Textbook.logits eps true sample.length height width z.channels z.filters (netW vs net) (boardsOf eps x) i b) :=
      Finset.sum_congr rfl fun b hb => by rw [(hl b (Finset.mem_range.1 hb)).1]; rfl
    rw [(hl a (Finset.mem_range.1 ha)).1, hs]
    rfl
  have hmse : mseLoss v' (mapT (fun o : Int => (o : ℝ)) x.1) = .ok ((∑ i ∈ Finset.range sample.length,
      (Textbook.outcome eps true sample.length height width z.channels z.filters (netW vs net) (boardsOf eps x) i - outcomeOf x i) ^ 2) /
        sample.length) := by
    unfold mseLoss
    rw [s2]
    simp only
    rw [if_pos (show (mapT (fun o : Int => (o : ℝ)) x.1).shape = _ from hx.holds.oShape)]
    simp only [total_sum]
    refine congrArg (fun s : ℝ => Except.ok (s / sample.length)) ?_
    refine Finset.sum_congr rfl fun i hi => ?_
    rw [(h3 i (Finset.mem_range.1 hi)).1]
    rfl
  exact res_bind.2 ⟨_, e1, res_bind.2 ⟨_, hce, res_bind.2 ⟨_, hmse, res_bind.2 ⟨(), ha, rfl⟩⟩⟩⟩

/-- The loss of a batch, as a number. -/
noncomputable def lossAt (eps : ℝ) (net : ResNet) (x : Batch) (vs : VarStore ℝ) : ℝ := (batchLoss eps net vs x).toOption.getD 0

theorem move_built {vs : VarStore ℝ} (hb : Built z net vs) (names : List Name) (δ : Name → List ℕ → ℝ) (s : ℝ) :
    Built z net (move names vs δ s) :=
  built_layout hb (layout_mapVars (fun n x => by split <;> rfl) vs)

/-! ## The running statistics have no influence -/

theorem blocks_same {vs vs' : VarStore ℝ} (ht : Tracked vs vs') (rs : List ResBlock)
    (hr : ∀ r ∈ rs, ConvNamed r.conv1 ∧ ConvNamed r.conv2 ∧ NormNamed r.bn1 ∧ NormNamed r.bn2) {a y : Tensor ℝ}
    (hy : rs.foldlM (fun y r => (r.apply (realArith eps) vs true y : Res (Tensor ℝ))) a = .ok y) :
    rs.foldlM (fun y r => (r.apply (realArith eps) vs' true y : Res (Tensor ℝ))) a = .ok y := by
  induction rs generalizing a with
  | nil => exact hy
  | cons r rs ih =>
    obtain ⟨y1, e1, hy⟩ := res_bind.1 hy
    obtain ⟨h1, h2, h3, h4⟩ := hr r (List.mem_cons_self ..)
    refine res_bind.2 ⟨y1, ?_, ih (fun r h => hr r (List.mem_cons_of_mem _ h)) hy⟩
    obtain ⟨b1, f1, e1⟩ := res_bind.1 e1
    obtain ⟨b2, f2, e1⟩ := res_bind.1 e1
    obtain ⟨b3, f3, e1⟩ := res_bind.1 e1
    obtain ⟨b4, f4, e1⟩ := res_bind.1 e1
    exact res_bind.2 ⟨b1, (ht.conv h1 _).trans f1, res_bind.2 ⟨b2, ht.norm h3 f2, res_bind.2 ⟨b3, (ht.conv h2 _).trans f3,
      res_bind.2 ⟨b4, ht.norm h4 f4, e1⟩⟩⟩⟩

theorem forwardTrain_same {vs vs' : VarStore ℝ} (hn : Named net) (ht : Tracked vs vs') {t p v : Tensor ℝ}
    (h : (net.forwardTrain (realArith eps) vs true t : Res (Tensor ℝ × Tensor ℝ)) = .ok (p, v)) :
    (net.forwardTrain (realArith eps) vs' true t : Res (Tensor ℝ × Tensor ℝ)) = .ok (p, v) := by
  obtain ⟨y, h1, h⟩ := res_bind.1 h
  obtain ⟨a1, e1, h1⟩ := res_bind.1 h1
  obtain ⟨a2, e2, h1⟩ := res_bind.1 h1
  obtain ⟨p', h2, h⟩ := res_bind.1 h
  obtain ⟨v', h3, h⟩ := res_bind.1 h
  obtain ⟨b1, e3, h2⟩ := res_bind.1 h2
  obtain ⟨b2, e4, h2⟩ := res_bind.1 h2
  obtain ⟨b3, e5, h2⟩ := res_bind.1 h2
  obtain ⟨c1, e6, h3⟩ := res_bind.1 h3
  obtain ⟨c2, e7, h3⟩ := res_bind.1 h3
  obtain ⟨c3, e8, h3⟩ := res_bind.1 h3
  obtain ⟨c4, e9, h3⟩ := res_bind.1 h3
  refine res_bind.2 ⟨y, ?_, res_bind.2 ⟨p', ?_, res_bind.2 ⟨v', ?_, h⟩⟩⟩
  · exact res_bind.2 ⟨a1, (ht.conv hn.conv _).trans e1, res_bind.2 ⟨a2, ht.norm hn.bn e2, blocks_same ht net.res hn.res h1⟩⟩
  · exact res_bind.2 ⟨b1, (ht.conv hn.pConv _).trans e3, res_bind.2 ⟨b2, ht.norm hn.pBn e4, res_bind.2 ⟨b3, e5,
      (ht.linear hn.pLin _).trans h2⟩⟩⟩
  · exact res_bind.2 ⟨c1, (ht.conv hn.vConv _).trans e6, res_bind.2 ⟨c2, ht.norm hn.vBn e7, res_bind.2 ⟨c3, e8,
      res_bind.2 ⟨c4, (ht.linear hn.vLin _).trans e9, h3⟩⟩⟩⟩

theorem batchLoss_same {vs vs' : VarStore ℝ} (hn : Named net) (ht : Tracked vs vs') {l : ℝ} (h : batchLoss eps net vs x = .ok l) :
    batchLoss eps net vs' x = .ok l := by
  obtain ⟨⟨p, v⟩, h1, h⟩ := res_bind.1 h
  exact res_bind.2 ⟨(p, v), forwardTrain_same hn ht h1, h⟩

/-! ## The gradient exists -/

section
variable (P : Finset (Name × List ℕ))

/-- A point as a direction. -/
noncomputable def spread (θ : P → ℝ) (n : Name) (idx : List ℕ) : ℝ :=
  open Classical in if h : (n, idx) ∈ P then θ ⟨(n, idx), h⟩ else 0

theorem spread_dif (n : Name) (idx : List ℕ) : Differentiable ℝ (fun θ : P → ℝ => spread P θ n idx) := by
  unfold spread
  by_cases h : (n, idx) ∈ P
  · simp only [dif_pos h]
    exact differentiable_apply _
  · simp only [dif_neg h]
    exact differentiable_const _

variable (names : List Name) (vs : VarStore ℝ)

theorem entry_dif (n : Name) (idx : List ℕ) : Differentiable ℝ (fun θ : P → ℝ => entry (move names vs (spread P θ) 1) n idx) := by
  unfold entry
  simp only [get_move]
  cases h : vs.get n with
  | none => exact differentiable_const _
  | some t =>
    simp only [Option.map_some]
    by_cases hn : n ∈ names
    · simp only [if_pos hn, one_mul]
      exact (differentiable_const _).add (spread_dif P n idx)
    · simp only [if_neg hn]
      exact differentiable_const _

theorem net_dif (net : ResNet) (θ₀ : P → ℝ) : DNet θ₀ fun θ : P → ℝ => netW (move names vs (spread P θ) 1) net := by
  have e := fun n idx => (entry_dif P names vs n idx) θ₀
  have hc : ∀ k : Conv, DConv θ₀ fun θ : P → ℝ => convW (move names vs (spread P θ) 1) k := fun k => ⟨fun _ _ _ _ => e _ _, fun _ => e _ _⟩
  have hn : ∀ k : Net.Norm, DNorm θ₀ fun θ : P → ℝ => normW (move names vs (spread P θ) 1) k := fun k => ⟨fun _ => e _ _, fun _ => e _ _⟩
  have hd : ∀ k : Linear, DDense θ₀ fun θ : P → ℝ => denseW (move names vs (spread P θ) 1) k := fun k => ⟨fun _ _ => e _ _, fun _ => e _ _⟩
  refine ⟨hc _, hn _, ⟨net.res.map fun r θ => blockW (move names vs (spread P θ) 1) r, fun θ => ?_, ?_⟩, hc _, hn _, hd _, hc _, hn _, hd _⟩
  · rw [List.map_map]
    rfl
  · intro b hb
    obtain ⟨r, -, rfl⟩ := List.mem_map.1 hb
    exact ⟨hc _, hn _, hc _, hn _⟩

end

theorem spread_smul {P : Finset (Name × List ℕ)} (s : ℝ) {δ : Name → List ℕ → ℝ} (hδ : Supported P δ) (n : Name) (idx : List ℕ) :
    spread P (s • fun q : P => δ q.1.1 q.1.2) n idx = s * δ n idx := by
  unfold spread
  split
  · rfl
  · rename_i h
    rw [hδ n idx h, mul_zero]

theorem move_smul {P : Finset (Name × List ℕ)} (names : List Name) (vs : VarStore ℝ) (s : ℝ) {δ : Name → List ℕ → ℝ} (hδ : Supported P δ) :
    move names vs (spread P (s • fun q : P => δ q.1.1 q.1.2)) 1 = move names vs δ s := by
  unfold move
  simp only [spread_smul s hδ, one_mul]

theorem move_zero (names : List Name) (vs : VarStore ℝ) (δ : Name → List ℕ → ℝ) : move names vs δ 0 = vs := by
  unfold move mapVars
  simp only [zero_mul, add_zero]
  obtain ⟨l⟩ := vs
  simp only [ite_self, List.map_id']

/-- No unit of the network is at the kink of a rectifier. -/
def NoKink (eps : ℝ) (z : Sizes) (net : ResNet) (n height width : ℕ) (x : Batch) (vs : VarStore ℝ) : Prop :=
  Textbook.Smooth eps n height width z.channels z.filters (netW vs net) (boardsOf eps x)

/-- C118: where no unit is at a kink, the loss of a batch has a gradient with respect to the trained variables. -/
theorem C118_gradient (heps : 0 < eps) {vs : VarStore ℝ} (hb : Built z net vs) (hx : GoodBatch z height width sample x)
    (hk : NoKink eps z net sample.length height width x vs) : ∃ g, IsGradient (lossAt eps net x) (trainable net) vs g := by
  classical
  set names := trainable net
  set P := places vs names with hP
  set Φ : (P → ℝ) → ℝ := fun θ => Textbook.loss eps sample.length height width z.channels z.filters z.actions
    (netW (move names vs (spread P θ) 1) net) (boardsOf eps x) (policyOf x) (outcomeOf x) with hΦ
  have h0 : move names vs (spread P 0) 1 = vs := by
    have := move_smul names vs (P := P) 0 (δ := fun _ _ => 0) (fun _ _ _ => rfl)
    rw [zero_smul] at this
    rw [this, move_zero]
  have hs : Textbook.Smooth eps sample.length height width z.channels z.filters (netW (move names vs (spread P 0) 1) net) (boardsOf eps x) := by
    rw [h0]; exact hk
  have hd : DifferentiableAt ℝ Φ 0 := dif_loss heps (net_dif P names vs net 0) hs z.actions (policyOf x) (outcomeOf x)
  refine ⟨fun n idx => if h : (n, idx) ∈ P then fderiv ℝ Φ 0 (Pi.single ⟨(n, idx), h⟩ 1) else 0, fun n idx h => dif_neg h, ?_⟩
  intro δ hδ
  set u : P → ℝ := fun q => δ q.1.1 q.1.2 with hu
  have hL : (fun s => lossAt eps net x (move names vs δ s)) = fun s : ℝ => Φ (s • u) := by
    funext s
    have hm : move names vs (spread P (s • u)) 1 = move names vs δ s := move_smul names vs s hδ
    simp only [hΦ, lossAt, batchLoss_formula (eps := eps) (move_built hb names δ s) hx, hm]
    rfl
  rw [hL]
  have hline : HasDerivAt (fun s : ℝ => s • u) u 0 := by simpa using (hasDerivAt_id (0 : ℝ)).smul_const u
  have hd' : HasFDerivAt Φ (fderiv ℝ Φ 0) ((0 : ℝ) • u) := by rw [zero_smul]; exact hd.hasFDerivAt
  have := hd'.comp_hasDerivAt (0 : ℝ) hline
  have hsum : u = ∑ q : P, u q • (Pi.single q 1 : P → ℝ) := by
    funext r
    simp [Finset.sum_apply, Pi.single_apply]
  have hval : fderiv ℝ Φ 0 u = ∑ q : P, fderiv ℝ Φ 0 (Pi.single q 1) * u q := by
    conv_lhs => rw [hsum, map_sum]
    exact Finset.sum_congr rfl fun q _ => by rw [map_smul, smul_eq_mul, mul_comm]
  rw [hval] at this
  refine (HasDerivAt.congr_deriv (f := fun s : ℝ => Φ (s • u)) this ?_)
  rw [← Finset.sum_coe_sort P]
  refine Finset.sum_congr rfl fun q _ => ?_
  rw [dif_pos q.2]

/-! ## The step -/

theorem tracked_move {vs vs' : VarStore ℝ} {names : List Name} (hnames : ∀ n ∈ names, ¬ Running n) (ht : Tracked vs vs')
    (f : Name → List ℕ → ℝ) (s : ℝ) : Tracked (move names vs f s) (move names vs' f s) := by
  refine ⟨?_, ?_, ?_⟩
  · rw [move, move, layout_mapVars (fun n x => by split <;> rfl), layout_mapVars (fun n x => by split <;> rfl)]
    exact ht.layout
  · intro n hn
    rw [get_move, get_move, ht.same n hn]
  · intro hp n t hn hg idx
    have hm : n ∉ names := fun h => hnames n h (.inr hn)
    rw [get_move] at hg
    simp only [if_neg hm, Option.map_id'] at hg
    refine ht.pos (fun m u hm hu idx => ?_) n t hn hg idx
    have hm' : m ∉ names := fun h => hnames m h (.inr hm)
    refine hp m u hm ?_ idx
    rw [get_move]
    simp only [if_neg hm', Option.map_id', hu]

theorem trainable_same {vs vs' : VarStore ℝ} (hn : Named net) (ht : Tracked vs vs') :
    ∀ n ∈ trainable net, ∀ idx, entry vs' n idx = entry vs n idx := by
  intro n hm idx
  unfold entry
  rw [ht.same n (trainable_named hn n hm)]

theorem places_same {vs vs' : VarStore ℝ} (hn : Named net) (ht : Tracked vs vs') : places vs' (trainable net) = places vs (trainable net) := by
  unfold places
  congr 1
  rw [List.flatMap_def, List.flatMap_def]
  congr 1
  refine List.map_congr_left fun n hm => ?_
  rw [ht.same n (trainable_named hn n hm)]

/-- C118: the first training step of a network lowers the loss of its batch plus `wd / 2` times the squares of the trained variables,
if the learning rate is small enough and the gradient of this sum is not zero.  Missing for the full statement: the loss alone
with weight decay, and later steps; for these it is false (`C118_refuted_decay`, `C118_refuted`). -/
theorem C118_partial {vs : VarStore ℝ} (hb : Built z net vs) (hx : GoodBatch z height width sample x)
    {g : Name → List ℕ → ℝ} (hg : IsGradient (lossAt eps net x) (trainable net) vs g) {wd : ℝ} (ht : wd = 0 ∨ Tidy (trainable net) vs)
    (hne : ∃ q ∈ places vs (trainable net), g q.1 q.2 + wd * entry vs q.1 q.2 ≠ 0) : ∃ r, 0 < r ∧ ∀ lr, 0 < lr → lr < r →
      ∀ grad : Gradient, grad vs x = g → ∃ w' l l', trainStep eps ⟨wd, lr⟩ net grad (.new vs) x = .ok w' ∧
        batchLoss eps net vs x = .ok l ∧ batchLoss eps net w'.vs x = .ok l' ∧
        l' + wd / 2 * energy (trainable net) w'.vs < l + wd / 2 * energy (trainable net) vs := by
  obtain ⟨r, hr, h⟩ := C118_optimizer hg ht hne
  refine ⟨r, hr, fun lr h1 h2 grad hgrad => ?_⟩
  have hn := built_named hb
  have h3 := h lr h1 h2
  simp only [adam_first] at h3
  obtain ⟨l, hl⟩ : ∃ l, batchLoss eps net vs x = .ok l := ⟨_, batchLoss_formula hb hx⟩
  -- the step succeeds
  obtain ⟨⟨p, v⟩, e1, e2⟩ := res_bind.1 hl
  obtain ⟨l1, e3, e2⟩ := res_bind.1 e2
  obtain ⟨l2, e4, e2⟩ := res_bind.1 e2
  obtain ⟨u, e5, e2⟩ := res_bind.1 e2
  obtain ⟨vs1, e6, t1⟩ := C110_forward (eps := eps) hn e1
  have hstep : trainStep eps ⟨wd, lr⟩ net grad (.new vs) x =
      .ok (adamStep ⟨wd, lr⟩ (trainable net) (grad vs x) { Weights.new vs with vs := vs1 }) :=
    res_bind.2 ⟨_, e6, res_bind.2 ⟨l1, e3, res_bind.2 ⟨l2, e4, res_bind.2 ⟨u, e5, rfl⟩⟩⟩⟩
  rw [hgrad] at hstep
  have hw : (adamStep ⟨wd, lr⟩ (trainable net) g { Weights.new vs with vs := vs1 }).vs =
      move (trainable net) vs1 (firstDirection wd vs g) lr := by
    have := adam_first ⟨wd, lr⟩ (trainable net) g vs1
    refine this.trans (move_congr (fun n hm idx => ?_) lr)
    unfold firstDirection
    rw [trainable_same hn t1 n hm]
  have t2 : Tracked (move (trainable net) vs (firstDirection wd vs g) lr) (move (trainable net) vs1 (firstDirection wd vs g) lr) :=
    tracked_move (trainable_named hn) t1 _ _
  have hl2 := batchLoss_formula (eps := eps) (move_built hb (trainable net) (firstDirection wd vs g) lr) hx
  set l' := Textbook.loss eps sample.length height width z.channels z.filters z.actions
    (netW (move (trainable net) vs (firstDirection wd vs g) lr) net) (boardsOf eps x) (policyOf x) (outcomeOf x)
  refine ⟨_, l, l', hstep, hl, ?_, ?_⟩
  · rw [hw]
    exact batchLoss_same hn t2 hl2
  · have a1 : lossAt eps net x vs = l := by unfold lossAt; rw [hl]; rfl
    have a2 : lossAt eps net x (move (trainable net) vs (firstDirection wd vs g) lr) = l' := by unfold lossAt; rw [hl2]; rfl
    have a3 : energy (trainable net) (move (trainable net) vs1 (firstDirection wd vs g) lr) =
        energy (trainable net) (move (trainable net) vs (firstDirection wd vs g) lr) := by
      unfold energy
      rw [places_same hn t2]
      refine Finset.sum_congr rfl fun q hq => ?_
      rw [trainable_same hn t2 q.1 (mem_places hq).1]
    rw [a1, a2] at h3
    rw [hw, a3]
    exact h3

end DieE.Props.Ds
