import Verif.Config

/-! # Configuration (C60) -/

namespace DieE.Props.Cfg
open DieE.Config

variable {F F32 : Type}

/-- The keys holding counts. -/
def mctsCounts : List String := ["iterations", "simulate_round_limit"]
/-- The keys holding counts. -/
def alphaZeroCounts : List String :=
  ["learn_iterations", "self_play_iterations", "num_epochs", "training_batch_size", "num_self_play_batches"]
/-- The keys holding other numbers. -/
def mctsFloats : List String := ["exploration_const", "dirichlet_alpha", "dirichlet_epsilon"]

/-- What C60 asks for. -/
def C60_statement (F F32 : Type) : Prop :=
  ∀ (f32 : F → F32) (conf : Conf F),
    ((∃ k ∈ mctsCounts, ∃ x, conf.int k = some x ∧ x < 0) → MctsConfig.fromConfig f32 conf = none) ∧
    ((∃ k ∈ alphaZeroCounts, ∃ x, conf.int k = some x ∧ x < 0) → AlphaZeroConfig.fromConfig conf = none)

/-- A configuration with the same number everywhere. -/
def constConf (n : Int) (hn : -2 ^ 63 ≤ n ∧ n < 2 ^ 63) (f : F) : Conf F :=
  ⟨fun _ => some n, fun _ => some f, fun _ _ h => Option.some.inj h ▸ hn⟩

/-- C60 is false: `-1` iterations are accepted. -/
theorem C60_refuted (f : F) (f32 : F → F32) : ¬ C60_statement F F32 := by
  intro h
  have := (h f32 (constConf (-1) (by decide) f)).1 ⟨"iterations", by decide, -1, rfl, by decide⟩
  cases this

theorem asUsize_nonneg {x : Int} (h0 : 0 ≤ x) (h : x < 2 ^ 63) : (asUsize x : Int) = x := by
  unfold asUsize
  omega

theorem asUsize_neg {x : Int} (h0 : x < 0) (h : -2 ^ 63 ≤ x) : (asUsize x : Int) = x + 2 ^ 64 := by
  unfold asUsize
  omega

/-- What a count in the configuration turns into. -/
def Read (x : Int) (n : Nat) : Prop := (0 ≤ x → (n : Int) = x) ∧ (x < 0 → (n : Int) = x + 2 ^ 64)

theorem read_asUsize {conf : Conf F} {k : String} {x : Int} (h : conf.int k = some x) : Read x (asUsize x) :=
  ⟨fun h0 => asUsize_nonneg h0 (conf.range k x h).2, fun h0 => asUsize_neg h0 (conf.range k x h).1⟩

/-- C60, what happens instead: every configuration in which all keys are present is accepted; non-negative counts keep
their value, negative ones become numbers of at least 2^63. -/
theorem C60_accepted (f32 : F → F32) (conf : Conf F)
    (hi : ∀ k ∈ mctsCounts, ∃ x, conf.int k = some x) (hf : ∀ k ∈ mctsFloats, ∃ x, conf.float k = some x) :
    ∃ c x y, MctsConfig.fromConfig f32 conf = some c ∧ conf.int "iterations" = some x ∧ Read x c.iterations ∧
      conf.int "simulate_round_limit" = some y ∧ Read y c.simulateRoundLimit ∧
      some c.c = (conf.float "exploration_const").map f32 ∧ some c.dirichletAlpha = (conf.float "dirichlet_alpha").map f32 ∧
      some c.dirichletEpsilon = (conf.float "dirichlet_epsilon").map f32 := by
  obtain ⟨x, hx⟩ := hi "iterations" (by decide)
  obtain ⟨y, hy⟩ := hi "simulate_round_limit" (by decide)
  obtain ⟨a, ha⟩ := hf "exploration_const" (by decide)
  obtain ⟨b, hb⟩ := hf "dirichlet_alpha" (by decide)
  obtain ⟨d, hd⟩ := hf "dirichlet_epsilon" (by decide)
  refine ⟨⟨asUsize x, f32 a, asUsize y, f32 b, f32 d⟩, x, y, ?_, hx, read_asUsize hx, hy, read_asUsize hy, ?_, ?_, ?_⟩
  · unfold MctsConfig.fromConfig
    rw [hx, ha, hy, hb, hd]
    rfl
  · rw [ha]; rfl
  · rw [hb]; rfl
  · rw [hd]; rfl

/-- C60, the same for the training parameters. -/
theorem C60_accepted_training (conf : Conf F) (hi : ∀ k ∈ alphaZeroCounts, ∃ x, conf.int k = some x)
    (ht : ∃ t, conf.float "temperature" = some t) :
    ∃ c, AlphaZeroConfig.fromConfig conf = some c ∧ conf.float "temperature" = some c.temperature ∧
      (∀ x, conf.int "learn_iterations" = some x → Read x c.learnIterations) ∧
      (∀ x, conf.int "self_play_iterations" = some x → Read x c.selfPlayIterations) ∧
      (∀ x, conf.int "num_epochs" = some x → Read x c.numEpochs) ∧
      (∀ x, conf.int "training_batch_size" = some x → Read x c.trainingBatchSize) ∧
      ∀ x, conf.int "num_self_play_batches" = some x → Read x c.numSelfPlayBatches := by
  obtain ⟨t, ht⟩ := ht
  obtain ⟨a, ha⟩ := hi "learn_iterations" (by decide)
  obtain ⟨b, hb⟩ := hi "self_play_iterations" (by decide)
  obtain ⟨c, hc⟩ := hi "num_epochs" (by decide)
  obtain ⟨d, hd⟩ := hi "training_batch_size" (by decide)
  obtain ⟨e, he⟩ := hi "num_self_play_batches" (by decide)
  refine ⟨⟨t, asUsize a, asUsize b, asUsize c, asUsize d, asUsize e⟩, ?_, ht, ?_, ?_, ?_, ?_, ?_⟩
  · unfold AlphaZeroConfig.fromConfig
    rw [ht, ha, hb, hc, hd, he]
    rfl
  all_goals intro x hx
  · rw [ha] at hx; cases hx; exact read_asUsize ha
  · rw [hb] at hx; cases hx; exact read_asUsize hb
  · rw [hc] at hx; cases hx; exact read_asUsize hc
  · rw [hd] at hx; cases hx; exact read_asUsize hd
  · rw [he] at hx; cases hx; exact read_asUsize he

theorem bind_none {α β : Type} {x : Option α} {f : α → Option β} (h : x = none ∨ ∀ a, x = some a → f a = none) :
    (x >>= f) = none := by
  cases x with
  | none => rfl
  | some a => exact h.elim (fun h => (nomatch h)) fun h => h a rfl

/-- C60 (partial): missing keys are rejected, and if no count is negative all counts are read exactly. Missing: the
rejection of negative counts, see `C60_refuted`. -/
theorem C60_partial (f32 : F → F32) (conf : Conf F) :
    (((∃ k ∈ mctsCounts, conf.int k = none) ∨ ∃ k ∈ mctsFloats, conf.float k = none) →
      MctsConfig.fromConfig f32 conf = none) ∧
    (((∃ k ∈ alphaZeroCounts, conf.int k = none) ∨ conf.float "temperature" = none) →
      AlphaZeroConfig.fromConfig conf = none) ∧
    ((conf.float "wd" = none ∨ conf.float "lr" = none) → OptimizerParams.fromConfig conf = none) ∧
    (∀ c, MctsConfig.fromConfig f32 conf = some c → (∀ k ∈ mctsCounts, ∀ x, conf.int k = some x → 0 ≤ x) →
      conf.int "iterations" = some (c.iterations : Int) ∧ conf.int "simulate_round_limit" = some (c.simulateRoundLimit : Int)) := by
  refine ⟨?_, ?_, ?_, ?_⟩
  · intro h
    unfold MctsConfig.fromConfig
    simp only [mctsCounts, mctsFloats, List.mem_cons, List.not_mem_nil, or_false, exists_eq_or_imp, exists_eq_left] at h
    rcases h with (h | h) | (h | h | h) <;> rw [h] <;>
      cases conf.int "iterations" <;> cases conf.float "exploration_const" <;> cases conf.int "simulate_round_limit" <;>
      cases conf.float "dirichlet_alpha" <;> cases conf.float "dirichlet_epsilon" <;> rfl
  · intro h
    unfold AlphaZeroConfig.fromConfig
    simp only [alphaZeroCounts, List.mem_cons, List.not_mem_nil, or_false, exists_eq_or_imp, exists_eq_left] at h
    rcases h with (h | h | h | h | h) | h <;> rw [h] <;>
      cases conf.float "temperature" <;> cases conf.int "learn_iterations" <;> cases conf.int "self_play_iterations" <;>
      cases conf.int "num_epochs" <;> cases conf.int "training_batch_size" <;> cases conf.int "num_self_play_batches" <;>
      rfl
  · intro h
    unfold OptimizerParams.fromConfig
    rcases h with h | h <;> rw [h] <;> cases conf.float "wd" <;> cases conf.float "lr" <;> rfl
  · intro c h hn
    have h0 : ∀ k ∈ mctsCounts, ∃ x, conf.int k = some x := by
      intro k hk
      cases hx : conf.int k with
      | some x => exact ⟨x, rfl⟩
      | none =>
        exfalso
        simp only [mctsCounts, List.mem_cons, List.not_mem_nil, or_false] at hk
        unfold MctsConfig.fromConfig at h
        rcases hk with rfl | rfl <;> rw [hx] at h
        · cases h
        · cases h1 : conf.int "iterations" <;> cases h2 : conf.float "exploration_const" <;> rw [h1, h2] at h <;> cases h
    have h1 : ∀ k ∈ mctsFloats, ∃ x, conf.float k = some x := by
      intro k hk
      cases hx : conf.float k with
      | some x => exact ⟨x, rfl⟩
      | none =>
        exfalso
        obtain ⟨a, ha⟩ := h0 "iterations" (by decide)
        obtain ⟨b, hb⟩ := h0 "simulate_round_limit" (by decide)
        simp only [mctsFloats, List.mem_cons, List.not_mem_nil, or_false] at hk
        unfold MctsConfig.fromConfig at h
        rw [ha, hb] at h
        rcases hk with rfl | rfl | rfl <;> rw [hx] at h
        · cases h
        · cases h1 : conf.float "exploration_const" <;> rw [h1] at h <;> cases h
        · cases h1 : conf.float "exploration_const" <;> cases h2 : conf.float "dirichlet_alpha" <;> rw [h1, h2] at h <;>
            cases h
    obtain ⟨c', x, y, e1, e2, e3, e4, e5, -⟩ := C60_accepted f32 conf h0 h1
    rw [h] at e1
    cases e1
    rw [e2, e4, e3.1 (hn _ (by decide) x e2), e5.1 (hn _ (by decide) y e4)]
    exact ⟨rfl, rfl⟩

/-- With `-1` everywhere: accepted, `2^64 - 1` iterations. -/
example : ((MctsConfig.fromConfig id (constConf (-1) (by decide) ())).map fun c => c.iterations) = some (2 ^ 64 - 1) := by
  decide

/-- With `100` everywhere: accepted as it is. -/
example : ((MctsConfig.fromConfig id (constConf 100 (by decide) ())).map fun c => c.simulateRoundLimit) = some 100 := by
  decide

end DieE.Props.Cfg
