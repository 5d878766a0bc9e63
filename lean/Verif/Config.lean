import Verif.Prelude

/-!
# Model of the configuration

`MctsConfig::from_config` (`src/lib.rs`), `AlphaZeroConfig::from_config` and `OptimizerParams::from_config`
(`src/alphazero/alphazero.rs`).  The `config` crate is a lookup by key: an `i64` for `get_int`, an `f64` for `get_float`,
nothing if the key is missing or the value cannot be converted.  Floats are abstract; the target has 64 bits.
-/

namespace DieE.Config

/-- A loaded configuration. -/
structure Conf (F : Type) where
  /-- `get_int` -/
  int : String → Option Int
  /-- `get_float` -/
  float : String → Option F
  /-- `get_int` returns an `i64` -/
  range : ∀ k x, int k = some x → -2 ^ 63 ≤ x ∧ x < 2 ^ 63

/-- `x as usize` of an `i64`. -/
def asUsize (x : Int) : Nat := (x % 2 ^ 64).toNat

variable {F F32 : Type}

/-- `struct MctsConfig`, lib.rs:33-40. -/
structure MctsConfig (F32 : Type) where
  iterations : Nat
  c : F32
  simulateRoundLimit : Nat
  dirichletAlpha : F32
  dirichletEpsilon : F32

/-- `MctsConfig::from_config`, lib.rs:43-51; `f32` is `x as f32`. -/
def MctsConfig.fromConfig (f32 : F → F32) (conf : Conf F) : Option (MctsConfig F32) := do
  let iterations ← conf.int "iterations"
  let c ← conf.float "exploration_const"
  let limit ← conf.int "simulate_round_limit"
  let alpha ← conf.float "dirichlet_alpha"
  let eps ← conf.float "dirichlet_epsilon"
  pure { iterations := asUsize iterations, c := f32 c, simulateRoundLimit := asUsize limit, dirichletAlpha := f32 alpha,
         dirichletEpsilon := f32 eps }

/-- `struct AlphaZeroConfig`, alphazero.rs:24-32. -/
structure AlphaZeroConfig (F : Type) where
  temperature : F
  learnIterations : Nat
  selfPlayIterations : Nat
  numEpochs : Nat
  trainingBatchSize : Nat
  numSelfPlayBatches : Nat

/-- `AlphaZeroConfig::from_config`, alphazero.rs:35-44. -/
def AlphaZeroConfig.fromConfig (conf : Conf F) : Option (AlphaZeroConfig F) := do
  let temperature ← conf.float "temperature"
  let learn ← conf.int "learn_iterations"
  let selfPlay ← conf.int "self_play_iterations"
  let epochs ← conf.int "num_epochs"
  let batch ← conf.int "training_batch_size"
  let games ← conf.int "num_self_play_batches"
  pure { temperature, learnIterations := asUsize learn, selfPlayIterations := asUsize selfPlay, numEpochs := asUsize epochs,
         trainingBatchSize := asUsize batch, numSelfPlayBatches := asUsize games }

/-- `struct OptimizerParams`, alphazero.rs:47-50. -/
structure OptimizerParams (F : Type) where
  wd : F
  lr : F

/-- `OptimizerParams::from_config`, alphazero.rs:53-58. -/
def OptimizerParams.fromConfig (conf : Conf F) : Option (OptimizerParams F) := do
  let wd ← conf.float "wd"
  let lr ← conf.float "lr"
  pure { wd, lr }

end DieE.Config
