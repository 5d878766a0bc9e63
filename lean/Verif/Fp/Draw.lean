import Verif.Fp.Num
import Verif.Mcts.Draw

/-!
# Drawing an index in double precision

`weighted_select_tensor_idx` (alphazero.rs:129-137) hands the entries of a row, converted to `f64`, to
`WeightedIndex::new` of the crate `rand` (version 0.8) and samples.  `Mcts/Draw` models this over an ordered field.  Here
the functions of the crate are modelled in `f64`, together with `UniformFloat<f64>`, which draws the number between zero
and the total.
-/

namespace DieE.Fp
open DieE

/-- `a <= b`, false if one of them is NaN. -/
def Num.le : Num → Num → Bool
  | .fin a, .fin b => decide (a ≤ b)
  | .nan, _ => false
  | _, .nan => false
  | .inf s, .inf s' => s || !s'
  | .inf s, .fin _ => s
  | .fin _, .inf s => !s

/-- `is_finite` -/
def Num.isFinite : Num → Bool
  | .fin _ => true
  | _ => false

/-- The next number below a positive finite number, `f64::from_bits(x.to_bits() - 1)`: the numbers below a power of two
are twice as dense. -/
def below (φ : Format) (x : Rat) : Rat :=
  if x = 2 ^ (lastPlace φ x + φ.prec - 1) ∧ φ.low < lastPlace φ x then x - 2 ^ (lastPlace φ x - 1) else x - 2 ^ lastPlace φ x

/-- `decrease_masked` of `rand::distributions::utils`, for positive numbers. -/
def Num.decrease (φ : Format) : Num → Num
  | .fin x => .fin (below φ x)
  | x => x

/-- `max_rand` of `UniformFloat<f64>`: the largest number drawn by the generator, `1 - 2^-52`. -/
def maxRand : Num := .fin (1 - 1 / 2 ^ 52)

/-- The loop of `UniformFloat::new` with `low = 0`. -/
def shrink (high : Num) : Nat → Num → Res Num
  | 0, _ => .error .fuel
  | f + 1, scale =>
    if Num.le high (Num.add f64 (Num.mul f64 scale maxRand) (.fin 0)) then shrink high f (Num.decrease f64 scale)
    else .ok scale

/-- `UniformFloat::new(0, high)`: the scale of the drawn numbers. -/
def uniformNew (high : Num) : Res Num :=
  if Num.le high (.fin 0) then .error .assertFailed
  else if !high.isFinite then .error .assertFailed
  else shrink high 2 high

/-- `UniformFloat::sample` with `low = 0`; `r` are the 64 bits from the generator, the lowest 12 are discarded.  (The code
makes a number between 1 and 2 of the other 52 bits and subtracts 1, which is exact.) -/
def uniformSample (scale : Num) (r : Nat) : Num :=
  Num.add f64 (Num.mul f64 (.fin ((r / 2 ^ 12 : Nat) / 2 ^ 52)) scale) (.fin 0)

/-- The fields of `WeightedIndex<f64>`: the running totals before each item but the first, the total, and the scale of
the uniform distribution. -/
structure Draw64 where
  cumulative : List Num
  total : Num
  scale : Num
  deriving DecidableEq

/-- The loop of `WeightedIndex::new`: each further weight is checked (`!(w >= 0)` holds for NaN), the total so far is
pushed, and the weight added. -/
def accumulate64 : List Num → Num → List Num → Res (List Num × Num)
  | acc, total, [] => .ok (acc, total)
  | acc, total, w :: ws =>
    if Num.le (.fin 0) w then accumulate64 (acc ++ [total]) (Num.add f64 total w) ws else .error .unwrapNone

/-- `WeightedIndex::new(weights).unwrap()`, alphazero.rs:135. -/
def drawNew : List Num → Res Draw64
  | [] => .error .unwrapNone
  | w :: ws =>
    if Num.le (.fin 0) w then do
      let (cumulative, total) ← accumulate64 [] w ws
      if total = .fin 0 then .error .unwrapNone
      else do
        let scale ← uniformNew total
        pure ⟨cumulative, total, scale⟩
    else .error .unwrapNone

/-- `dist.sample(&mut rng)`, alphazero.rs:136; `r` are the 64 bits from the generator. -/
def Draw64.sample (d : Draw64) (r : Nat) : Nat :=
  Mcts.bisect (fun j => Num.le (d.cumulative.getD j (.fin 0)) (uniformSample d.scale r)) 0 d.cumulative.length

end DieE.Fp
