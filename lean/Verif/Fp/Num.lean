import Verif.Fp.Round
import Verif.Mcts.Model
import Mathlib.Analysis.SpecialFunctions.Sqrt

/-!
# The operations of `f32` and the scores of the search

The operations used in `src/mcts/node.rs` on the numbers of `f32`, rounded to nearest even: sums, products, quotients and
square roots are correctly rounded (as IEEE 754 demands), the logarithm is whatever the mathematical library returns.  The
sign of zero is left out: it can only be seen in the sign of a quotient by zero, and no divisor in the code is a negative
zero.
-/

namespace DieE.Fp

/-- A floating point number. -/
inductive Num where
  /-- finite -/
  | fin (q : Rat)
  /-- an infinity, `true` for the negative one -/
  | inf (neg : Bool)
  /-- not a number -/
  | nan
  deriving DecidableEq

section
variable {K : Type*} [Field K] [LinearOrder K] [IsStrictOrderedRing K] [FloorRing K]

/-- The number for an exact result. -/
def Num.round (φ : Format) (x : K) : Num :=
  if |rnd φ x| < 2 ^ φ.high then .fin (rnd φ x) else .inf (decide (x < 0))

end

/-- `+` -/
def Num.add (φ : Format) : Num → Num → Num
  | .fin a, .fin b => .round φ (a + b)
  | .nan, _ => .nan
  | _, .nan => .nan
  | .inf s, .inf s' => if s = s' then .inf s else .nan
  | .inf s, .fin _ => .inf s
  | .fin _, .inf s => .inf s

/-- `*` -/
def Num.mul (φ : Format) : Num → Num → Num
  | .fin a, .fin b => .round φ (a * b)
  | .nan, _ => .nan
  | _, .nan => .nan
  | .inf s, .inf s' => .inf (s != s')
  | .inf s, .fin a => if a = 0 then .nan else .inf (s != decide (a < 0))
  | .fin a, .inf s => if a = 0 then .nan else .inf (s != decide (a < 0))

/-- `/` -/
def Num.div (φ : Format) : Num → Num → Num
  | .fin a, .fin b => if b = 0 then (if a = 0 then .nan else .inf (decide (a < 0))) else .round φ (a / b)
  | .nan, _ => .nan
  | _, .nan => .nan
  | .inf _, .inf _ => .nan
  | .inf s, .fin a => .inf (s != decide (a < 0))
  | .fin _, .inf _ => .fin 0

/-- `sqrt` -/
noncomputable def Num.sqrt (φ : Format) : Num → Num
  | .fin a => if a < 0 then .nan else .round φ (Real.sqrt a)
  | .nan => .nan
  | .inf s => if s then .nan else .inf false

/-- `a.partial_cmp(&b).unwrap_or(Ordering::Equal)` -/
def Num.cmp : Num → Num → Ordering
  | .fin a, .fin b => compare a b
  | .nan, _ => .eq
  | _, .nan => .eq
  | .inf s, .inf s' => if s = s' then .eq else if s then .lt else .gt
  | .inf s, .fin _ => if s then .lt else .gt
  | .fin _, .inf s => if s then .gt else .lt

/-- The arithmetic of the searches in `f32`: `ucb`, `alpha_ucb` and `win_pct`, node.rs:86-116, with the exploration
constant `c` and the logarithm `ln` of the library. -/
noncomputable def single (c : Num) (ln : Num → Num) : Mcts.Floats where
  F := Num
  ofInt := fun n => .round f32 (n : Rat)
  add := Num.add f32
  inf := .inf false
  ucb := fun v n p =>
    let exploitation := Num.div f32 v (.fin n)
    let exploration := Num.sqrt f32 (Num.div f32 (Num.mul f32 c (ln (.fin p))) (.fin n))
    Num.add f32 exploitation exploration
  alphaUcb := fun v n q p =>
    let value := if n = 0 then .fin 0 else Num.div f32 v (.fin n)
    Num.add f32 value (Num.mul f32 (Num.mul f32 c (Num.div f32 (Num.sqrt f32 (.fin p)) (Num.add f32 (.fin n) (.fin 1)))) q)
  winPct := fun v n => Num.div f32 v (.fin n)
  cmp := Num.cmp

end DieE.Fp
