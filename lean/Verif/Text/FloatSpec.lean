import Verif.Fp.Round
import Verif.Versus.ReportSpec

/-!
# What a printed float has to be

The definitions do not use the printer.
-/

namespace DieE.Text
open DieE.Train (Name)
open DieE.Fp

/-- The value of a decimal number with an optional minus sign. -/
def signedValue : Name → Option Rat
  | '-' :: s => (decimalValue s).map fun v => -v
  | s => decimalValue s

/-- `v` can be written with `n` significant digits. -/
def HasDigits (n : Nat) (v : Rat) : Prop := ∃ (m k : Int), |m| < 10 ^ n ∧ v = m * 10 ^ k

/-- `v` is the decimal number to be printed for `x`: it is read as `x`; no decimal number with fewer digits is; among those
with as many digits that are, none is nearer, and of two equally near ones it is the one further from zero. -/
structure Shortest (φ : Format) (x v : Rat) : Prop where
  reads : rnd φ v = x
  least : ∃ n, HasDigits n v ∧ ∀ w, rnd φ w = x → (∀ n', HasDigits n' w → n ≤ n') ∧
    (HasDigits n w → |x - v| ≤ |x - w| ∧ (|x - w| = |x - v| → |w| ≤ |v|))

/-- Neither zeros in front of a number nor at the end of its fraction, and no point without a fraction. -/
def Neat (s : Name) : Prop := ∃ a b : Name, (s = a ∧ b = [] ∨ s = a ++ '.' :: b ∧ b ≠ []) ∧ a ≠ [] ∧
  (∀ c ∈ a ++ b, c.isDigit = true) ∧ (a.head? = some '0' → a = ['0']) ∧ b.getLast? ≠ some '0'

end DieE.Text
