import Verif.Text.PrettySpec
import Mathlib.Data.Rat.Defs
import Mathlib.Algebra.Field.Rat

/-!
# How a printed result is read

The definitions do not use the printer.
-/

namespace DieE.Text
open DieE.Train (Name)

/-- What follows `label` in the first line that begins with it. -/
def entry (label : String) (txt : Name) : Option Name :=
  ((split '\n' txt).find? fun l => label.toList.isPrefixOf l).map fun l => l.drop label.length

/-- The value of a nonempty string of digits. -/
def natValue (s : Name) : Option Nat := if s ≠ [] ∧ s.all Char.isDigit then some (Nat.ofDigitChars 10 s 0) else none

/-- The value of a decimal number, `12` or `12.34`. -/
def decimalValue (s : Name) : Option Rat :=
  match split '.' s with
  | [a] => (natValue a).map fun n => (n : Rat)
  | [a, b] => do
    let n ← natValue a
    let m ← natValue b
    some (n + m / 10 ^ b.length)
  | _ => none

/-- The value of a percentage, `12.5%`. -/
def percentValue (s : Name) : Option Rat := if s.getLast? = some '%' then decimalValue s.dropLast else none

end DieE.Text
