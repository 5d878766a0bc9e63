import Verif.Fp.Round
import Verif.Text.Pretty

/-!
# Printing numbers of type `f64`

`Display` of `f64` in the standard library (`core::fmt::float`, `flt2dec::to_shortest_str`): the shortest decimal number
that reads back as the same float, of two such the nearer one (the larger one if both are equally near), written without
an exponent.
-/

namespace DieE.Text
open DieE.Train (Name digits)
open DieE.Fp

/-- The shortest decimal number `a · 10 ^ k` that is rounded to `x`: `e` is the decimal exponent of `x`, the search starts
with `n` digits; it needs at most 17. -/
def shortest (x : Rat) (e : Int) : Nat → Nat → Option (Nat × Int)
  | 0, _ => none
  | f + 1, n =>
    let k := e - n + 1
    let u : Rat := 10 ^ k
    let a := ⌊x / u⌋.toNat
    let down := decide (rnd f64 (a * u) = x)
    let up := decide (rnd f64 ((a + 1 : Nat) * u) = x)
    if down && (!up || decide (x - a * u < (a + 1 : Nat) * u - x)) then some (a, k)
    else if up then some (a + 1, k)
    else shortest x e f (n + 1)

/-- `s` digits after the point, for `r < 10 ^ s`, without zeros at the end. -/
def fraction (r s : Nat) : Name :=
  let ds := digits r
  ((List.replicate (s - ds.length) '0' ++ ds).reverse.dropWhile (· == '0')).reverse

/-- `a · 10 ^ k` without an exponent. -/
def positional (a : Nat) (k : Int) : Name :=
  if 0 ≤ k then digits (a * 10 ^ k.toNat)
  else
    let s := (-k).toNat
    let f := fraction (a % 10 ^ s) s
    digits (a / 10 ^ s) ++ if f = [] then [] else '.' :: f

/-- `{}` of a finite `f64`. -/
def display64 (x : Rat) : Name :=
  let abs := if x = 0 then ['0'] else
    match shortest |x| (Int.log 10 |x|) 17 1 with
    | some (a, k) => positional a k
    | none => []
  if x < 0 then '-' :: abs else abs

/-! ## Checks against the documentation of the standard library -/

example : display64 (rnd f64 (1 / 10 : Rat)) = lit "0.1" := by decide +kernel
example : display64 (rnd f64 (rnd f64 (1 / 10 : Rat) + rnd f64 (2 / 10 : Rat))) = lit "0.30000000000000004" := by decide +kernel
example : display64 (rnd f64 (1 / 3 : Rat)) = lit "0.3333333333333333" := by decide +kernel
example : display64 100 = lit "100" ∧ display64 0 = lit "0" ∧ display64 (-5 / 2) = lit "-2.5" := by decide +kernel
example : display64 (rnd f64 (10 ^ 23 : Rat)) = lit "100000000000000000000000" := by decide +kernel
example : display64 (2 ^ 53 : Rat) = lit "9007199254740992" := by decide +kernel

end DieE.Text
