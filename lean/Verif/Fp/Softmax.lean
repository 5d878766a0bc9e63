import Verif.Fp.Shares

/-!
# The softmax of the policy head in single precision

`softmax(1, None)` of `src/alphazero/nnet.rs` on a row of `f32`, every operation rounded: libtorch subtracts the maximum of
the row, takes the exponential function, and divides by the sum.  The exponential function of the library and the order of
adding up are parameters.
-/

namespace DieE.Fp

/-- The sign changed. -/
def Num.neg : Num → Num
  | .fin a => .fin (-a)
  | .inf s => .inf (!s)
  | .nan => .nan

/-- The maximum of the entries below `N`. -/
def rowMax (N : Nat) (z : Nat → Num) : Num :=
  (List.range N).foldl (fun m k => if Num.cmp m (z k) = .lt then z k else m) (.inf true)

/-- A row of `softmax(1, None)`, nnet.rs:125-127 and 151-154; `z` is the row returned by the policy head. -/
def softmax (exp : Num → Num) (T : SumTree) (N : Nat) (z : Nat → Num) : Nat → Num :=
  let m := rowMax N z
  let e := fun k => exp (Num.add f32 (z k) m.neg)
  fun k => Num.div f32 (e k) (T.sum e)

end DieE.Fp
