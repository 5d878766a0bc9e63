/-!
# Common vocabulary of the model

Panics as data, Rust machine integers as range-checked `Int`s, and the source of randomness.
-/

namespace DieE

/-- The ways a Rust run can abort.  `fuel` is *not* a Rust panic: it marks a recursion of the model that ran out of
its step bound, and theorems show that it is never produced (this is the termination claim). -/
inductive Panic where
  | indexOutOfBounds
  | overflow
  | unwrapNone
  | assertFailed
  | explicitPanic
  | unreachableCode
  | tensorError
  | fuel
  deriving DecidableEq, Repr

/-- Result of a Rust computation that may panic. -/
abbrev Res (α : Type) := Except Panic α

deriving instance DecidableEq for Except

/-- Cargo build profile: `debug` panics on integer overflow, `release` wraps
(`/repo/Cargo.toml` has no `[profile]` section, so the defaults apply). -/
inductive Profile where
  | debug
  | release
  deriving DecidableEq, Repr

/-- Two's complement wrap of a mathematical integer to `i8`; also the meaning of the cast `x as i8`. -/
def asI8 (x : Int) : Int := (x + 128) % 256 - 128

/-- Two's complement wrap of a mathematical integer to `u8`; also the meaning of the cast `x as u8`. -/
def asU8 (x : Int) : Int := x % 256

/-- The cast `x as u32` (negative numbers are sign extended, hence reduced modulo `2^32`). -/
def asU32 (x : Int) : Int := x % 4294967296

/-- Result of an `i8` arithmetic operation whose mathematical value is `x`. -/
def i8 (pf : Profile) (x : Int) : Res Int :=
  if -128 ≤ x ∧ x ≤ 127 then .ok x
  else match pf with
    | .debug => .error .overflow
    | .release => .ok (asI8 x)

/-- Result of a `u8` arithmetic operation whose mathematical value is `x`. -/
def u8 (pf : Profile) (x : Int) : Res Int :=
  if 0 ≤ x ∧ x ≤ 255 then .ok x
  else match pf with
    | .debug => .error .overflow
    | .release => .ok (asU8 x)

/-- Result of a `u32` arithmetic operation whose mathematical value is `x`. -/
def u32 (pf : Profile) (x : Int) : Res Int :=
  if 0 ≤ x ∧ x ≤ 4294967295 then .ok x
  else match pf with
    | .debug => .error .overflow
    | .release => .ok (asU32 x)

/-- `assert!(b)`. -/
def assert (b : Bool) : Res Unit := if b then .ok () else .error .assertFailed

/-- The random source: an arbitrary infinite sequence of numbers.  `rand::thread_rng()` is modelled as "the next
numbers of the tape"; theorems quantify over all tapes, hence over all outcomes. -/
abbrev Tape := Nat → Nat

/-- A computation that may draw random numbers and may panic. -/
def M (α : Type) := Tape → Res (α × Tape)

namespace M

instance : Monad M where
  pure a := fun t => .ok (a, t)
  bind x f := fun t => match x t with
    | .error e => .error e
    | .ok (a, t') => f a t'

/-- A computation without randomness. -/
def lift {α : Type} (x : Res α) : M α := fun t => match x with
  | .error e => .error e
  | .ok a => .ok (a, t)

instance : MonadLift Res M := ⟨lift⟩

/-- A panic. -/
def fail {α : Type} (p : Panic) : M α := fun _ => .error p

/-- The next number of the tape. -/
def draw : M Nat := fun t => .ok (t 0, fun n => t (n + 1))

/-- `rng.gen_range(1..=6)`. -/
def die : M Int := do
  let n ← draw
  pure ((n % 6 : Nat) + 1 : Int)

/-- `slice.choose(&mut rng)`: `None` on the empty slice, otherwise some element. -/
def choose {α : Type} (l : List α) : M (Option α) :=
  match l with
  | [] => pure none
  | a :: l => do
    let n ← draw
    pure (some ((a :: l).getD (n % (l.length + 1)) a))

end M

end DieE
