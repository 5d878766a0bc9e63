import Verif.Backgammon.Model

/-!
# Model of the move encoding

The repository contains the encoding twice: as inherent methods (`src/backgammon/encoding.rs`) and as trait methods
(`src/backgammon/backgammon_logic.rs:262-401`).  Both copies are modelled separately.
-/

namespace DieE.BG

/-- Result of the loop body of `encode` for one action: the amount added to `encode_sum` and the value assigned to the
"low roll" flag of that position. -/
abbrev EncPart := Int × Bool

/-! ### The trait methods, backgammon_logic.rs:262-401 -/
namespace Trait

/-- `minimum_rolls`, backgammon_logic.rs:277-285. -/
def minRoll (pf : Profile) (a : Act) : Res Int :=
  if a.1 = -1 ∧ a.2 < 6 then do
    let x ← i8 pf (a.2 + 1)
    pure (asU8 x)
  else if a.1 = -1 ∧ a.2 > 17 then do
    let x ← i8 pf (24 - a.2)
    pure (asU8 x)
  else if a.2 = -1 ∧ a.1 < 6 then do
    let x ← i8 pf (a.1 - (-1))
    pure (asU8 x)
  else if a.2 = -1 ∧ a.1 > 17 then do
    let x ← i8 pf (24 - a.1)
    pure (asU8 x)
  else do
    let x ← i8 pf (a.1 - a.2)
    pure (x.natAbs : Int)

/-- Case `i == 0` of the loop, backgammon_logic.rs:301-323; `min` is `minimum_rolls.first()`. -/
def encFirst (pf : Profile) (a : Act) (min low : Int) : Res EncPart :=
  if a.1 = -1 ∧ a.2 < 6 then do
    let d ← i8 pf (a.2 - (-1))
    pure (24, asU8 d == low)
  else if a.1 = -1 ∧ a.2 > 17 then do
    let d ← i8 pf (24 - a.2)
    pure (24, asU8 d == low)
  else if a.2 = -1 ∧ a.1 < 6 then pure (asU32 a.1, false)
  else if a.2 = -1 ∧ a.1 > 17 then pure (asU32 a.1, false)
  else pure (asU32 a.1, min == low)

/-- Case `i == 1` of the loop, backgammon_logic.rs:324-346; `min` is `minimum_rolls.get(1)`. -/
def encSecond (pf : Profile) (a : Act) (min low : Int) : Res EncPart :=
  if a.1 = -1 ∧ a.2 < 6 then do
    let d ← i8 pf (a.2 - (-1))
    pure (26 * 24, asU8 d == low)
  else if a.1 = -1 ∧ a.2 > 17 then do
    let d ← i8 pf (24 - a.2)
    pure (26 * 24, asU8 d == low)
  else if a.2 = -1 ∧ a.1 < 6 then do
    let x ← u32 pf (26 * asU32 a.1)
    pure (x, false)
  else if a.2 = -1 ∧ a.1 > 17 then do
    let x ← u32 pf (26 * asU32 a.1)
    pure (x, false)
  else do
    let x ← u32 pf (26 * asU32 a.1)
    pure (x, min == low)

/-- `encode`, backgammon_logic.rs:262-359. -/
def encode (pf : Profile) (g : State) (actions : Actions) : Res Int :=
  match actions with
  | [] => .ok 1351
  | [a] => do
    let low := if g.roll.1 > g.roll.2 then g.roll.2 else g.roll.1
    let m0 ← minRoll pf a
    let p ← encFirst pf a m0 low
    let sum ← u32 pf (0 + p.1)
    -- single move: low_roll_first_flag is reset (352), minimum_rolls[1] = 0 (288)
    let sum ← u32 pf (sum + 26 * 25)
    let highFirst := decide (m0 > low)
    if highFirst then pure sum else u32 pf (sum + 676)
  | [a, b] => do
    let low := if g.roll.1 > g.roll.2 then g.roll.2 else g.roll.1
    let m0 ← minRoll pf a
    let m1 ← minRoll pf b
    let p ← encFirst pf a m0 low
    let sum ← u32 pf (0 + p.1)
    let q ← encSecond pf b m1 low
    let sum ← u32 pf (sum + q.1)
    let highFirst :=
      if p.2 then false else if q.2 then true
      else if m1 ≠ 0 then decide (m0 ≥ m1) else decide (m0 > low)
    if highFirst then pure sum else u32 pf (sum + 676)
  | _ => .error .assertFailed

/-- `decode`, backgammon_logic.rs:361-401. -/
def decode (pf : Profile) (g : State) (action : Nat) : Res Actions :=
  if action = 1351 then .ok []
  else do
    let highFirst := decide (action < 676)
    let base : Nat := if highFirst then action else action - 676
    let from1 := base % 26
    let from2 := base / 26
    let single := from2 == 25
    let high := if g.roll.1 > g.roll.2 then g.roll.1 else g.roll.2
    let low := if g.roll.1 > g.roll.2 then g.roll.2 else g.roll.1
    let f1 := asI8 from1
    let f2 := asI8 from2
    let lowI := asI8 low
    let highI := asI8 high
    let f1 := if f1 = 24 ∧ g.player = 1 then -1 else f1
    let f2 := if f2 = 24 ∧ g.player = 1 then -1 else f2
    let d1 ← i8 pf ((if highFirst then highI else lowI) * g.player)
    let to1 ← i8 pf (f1 + d1)
    let d2 ← i8 pf ((if highFirst then lowI else highI) * g.player)
    let to2 ← i8 pf (f2 + d2)
    let to1 := if to1 ≥ 24 ∨ to1 ≤ -1 then -1 else to1
    let to2 := if to2 ≥ 24 ∨ to2 ≤ -1 then -1 else to2
    let f1 := if f1 = 24 then -1 else f1
    let f2 := if f2 = 24 then -1 else f2
    pure (if single then [(f1, to1)] else [(f1, to1), (f2, to2)])

end Trait

/-! ### The inherent methods, encoding.rs:5-146 -/
namespace Inherent

/-- `minimum_rolls`, encoding.rs:21-29. -/
def minRoll (pf : Profile) (a : Act) : Res Int :=
  if a.1 = -1 ∧ a.2 < 6 then do
    let x ← i8 pf (a.2 + 1)
    pure (asU8 x)
  else if a.1 = -1 ∧ a.2 > 17 then do
    let x ← i8 pf (24 - a.2)
    pure (asU8 x)
  else if a.2 = -1 ∧ a.1 < 6 then do
    let x ← i8 pf (a.1 - (-1))
    pure (asU8 x)
  else if a.2 = -1 ∧ a.1 > 17 then do
    let x ← i8 pf (24 - a.1)
    pure (asU8 x)
  else do
    let x ← i8 pf (a.1 - a.2)
    pure (x.natAbs : Int)

/-- Case `i == 0` of the loop, encoding.rs:45-67. -/
def encFirst (pf : Profile) (a : Act) (min low : Int) : Res EncPart :=
  if a.1 = -1 ∧ a.2 < 6 then do
    let d ← i8 pf (a.2 - (-1))
    pure (24, asU8 d == low)
  else if a.1 = -1 ∧ a.2 > 17 then do
    let d ← i8 pf (24 - a.2)
    pure (24, asU8 d == low)
  else if a.2 = -1 ∧ a.1 < 6 then pure (asU32 a.1, false)
  else if a.2 = -1 ∧ a.1 > 17 then pure (asU32 a.1, false)
  else pure (asU32 a.1, min == low)

/-- Case `i == 1` of the loop, encoding.rs:68-90. -/
def encSecond (pf : Profile) (a : Act) (min low : Int) : Res EncPart :=
  if a.1 = -1 ∧ a.2 < 6 then do
    let d ← i8 pf (a.2 - (-1))
    pure (26 * 24, asU8 d == low)
  else if a.1 = -1 ∧ a.2 > 17 then do
    let d ← i8 pf (24 - a.2)
    pure (26 * 24, asU8 d == low)
  else if a.2 = -1 ∧ a.1 < 6 then do
    let x ← u32 pf (26 * asU32 a.1)
    pure (x, false)
  else if a.2 = -1 ∧ a.1 > 17 then do
    let x ← u32 pf (26 * asU32 a.1)
    pure (x, false)
  else do
    let x ← u32 pf (26 * asU32 a.1)
    pure (x, min == low)

/-- `encode`, encoding.rs:6-103. -/
def encode (pf : Profile) (g : State) (actions : Actions) : Res Int :=
  match actions with
  | [] => .ok 1351
  | [a] => do
    let low := if g.roll.1 > g.roll.2 then g.roll.2 else g.roll.1
    let m0 ← minRoll pf a
    let p ← encFirst pf a m0 low
    let sum ← u32 pf (0 + p.1)
    let sum ← u32 pf (sum + 26 * 25)
    let highFirst := decide (m0 > low)
    if highFirst then pure sum else u32 pf (sum + 676)
  | [a, b] => do
    let low := if g.roll.1 > g.roll.2 then g.roll.2 else g.roll.1
    let m0 ← minRoll pf a
    let m1 ← minRoll pf b
    let p ← encFirst pf a m0 low
    let sum ← u32 pf (0 + p.1)
    let q ← encSecond pf b m1 low
    let sum ← u32 pf (sum + q.1)
    let highFirst :=
      if p.2 then false else if q.2 then true
      else if m1 ≠ 0 then decide (m0 ≥ m1) else decide (m0 > low)
    if highFirst then pure sum else u32 pf (sum + 676)
  | _ => .error .assertFailed

/-- `decode`, encoding.rs:105-145. -/
def decode (pf : Profile) (g : State) (action : Nat) : Res Actions :=
  if action = 1351 then .ok []
  else do
    let highFirst := decide (action < 676)
    let base : Nat := if highFirst then action else action - 676
    let from1 := base % 26
    let from2 := base / 26
    let single := from2 == 25
    let high := if g.roll.1 > g.roll.2 then g.roll.1 else g.roll.2
    let low := if g.roll.1 > g.roll.2 then g.roll.2 else g.roll.1
    let f1 := asI8 from1
    let f2 := asI8 from2
    let lowI := asI8 low
    let highI := asI8 high
    let f1 := if f1 = 24 ∧ g.player = 1 then -1 else f1
    let f2 := if f2 = 24 ∧ g.player = 1 then -1 else f2
    let d1 ← i8 pf ((if highFirst then highI else lowI) * g.player)
    let to1 ← i8 pf (f1 + d1)
    let d2 ← i8 pf ((if highFirst then lowI else highI) * g.player)
    let to2 ← i8 pf (f2 + d2)
    let to1 := if to1 ≥ 24 ∨ to1 ≤ -1 then -1 else to1
    let to2 := if to2 ≥ 24 ∨ to2 ≤ -1 then -1 else to2
    let f1 := if f1 = 24 then -1 else f1
    let f2 := if f2 = 24 then -1 else f2
    pure (if single then [(f1, to1)] else [(f1, to1), (f2, to2)])

end Inherent

end DieE.BG
