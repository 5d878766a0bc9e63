import Verif.Backgammon.Model

/-!
# Rules of backgammon, independent of the implementation

A position is described by *counts of checkers* per player (not by signed entries), the rules by six separate clauses.
Nothing here uses the functions of `Backgammon/Model`; only `view` looks at the Rust board representation.
-/

namespace DieE.Spec

/-- The two players: `neg` is the Rust player `-1`, `pos` the Rust player `1`. -/
inductive Side where
  | neg
  | pos
  deriving DecidableEq, Repr

/-- The number the Rust code uses for a player. -/
def Side.sgn : Side → Int
  | .neg => -1
  | .pos => 1

/-- The opponent. -/
def Side.opp : Side → Side
  | .neg => .pos
  | .pos => .neg

/-- A position: checkers on the points `0..23`, on the bar, and borne off, for each player. -/
@[ext] structure Pos where
  men : Side → Int → Nat
  bar : Side → Nat
  off : Side → Nat

/-- Distance (in pips) from point `i` to being borne off. `neg` travels towards index 0, `pos` towards index 23. -/
def pip (s : Side) (i : Int) : Int :=
  match s with
  | .neg => i + 1
  | .pos => 24 - i

/-- `i` is one of the 24 points. -/
def onBoard (i : Int) : Prop := 0 ≤ i ∧ i < 24

instance (i : Int) : Decidable (onBoard i) := inferInstanceAs (Decidable (_ ∧ _))

/-- Sum of a function over the 24 points. -/
def sum24 (f : Int → Int) : Int := ((List.range 24).map fun (i : Nat) => f i).sum

/-- Number of checkers a player owns. -/
def Pos.total (P : Pos) (s : Side) : Int := sum24 (fun i => P.men s i) + P.bar s + P.off s

/-- Pip count: total distance to bear off all checkers, a checker on the bar counting 25. -/
def Pos.pips (P : Pos) (s : Side) : Int := sum24 (fun i => P.men s i * pip s i) + 25 * P.bar s

/-- No checker on the bar and none outside the home board. -/
def Pos.allHome (P : Pos) (s : Side) : Prop :=
  P.bar s = 0 ∧ ∀ i, onBoard i → 6 < pip s i → P.men s i = 0

/-- No opposing checker stands in the home board of `s`. -/
def Pos.homeFree (P : Pos) (s : Side) : Prop :=
  ∀ i, onBoard i → pip s i ≤ 6 → P.men s.opp i = 0

/-! The clauses of the rules for the checker move `a = (from, to)` with die `d`; `to = -1` means bearing off,
`from = -1` means entering from the bar. -/

/-- There is a checker to move. -/
def SourceRule (s : Side) (P : Pos) (a : Int × Int) : Prop :=
  if a.1 = -1 then a.2 ≠ -1 ∧ 0 < P.bar s else onBoard a.1 ∧ 0 < P.men s a.1

/-- Checkers on the bar have to be entered first. -/
def BarRule (s : Side) (P : Pos) (a : Int × Int) : Prop := 0 < P.bar s → a.1 = -1

/-- The destination is a point with at most one opposing checker, unless the checker is borne off. -/
def OpenRule (s : Side) (P : Pos) (a : Int × Int) : Prop :=
  a.2 ≠ -1 → onBoard a.2 ∧ P.men s.opp a.2 ≤ 1

/-- The distance travelled is that of the die; bearing off may waste pips. -/
def DieRule (s : Side) (d : Int) (a : Int × Int) : Prop :=
  if a.2 = -1 then pip s a.1 ≤ d
  else if a.1 = -1 then 25 - pip s a.2 = d
  else pip s a.1 - pip s a.2 = d

/-- Bearing off needs all checkers at home. -/
def HomeRule (s : Side) (P : Pos) (a : Int × Int) : Prop := a.2 = -1 → P.allHome s

/-- Bearing off with a larger number than needed only from the rearmost occupied point. -/
def RearRule (s : Side) (P : Pos) (d : Int) (a : Int × Int) : Prop :=
  a.2 = -1 → pip s a.1 < d → ∀ i, onBoard i → pip s a.1 < pip s i → P.men s i = 0

/-- A legal move of one checker with die `d`. -/
structure LegalStep (s : Side) (P : Pos) (d : Int) (a : Int × Int) : Prop where
  source : SourceRule s P a
  barFirst : BarRule s P a
  openPoint : OpenRule s P a
  dieUse : DieRule s d a
  home : HomeRule s P a
  rear : RearRule s P d a

/-- All clauses except the one on the rearmost checker. -/
structure AlmostLegalStep (s : Side) (P : Pos) (d : Int) (a : Int × Int) : Prop where
  source : SourceRule s P a
  barFirst : BarRule s P a
  openPoint : OpenRule s P a
  dieUse : DieRule s d a
  home : HomeRule s P a

/-- The position after one checker move: one checker leaves the source, arrives at the destination (or is borne off),
and an opposing blot on the destination goes to the bar. -/
def after (s : Side) (P : Pos) (a : Int × Int) : Pos where
  men := fun t i =>
    if t = s then
      P.men s i - (if a.1 = i ∧ a.1 ≠ -1 then 1 else 0) + (if a.2 = i ∧ a.2 ≠ -1 then 1 else 0)
    else if a.2 = i ∧ a.2 ≠ -1 ∧ P.men t i = 1 then 0 else P.men t i
  bar := fun t =>
    if t = s then P.bar s - (if a.1 = -1 then 1 else 0)
    else P.bar t + (if a.2 ≠ -1 ∧ P.men t a.2 = 1 then 1 else 0)
  off := fun t => if t = s then P.off s + (if a.2 = -1 then 1 else 0) else P.off t

/-- The position after a sequence of checker moves. -/
def afterAll (s : Side) (P : Pos) (q : List (Int × Int)) : Pos := q.foldl (after s) P

/-- `MaxPlay R L s dice P q`: the checker moves `q` can be played from `P` one after the other, each using up one of
`dice` and satisfying `R position die move`, and at the end no remaining die admits a move satisfying `L`. -/
inductive MaxPlay (R L : Pos → Int → Int × Int → Prop) (s : Side) : List Int → Pos → List (Int × Int) → Prop
  | stop {dice P} : (∀ d ∈ dice, ∀ a, ¬ L P d a) → MaxPlay R L s dice P []
  | step {dice P d a q} : d ∈ dice → R P d a → MaxPlay R L s (dice.erase d) (after s P a) q →
      MaxPlay R L s dice P (a :: q)

/-- A complete play by the rules (without the rule that as many dice as possible must be used). -/
def Play (s : Side) : List Int → Pos → List (Int × Int) → Prop := MaxPlay (LegalStep s) (LegalStep s) s

/-- `Uses R s dice P q`: the checker moves `q` can be assigned distinct dice out of `dice` such that each one, at the
moment it is played, satisfies `R position die move`. -/
inductive Uses (R : Pos → Int → Int × Int → Prop) (s : Side) : List Int → Pos → List (Int × Int) → Prop
  | nil {dice P} : Uses R s dice P []
  | cons {dice P d a q} : d ∈ dice → R P d a → Uses R s (dice.erase d) (after s P a) q → Uses R s dice P (a :: q)

/-- The position shown by a Rust board. -/
def view (b : BG.Board) : Pos where
  men := fun s i => match s with
    | .neg => (-(b.pt i)).toNat
    | .pos => (b.pt i).toNat
  bar := fun s => match s with
    | .neg => b.hit.1.toNat
    | .pos => b.hit.2.toNat
  off := fun s => match s with
    | .neg => b.col.1.toNat
    | .pos => b.col.2.toNat

/-- A board on which both players own 15 checkers. -/
structure Valid (b : BG.Board) : Prop where
  hit1 : 0 ≤ b.hit.1
  hit2 : 0 ≤ b.hit.2
  col1 : 0 ≤ b.col.1
  col2 : 0 ≤ b.col.2
  total : ∀ s, (view b).total s = 15

/-- A rolled game state with a valid board, a valid player and dice between 1 and 6. -/
structure StateOK (g : BG.State) : Prop where
  board : Valid g.board
  player : g.player = -1 ∨ g.player = 1
  die1 : 1 ≤ g.roll.1 ∧ g.roll.1 ≤ 6
  die2 : 1 ≤ g.roll.2 ∧ g.roll.2 ≤ 6

/-- Two dice. -/
def DiceInRange (dice : Int × Int) : Prop := (1 ≤ dice.1 ∧ dice.1 ≤ 6) ∧ (1 ≤ dice.2 ∧ dice.2 ≤ 6)

/-- The player to move. -/
def mover (g : BG.State) : Side := if g.player = -1 then .neg else .pos

end DieE.Spec
