import Verif.TicTacToe.Model
import Mathlib.Data.Nat.Factorial.Basic
import Mathlib.Algebra.BigOperators.Ring.List
import Mathlib.Algebra.Order.BigOperators.Group.List
import Mathlib.Data.List.GetD
import Mathlib.Algebra.Order.Ring.Nat

/-!
# Counting the courses of TicTacToe games

The orders in which the empty cells can be filled, by the result of the game.  They are counted with tables indexed by
boards, which are checked by evaluation.
-/

namespace DieE.TTT.Count
open Nat

/-- `check_winner` of a board, mod.rs:59-79. -/
def won (b : List Int) : Option Int :=
  match combos.findSome? (fun t =>
    if b.getD t.1 0 ≠ 0 ∧ b.getD t.1 0 = b.getD t.2.1 0 ∧ b.getD t.2.1 0 = b.getD t.2.2 0 then some (b.getD t.1 0) else none) with
  | some a => some a
  | none => if b.all (fun v => v != 0) then some 0 else none

theorem checkWinner_won (g : State) : checkWinner g = won g.board.toList := rfl

/-- The kind of a result: 0 if player -1 has won, 1 if player 1 has won, otherwise 2. -/
def kindOf (o : Int) : Fin 3 := if o = -1 then 0 else if o = 1 then 1 else 2

/-- The orders in which the `k` empty cells of the board can be filled, player `p` beginning, each counted with the weight
of the result of the game, which ends as soon as there is a line. -/
def fate (v : Fin 3 → Nat) : Nat → Int → List Int → Nat
  | 0, _, b => match won b with
    | some o => v (kindOf o)
    | none => 0
  | k + 1, p, b => match won b with
    | some o => (k + 1)! * v (kindOf o)
    | none => (((List.range b.length).filter fun i => b.getD i 0 = 0).map fun i => fate v k (-p) (b.set i p)).sum

/-! ## Tables -/

/-- A cell, for evaluation. -/
inductive Cell where
  /-- empty -/
  | e
  /-- player -1 -/
  | x
  /-- player 1 -/
  | o

/-- The number in the cell. -/
def Cell.int : Cell → Int
  | e => 0
  | x => -1
  | o => 1

/-- The cell is not empty. -/
def Cell.taken : Cell → Bool
  | e => false
  | _ => true

/-- A table of numbers indexed by boards. -/
inductive Table where
  /-- nothing, for boards of any length -/
  | nil
  /-- the number of the board without cells -/
  | leaf (n : Nat)
  /-- the tables for an empty first cell, a first cell of player -1 and one of player 1 -/
  | node (e x o : Table)

namespace Table

/-- The number in the table. -/
def get : Table → List Int → Nat
  | leaf n, [] => n
  | node e x o, c :: cs => if c = 0 then get e cs else if c = -1 then get x cs else get o cs
  | _, _ => 0

/-- The table is one of boards of the given length. -/
def Sized : Nat → Table → Prop
  | _, nil => True
  | 0, leaf _ => True
  | d + 1, node e x o => Sized d e ∧ Sized d x ∧ Sized d o
  | _, _ => False

/-- The sums of the entries. -/
def add : Table → Table → Table
  | nil, t => t
  | leaf n, leaf m => leaf (n + m)
  | node e x o, node e' x' o' => node (add e e') (add x x') (add o o')
  | s, _ => s

/-- For each board the sum of the entries after a move of player -1 (`p` true) or 1. -/
def spread (p : Bool) : Table → Table
  | nil => nil
  | leaf _ => nil
  | node e x o => node (add (spread p e) (if p then x else o)) (spread p x) (spread p o)

/-- The entries of boards on which the game has ended are replaced: the first table has the kinds of result plus 1, or 0. -/
def comb (v : Nat → Nat) : Table → Table → Table
  | nil, _ => nil
  | leaf c, leaf n => if c = 0 then leaf n else leaf (v c)
  | leaf c, _ => if c = 0 then leaf 0 else leaf (v c)
  | node e x o, node e' x' o' => node (comb v e e') (comb v x x') (comb v o o')
  | node e x o, _ => node (comb v e nil) (comb v x nil) (comb v o nil)

/-- The kind of the result plus 1, or 0. -/
def code (b : List Int) : Nat :=
  match won b with
  | none => 0
  | some w => (kindOf w).1 + 1

/-- The first number that is not 0. -/
def pick : Nat → Nat → Nat
  | 0, n => n
  | k + 1, _ => k + 1

/-- The code of a line. -/
def line : Cell → Cell → Cell → Nat
  | .x, .x, .x => 1
  | .o, .o, .o => 2
  | _, _, _ => 0

/-- `code`, for evaluation. -/
def fast : List Cell → Nat
  | [a, b, c, d, e, f, g, h, i] =>
    pick (line a b c) (pick (line d e f) (pick (line g h i) (pick (line a d g) (pick (line b e h) (pick (line c f i)
      (pick (line a e i) (pick (line c e g) (if [a, b, c, d, e, f, g, h, i].all Cell.taken then 3 else 0))))))))
  | _ => 0

/-- The codes of the boards that begin with `pre` (in reverse) and have `d` more cells, of which `e` are empty, `x` belong to
player -1 and `o` to player 1. -/
def grow : Nat → Nat → Nat → Nat → List Cell → Table
  | 0, _, _, _, pre => leaf (fast pre.reverse)
  | d + 1, e, x, o, pre => node
    (match e with
      | 0 => nil
      | e + 1 => grow d e x o (.e :: pre))
    (match x with
      | 0 => nil
      | x + 1 => grow d e x o (.x :: pre))
    (match o with
      | 0 => nil
      | o + 1 => grow d e x o (.o :: pre))

/-- The values of `fate` for the boards with the given numbers of empty cells and cells of the players. -/
def table (v : Fin 3 → Nat) : Nat → Nat → Nat → Bool → Table
  | 0, x, o, _ => comb (fun c => if h : c - 1 < 3 then v ⟨c - 1, h⟩ else 0) (grow 9 0 x o []) nil
  | e + 1, x, o, p => comb (fun c => (e + 1)! * (if h : c - 1 < 3 then v ⟨c - 1, h⟩ else 0)) (grow 9 (e + 1) x o [])
    (spread p (table v e (if p then x + 1 else x) (if p then o else o + 1) (!p)))

/-- Weights from which all three numbers can be read off. -/
def digits (c : Fin 3) : Nat := 1000000 ^ c.1

/-! ## The codes -/

/-- The code of a result. -/
def codeOf : Option Int → Nat
  | none => 0
  | some w => (kindOf w).1 + 1

theorem codeOf_or (a b : Option Int) : codeOf (a.or b) = pick (codeOf a) (codeOf b) := by
  cases a <;> rfl

theorem code_line (a b c : Cell) :
    codeOf (if a.int ≠ 0 ∧ a.int = b.int ∧ b.int = c.int then some a.int else none) = line a b c := by
  cases a <;> cases b <;> cases c <;> rfl

theorem taken_int (c : Cell) : (c.int != 0) = c.taken := by cases c <;> rfl

theorem fast_code (l : List Cell) (h : l.length = 9) : fast l = code (l.map Cell.int) := by
  obtain ⟨a, b, c, d, e, f, g, i, j, rfl⟩ : ∃ a b c d e f g i j, l = [a, b, c, d, e, f, g, i, j] := by
    match l, h with
    | [a, b, c, d, e, f, g, i, j], _ => exact ⟨a, b, c, d, e, f, g, i, j, rfl⟩
  have hw : ∀ b : List Int, code b = codeOf ((combos.findSome? (fun t =>
      if b.getD t.1 0 ≠ 0 ∧ b.getD t.1 0 = b.getD t.2.1 0 ∧ b.getD t.2.1 0 = b.getD t.2.2 0 then some (b.getD t.1 0) else none)).or
      (if b.all (fun v => v != 0) then some 0 else none)) := by
    intro b
    unfold code won
    cases combos.findSome? _ <;> rfl
  have hf : ∀ (F : Nat × Nat × Nat → Option Int) t l, List.findSome? F (t :: l) = (F t).or (List.findSome? F l) := by
    intro F t l
    rw [List.findSome?_cons]
    cases F t <;> rfl
  rw [hw]
  unfold combos
  simp only [hf, codeOf_or, List.findSome?_nil]
  simp only [List.map_cons, List.map_nil, List.getD_cons_zero, List.getD_cons_succ, code_line, List.all_cons, List.all_nil, taken_int,
    Bool.and_true]
  unfold fast
  simp only [List.all_cons, List.all_nil, Bool.and_true]
  have e : ∀ t : Bool, codeOf (if t = true then some 0 else none) = if t = true then 3 else 0 := by decide
  rw [e]
  have p0 : ∀ n, pick 0 n = n := fun _ => rfl
  have pa : ∀ a b c, pick (pick a b) c = pick a (pick b c) := by
    intro a b c
    cases a <;> rfl
  simp only [pa, codeOf, p0]

/-! ## The sums -/

theorem get_nil (b : List Int) : get nil b = 0 := by cases b <;> rfl

theorem get_add {d : Nat} {s t : Table} (hs : Sized d s) (ht : Sized d t) (b : List Int) : get (add s t) b = get s b + get t b := by
  induction d generalizing s t b with
  | zero =>
    cases s with
    | nil => rw [get_nil, Nat.zero_add, add]
    | node => exact hs.elim
    | leaf n =>
      cases t with
      | nil => rw [get_nil]; rfl
      | node => exact ht.elim
      | leaf m => cases b <;> rfl
  | succ d ih =>
    cases s with
    | nil => rw [get_nil, Nat.zero_add, add]
    | leaf => exact hs.elim
    | node e x o =>
      cases t with
      | nil => rw [get_nil]; rfl
      | leaf => exact ht.elim
      | node e' x' o' =>
        cases b with
        | nil => rfl
        | cons c cs =>
          show (if c = 0 then get (add e e') cs else if c = -1 then get (add x x') cs else get (add o o') cs) =
            (if c = 0 then get e cs else if c = -1 then get x cs else get o cs) +
              (if c = 0 then get e' cs else if c = -1 then get x' cs else get o' cs)
          rw [ih hs.1 ht.1, ih hs.2.1 ht.2.1, ih hs.2.2 ht.2.2]
          split
          · rfl
          · split <;> rfl

theorem sized_add {d : Nat} {s t : Table} (hs : Sized d s) (ht : Sized d t) : Sized d (add s t) := by
  induction d generalizing s t with
  | zero =>
    cases s with
    | nil => rw [add]; exact ht
    | node => exact hs.elim
    | leaf n => cases t <;> trivial
  | succ d ih =>
    cases s with
    | nil => rw [add]; exact ht
    | leaf => exact hs.elim
    | node e x o =>
      cases t with
      | nil => exact hs
      | leaf => exact ht.elim
      | node e' x' o' => exact ⟨ih hs.1 ht.1, ih hs.2.1 ht.2.1, ih hs.2.2 ht.2.2⟩

theorem sized_spread (p : Bool) {d : Nat} {t : Table} (ht : Sized d t) : Sized d (spread p t) := by
  induction d generalizing t with
  | zero =>
    cases t with
    | nil => trivial
    | leaf => trivial
    | node => exact ht.elim
  | succ d ih =>
    cases t with
    | nil => trivial
    | leaf => exact ht.elim
    | node e x o =>
      refine ⟨sized_add (ih ht.1) ?_, ih ht.2.1, ih ht.2.2⟩
      cases p
      · exact ht.2.2
      · exact ht.2.1

/-- The number of the player. -/
def who (p : Bool) : Int := if p then -1 else 1

/-- The sum over all moves of player `p`. -/
def gaps (p : Bool) (f : List Int → Nat) : List Int → Nat
  | [] => 0
  | c :: cs => (if c = 0 then f (who p :: cs) else 0) + gaps p (fun l => f (c :: l)) cs

theorem gaps_zero (p : Bool) (b : List Int) : gaps p (fun _ => 0) b = 0 := by
  induction b with
  | nil => rfl
  | cons c cs ih =>
    rw [gaps, ih]
    split <;> rfl

theorem gaps_eq (p : Bool) (f : List Int → Nat) (b : List Int) :
    gaps p f b = (((List.range b.length).filter fun i => b.getD i 0 = 0).map fun i => f (b.set i (who p))).sum := by
  induction b generalizing f with
  | nil => rfl
  | cons c cs ih =>
    rw [gaps, ih, List.length_cons, List.range_succ_eq_map, List.filter_cons, List.filter_map]
    by_cases hc : c = 0
    · subst hc
      simp [Function.comp_def]
    · simp [hc, Function.comp_def]

theorem get_spread (p : Bool) {d : Nat} {t : Table} (ht : Sized d t) (b : List Int) (hb : b.length = d) :
    get (spread p t) b = gaps p (get t) b := by
  induction d generalizing t b with
  | zero =>
    obtain rfl := List.length_eq_zero_iff.1 hb
    cases t with
    | nil => rfl
    | leaf => rfl
    | node => exact ht.elim
  | succ d ih =>
    cases b with
    | nil => cases hb
    | cons c cs =>
      have hl : cs.length = d := by simpa using hb
      cases t with
      | leaf => exact ht.elim
      | nil =>
        have : get nil = fun _ => 0 := funext get_nil
        rw [this, gaps_zero]
        rfl
      | node e x o =>
        show (if c = 0 then get (add (spread p e) (if p then x else o)) cs
            else if c = -1 then get (spread p x) cs else get (spread p o) cs) = _
        rw [gaps]
        by_cases h0 : c = 0
        · subst h0
          rw [if_pos rfl, if_pos rfl, get_add (sized_spread p ht.1) (by cases p; exacts [ht.2.2, ht.2.1]), ih ht.1 cs hl, Nat.add_comm]
          congr 1
          cases p <;> rfl
        · rw [if_neg h0, if_neg h0, Nat.zero_add]
          by_cases h1 : c = -1
          · subst h1
            rw [if_pos rfl, ih ht.2.1 cs hl]
            rfl
          · rw [if_neg h1, ih ht.2.2 cs hl]
            congr 1
            funext l
            show _ = if c = 0 then _ else if c = -1 then _ else _
            rw [if_neg h0, if_neg h1]

/-! ## The boards -/

theorem sized_nil (d : Nat) : Sized d nil := by cases d <;> trivial

theorem sized_comb (v : Nat → Nat) {d : Nat} {s t : Table} (hs : Sized d s) (ht : Sized d t) : Sized d (comb v s t) := by
  induction d generalizing s t with
  | zero =>
    cases s with
    | nil => trivial
    | node => exact hs.elim
    | leaf c =>
      cases t with
      | node => exact ht.elim
      | nil => unfold comb; split <;> trivial
      | leaf => unfold comb; split <;> trivial
  | succ d ih =>
    cases s with
    | nil => trivial
    | leaf => exact hs.elim
    | node e x o =>
      cases t with
      | leaf => exact ht.elim
      | nil => exact ⟨ih hs.1 (sized_nil d), ih hs.2.1 (sized_nil d), ih hs.2.2 (sized_nil d)⟩
      | node e' x' o' => exact ⟨ih hs.1 ht.1, ih hs.2.1 ht.2.1, ih hs.2.2 ht.2.2⟩

theorem sized_grow (d e x o : Nat) (pre : List Cell) : Sized d (grow d e x o pre) := by
  induction d generalizing e x o pre with
  | zero => trivial
  | succ d ih =>
    unfold grow
    refine ⟨?_, ?_, ?_⟩
    · cases e
      · exact sized_nil d
      · exact ih ..
    · cases x
      · exact sized_nil d
      · exact ih ..
    · cases o
      · exact sized_nil d
      · exact ih ..

/-- The numbers of cells of the three sorts. -/
def Has (l : List Cell) (e x o : Nat) : Prop :=
  (l.map Cell.int).count 0 = e ∧ (l.map Cell.int).count (-1) = x ∧ (l.map Cell.int).count 1 = o

theorem get_comb (v : Nat → Nat) {d e x o : Nat} {pre b : List Cell} {t : Table} (ht : Sized d t) (hb : b.length = d)
    (hc : Has b e x o) : get (comb v (grow d e x o pre) t) (b.map Cell.int) =
      if fast (pre.reverse ++ b) = 0 then get t (b.map Cell.int) else v (fast (pre.reverse ++ b)) := by
  induction d generalizing e x o pre b t with
  | zero =>
    obtain rfl := List.length_eq_zero_iff.1 hb
    rw [List.append_nil]
    cases t with
    | node => exact ht.elim
    | nil =>
      show get (if fast pre.reverse = 0 then leaf 0 else leaf (v (fast pre.reverse))) [] = _
      split <;> rfl
    | leaf n =>
      show get (if fast pre.reverse = 0 then leaf n else leaf (v (fast pre.reverse))) [] = _
      split <;> rfl
  | succ d ih =>
    cases b with
    | nil => cases hb
    | cons c cs =>
      have hb : cs.length = d := by simpa using hb
      obtain ⟨rfl, rfl, rfl⟩ := hc
      have key : ∀ c : Cell, ∀ t' : Table, Sized d t' →
          get (comb v (grow d ((cs.map Cell.int).count 0) ((cs.map Cell.int).count (-1)) ((cs.map Cell.int).count 1) (c :: pre)) t')
            (cs.map Cell.int) = if fast (pre.reverse ++ c :: cs) = 0 then get t' (cs.map Cell.int) else v (fast (pre.reverse ++ c :: cs)) := by
        intro c t' ht'
        rw [ih ht' hb ⟨rfl, rfl, rfl⟩, List.reverse_cons, List.append_assoc]
        rfl
      cases t with
      | leaf => exact ht.elim
      | nil =>
        have key := key c nil (sized_nil d)
        rw [get_nil] at key ⊢
        rw [← key]
        cases c <;> simp [grow, comb, get, Cell.int]
      | node e' x' o' =>
        cases c with
        | e => 
          rw [List.map_cons, show get (node e' x' o') (Cell.e.int :: cs.map Cell.int) = get e' (cs.map Cell.int) from rfl, ← key .e e' ht.1]
          simp [grow, comb, get, Cell.int]
        | x => 
          rw [List.map_cons, show get (node e' x' o') (Cell.x.int :: cs.map Cell.int) = get x' (cs.map Cell.int) from rfl, ← key .x x' ht.2.1]
          simp [grow, comb, get, Cell.int]
        | o => 
          rw [List.map_cons, show get (node e' x' o') (Cell.o.int :: cs.map Cell.int) = get o' (cs.map Cell.int) from rfl, ← key .o o' ht.2.2]
          simp [grow, comb, get, Cell.int]

theorem sized_table (v : Fin 3 → Nat) (e x o : Nat) (p : Bool) : Sized 9 (table v e x o p) := by
  induction e generalizing x o p with
  | zero => exact sized_comb _ (sized_grow ..) (sized_nil 9)
  | succ e ih => exact sized_comb _ (sized_grow ..) (sized_spread p (ih ..))

/-- The cell of the player. -/
def cell (p : Bool) : Cell := if p then .x else .o

theorem cell_int (p : Bool) : (cell p).int = who p := by cases p <;> rfl

theorem has_set {b : List Cell} {e x o : Nat} (h : Has b (e + 1) x o) (p : Bool) {i : Nat} (hi : i < b.length)
    (h0 : (b.map Cell.int).getD i 0 = 0) : Has (b.set i (cell p)) e (if p then x + 1 else x) (if p then o else o + 1) := by
  obtain ⟨h1, h2, h3⟩ := h
  have hi' : i < (b.map Cell.int).length := by simpa using hi
  have h0 : (b.map Cell.int)[i] = 0 := by
    rwa [List.getD_eq_getElem _ _ hi'] at h0
  unfold Has
  rw [List.map_set, cell_int]
  simp only [List.count_set hi', h0, h1, h2, h3]
  cases p <;> simp [who]

/-- The tables are right. -/
theorem table_get (v : Fin 3 → Nat) {e x o : Nat} (p : Bool) {b : List Cell} (hb : b.length = 9) (h : Has b e x o) :
    get (table v e x o p) (b.map Cell.int) = fate v e (who p) (b.map Cell.int) := by
  have hcode := fast_code b hb
  have hk : ∀ w, (if h : (kindOf w).1 + 1 - 1 < 3 then v ⟨(kindOf w).1 + 1 - 1, h⟩ else 0) = v (kindOf w) := fun w => dif_pos (kindOf w).2
  induction e generalizing x o p b with
  | zero =>
    rw [table, get_comb _ (sized_nil 9) hb h, List.reverse_nil, List.nil_append, hcode, get_nil, fate]
    unfold code
    cases won (b.map Cell.int) with
    | none => rfl
    | some w => exact hk w
  | succ e ih =>
    have hs := sized_table v e (if p then x + 1 else x) (if p then o else o + 1) (!p)
    rw [table, get_comb _ (sized_spread p hs) hb h, List.reverse_nil, List.nil_append, hcode,
      get_spread p hs _ (by simpa using hb), gaps_eq, fate]
    unfold code
    cases won (b.map Cell.int) with
    | some w => exact congrArg ((e + 1)! * ·) (hk w)
    | none =>
      show List.sum _ = List.sum _
      congr 1
      refine List.map_congr_left fun i hi => ?_
      obtain ⟨hi, h0⟩ := List.mem_filter.1 hi
      have hi : i < b.length := by simpa using hi
      have hb' : (b.set i (cell p)).length = 9 := by rw [List.length_set, hb]
      have := ih (!p) hb' (has_set h p hi (of_decide_eq_true h0)) (fast_code _ hb')
      rw [List.map_set, cell_int] at this
      rw [this]
      cases p <;> rfl

/-! ## The numbers -/

theorem first : (table digits 9 0 0 true).get (List.replicate 9 0) = 212256 + 104544 * 1000000 + 46080 * 1000000 ^ 2 := by
  decide +kernel

theorem second : (table digits 9 0 0 false).get (List.replicate 9 0) = 104544 + 212256 * 1000000 + 46080 * 1000000 ^ 2 := by
  decide +kernel

end Table

theorem fate_mul (v : Fin 3 → Nat) (c k : Nat) (p : Int) (b : List Int) : fate (fun i => c * v i) k p b = c * fate v k p b := by
  induction k generalizing p b with
  | zero =>
    unfold fate
    cases won b <;> rfl
  | succ k ih =>
    unfold fate
    cases won b with
    | some o => exact Nat.mul_left_comm ..
    | none =>
      simp only [ih]
      rw [List.sum_map_mul_left]

theorem fate_add (v w : Fin 3 → Nat) (k : Nat) (p : Int) (b : List Int) : fate (fun i => v i + w i) k p b = fate v k p b + fate w k p b := by
  induction k generalizing p b with
  | zero =>
    unfold fate
    cases won b <;> rfl
  | succ k ih =>
    unfold fate
    cases won b with
    | some o => exact Nat.mul_add ..
    | none =>
      simp only [ih]
      rw [List.sum_map_add]

theorem gaps_length (b : List Int) : ((List.range b.length).filter fun i => b.getD i 0 = 0).length = b.count 0 := by
  induction b with
  | nil => rfl
  | cons c cs ih =>
    rw [List.length_cons, List.range_succ_eq_map, List.filter_cons, List.filter_map, List.count_cons, ← ih]
    by_cases hc : c = 0
    · subst hc
      simp [Function.comp_def]
    · simp [hc, Function.comp_def]

theorem count_move {b : List Int} {k : Nat} (h : b.count 0 = k + 1) {p : Int} (hp : p ≠ 0) {i : Nat}
    (hi : i ∈ (List.range b.length).filter fun i => b.getD i 0 = 0) : (b.set i p).count 0 = k := by
  obtain ⟨hi, h0⟩ := List.mem_filter.1 hi
  have hi := List.mem_range.1 hi
  have h0 : b[i] = 0 := by
    have := of_decide_eq_true h0
    rwa [List.getD_eq_getElem _ _ hi] at this
  rw [List.count_set hi, h0, h]
  simp [hp]

/-- Every order is counted at most once. -/
theorem fate_le {v : Fin 3 → Nat} (hv : ∀ c, v c ≤ 1) {k : Nat} {p : Int} (hp : p ≠ 0) {b : List Int} (hb : b.count 0 = k) : fate v k p b ≤ k ! := by
  induction k generalizing p b with
  | zero =>
    unfold fate
    cases won b with
    | none => exact Nat.zero_le _
    | some o => exact hv _
  | succ k ih =>
    unfold fate
    cases won b with
    | some o => exact (Nat.mul_le_mul_left _ (hv _)).trans (Nat.mul_one _).le
    | none =>
      refine (List.sum_le_card_nsmul _ (k !) fun n hn => ?_).trans ?_
      · obtain ⟨i, hi, rfl⟩ := List.mem_map.1 hn
        exact ih (neg_ne_zero.2 hp) (count_move hb hp hi)
      · rw [List.length_map, gaps_length, hb, Nat.factorial_succ]
        rfl

/-- The weights that count the games with one result. -/
def only (c i : Fin 3) : Nat := if i = c then 1 else 0

theorem fate_digits (k : Nat) (p : Int) (b : List Int) :
    fate Table.digits k p b = fate (only 0) k p b + 1000000 * fate (only 1) k p b + 1000000 ^ 2 * fate (only 2) k p b := by
  rw [← fate_mul, ← fate_mul, ← fate_add, ← fate_add]
  congr 1
  funext i
  revert i
  decide

theorem empty_has : Table.Has (List.replicate 9 .e) 9 0 0 := ⟨rfl, rfl, rfl⟩

theorem le_nine (c : Fin 3) {p : Int} (hp : p ≠ 0) : fate (only c) 9 p (List.replicate 9 0) ≤ 362880 :=
  fate_le (fun i => by unfold only; split <;> decide) hp (by decide)

/-- The results of all orders of the nine cells if player -1 begins. -/
theorem fate_first : fate (only 0) 9 (-1) (List.replicate 9 0) = 212256 ∧ fate (only 1) 9 (-1) (List.replicate 9 0) = 104544 ∧
    fate (only 2) 9 (-1) (List.replicate 9 0) = 46080 := by
  have h := fate_digits 9 (-1) (List.replicate 9 0)
  have := h.symm.trans ((Table.table_get Table.digits true rfl empty_has).symm.trans Table.first)
  have h0 := le_nine 0 (p := -1) (by decide)
  have h1 := le_nine 1 (p := -1) (by decide)
  omega

/-- The results of all orders of the nine cells if player 1 begins. -/
theorem fate_second : fate (only 0) 9 1 (List.replicate 9 0) = 104544 ∧ fate (only 1) 9 1 (List.replicate 9 0) = 212256 ∧
    fate (only 2) 9 1 (List.replicate 9 0) = 46080 := by
  have h := fate_digits 9 1 (List.replicate 9 0)
  have := h.symm.trans ((Table.table_get Table.digits false rfl empty_has).symm.trans Table.second)
  have h0 := le_nine 0 (p := 1) (by decide)
  have h1 := le_nine 1 (p := 1) (by decide)
  omega

end DieE.TTT.Count
