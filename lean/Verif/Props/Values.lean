import Verif.Mcts.Values
import Verif.Mcts.Select
import Verif.Props.Alpha
import Mathlib.Algebra.Order.Field.Basic
import Mathlib.Data.Rat.Floor
import Mathlib.Tactic.Positivity

/-! # C77–C79: the values recorded by the searches -/

namespace DieE.Props.Vl
open DieE DieE.Mcts DieE.Props.S DieE.Props.A

variable {G : Game} {Fl : Floats}

/-! ## C77: sums of values are bounded by the visits -/

/-- What is assumed of the floating point numbers: finite ones have a rational value, the constants have the expected
value, and sums within `±2^24` are the exact sum put through a rounding which is monotone and leaves the integers up to
`2^24` unchanged (as rounding to `f32` does, in every rounding mode). -/
structure Rounded (Fl : Floats) where
  /-- the value, for finite numbers -/
  val : Fl.F → Option Rat
  /-- rounding -/
  rnd : Rat → Rat
  ofInt : ∀ n : Int, n = 1 ∨ n = -1 ∨ n = 0 → val (Fl.ofInt n) = some (n : Rat)
  add : ∀ x y a b, val x = some a → val y = some b → |a + b| ≤ 16777216 → val (Fl.add x y) = some (rnd (a + b))
  mono : ∀ a b, a ≤ b → rnd a ≤ rnd b
  exact : ∀ n : Int, |n| ≤ 16777216 → rnd n = n

/-- `x` is a finite number between `-k` and `k`. -/
def Rounded.Within (R : Rounded Fl) (k : Nat) (x : Fl.F) : Prop := ∃ q, R.val x = some q ∧ |q| ≤ k

theorem Rounded.within_ofInt (R : Rounded Fl) {n : Int} (h : n = 1 ∨ n = -1 ∨ n = 0) : R.Within 1 (Fl.ofInt n) := by
  refine ⟨_, R.ofInt n h, ?_⟩
  rcases h with rfl | rfl | rfl <;> norm_num

theorem Rounded.within_add (R : Rounded Fl) {k : Nat} {x r : Fl.F} (hk : k < 16777216) (hx : R.Within k x)
    (hr : R.Within 1 r) : R.Within (k + 1) (Fl.add x r) := by
  obtain ⟨a, ha, ha'⟩ := hx
  obtain ⟨b, hb, hb'⟩ := hr
  have hk' : ((k : Rat)) + 1 ≤ 16777216 := by exact_mod_cast hk
  have hsum : |a + b| ≤ (k : Rat) + 1 := by
    have := abs_add_le a b
    push_cast at hb'
    linarith
  refine ⟨_, R.add x r a b ha hb (hsum.trans hk'), ?_⟩
  rw [abs_le] at hsum ⊢
  have e1 : R.rnd ((k : Rat) + 1) = (k : Rat) + 1 := by
    have := R.exact ((k : Int) + 1) (by rw [abs_le]; omega)
    push_cast at this
    exact this
  have e2 : R.rnd (-((k : Rat) + 1)) = -((k : Rat) + 1) := by
    have := R.exact (-((k : Int) + 1)) (by rw [abs_le]; omega)
    push_cast at this
    exact this
  have h1 := R.mono _ _ hsum.1
  have h2 := R.mono _ _ hsum.2
  rw [e2] at h1
  rw [e1] at h2
  push_cast
  exact ⟨h1, h2⟩

/-- The invariant. -/
def Rounded.Q (R : Rounded Fl) (v : Nat) (x : Fl.F) : Prop := v < 16777216 → R.Within v x

theorem Rounded.keeps (R : Rounded Fl) : Keeps R.Q (R.Within 1) := by
  intro v x r hq hr hv
  have hv' : v < 16777216 := by unfold vinc at hv; split at hv <;> omega
  unfold vinc
  rw [if_pos hv']
  exact R.within_add hv' (hq hv') hr

theorem Rounded.outcomes (R : Rounded Fl) : Outcomes (R.Within 1) :=
  ⟨R.within_ofInt (.inl rfl), R.within_ofInt (.inr (.inl rfl)), R.within_ofInt (.inr (.inr rfl))⟩

theorem Rounded.start (R : Rounded Fl) : R.Q 0 (Fl.ofInt 0) ∧ R.Q 1 (Fl.ofInt 0) := by
  constructor <;> intro _ <;> refine ⟨0, ?_, by simp⟩ <;> exact_mod_cast R.ofInt 0 (.inr (.inr rfl))

theorem Rounded.mean (R : Rounded Fl) {v : Nat} {x : Fl.F} (h : R.Q v x) (hv : v < 16777216) :
    ∃ q, R.val x = some q ∧ |q| ≤ v ∧ |q / v| ≤ 1 := by
  obtain ⟨q, h1, h2⟩ := h hv
  refine ⟨q, h1, h2, ?_⟩
  rw [abs_div, abs_of_nonneg (by positivity : (0 : Rat) ≤ (v : Rat))]
  exact div_le_one_of_le₀ h2 (by positivity)

/-- C77 for the plain search: in every tree it builds, every node visited less than `2^24` times has a finite value sum
of absolute value at most its visits, so a mean between -1 and 1. -/
theorem C77_plain (R : Rounded Fl) {state : G.S} {player : Int} {iterations limit : Nat} {st : Store G Fl}
    {tr : List Nat} {t t' : Tape} (h : buildTree Fl state player iterations limit t = .ok ((st, tr), t')) :
    ∀ n ∈ st, n.visits < 16777216 → ∃ q, R.val n.value = some q ∧ |q| ≤ n.visits ∧ |q / n.visits| ≤ 1 :=
  fun n hn hv => R.mean (buildTree_q R.start.1 R.keeps R.outcomes h n hn) hv

/-- C77 for the batched search, for networks whose values are finite and between -1 and 1. -/
theorem C77_batched (R : Rounded Fl) {net : Net Fl} (hnet : ∀ x row, ∃ q, R.val (net.eval x row) = some q ∧ |q| ≤ 1)
    {order : List Nat} {states : List G.S} {iterations : Nat} {st st' : Store G Fl} {t t' : Tape}
    (h : alphaMctsParallel net order states iterations st t = .ok (st', t')) :
    ∀ n ∈ st', n.visits < 16777216 → ∃ q, R.val n.value = some q ∧ |q| ≤ n.visits ∧ |q / n.visits| ≤ 1 := by
  intro n hn hv
  refine R.mean (alphaMctsParallel_q (V := R.Within 1) R.start.1 R.start.2 R.keeps R.outcomes ?_ h n hn) hv
  intro x row
  obtain ⟨q, h1, h2⟩ := hnet x row
  exact ⟨q, h1, by exact_mod_cast h2⟩

/-- The integers of the examples, without rounding. -/
def demoRounded : Rounded demoFloats where
  val := fun x : Int => some (x : Rat)
  rnd := id
  ofInt := fun _ _ => rfl
  add := by
    intro x y a b hx hy _
    cases hx
    cases hy
    exact congrArg some (Int.cast_add (R := Rat) x y)
  mono := fun _ _ h => h
  exact := fun _ _ => rfl

/-- Rounding to multiples of `2^-10` towards minus infinity is an arithmetic with rounding as well. -/
def gridFloats : Floats where
  F := Rat
  ofInt := fun n => n
  add := fun x y => (⌊(x + y) * 1024⌋ : Rat) / 1024
  inf := 1000000
  ucb := fun v n p => (10 * v + p) / (n + 1)
  alphaUcb := fun v n p q => (10 * v + q + p) / (n + 1)
  winPct := fun v n => v / n
  cmp := compare

/-- See `gridFloats`. -/
def gridRounded : Rounded gridFloats where
  val := fun x : Rat => some x
  rnd := fun x => (⌊x * 1024⌋ : Rat) / 1024
  ofInt := fun _ _ => rfl
  add := by
    intro x y a b hx hy _
    cases hx
    cases hy
    rfl
  mono := by
    intro a b h
    have : ⌊a * 1024⌋ ≤ ⌊b * 1024⌋ := Int.floor_le_floor (by linarith)
    have : (⌊a * 1024⌋ : Rat) ≤ ⌊b * 1024⌋ := by exact_mod_cast this
    linarith
  exact := by
    intro n _
    have : ⌊(n : Rat) * 1024⌋ = n * 1024 := by
      have : (n : Rat) * 1024 = ((n * 1024 : Int) : Rat) := by push_cast; rfl
      rw [this, Int.floor_intCast]
    rw [this]
    push_cast
    ring

/-- The hypothesis of `C77_plain` is met by `lateRun`, whose root was visited five times and has the value sum 4. -/
example : lateRun.toOption.map (fun r => r.1.1.map fun n => ((n.visits : Nat), (n.value : Int))) =
    some [(5, 4), (1, 0), (4, 4)] := by decide +kernel

/-- The hypothesis on the network of `C77_batched` is met. -/
example : ∀ x row, ∃ q, demoRounded.val (demoNet.eval x row) = some q ∧ |q| ≤ 1 :=
  fun _ _ => ⟨0, rfl, by norm_num⟩

/-! ## C78: values seen from the root player -/

/-- `v` is the value of the position `s` for player `p`: the outcome of a finished game, and otherwise the network's
value, which is trained to be the value for the player to move (alpha_parallel.rs:215-218), with the sign changed if the
other player is to move.  `y` is the batch consisting of the position alone. -/
def ValueFor (neg : Fl.F → Fl.F) (net : Net Fl) (p : Int) (s : G.S) (v : Fl.F) : Prop :=
  match G.winner s with
  | some w => v = Fl.ofInt (if w = p then 1 else if w = -p then -1 else 0)
  | none => ∃ x y, G.tensor s = .ok x ∧ batchTensor [x] = .ok y ∧
      v = if G.player s = p then net.eval y 0 else neg (net.eval y 0)

/-- A search of `s` alone has done `k` iterations, giving `st`, and then one more, giving `st'`. -/
def Iterations (net : Net Fl) (s : G.S) (k : Nat) (st st' : Store G Fl) : Prop :=
  ∃ st0 sel sel' t t0 t1 t2, parallelStart net [s] [] t = .ok (st0, t0) ∧
    parallelIterate net [0] k st0 [0] t0 = .ok ((st, sel), t1) ∧
    parallelIteration net [0] st sel t1 = .ok ((st', sel'), t2)

/-- C78 in full: every iteration adds to the value of the root the value, for the player to move at the root, of some
leaf of the tree. -/
def C78_statement : Prop :=
  ∀ (G : Game) (Fl : Floats) (R : Rounded Fl) (neg : Fl.F → Fl.F) (net : Net Fl) (s : G.S) (k : Nat) (st st' : Store G Fl),
    (∀ x q, R.val x = some q → R.val (neg x) = some (-q)) → Iterations net s k st st' →
    ∃ (i : Nat) (leaf root root' : Node G Fl) (v : Fl.F), st[i]? = some leaf ∧ leaf.children = [] ∧
      ValueFor neg net (G.player s) leaf.state v ∧ st[0]? = some root ∧ st'[0]? = some root' ∧
      root'.value = Fl.add root.value v

/-- `demoNet` with the value 1 everywhere. -/
def winNet : Net demoFloats := { demoNet with eval := fun _ _ => (1 : Int) }

/-- A TicTacToe position with six free cells, 1 to move; nobody can win with the next two moves. -/
def midTTT : TTT.State := { player := 1, board := #v[1, -1, 0, 0, 0, 0, 0, 0, 0], id := 0 }

/-- The tree of `midTTT` before the first iteration, and after it. -/
def midRun : Option (Store (TTT.game .debug) demoFloats × Store (TTT.game .debug) demoFloats) :=
  match parallelStart (G := TTT.game .debug) winNet [midTTT] [] demoTape with
  | .ok (st0, t0) => match parallelIteration winNet [0] st0 [0] t0 with
    | .ok ((st1, _), _) => some (st0, st1)
    | .error _ => none
  | .error _ => none

theorem midRun_iterations {st st' : Store (TTT.game .debug) demoFloats} (h : midRun = some (st, st')) :
    Iterations winNet midTTT 0 st st' := by
  unfold midRun at h
  split at h
  · rename_i st0 t0 h0
    split at h
    · rename_i st1 sel1 t1 h1
      cases h
      exact ⟨_, _, _, _, _, _, _, h0, rfl, h1⟩
    · cases h
  · cases h

/-- In `midRun` all leaves are unfinished positions with -1 to move; the root's value goes from 0 to 1. -/
theorem midRun_facts : ∃ st st', midRun = some (st, st') ∧
    (∀ n ∈ st, n.children = [] → TTT.checkWinner n.state = none ∧ n.state.player = -1) ∧
    st.head?.map (fun n => (n.value : Int)) = some 0 ∧ st'.head?.map (fun n => (n.value : Int)) = some 1 := by
  have h : (midRun.map fun r => (r.1.all fun n => n.children ≠ [] ∨ TTT.checkWinner n.state = none ∧ n.state.player = -1) &&
      (r.1.head?.map fun n => (n.value : Int)) == some 0 && (r.2.head?.map fun n => (n.value : Int)) == some 1) =
      some true := by decide +kernel
  cases hm : midRun with
  | none => rw [hm] at h; cases h
  | some r =>
    rw [hm] at h
    simp only [Option.map_some, Option.some.injEq, Bool.and_eq_true, List.all_eq_true, decide_eq_true_eq, beq_iff_eq] at h
    refine ⟨r.1, r.2, rfl, ?_, h.1.2, h.2⟩
    intro n hn hc
    rcases h.1.1 n hn with h | h
    · exact absurd hc h
    · exact h

/-- C78 is false: the network's value is added as it is.  From `midTTT` with a network that always sees the player to
move winning, the first iteration evaluates a position with the opponent to move and adds 1 instead of -1. -/
theorem C78_refuted : ¬ C78_statement := by
  intro hst
  obtain ⟨st, st', hm, hall, h0, h1⟩ := midRun_facts
  obtain ⟨i, leaf, root, root', v, e1, e2, e3, e4, e5, e6⟩ := hst _ _ demoRounded (fun x : Int => -x) winNet midTTT 0 st st'
    (by
      intro x q hq
      cases hq
      exact congrArg some (Int.cast_neg (R := Rat) x)) (midRun_iterations hm)
  obtain ⟨a1, a2⟩ := hall leaf (List.mem_of_getElem? e1) e2
  have hv : v = (-1 : Int) := by
    unfold ValueFor at e3
    have a1' : (TTT.game .debug).winner leaf.state = none := a1
    rw [a1'] at e3
    obtain ⟨x, y, -, -, e3⟩ := e3
    have e3 := e3.trans (if_neg (show ¬ leaf.state.player = 1 by rw [a2]; decide))
    exact e3
  rw [← List.head?_eq_getElem?] at e4 e5
  rw [e4] at h0
  rw [e5] at h1
  have h0 : root.value = (0 : Int) := Option.some.inj h0
  have h1 : root'.value = (1 : Int) := Option.some.inj h1
  rw [h0, h1, hv] at e6
  exact absurd (show (1 : Int) = 0 + -1 from e6) (by decide)

open Classical in
/-- C78, partial: an iteration of a search of one position picks a leaf below the root, and adds one and the same value to
exactly the nodes from that leaf to the root, with one visit.  The value of a finished game is the outcome for the player
to move at the root; otherwise it is the network's value of the leaf, *without* regard to whose turn it is.  So it is
correct when the root's player is to move at the leaf.  Missing for the full statement: the change of sign when the
opponent is to move. -/
theorem C78_values_partial {net : Net Fl} {s : G.S} {k : Nat} {st st' : Store G Fl} (h : Iterations net s k st st') :
    ∃ (i : Nat) (leaf : Node G Fl) (v : Fl.F), st[i]? = some leaf ∧ leaf.children = [] ∧ Anc st 0 i ∧
      (∀ w, G.winner leaf.state = some w →
        v = Fl.ofInt (if w = G.player s then 1 else if w = -G.player s then -1 else 0)) ∧
      (G.winner leaf.state = none → ∃ x y, G.tensor leaf.state = .ok x ∧ batchTensor [x] = .ok y ∧ v = net.eval y 0) ∧
      (∀ neg, (G.winner leaf.state = none → G.player leaf.state = G.player s) →
        ValueFor neg net (G.player s) leaf.state v) ∧
      ∀ (j : Nat) (n : Node G Fl), st[j]? = some n → ∃ n', st'[j]? = some n' ∧
        n'.visits = (if Anc st j i then vinc n.visits else n.visits) ∧
        n'.value = (if Anc st j i then Fl.add n.value v else n.value) := by
  obtain ⟨st0, sel, sel', t, t0, t1, t2, h0, h1, h2⟩ := h
  obtain ⟨f0, -⟩ := parallelStart_ok h0
  obtain ⟨f, hs, -⟩ := parallelIterate_ok (states := [s]) (by simp) (by simp) k f0 (selOk_replicate f0) h1
  obtain ⟨i, leaf, v, e1, e2, e3, e4, e5⟩ := parallelIteration_one f hs h2
  refine ⟨i, leaf, v, e1.2, e3, e2, ?_, ?_, ?_, e5⟩
  · intro w hw
    rcases e4 with ⟨w', h, h'⟩ | ⟨h, -⟩
    · rw [hw] at h; cases h; exact h'
    · rw [hw] at h; cases h
  · intro hw
    rcases e4 with ⟨w', h, h'⟩ | ⟨-, h⟩
    · rw [hw] at h; cases h
    · exact h
  · intro neg hp
    unfold ValueFor
    rcases e4 with ⟨w, h, h'⟩ | ⟨h, x, y, h1, h2, h3⟩
    · rw [h]; exact h'
    · rw [h]
      exact ⟨x, y, h1, h2, by rw [if_pos (hp h)]; exact h3⟩

/-- The hypothesis is met. -/
example : ∃ st st', Iterations (G := TTT.game .debug) winNet midTTT 0 st st' := by
  obtain ⟨st, st', h, -⟩ := midRun_facts
  exact ⟨st, st', midRun_iterations h⟩

/-! ## C79: whose interest selection follows -/

/-- Exact arithmetic on the numbers that occur: `val` embeds them into an ordered set, comparison is that of the order,
and the scores grow strictly with the value sum (all else equal). -/
structure Exact (Fl : Floats) (K : Type) [LinearOrder K] where
  /-- the number meant -/
  val : Fl.F → K
  cmp : ∀ a b, Fl.cmp a b = .gt ↔ val b < val a
  ucb : ∀ a b v p, 0 < v → val a < val b → val (Fl.ucb a v p) < val (Fl.ucb b v p)
  alphaUcb : ∀ a b v p q, 0 < v → val a < val b → val (Fl.alphaUcb a v p q) < val (Fl.alphaUcb b v p q)

theorem Exact.order {K : Type} [LinearOrder K] (E : Exact Fl K) (a b : Fl.F) :
    (Fl.cmp a b = .gt → E.val b ≤ E.val a) ∧ (Fl.cmp a b ≠ .gt → E.val a ≤ E.val b) := by
  rw [ne_eq, E.cmp]
  exact ⟨fun h => h.le, fun h => not_lt.1 h⟩

/-- C79 in full: values are for the searching player, so where the opponent is to move, a visited child is never chosen
while an equally often visited child with a lower value exists. -/
def C79_statement : Prop :=
  ∀ (G : Game) (Fl : Floats) (K : Type) [LinearOrder K] (E : Exact Fl K) (state : G.S) (player : Int)
    (iterations limit : Nat) (st : Store G Fl) (tr : List Nat) (t t' : Tape),
    buildTree Fl state player iterations limit t = .ok ((st, tr), t') →
    ∀ (i : Nat) (n c : Node G Fl), st[i]? = some n → G.player n.state = -player → selectUcb i st = .ok c →
    0 < c.visits → ∀ (d : Nat) (dn : Node G Fl), d ∈ n.children → st[d]? = some dn → dn.visits = c.visits →
    E.val c.value ≤ E.val dn.value

/-- An exact arithmetic for the example. -/
def rankFloats : Floats where
  F := Int
  ofInt := id
  add := (· + ·)
  inf := 1000000
  ucb := fun v n p => v + ((p / n : Nat) : Int)
  alphaUcb := fun v n p q => v + p * ((q / (n + 1) : Nat) : Int)
  winPct := fun v n => v / n
  cmp := compare

/-- A number of `rankFloats`. -/
def rankVal (x : rankFloats.F) : Int := x

/-- See `rankFloats`. -/
def rankExact : Exact rankFloats Int where
  val := rankVal
  cmp := fun a b => compare_gt_iff_gt (a := rankVal a) (b := rankVal b)
  ucb := fun a b v p _ h => by
    show rankVal a + _ < rankVal b + _
    exact Int.add_lt_add_right h _
  alphaUcb := fun a b v p q _ h => by
    show rankVal a + _ < rankVal b + _
    exact Int.add_lt_add_right h _

/-- TicTacToe, 1 to move; -1 threatens to win on cell 2. -/
def threatTTT : TTT.State := { player := 1, board := #v[-1, -1, 0, 1, 1, -1, -1, 0, 0], id := 0 }

/-- The search for player 1 from `threatTTT` with nine iterations. -/
def threatRun : Res ((Store (TTT.game .debug) rankFloats × List Nat) × Tape) :=
  buildTree (G := TTT.game .debug) rankFloats threatTTT 1 9 3 demoTape

/-- After nine iterations node 1 (player 1 has played cell 8, -1 to move) has the children 6 (cell 7, value 0) and 9 (cell 2, which
wins for -1, value -1), both visited once; selection takes child 6. -/
theorem threatRun_facts : ∃ st tr t' n c d, threatRun = .ok ((st, tr), t') ∧ st[1]? = some n ∧ n.state.player = -1 ∧
    selectUcb 1 st = .ok c ∧ c.visits = 1 ∧ rankVal c.value = 0 ∧ 9 ∈ n.children ∧ st[9]? = some d ∧ d.visits = 1 ∧
    rankVal d.value = -1 ∧ TTT.checkWinner d.state = some (-1) := by
  have h1 : (threatRun.toOption.map fun r => (r.1.1[1]?).map fun n => (n.state.player, n.children)) =
      some (some (-1, [6, 9])) := by decide +kernel
  have h2 : (threatRun.toOption.map fun r => (selectUcb 1 r.1.1).toOption.map fun c => (c.visits, rankVal c.value)) =
      some (some (1, 0)) := by decide +kernel
  have h3 : (threatRun.toOption.map fun r => (r.1.1[9]?).map fun d =>
      (d.visits, rankVal d.value, TTT.checkWinner d.state)) = some (some (1, -1, some (-1))) := by decide +kernel
  cases hr : threatRun with
  | error e => rw [hr] at h1; cases h1
  | ok r =>
    obtain ⟨⟨st, tr⟩, t'⟩ := r
    rw [hr] at h1 h2 h3
    obtain ⟨n, hn, h1⟩ := Option.map_eq_some_iff.1 (Option.some.inj h1)
    obtain ⟨d, hd, h3⟩ := Option.map_eq_some_iff.1 (Option.some.inj h3)
    obtain ⟨c, hc, h2⟩ := Option.map_eq_some_iff.1 (Option.some.inj h2)
    have hc' : selectUcb 1 st = .ok c := by
      cases hs : selectUcb 1 st with
      | error e => rw [hs] at hc; cases hc
      | ok c' => rw [hs] at hc; exact congrArg _ (Option.some.inj hc)
    simp only [Prod.mk.injEq] at h1 h2 h3
    exact ⟨st, tr, t', n, c, d, rfl, hn, h1.1, hc', h2.1, h2.2, by rw [h1.2]; simp, hd, h3.1, h3.2.1, h3.2.2⟩

/-- C79 is false: the search prefers, for the opponent too, what is good for the searching player. -/
theorem C79_refuted : ¬ C79_statement := by
  intro hst
  obtain ⟨st, tr, t', n, c, d, h, h1, h2, h3, h4, h5, h6, h7, h8, h9, -⟩ := threatRun_facts
  have := hst (TTT.game .debug) rankFloats Int rankExact threatTTT 1 9 3 st tr demoTape t' h 1 n c h1 h2 h3
    (by omega) 9 d h6 h7 (by omega)
  have this : rankVal c.value ≤ rankVal d.value := this
  omega

/-- C79, partial: whoever is to move, selection in the plain search never takes a visited child while an equally often
visited child has a higher value for the searching player; this is right where the searching player is to move.  Missing
for the full statement: the opponent's nodes, where it is wrong. -/
theorem C79_plain_partial {K : Type} [LinearOrder K] (E : Exact Fl K) {state : G.S} {player : Int}
    {iterations limit : Nat} {st : Store G Fl} {tr : List Nat} {t t' : Tape}
    (h : buildTree Fl state player iterations limit t = .ok ((st, tr), t')) {i : Nat} {n c : Node G Fl}
    (hi : st[i]? = some n) (hc : selectUcb i st = .ok c) (hv : 0 < c.visits) {d : Nat} {dn : Node G Fl}
    (hd : d ∈ n.children) (hdn : st[d]? = some dn) (he : dn.visits = c.visits) : E.val dn.value ≤ E.val c.value := by
  obtain ⟨w, -⟩ := C36_well_formed h
  obtain ⟨k, -, -, h2⟩ := selectUcb_max w hi (fun a b => E.val a ≤ E.val b) (fun _ => le_refl _)
    (fun _ _ _ => le_trans) E.order hc
  have := h2 d hd dn hdn
  rw [he] at this
  by_contra hlt
  exact absurd (E.ucb _ _ _ n.visits hv (not_le.1 hlt)) (not_lt.2 this)

/-- C79 for the batched search, partial in the same way; the children compared have the same prior. -/
theorem C79_batched_partial {K : Type} [LinearOrder K] (E : Exact Fl K) {net : Net Fl} {order : List Nat}
    {states : List G.S} (hnd : order.Nodup) (ho : ∀ g, g ∈ order ↔ g < states.length) {iterations : Nat}
    {st : Store G Fl} {t t' : Tape} (h : alphaMctsParallel net order states iterations [] t = .ok (st, t')) {i : Nat}
    {n c : Node G Fl} (hi : st[i]? = some n) (hc : selectAlpha i st = .ok c) (hv : 0 < c.visits) {d : Nat}
    {dn : Node G Fl} (hd : d ∈ n.children) (hdn : st[d]? = some dn) (he : dn.visits = c.visits)
    (hp : dn.policy = c.policy) : E.val dn.value ≤ E.val c.value := by
  unfold alphaMctsParallel at h
  obtain ⟨st1, t1, h1, h⟩ := M.bind_ok.1 h
  obtain ⟨⟨st2, sel⟩, t2, h2, h⟩ := M.bind_ok.1 h
  cases M.pure_ok.1 h
  obtain ⟨f1, -⟩ := parallelStart_ok h1
  obtain ⟨f, -⟩ := parallelIterate_ok hnd ho _ f1 (selOk_replicate f1) h2
  obtain ⟨k, -, -, h2⟩ := selectAlpha_max f.wf hi (fun a b => E.val a ≤ E.val b) (fun _ => le_refl _)
    (fun _ _ _ => le_trans) E.order hc
  have := h2 d hd dn hdn
  rw [he, hp] at this
  by_contra hlt
  exact absurd (E.alphaUcb _ _ _ c.policy n.visits hv (not_le.1 hlt)) (not_lt.2 this)

/-- The hypotheses are met: `threatRun_facts` has a node with two equally visited children. -/
example : ∃ st tr t', threatRun = .ok ((st, tr), t') := by
  obtain ⟨st, tr, t', n, c, d, h, -⟩ := threatRun_facts
  exact ⟨st, tr, t', h⟩

/-! ## C37 for the other choice of a move -/

/-- C37 for `select_win_pct`: on every well-formed store whose node `i` has children it returns the action of a child
with a maximal mean value. -/
theorem C37_win_pct {K : Type} [LinearOrder K] (E : Exact Fl K) {st : Store G Fl} (w : WellFormed st) {i : Nat}
    {n : Node G Fl} (hi : st[i]? = some n) (hc : n.children ≠ []) :
    ∃ (c : Nat) (cn : Node G Fl) (a : G.Mv), c ∈ n.children ∧ st[c]? = some cn ∧ cn.action = some a ∧
      selectWinPct i st = .ok a ∧ ∀ d ∈ n.children, ∀ dn : Node G Fl, st[d]? = some dn →
        E.val (Fl.winPct dn.value dn.visits) ≤ E.val (Fl.winPct cn.value cn.visits) :=
  selectWinPct_max w hi hc (fun a b => E.val a ≤ E.val b) (fun _ => le_refl _) (fun _ _ _ => le_trans) E.order

/-- In `threatRun` the children of the root have the means -1, -1 and 0; the last one, cell 2, is chosen. -/
example : (threatRun.toOption.map fun r => selectWinPct 0 r.1.1) = some (.ok (2 : Nat)) := by decide +kernel

end DieE.Props.Vl
