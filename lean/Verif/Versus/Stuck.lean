import Verif.Versus.Endless
import Verif.Versus.Games

/-!
# A Backgammon match that never ends

All dice show 6, the random players always take entry 5 (modulo the length) of the list of legal moves.  After a few
moves neither player can move a checker by 6.
-/

namespace DieE.Versus.Stuck
open DieE DieE.Mcts DieE.Versus

/-- The random source. -/
def sixes : Tape := fun _ => 5

/-- A state with dice 6-6 and empty bar. -/
def pos (pts : Vector Int 24) (player : Int) (second : Bool) : BG.State :=
  { board := { pts := pts, hit := (0, 0), col := (0, 0) }, roll := (6, 6), player := player, second := second, id := 0 }

/-- One round of a game. -/
def next (s : BG.State) : Res (BG.State × BG.Actions) := do
  let ms ← BG.getValidMoves .debug s
  let a := (ms[5 % ms.length]?).getD []
  let s' ← (if a = [] then BG.skipTurn .debug s (6, 6)
    else BG.applyMove .debug s a (if s.roll.1 = s.roll.2 ∧ s.second = false then (0, 0) else (6, 6)))
  pure (s', a)

/-! The games started by player 1. -/

/-- Round 0. -/
def a0 : BG.State := pos #v[2, 0, 0, 0, 0, -5, 0, -3, 0, 0, 0, 5, -5, 0, 0, 0, 3, 0, 5, 0, 0, 0, 0, -2] (-1) false
/-- Round 1. -/
def a1 : BG.State := pos #v[2, 0, 0, 0, 0, -5, 0, -3, 0, 0, 0, 5, -5, 0, 0, 0, 3, -2, 5, 0, 0, 0, 0, 0] (-1) true
/-- Round 2. -/
def a2 : BG.State := pos #v[2, 0, 0, 0, 0, -5, -2, -3, 0, 0, 0, 5, -3, 0, 0, 0, 3, -2, 5, 0, 0, 0, 0, 0] (1) false
/-- Round 3. -/
def a3 : BG.State := pos #v[2, 0, 0, 0, 0, -5, -2, -3, 0, 0, 0, 5, -3, 0, 0, 0, 1, -2, 5, 0, 0, 0, 2, 0] (1) true
/-- Round 4. -/
def a4 : BG.State := pos #v[2, 0, 0, 0, 0, -5, -2, -3, 0, 0, 0, 5, -3, 0, 0, 0, 0, -2, 5, 0, 0, 0, 3, 0] (-1) false
/-- Round 5. -/
def a5 : BG.State := pos #v[2, 0, 0, 0, 0, -5, -4, -3, 0, 0, 0, 5, -1, 0, 0, 0, 0, -2, 5, 0, 0, 0, 3, 0] (-1) true
/-- Round 6. -/
def a6 : BG.State := pos #v[2, -1, 0, 0, 0, -5, -5, -2, 0, 0, 0, 5, 0, 0, 0, 0, 0, -2, 5, 0, 0, 0, 3, 0] (1) false
/-- Round 7. -/
def a7 : BG.State := pos #v[2, -1, 0, 0, 0, -5, -5, -2, 0, 0, 0, 5, 0, 0, 0, 0, 0, -2, 5, 0, 0, 0, 3, 0] (-1) false
/-- Round 8. -/
def a8 : BG.State := pos #v[2, -3, 0, 0, 0, -5, -5, 0, 0, 0, 0, 5, 0, 0, 0, 0, 0, -2, 5, 0, 0, 0, 3, 0] (-1) true
/-- Round 9. -/
def a9 : BG.State := pos #v[2, -3, 0, 0, 0, -5, -5, 0, 0, 0, 0, 5, 0, 0, 0, 0, 0, -2, 5, 0, 0, 0, 3, 0] (1) false
/-- Round 10. -/
def a10 : BG.State := pos #v[2, -3, 0, 0, 0, -5, -5, 0, 0, 0, 0, 5, 0, 0, 0, 0, 0, -2, 5, 0, 0, 0, 3, 0] (-1) false

/-! The games started by player 2. -/

/-- Round 0. -/
def b0 : BG.State := pos #v[2, 0, 0, 0, 0, -5, 0, -3, 0, 0, 0, 5, -5, 0, 0, 0, 3, 0, 5, 0, 0, 0, 0, -2] (1) false
/-- Round 1. -/
def b1 : BG.State := pos #v[2, 0, 0, 0, 0, -5, 0, -3, 0, 0, 0, 5, -5, 0, 0, 0, 1, 0, 5, 0, 0, 0, 2, -2] (1) true
/-- Round 2. -/
def b2 : BG.State := pos #v[0, 0, 0, 0, 0, -5, 2, -3, 0, 0, 0, 5, -5, 0, 0, 0, 1, 0, 5, 0, 0, 0, 2, -2] (-1) false
/-- Round 3. -/
def b3 : BG.State := pos #v[0, 0, 0, 0, 0, -5, 2, -3, 0, 0, 0, 5, -5, 0, 0, 0, 1, -2, 5, 0, 0, 0, 2, 0] (-1) true
/-- Round 4. -/
def b4 : BG.State := pos #v[0, -2, 0, 0, 0, -5, 2, -1, 0, 0, 0, 5, -5, 0, 0, 0, 1, -2, 5, 0, 0, 0, 2, 0] (1) false
/-- Round 5. -/
def b5 : BG.State := pos #v[0, -2, 0, 0, 0, -5, 2, -1, 0, 0, 0, 5, -5, 0, 0, 0, 0, -2, 5, 0, 0, 0, 3, 0] (1) true
/-- Round 6. -/
def b6 : BG.State := pos #v[0, -2, 0, 0, 0, -5, 2, -1, 0, 0, 0, 5, -5, 0, 0, 0, 0, -2, 5, 0, 0, 0, 3, 0] (-1) false
/-- Round 7. -/
def b7 : BG.State := pos #v[0, -3, 0, 0, 0, -5, 2, 0, 0, 0, 0, 5, -5, 0, 0, 0, 0, -2, 5, 0, 0, 0, 3, 0] (-1) true
/-- Round 8. -/
def b8 : BG.State := pos #v[0, -3, 0, 0, 0, -5, 2, 0, 0, 0, 0, 5, -5, 0, 0, 0, 0, -2, 5, 0, 0, 0, 3, 0] (1) false
/-- Round 9. -/
def b9 : BG.State := pos #v[0, -3, 0, 0, 0, -5, 2, 0, 0, 0, 0, 5, -5, 0, 0, 0, 0, -2, 5, 0, 0, 0, 3, 0] (-1) false

theorem nexta0 : next a0 = .ok (a1, [(23, 17), (23, 17)]) := by decide +kernel
theorem nexta1 : next a1 = .ok (a2, [(12, 6), (12, 6)]) := by decide +kernel
theorem nexta2 : next a2 = .ok (a3, [(16, 22), (16, 22)]) := by decide +kernel
theorem nexta3 : next a3 = .ok (a4, [(16, 22)]) := by decide +kernel
theorem nexta4 : next a4 = .ok (a5, [(12, 6), (12, 6)]) := by decide +kernel
theorem nexta5 : next a5 = .ok (a6, [(7, 1), (12, 6)]) := by decide +kernel
theorem nexta6 : next a6 = .ok (a7, []) := by decide +kernel
theorem nexta7 : next a7 = .ok (a8, [(7, 1), (7, 1)]) := by decide +kernel
theorem nexta8 : next a8 = .ok (a9, []) := by decide +kernel
theorem nexta9 : next a9 = .ok (a10, []) := by decide +kernel
theorem nexta10 : next a10 = .ok (a9, []) := by decide +kernel
theorem nextb0 : next b0 = .ok (b1, [(16, 22), (16, 22)]) := by decide +kernel
theorem nextb1 : next b1 = .ok (b2, [(0, 6), (0, 6)]) := by decide +kernel
theorem nextb2 : next b2 = .ok (b3, [(23, 17), (23, 17)]) := by decide +kernel
theorem nextb3 : next b3 = .ok (b4, [(7, 1), (7, 1)]) := by decide +kernel
theorem nextb4 : next b4 = .ok (b5, [(16, 22)]) := by decide +kernel
theorem nextb5 : next b5 = .ok (b6, []) := by decide +kernel
theorem nextb6 : next b6 = .ok (b7, [(7, 1)]) := by decide +kernel
theorem nextb7 : next b7 = .ok (b8, []) := by decide +kernel
theorem nextb8 : next b8 = .ok (b9, []) := by decide +kernel
theorem nextb9 : next b9 = .ok (b8, []) := by decide +kernel

/-- The states, by round. -/
def at' : Nat → BG.State
  | 0 => a0
  | 1 => a1
  | 2 => a2
  | 3 => a3
  | 4 => a4
  | 5 => a5
  | 6 => a6
  | 7 => a7
  | 8 => a8
  | k + 9 => if k % 2 = 0 then a9 else a10

/-- The actions, by round. -/
def am : Nat → BG.Actions
  | 0 => [(23, 17), (23, 17)]
  | 1 => [(12, 6), (12, 6)]
  | 2 => [(16, 22), (16, 22)]
  | 3 => [(16, 22)]
  | 4 => [(12, 6), (12, 6)]
  | 5 => [(7, 1), (12, 6)]
  | 6 => []
  | 7 => [(7, 1), (7, 1)]
  | 8 => []
  | _ + 9 => []

theorem a_next : ∀ k, next (at' k) = .ok (at' (k + 1), am k)
  | 0 => nexta0
  | 1 => nexta1
  | 2 => nexta2
  | 3 => nexta3
  | 4 => nexta4
  | 5 => nexta5
  | 6 => nexta6
  | 7 => nexta7
  | 8 => nexta8
  | k + 9 => by
    show next (if k % 2 = 0 then a9 else a10) = .ok (if (k + 1) % 2 = 0 then a9 else a10, [])
    by_cases h : k % 2 = 0
    · rw [if_pos h, if_neg (by omega)]
      exact nexta9
    · rw [if_neg h, if_pos (by omega)]
      exact nexta10

theorem a_winner : ∀ k, BG.checkWinner (at' k) = none
  | 0 => rfl
  | 1 => rfl
  | 2 => rfl
  | 3 => rfl
  | 4 => rfl
  | 5 => rfl
  | 6 => rfl
  | 7 => rfl
  | 8 => rfl
  | k + 9 => by
    show BG.checkWinner (if k % 2 = 0 then a9 else a10) = none
    split <;> rfl

theorem a_early : ∀ k, am k ≠ [] → k + 1 < 400
  | 0, _ => by decide
  | 1, _ => by decide
  | 2, _ => by decide
  | 3, _ => by decide
  | 4, _ => by decide
  | 5, _ => by decide
  | 6, _ => by decide
  | 7, _ => by decide
  | 8, _ => by decide
  | _ + 9, h => absurd rfl h

/-- The states, by round. -/
def bt : Nat → BG.State
  | 0 => b0
  | 1 => b1
  | 2 => b2
  | 3 => b3
  | 4 => b4
  | 5 => b5
  | 6 => b6
  | 7 => b7
  | k + 8 => if k % 2 = 0 then b8 else b9

/-- The actions, by round. -/
def bm : Nat → BG.Actions
  | 0 => [(16, 22), (16, 22)]
  | 1 => [(0, 6), (0, 6)]
  | 2 => [(23, 17), (23, 17)]
  | 3 => [(7, 1), (7, 1)]
  | 4 => [(16, 22)]
  | 5 => []
  | 6 => [(7, 1)]
  | 7 => []
  | _ + 8 => []

theorem b_next : ∀ k, next (bt k) = .ok (bt (k + 1), bm k)
  | 0 => nextb0
  | 1 => nextb1
  | 2 => nextb2
  | 3 => nextb3
  | 4 => nextb4
  | 5 => nextb5
  | 6 => nextb6
  | 7 => nextb7
  | k + 8 => by
    show next (if k % 2 = 0 then b8 else b9) = .ok (if (k + 1) % 2 = 0 then b8 else b9, [])
    by_cases h : k % 2 = 0
    · rw [if_pos h, if_neg (by omega)]
      exact nextb8
    · rw [if_neg h, if_pos (by omega)]
      exact nextb9

theorem b_winner : ∀ k, BG.checkWinner (bt k) = none
  | 0 => rfl
  | 1 => rfl
  | 2 => rfl
  | 3 => rfl
  | 4 => rfl
  | 5 => rfl
  | 6 => rfl
  | 7 => rfl
  | k + 8 => by
    show BG.checkWinner (if k % 2 = 0 then b8 else b9) = none
    split <;> rfl

theorem b_early : ∀ k, bm k ≠ [] → k + 1 < 400
  | 0, _ => by decide
  | 1, _ => by decide
  | 2, _ => by decide
  | 3, _ => by decide
  | 4, _ => by decide
  | 5, _ => by decide
  | 6, _ => by decide
  | 7, _ => by decide
  | _ + 8, h => absurd rfl h

/-! ## The games go on -/

theorem randomAction_sixes {s : BG.State} {ms : List BG.Actions} (h : BG.getValidMoves .debug s = .ok ms) :
    randomAction (G := BG.game .debug) s sixes = .ok ((ms[5 % ms.length]?).getD [], sixes) := by
  refine (M.bind_eq (M.lift_ok.2 ⟨h, rfl⟩)).trans ?_
  cases ms with
  | nil => rfl
  | cons m ms =>
    refine (M.bind_eq (a := some ((m :: ms)[5 % (m :: ms).length]?.getD m)) (t' := sixes) ?_).trans ?_
    · unfold M.choose
      simp only [List.getD_eq_getElem?_getD]
      rfl
    · have hlt : 5 % (m :: ms).length < (m :: ms).length := Nat.mod_lt _ (Nat.succ_pos _)
      rw [List.getElem?_eq_getElem hlt]
      rfl

theorem applyMove_id (s : BG.State) (i : Nat) (a : BG.Actions) (d : Int × Int) {s' : BG.State}
    (h : BG.applyMove .debug s a d = .ok s') : BG.applyMove .debug { s with id := i } a d = .ok { s' with id := i } := by
  unfold BG.applyMove at h ⊢
  obtain ⟨b, h1, h2⟩ := Props.V.res_bind.1 h
  refine Props.V.res_bind.2 ⟨b, h1, ?_⟩
  change (if s.roll.1 = s.roll.2 ∧ s.second = false then _ else _ : Res BG.State) = _ at h2
  change (if s.roll.1 = s.roll.2 ∧ s.second = false then _ else _ : Res BG.State) = _
  by_cases hc : s.roll.1 = s.roll.2 ∧ s.second = false
  · rw [if_pos hc] at h2 ⊢
    obtain rfl := Except.ok.inj h2
    rfl
  · rw [if_neg hc] at h2 ⊢
    obtain ⟨p, h3, h4⟩ := Props.V.res_bind.1 h2
    obtain rfl := Except.ok.inj h4
    exact Props.V.res_bind.2 ⟨p, h3, rfl⟩

theorem skipTurn_id (s : BG.State) (i : Nat) (d : Int × Int) {s' : BG.State}
    (h : BG.skipTurn .debug s d = .ok s') : BG.skipTurn .debug { s with id := i } d = .ok { s' with id := i } := by
  unfold BG.skipTurn at h ⊢
  obtain ⟨p, h3, h4⟩ := Props.V.res_bind.1 h
  obtain rfl := Except.ok.inj h4
  simp only
  rw [h3]
  rfl

theorem stays_of_next {s s' : BG.State} {a : BG.Actions} (h : next s = .ok (s', a)) (hw : BG.checkWinner s' = none)
    (i : Nat) : Stays (G := BG.game .debug) sixes ({ s with id := i } : BG.State) a ({ s' with id := i } : BG.State) := by
  obtain ⟨ms, h1, h2⟩ := Props.V.res_bind.1 h
  obtain ⟨s1, h3, h4⟩ := Props.V.res_bind.1 h2
  obtain ⟨rfl, rfl⟩ := Prod.mk.inj (Except.ok.inj h4)
  have hm : BG.getValidMoves .debug { s with id := i } = .ok ms := h1
  refine ⟨randomAction_sixes hm, ?_⟩
  by_cases ha : (ms[5 % ms.length]?).getD [] = []
  · rw [if_pos ha] at h3
    refine .inl ⟨ha, ?_⟩
    show BG.skipM .debug _ _ = _
    exact (M.bind_eq (a := (6, 6)) (t' := sixes) rfl).trans (M.lift_ok.2 ⟨skipTurn_id s i (6, 6) h3, rfl⟩)
  · rw [if_neg ha] at h3
    refine .inr ⟨ha, ⟨ms, hm, ?_⟩, ?_, hw⟩
    · cases he : ms[5 % ms.length]? with
      | none => rw [he] at ha; exact absurd rfl ha
      | some x => exact List.mem_of_getElem? he
    · show BG.applyM .debug _ _ _ = _
      unfold BG.applyM
      by_cases hc : s.roll.1 = s.roll.2 ∧ s.second = false
      · rw [if_pos hc] at h3
        have hc' : ({ s with id := i } : BG.State).roll.1 = ({ s with id := i } : BG.State).roll.2 ∧
            ({ s with id := i } : BG.State).second = false := hc
        rw [if_pos hc']
        exact (M.bind_eq (a := (0, 0)) (t' := sixes) rfl).trans (M.lift_ok.2 ⟨applyMove_id s i _ _ h3, rfl⟩)
      · rw [if_neg hc] at h3
        have hc' : ¬ (({ s with id := i } : BG.State).roll.1 = ({ s with id := i } : BG.State).roll.2 ∧
            ({ s with id := i } : BG.State).second = false) := hc
        rw [if_neg hc']
        exact (M.bind_eq (a := (6, 6)) (t' := sixes) rfl).trans (M.lift_ok.2 ⟨applyMove_id s i _ _ h3, rfl⟩)

/-- The states of the games after `k` rounds. -/
def Spot (k : Nat) (s : BG.State) : Prop := (∃ i, s = { at' k with id := i }) ∨ ∃ i, s = { bt k with id := i }

theorem spot_forever : Forever (G := BG.game .debug) sixes 400 Spot := by
  rintro k s (⟨i, rfl⟩ | ⟨i, rfl⟩)
  · exact ⟨am k, _, stays_of_next (a_next k) (a_winner (k + 1)) i, .inl ⟨i, rfl⟩, a_early k⟩
  · exact ⟨bm k, _, stays_of_next (b_next k) (b_winner (k + 1)) i, .inr ⟨i, rfl⟩, b_early k⟩

theorem spot_init (n i : Nat) : ∃ s, initState (BG.game .debug) n i sixes = .ok (s, sixes) ∧ Spot 0 s := by
  by_cases h : i ≥ n / 2
  · refine ⟨({ b0 with id := i } : BG.State), ?_, .inr ⟨i, rfl⟩⟩
    unfold initState
    rw [if_pos h]
    rfl
  · refine ⟨({ a0 with id := i } : BG.State), ?_, .inl ⟨i, rfl⟩⟩
    unfold initState
    rw [if_neg h]
    rfl

end DieE.Versus.Stuck
