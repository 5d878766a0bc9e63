import Verif.Backgammon.Script
import Verif.Props.FrozenDice
import Verif.Props.Rules

/-!
# C140: a game of Backgammon cannot be short

A die moves a checker by at most one quarter of the board, a half-turn uses at most two dice, and the rule about doubles lets
nobody make more than two half-turns in a row.  At the beginning the checkers of a player have 34 quarters to go, which bounds
the length of every game from below; a written game shows that the bounds are attained.
-/

namespace DieE.Props.Gl
open DieE DieE.Mcts DieE.BG DieE.Spec

/-- Who made the half-turns of a game so far, the latest first: `new(); roll_die()`, then moves and skips with any dice. -/
inductive Halves (pf : Profile) : List Side → State → Prop
  | start {dice : Int × Int} : DiceInRange dice → Halves pf [] (rollWith new dice)
  | step {l : List Side} {g g' : State} : Halves pf l g → Step pf g g' → Halves pf (mover g :: l) g'

/-- The turns, the latest first: half-turns of the same player one after the other belong to one turn. -/
def turns : List Side → List Side
  | [] => []
  | [a] => [a]
  | a :: b :: l => if a = b then turns (b :: l) else a :: turns (b :: l)

/-- The quarters of the board the checkers of a side have to travel: a checker in the home board is one quarter away from
being borne off, one on the bar five. -/
def quarters (P : Pos) (s : Side) : Int := sum24 (fun i => P.men s i * ((pip s i + 5) / 6)) + 5 * P.bar s

/-- A player with all checkers off the board has nowhere to go. -/
theorem off_quarters {g : State} (hg : StateOK g) {u : Side} (hu : (view g.board).off u = 15) : quarters (view g.board) u = 0 := by
  have ht := hg.board.total u
  unfold Pos.total at ht
  rw [hu] at ht
  have hs : 0 ≤ sum24 (fun i => (((view g.board).men u i : Nat) : Int)) := List.sum_nonneg (by
    intro x hx
    obtain ⟨i, -, rfl⟩ := List.mem_map.1 hx
    exact Int.natCast_nonneg _)
  have hb : (view g.board).bar u = 0 := by omega
  have hs0 : (sum24 fun i => (((view g.board).men u i : Nat) : Int)) = 0 := by omega
  have hall : ∀ i ∈ List.range 24, (view g.board).men u i = 0 := by
    intro i hi
    by_contra hne
    have h1 : (1 : Int) ≤ (((view g.board).men u i : Nat) : Int) := by omega
    have hmem : (((view g.board).men u i : Nat) : Int) ∈ (List.range 24).map fun (i : Nat) => (((view g.board).men u i : Nat) : Int) :=
      List.mem_map.2 ⟨i, hi, rfl⟩
    have h2 := List.single_le_sum (l := (List.range 24).map fun (i : Nat) => (((view g.board).men u i : Nat) : Int))
      (by
        intro x hx
        obtain ⟨j, -, rfl⟩ := List.mem_map.1 hx
        exact Int.natCast_nonneg _) _ hmem
    have h3 : ((List.range 24).map fun (i : Nat) => (((view g.board).men u i : Nat) : Int)).sum = 0 := hs0
    omega
  unfold quarters
  rw [hb]
  have : sum24 (fun i => (((view g.board).men u i : Nat) : Int) * ((pip u i + 5) / 6)) = 0 := by
    unfold sum24
    refine List.sum_eq_zero ?_
    intro x hx
    obtain ⟨i, hi, rfl⟩ := List.mem_map.1 hx
    show (((view g.board).men u i : Nat) : Int) * ((pip u i + 5) / 6) = 0
    rw [hall i hi]
    simp
  rw [this]
  rfl

/-- The reported winner has all checkers off. -/
theorem winner_off {g : State} {p : Int} (h : checkWinner g = some p) : ∃ u : Side, p = u.sgn ∧ (view g.board).off u = 15 := by
  unfold checkWinner checkWinWithoutPlayer at h
  split at h
  · next h1 => exact ⟨.neg, (Option.some.inj h).symm, by rw [off_neg]; omega⟩
  · split at h
    · next h1 => exact ⟨.pos, (Option.some.inj h).symm, by rw [off_pos]; omega⟩
    · cases h

/-- A checker move brings its side at most one quarter closer, and the opponent not at all. -/
theorem quarters_step {s : Side} {P : Pos} {d : Int} {a : Act} (h : AlmostLegalStep s P d a) (hd : 1 ≤ d ∧ d ≤ 6) :
    quarters P s ≤ quarters (after s P a) s + 1 ∧ quarters P s.opp ≤ quarters (after s P a) s.opp := by
  have sh := AlmostLegalStep_shape h
  have hdie := h.dieUse
  unfold DieRule at hdie
  have hr1 : onBoard a.1 → 1 ≤ pip s a.1 ∧ pip s a.1 ≤ 24 := pip_range
  have hr2 : onBoard a.2 → 1 ≤ pip s a.2 ∧ pip s a.2 ≤ 24 := pip_range
  have hr3 : onBoard a.2 → 1 ≤ pip s.opp a.2 ∧ pip s.opp a.2 ≤ 24 := pip_range
  have hne : onBoard a.1 → a.1 ≠ -1 := fun h => by have := h.1; omega
  have hne2 : onBoard a.2 → a.2 ≠ -1 := fun h => by have := h.1; omega
  constructor
  · unfold quarters
    rw [after_sum_same h, after_bar_same]
    rcases sh with ⟨h1, h2, -, -⟩ | ⟨h1, h2, h3, -⟩ | ⟨h1, h2, -, -, h5, -⟩
    · have := hr1 h2
      have := hne h2
      rw [if_pos h1] at hdie
      split_ifs <;> omega
    · have := hr2 h2
      have := hne2 h2
      rw [if_neg (hne2 h2), if_pos h1] at hdie
      split_ifs <;> omega
    · have := hr1 h1
      have := hr2 h2
      have := hne h1
      have := hne2 h2
      split_ifs <;> omega
  · unfold quarters
    rw [after_sum_opp h, after_bar_opp]
    split_ifs with hc
    · have := hr3 (h.openPoint hc.1).1
      omega
    · omega

theorem quarters_uses {s : Side} {dice : List Int} {P : Pos} {q : Actions} (h : Uses (AlmostLegalStep s) s dice P q) (hm : DiceOK dice) :
    quarters P s ≤ quarters (afterAll s P q) s + q.length ∧ quarters P s.opp ≤ quarters (afterAll s P q) s.opp := by
  induction h with
  | nil => simp [afterAll]
  | @cons dice P d a q h1 h2 _ ih =>
    have h3 := quarters_step h2 (hm d h1)
    have ih := ih (hm.erase d)
    simp only [afterAll, List.foldl_cons, List.length_cons] at ih ⊢
    push_cast
    omega

/-- What one half-turn does: the mover gets at most two quarters closer, the opponent does not; afterwards it is the second
half of a double or the turn of the opponent, which it always is after the second half. -/
theorem step_half (pf : Profile) {g g' : State} (hg : StateOK g) (h : Step pf g g') :
    quarters (view g.board) (mover g) ≤ quarters (view g'.board) (mover g) + 2 ∧
    quarters (view g.board) (mover g).opp ≤ quarters (view g'.board) (mover g).opp ∧
    ((g.second = false ∧ mover g' = mover g ∧ g'.second = true) ∨ (mover g' = (mover g).opp ∧ g'.second = false)) := by
  have opp : ∀ {a b : State}, StateOK a → b.player = -a.player → mover b = (mover a).opp := by
    intro a b ha e
    unfold mover
    rw [e]
    rcases ha.player with h | h <;> rw [h] <;> rfl
  cases h with
  | move hms hm hd h =>
    have hc := C03_apply_move pf hg hms hm _ h
    rw [applyMove_view hg hms hm h]
    have hdice : DiceOK [g.roll.1, g.roll.2] := by
      intro d hd; exact dice_ok hg d ((allMoves_perm g.roll).mem_iff.2 hd)
    obtain ⟨k1, k2⟩ := quarters_uses (returned_uses hg hms hm) hdice
    have k3 := (C06_one_die_per_checker pf hg hms hm).2.2
    refine ⟨by omega, k2, ?_⟩
    by_cases hcc : g.roll.1 = g.roll.2 ∧ g.second = false
    · obtain ⟨p1, -, p3⟩ := hc.1 hcc
      exact .inl ⟨hcc.2, by unfold mover; rw [p1], p3⟩
    · obtain ⟨p1, -, p3⟩ := hc.2 hcc
      exact .inr ⟨opp hg p1, p3⟩
  | skip hd h =>
    obtain ⟨p1, -, p3, p4⟩ := C03_skip_turn pf hg _ h
    rw [p4]
    exact ⟨by omega, by omega, .inr ⟨opp hg p1, p3⟩⟩

/-- How far a side is ahead of its average. -/
def ahead (u : Side) (g : State) : Int :=
  if mover g = u then (if g.second then 1 else 0) else (if g.second then 0 else 2)

theorem ahead_range (u : Side) (g : State) : 0 ≤ ahead u g ∧ ahead u g ≤ 2 := by
  unfold ahead
  split <;> split <;> decide

/-- On average a side gets at most four thirds of a quarter closer per half-turn. -/
theorem step_slow (pf : Profile) {g g' : State} (hg : StateOK g) (h : Step pf g g') (u : Side) :
    3 * quarters (view g.board) u + 2 * ahead u g ≤ 3 * quarters (view g'.board) u + 4 + 2 * ahead u g' := by
  obtain ⟨h1, h2, h3⟩ := step_half pf hg h
  have hu : u = mover g ∨ u = (mover g).opp := by
    cases u <;> cases mover g <;> simp [Side.opp]
  have hne : (mover g).opp ≠ mover g := by cases mover g <;> simp [Side.opp]
  unfold ahead
  rcases hu with rfl | rfl
  · rcases h3 with ⟨a, b, c⟩ | ⟨b, c⟩
    · rw [a, b, c]
      simp
      omega
    · rw [b, c, if_neg hne, if_pos rfl]
      cases g.second <;> simp <;> omega
  · rcases h3 with ⟨a, b, c⟩ | ⟨b, c⟩
    · rw [a, b, c, if_neg hne.symm]
      simp
      omega
    · rw [b, c, if_neg hne.symm, if_pos rfl]
      cases g.second <;> simp <;> omega

theorem turns_same (a : Side) {l : List Side} (h : l.head? = some a) : turns (a :: l) = turns l := by
  cases l with
  | nil => cases h
  | cons b l =>
    obtain rfl : b = a := Option.some.inj h
    simp [turns]

theorem turns_new (a : Side) {l : List Side} (h : l.head? ≠ some a) : turns (a :: l) = a :: turns l := by
  cases l with
  | nil => rfl
  | cons b l =>
    have : a ≠ b := fun e => h (by rw [e]; rfl)
    simp [turns, this]

/-- The bounds during a game. -/
theorem halves_bounds (pf : Profile) {l : List Side} {g : State} (h : Halves pf l g) :
    Reach pf g ∧ (∀ u, 34 ≤ quarters (view g.board) u + 2 * (l.count u : Int)) ∧
    (∀ u, 102 + 2 * ahead u new ≤ 3 * quarters (view g.board) u + 4 * (l.length : Int) + 2 * ahead u g) ∧
    (g.second = true → l.head? = some (mover g)) ∧ (g.second = false → l.head? ≠ some (mover g)) ∧
    (∀ u, 34 ≤ quarters (view g.board) u + 4 * ((turns l).count u : Int) - (if mover g = u ∧ g.second = true then 2 else 0)) ∧
    (∀ u, 2 * (turns l).count u + (if u = mover new then 0 else 1) ≤ (turns l).length + (if l.head? = some u ∨ l = [] then 1 else 0)) := by
  induction h with
  | @start dice hd =>
    have hp : ∀ u, quarters (view (rollWith new dice).board) u = 34 := by
      intro u
      show quarters (view initialBoard) u = 34
      cases u
      · decide +kernel
      · decide +kernel
    refine ⟨.start hd, fun u => by rw [hp u]; simp, fun u => ?_, fun h => (by cases h), fun _ => by simp, fun u => ?_, fun u => ?_⟩
    · rw [hp u]
      show 102 + 2 * ahead u new ≤ 3 * 34 + 4 * 0 + 2 * ahead u new
      omega
    · rw [hp u]
      show 34 ≤ 34 + 4 * ((0 : Nat) : Int) - (if mover new = u ∧ false = true then 2 else 0)
      simp
    · cases u <;> decide
  | @step l g g' hl hs ih =>
    obtain ⟨hR, i1, i2, i3, i4, i5, i6⟩ := ih
    have hg := reach_ok hR
    obtain ⟨h1, h2, h3⟩ := step_half pf hg hs
    have hne : (mover g).opp ≠ mover g := by cases mover g <;> simp [Side.opp]
    have hu : ∀ u : Side, u = mover g ∨ u = (mover g).opp := by
      intro u
      cases u <;> cases mover g <;> simp [Side.opp]
    refine ⟨.step hR hs, fun u => ?_, fun u => ?_, fun hc => ?_, fun hc => ?_, fun u => ?_, fun u => ?_⟩
    · have := i1 u
      rcases hu u with rfl | rfl
      · rw [List.count_cons_self]
        push_cast
        omega
      · rw [List.count_cons_of_ne hne.symm]
        omega
    · have := i2 u
      have := step_slow pf hg hs u
      rw [List.length_cons]
      push_cast
      omega
    · rcases h3 with ⟨-, b, -⟩ | ⟨-, c⟩
      · rw [b]; rfl
      · rw [c] at hc; cases hc
    · rcases h3 with ⟨-, -, c⟩ | ⟨b, -⟩
      · rw [c] at hc; cases hc
      · rw [b]
        intro e
        exact hne (Option.some.inj e).symm
    · have i5 := i5 u
      cases hsec : g.second with
      | false =>
        rw [turns_new _ (i4 hsec)]
        rw [hsec, if_neg (by simp)] at i5
        rcases hu u with rfl | rfl
        · rw [List.count_cons_self]
          push_cast
          split <;> omega
        · rw [List.count_cons_of_ne hne.symm, if_neg]
          · omega
          · rintro ⟨e1, e2⟩
            rcases h3 with ⟨-, b, -⟩ | ⟨-, c⟩
            · exact hne (e1.symm.trans b)
            · rw [c] at e2; cases e2
      | true =>
        rw [turns_same _ (i3 hsec)]
        rcases h3 with ⟨a, -, -⟩ | ⟨b, c⟩
        · rw [hsec] at a; cases a
        · rw [c, if_neg (by simp)]
          rcases hu u with rfl | rfl
          · rw [if_pos ⟨rfl, hsec⟩] at i5
            omega
          · rw [if_neg (fun e => hne e.1.symm)] at i5
            omega
    · have i6 := i6 u
      cases hsec : g.second with
      | false =>
        have hh := i4 hsec
        rw [turns_new _ hh]
        rcases hu u with rfl | rfl
        · have e1 : (if (mover g :: l).head? = some (mover g) ∨ mover g :: l = [] then 1 else 0) = 1 := if_pos (.inl rfl)
          rw [List.count_cons_self, List.length_cons, e1]
          cases l with
          | nil =>
            have : mover g = mover new := by cases hl; rfl
            rw [if_pos this]
            simp [turns]
          | cons b l =>
            have e2 : (if (b :: l).head? = some (mover g) ∨ b :: l = [] then 1 else 0) = 0 := if_neg (by
              rintro (e | e)
              · exact hh e
              · cases e)
            rw [e2] at i6
            omega
        · rw [List.count_cons_of_ne hne.symm, List.length_cons]
          have : (if l.head? = some (mover g).opp ∨ l = [] then 1 else 0) ≤ 1 := by split <;> decide
          omega
      | true =>
        have hh := i3 hsec
        rw [turns_same _ hh]
        have : l ≠ [] := by rintro rfl; cases hh
        rw [hh] at i6
        simpa [this] using i6

/-- C140: whoever has won a game of Backgammon has made at least 17 half-turns in at least 9 turns; the game took at least
25 half-turns and 17 turns if the winner began, otherwise 26 and 18.  The numbers hold for all dice and for every choice of
the moves, also if turns are skipped. -/
theorem C140_length (pf : Profile) {l : List Side} {g : State} (h : Halves pf l g) {u : Side} (hw : checkWinner g = some u.sgn) :
    17 ≤ l.count u ∧ 9 ≤ (turns l).count u ∧ (if u = mover new then 25 else 26) ≤ l.length ∧
    (if u = mover new then 17 else 18) ≤ (turns l).length := by
  obtain ⟨hR, i1, i2, -, -, i5, i6⟩ := halves_bounds pf h
  obtain ⟨v, e, ho⟩ := winner_off hw
  obtain rfl : u = v := by cases u <;> cases v <;> simp [Side.sgn] at e <;> rfl
  have hp := off_quarters (reach_ok hR) ho
  have i1 := i1 u
  have i2 := i2 u
  have i5 := i5 u
  have i6 := i6 u
  have r2 := ahead_range u g
  rw [hp] at i1 i2 i5
  have i7 : 9 ≤ (turns l).count u := by split at i5 <;> omega
  have i8 : ahead u new = if u = mover new then 0 else 2 := by cases u <;> rfl
  refine ⟨by omega, i7, ?_, ?_⟩
  · rw [i8] at i2
    split at i2 <;> rename_i hc <;> simp only [hc, if_true, if_false] <;> omega
  · split at i6 <;> rename_i hc <;> simp only [hc, if_true, if_false] <;> split at i6 <;> omega

/-- The moves of the search are half-turns. -/
theorem plays_step (pf : Profile) {g g' : State} {a : Actions} {ms : List Actions} (hm : getValidMoves pf g = .ok ms)
    (ha : a ∈ ms) (hp : Plays (BG.game pf) g a g') : Step pf g g' := by
  obtain ⟨t, t', h⟩ := hp
  have h : BG.applyM pf g a t = .ok (g', t') := h
  unfold BG.applyM at h
  obtain ⟨d, t1, h1, h2⟩ := M.bind_ok.1 h
  have h2 := (M.lift_ok.1 h2).1
  by_cases hc : g.roll.1 = g.roll.2 ∧ g.second = false
  · have h3 : applyMove pf g a (1, 1) = .ok g' := by
      rw [← h2]
      unfold applyMove
      simp only [hc, and_self, if_true]
    exact .move hm ha ⟨⟨by decide, by decide⟩, by decide, by decide⟩ h3
  · rw [if_neg hc] at h1
    have hd : DiceInRange d := by
      obtain ⟨x, t2, g1, h1⟩ := M.bind_ok.1 h1
      obtain ⟨y, t3, g2, h1⟩ := M.bind_ok.1 h1
      obtain ⟨k1, t4, -, g1⟩ := M.bind_ok.1 g1
      obtain ⟨k2, t5, -, g2⟩ := M.bind_ok.1 g2
      have e1 := (Prod.mk.inj (M.pure_ok.1 g1)).1
      have e2 := (Prod.mk.inj (M.pure_ok.1 g2)).1
      have e3 := (Prod.mk.inj (M.pure_ok.1 h1)).1
      rw [e3]
      refine ⟨?_, ?_⟩ <;> simp only <;> omega
    exact .move hm ha hd h2

/-- What a side needs in order not to have won within `n` more half-turns, seen from `g`. -/
def Far (n : Int) (g : State) (u : Side) : Prop :=
  2 * n < quarters (view g.board) u ∨ 4 * n + 4 < 3 * quarters (view g.board) u + 2 * ahead u g

theorem Far.step {pf : Profile} {n : Int} {g g' : State} {u : Side} (h : Far (n + 1) g u) (hg : StateOK g) (hs : Step pf g g') :
    Far n g' u := by
  obtain ⟨h1, h2, -⟩ := step_half pf hg hs
  have h3 := step_slow pf hg hs u
  have h4 : quarters (view g.board) u ≤ quarters (view g'.board) u + 2 := by
    have hu : u = mover g ∨ u = (mover g).opp := by
      cases u <;> cases mover g <;> simp [Side.opp]
    rcases hu with rfl | rfl <;> omega
  rcases h with h | h
  · exact .inl (by omega)
  · exact .inr (by omega)

/-- C140 from any position: nobody has won while both sides are far from the end. -/
theorem Far.open {n : Int} (hn : 0 ≤ n) {g : State} (hg : StateOK g) (h : ∀ u, Far n g u) : checkWinner g = none := by
  cases hw : checkWinner g with
  | none => rfl
  | some p =>
    obtain ⟨u, -, ho⟩ := winner_off hw
    have hq := off_quarters hg ho
    have hr := ahead_range u g
    rcases h u with h | h <;> rw [hq] at h <;> omega

/-! ## The bounds are attained -/

/-- A ply of a written game is a half-turn. -/
theorem ply_step {pf : Profile} {g : State} (hg : StateOK g) {q : Actions} {dice : Int × Int} (hd : DiceInRange dice)
    (hq : GenPlay (mover g) (allMoves g.roll) g.board q) : Step pf g (plyResult g q dice) := by
  unfold plyResult
  by_cases he : q = []
  · subst he
    rw [if_pos rfl]
    exact .skip hd (skipTurn_eq pf hg dice)
  · rw [if_neg he]
    obtain ⟨m, hm, e⟩ := pureMoves_complete he hq
    have hms := validMoves_eq pf hg
    have ha := applyMove_eq pf hg hms hm dice
    rw [e] at ha
    exact .move hms hm hd ha

/-- The half-turns of a written game, the latest first. -/
def movers : State → List (Actions × (Int × Int)) → List Side → List Side
  | _, [], l => l
  | g, (q, dice) :: s, l => movers (plyResult g q dice) s (mover g :: l)

theorem script_halves {pf : Profile} (s : List (Actions × (Int × Int))) {g g' : State} {l : List Side} (h : Halves pf l g)
    (hs : playScript g s = some g') : Halves pf (movers g s l) g' := by
  induction s generalizing g l with
  | nil => cases hs; exact h
  | cons x s ih =>
    obtain ⟨q, dice⟩ := x
    unfold playScript at hs
    split at hs
    · rename_i hc
      exact ih (.step h (ply_step (reach_ok (halves_bounds pf h).1) ⟨hc.2.1, hc.2.2.1⟩ (genPlayB_ok _ _ _ _ hc.2.2.2))) hs
    · cases hs

/-- A shortest game: the beginner throws only double sixes, the opponent only 4-3 (once 3-4). -/
def shortest : List (Actions × (Int × Int)) :=
  [([(23, 17), (23, 17)], (1, 1)), ([(12, 6), (12, 6)], (4, 3)),
   ([(11, 15), (11, 14)], (6, 6)),
   ([(12, 6), (12, 6)], (1, 1)), ([(12, 6), (7, 1)], (4, 3)),
   ([(11, 15), (11, 14)], (6, 6)),
   ([(7, 1), (7, 1)], (1, 1)), ([(17, 11), (17, 11)], (3, 4)),
   ([(-1, 2), (0, 4)], (6, 6)),
   ([(11, 5), (11, 5)], (1, 1)), ([(6, 0), (6, 0)], (4, 3)),
   ([(-1, 2), (4, 8)], (6, 6)),
   ([(6, 0), (6, 0)], (1, 1)), ([(6, 0), (5, -1)], (4, 3)),
   ([(2, 6), (6, 9)], (6, 6)),
   ([(5, -1), (5, -1)], (1, 1)), ([(5, -1), (5, -1)], (4, 3)),
   ([(14, 18), (15, 18)], (6, 6)),
   ([(5, -1), (5, -1)], (1, 1)), ([(1, -1), (1, -1)], (4, 3)),
   ([(14, 18), (15, 18)], (6, 6)),
   ([(1, -1), (0, -1)], (1, 1)), ([(0, -1), (0, -1)], (4, 3)),
   ([(16, 20), (16, 19)], (6, 6)),
   ([(0, -1), (0, -1)], (1, 1))]

/-- The same game played by the opponent of the beginner, after a first half-turn of the beginner. -/
def shortestSecond : List (Actions × (Int × Int)) :=
  ([(5, 2), (5, 3)], (6, 6)) :: shortest.map fun x =>
    (x.1.map fun a => (if a.1 = -1 then -1 else 23 - a.1, if a.2 = -1 then -1 else 23 - a.2), x.2)

/-- C140: the bounds are attained by games played to their end according to all rules of the program, whoever wins. -/
theorem C140_attained (pf : Profile) (u : Side) : ∃ l g, Halves pf l g ∧ Played pf g ∧ checkWinner g = some u.sgn ∧
    l.count u = 17 ∧ (turns l).count u = 9 ∧ l.length = (if u = mover new then 25 else 26) ∧
    (turns l).length = (if u = mover new then 17 else 18) := by
  cases u with
  | neg =>
    have hd : DiceInRange (6, 6) := ⟨⟨by decide, by decide⟩, by decide, by decide⟩
    have h : ((playScript (rollWith new (6, 6)) shortest).bind checkWinner = some (Side.sgn .neg)) := by decide +kernel
    obtain ⟨g, h1, h2⟩ := Option.bind_eq_some_iff.1 h
    exact ⟨_, g, script_halves _ (.start hd) h1, playScript_played _ (.start hd) h1, h2, by decide +kernel⟩
  | pos =>
    have hd : DiceInRange (3, 2) := ⟨⟨by decide, by decide⟩, by decide, by decide⟩
    have h : ((playScript (rollWith new (3, 2)) shortestSecond).bind checkWinner = some (Side.sgn .pos)) := by decide +kernel
    obtain ⟨g, h1, h2⟩ := Option.bind_eq_some_iff.1 h
    exact ⟨_, g, script_halves _ (.start hd) h1, playScript_played _ (.start hd) h1, h2, by decide +kernel⟩

end DieE.Props.Gl
