import Verif.Backgammon.Plays
import Verif.Backgammon.History

/-! # Consequences for returned moves and reachable states -/

namespace DieE.BG
open Spec

theorem view_run {s : Side} {dice : List Int} {b : Board} {q : Actions} (h : GenPlay s dice b q) (hb : Valid b)
    (hm : DiceOK dice) : view (run s b q) = afterAll s (view b) q := by
  induction h with
  | stop _ => rfl
  | step h1 h2 _ ih =>
    have hd := hm _ h1
    have ha := gen_almost hb hd h2
    have := ih (valid_next hb hd.1 ha) (hm.erase _)
    simp only [run, afterAll, List.foldl_cons] at this ⊢
    rw [this, view_next hb hd.1 ha]

theorem getNextState_run (pf : Profile) {s : Side} {dice : List Int} {b : Board} {q : Actions}
    (h : GenPlay s dice b q) (hb : Valid b) (hm : DiceOK dice) :
    getNextState pf b q s.sgn = .ok (run s b q) := by
  induction h with
  | stop _ => rfl
  | step h1 h2 _ ih =>
    have hd := hm _ h1
    have ha := gen_almost hb hd h2
    have := ih (valid_next hb hd.1 ha) (hm.erase _)
    unfold getNextState at this ⊢
    rw [List.foldlM_cons, playOne_next pf hb hd.1 ha, bind_ok, this]
    rfl

theorem genPlay_uses {s : Side} {dice : List Int} {b : Board} {q : Actions} (h : GenPlay s dice b q) (hb : Valid b)
    (hm : DiceOK dice) : Uses (AlmostLegalStep s) s dice (view b) q := by
  induction h with
  | stop _ => exact .nil
  | step h1 h2 _ ih =>
    have hd := hm _ h1
    have ha := gen_almost hb hd h2
    have := ih (valid_next hb hd.1 ha) (hm.erase _)
    rw [view_next hb hd.1 ha] at this
    exact .cons h1 ha this

theorem Uses.mono {R S : Pos → Int → Act → Prop} (hRS : ∀ P d a, R P d a → S P d a) {s : Side} {dice : List Int}
    {P : Pos} {q : List Act} (h : Uses R s dice P q) : Uses S s dice P q := by
  induction h with
  | nil => exact .nil
  | cons h1 h2 _ ih => exact .cons h1 (hRS _ _ _ h2) ih

theorem Uses.perm {R : Pos → Int → Act → Prop} {s : Side} {dice dice' : List Int} {P : Pos} {q : List Act}
    (h : Uses R s dice P q) (hp : dice.Perm dice') : Uses R s dice' P q := by
  induction h generalizing dice' with
  | nil => exact .nil
  | cons h1 h2 _ ih => exact .cons (hp.mem_iff.1 h1) h2 (ih (hp.erase _))

/-- Each checker move of the sequence satisfies `R` at the moment it is played, with one of the dice. -/
theorem Uses.prefix {R : Pos → Int → Act → Prop} {s : Side} {dice : List Int} {P : Pos} {q : List Act}
    (h : Uses R s dice P q) : ∀ {q1 a q2}, q = q1 ++ a :: q2 → ∃ d ∈ dice, R (afterAll s P q1) d a := by
  induction h with
  | nil => intro q1 a q2 e; simp at e
  | @cons dice P d a0 q h1 h2 _ ih =>
    intro q1 a q2 e
    cases q1 with
    | nil =>
      simp only [List.nil_append, List.cons.injEq] at e
      obtain ⟨rfl, rfl⟩ := e
      exact ⟨d, h1, h2⟩
    | cons x q1 =>
      simp only [List.cons_append, List.cons.injEq] at e
      obtain ⟨rfl, e⟩ := e
      obtain ⟨d', h3, h4⟩ := ih e
      exact ⟨d', List.mem_of_mem_erase h3, h4⟩

theorem Uses.length_le {R : Pos → Int → Act → Prop} {s : Side} {dice : List Int} {P : Pos} {q : List Act}
    (h : Uses R s dice P q) : q.length ≤ dice.length := by
  induction h with
  | nil => simp
  | cons h1 _ _ ih =>
    rw [List.length_erase_of_mem h1] at ih
    have := List.length_pos_of_mem h1
    simp only [List.length_cons]; omega

theorem allMoves_perm (r : Int × Int) : (allMoves r).Perm [r.1, r.2] := by
  unfold allMoves
  split
  · exact List.Perm.refl _
  · exact List.Perm.swap _ _ _

theorem gen_eq_nil {s : Side} {b : Board} {d : Int} (h : gen s b d = []) (hb : Valid b) (hd : 1 ≤ d ∧ d ≤ 6) (a : Act) :
    ¬ LegalStep s (view b) d a := by
  intro hl
  have := gen_complete hb hd hl
  rw [h] at this; simp at this

/-- What is known about a returned move. -/
theorem returned {pf : Profile} {g : State} (hg : StateOK g) {ms : List Actions} (hms : getValidMoves pf g = .ok ms)
    {m : Actions} (hm : m ∈ ms) : m ≠ [] ∧ GenPlay (mover g) (allMoves g.roll) g.board m := by
  rw [validMoves_eq pf hg, Except.ok.injEq] at hms
  subst hms
  exact mem_pureMoves hm

theorem returned_uses {pf : Profile} {g : State} (hg : StateOK g) {ms : List Actions}
    (hms : getValidMoves pf g = .ok ms) {m : Actions} (hm : m ∈ ms) :
    Uses (AlmostLegalStep (mover g)) (mover g) [g.roll.1, g.roll.2] (view g.board) m :=
  Uses.perm (genPlay_uses (returned hg hms hm).2 hg.board (dice_ok hg)) (allMoves_perm _)

/-! ### states stay valid -/

theorem neg_player {g : State} (hg : StateOK g) (pf : Profile) :
    i8 pf (g.player * -1) = .ok (-g.player) := by
  rw [i8_ok (by rcases hg.player with h | h <;> rw [h] <;> omega)]
  congr 1; omega

theorem skipTurn_eq (pf : Profile) {g : State} (hg : StateOK g) (dice : Int × Int) :
    skipTurn pf g dice = .ok { g with second := false, player := -g.player, roll := dice } := by
  unfold skipTurn
  rw [neg_player hg]
  rfl

theorem skipTurn_ok {pf : Profile} {g g' : State} (hg : StateOK g) {dice : Int × Int} (hd : DiceInRange dice)
    (h : skipTurn pf g dice = .ok g') : StateOK g' := by
  rw [skipTurn_eq pf hg] at h
  cases h
  exact ⟨hg.board, by rcases hg.player with h | h <;> simp [h], hd.1, hd.2⟩

theorem applyMove_eq (pf : Profile) {g : State} (hg : StateOK g) {ms : List Actions} (hms : getValidMoves pf g = .ok ms)
    {m : Actions} (hm : m ∈ ms) (dice : Int × Int) : applyMove pf g m dice = .ok
      (if g.roll.1 = g.roll.2 ∧ g.second = false then { g with board := run (mover g) g.board m, second := true }
       else { g with board := run (mover g) g.board m, second := false, player := -g.player, roll := dice }) := by
  unfold applyMove
  have e := getNextState_run pf (returned hg hms hm).2 hg.board (dice_ok hg)
  rw [← mover_sgn hg] at e
  rw [e, bind_ok]
  simp only [neg_player hg, bind_ok]
  split <;> rfl

theorem applyMove_ok {pf : Profile} {g g' : State} (hg : StateOK g) {ms : List Actions}
    (hms : getValidMoves pf g = .ok ms) {m : Actions} (hm : m ∈ ms) {dice : Int × Int} (hd : DiceInRange dice)
    (h : applyMove pf g m dice = .ok g') : StateOK g' := by
  have hv := ((returned hg hms hm).2.foldlM pf hg.board (dice_ok hg)).2
  rw [applyMove_eq pf hg hms hm] at h
  cases h
  split
  · exact ⟨hv, hg.player, hg.die1, hg.die2⟩
  · exact ⟨hv, by rcases hg.player with h | h <;> simp [h], hd.1, hd.2⟩

theorem initial_valid : Valid initialBoard := by
  refine ⟨by decide, by decide, by decide, by decide, ?_⟩
  intro s
  cases s <;> decide

theorem start_ok {dice : Int × Int} (hd : DiceInRange dice) : StateOK (rollWith new dice) :=
  ⟨initial_valid, Or.inl rfl, hd.1, hd.2⟩

theorem roll_ok {g : State} (hg : StateOK g) {dice : Int × Int} (hd : DiceInRange dice) : StateOK (rollWith g dice) :=
  ⟨hg.board, hg.player, hd.1, hd.2⟩

theorem step_ok {pf : Profile} {g g' : State} (hg : StateOK g) (h : Step pf g g') : StateOK g' := by
  cases h with
  | move h1 h2 h3 h4 => exact applyMove_ok hg h1 h2 h3 h4
  | skip h1 h2 => exact skipTurn_ok hg h1 h2

theorem reachAny_ok {pf : Profile} {g : State} (h : ReachAny pf g) : StateOK g := by
  induction h with
  | start hd => exact start_ok hd
  | step _ hs ih => exact step_ok ih hs
  | roll _ hd ih => exact roll_ok ih hd

theorem reach_any {pf : Profile} {g : State} (h : Reach pf g) : ReachAny pf g := by
  induction h with
  | start hd => exact .start hd
  | step _ hs ih => exact .step ih hs

theorem reachStop_reach {pf : Profile} {g : State} (h : ReachStop pf g) : Reach pf g := by
  induction h with
  | start hd => exact .start hd
  | step _ _ hs ih => exact .step ih hs

theorem reach_ok {pf : Profile} {g : State} (h : Reach pf g) : StateOK g := reachAny_ok (reach_any h)

end DieE.BG
