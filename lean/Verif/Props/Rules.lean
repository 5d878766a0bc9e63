import Verif.Backgammon.Facts2

/-!
# C01, C03 – C18, C24: the rules of backgammon as played by the code

`StateOK g` is: valid board, player ±1, dice in 1..6.  `ReachAny`/`Reach`/`ReachStop` are histories from `new()`
(`Backgammon/History.lean`).  All statements hold for both build profiles `pf`.
-/

namespace DieE.Props
open DieE DieE.BG DieE.Spec

/-! ## sample states used in the non-vacuity examples -/

/-- The opening position with dice 3-1. -/
def opening : State := rollWith new (3, 1)

theorem opening_ok : StateOK opening := start_ok ⟨by decide, by decide⟩

/-- Player `-1` has checkers on points 5 and 3 and everything else off; two opposing checkers on points 4 and 0. -/
def rearState : State where
  board := { pts := #v[2, 0, 0, -1, 2, -1, 0, 0, 0, 0, 0, 0, 0, 0, 0, 0, 0, 0, 0, 0, 11, 0, 0, 0], hit := (0, 0), col := (13, 0) }
  roll := (5, 5)
  player := -1
  second := false
  id := 0

theorem rearState_ok : StateOK rearState := by
  refine ⟨⟨by decide, by decide, by decide, by decide, ?_⟩, by decide, by decide, by decide⟩
  intro s; cases s <;> decide +kernel

theorem rearState_moves (pf : Profile) : getValidMoves pf rearState = .ok [[(3, -1)]] := by
  cases pf <;> decide +kernel

/-- Player `-1` on points 7, 10, 23 with dice 6-5. -/
def shortState : State where
  board := { pts := #v[0, 2, 0, 0, 0, 0, 0, -1, 0, 0, -1, 0, 0, 0, 0, 0, 0, 2, 2, 0, 9, 0, 0, -1], hit := (0, 0), col := (12, 0) }
  roll := (6, 5)
  player := -1
  second := false
  id := 0

theorem shortState_ok : StateOK shortState := by
  refine ⟨⟨by decide, by decide, by decide, by decide, ?_⟩, by decide, by decide, by decide⟩
  intro s; cases s <;> decide +kernel

theorem shortState_moves (pf : Profile) :
    getValidMoves pf shortState = .ok [[(7, 2), (10, 4)], [(10, 5)]] := by
  cases pf <;> decide +kernel

/-- A bear-off position: player `1` to move, dice 6-4, no opposing checker in its home board. -/
def bearState : State where
  board := { pts := #v[-15, 0, 0, 0, 0, 0, 0, 0, 0, 0, 0, 0, 0, 0, 0, 0, 0, 0, 0, 1, 1, 0, 0, 0], hit := (0, 0), col := (0, 13) }
  roll := (6, 4)
  player := 1
  second := false
  id := 0

theorem bearState_ok : StateOK bearState := by
  refine ⟨⟨by decide, by decide, by decide, by decide, ?_⟩, by decide, by decide, by decide⟩
  intro s; cases s <;> decide +kernel

theorem bearState_moves (pf : Profile) : getValidMoves pf bearState = .ok [[(19, 23), (20, -1)], [(20, -1), (19, -1)]] := by
  cases pf <;> decide +kernel

/-- Player `-1` has two checkers on the bar. -/
def barState : State where
  board := { pts := #v[0, -2, 0, -3, 0, -5, 0, -3, 0, 0, 0, 0, 0, 0, 0, 0, 0, 0, 3, 3, 2, 3, 1, 2], hit := (2, 1), col := (0, 0) }
  roll := (2, 1)
  player := -1
  second := false
  id := 0

theorem barState_ok : StateOK barState := by
  refine ⟨⟨by decide, by decide, by decide, by decide, ?_⟩, by decide, by decide, by decide⟩
  intro s; cases s <;> decide +kernel

theorem barState_moves (pf : Profile) : getValidMoves pf barState = .ok [[(-1, 22)]] := by
  cases pf <;> decide +kernel

/-! ## C01 -/

/-- `is_valid` counts checkers. -/
theorem isValidCount_eq (pf : Profile) (b : Board) (l : List Nat) (t1 t2 : Int) (h1 : 0 ≤ t1) (h2 : 0 ≤ t2)
    (hb1 : t1 + (l.map fun (i : Nat) => ((view b).men .neg i : Int)).sum ≤ 127)
    (hb2 : t2 + (l.map fun (i : Nat) => ((view b).men .pos i : Int)).sum ≤ 127) :
    isValidCount pf b l (t1, t2) = .ok (t1 + (l.map fun (i : Nat) => ((view b).men .neg i : Int)).sum,
      t2 + (l.map fun (i : Nat) => ((view b).men .pos i : Int)).sum) := by
  induction l generalizing t1 t2 with
  | nil => simp [isValidCount]
  | cons i l ih =>
    have n1 : 0 ≤ (l.map fun (i : Nat) => ((view b).men .neg i : Int)).sum := sum_nonneg' (by
      intro x hx; obtain ⟨j, _, rfl⟩ := List.mem_map.1 hx; omega)
    have n2 : 0 ≤ (l.map fun (i : Nat) => ((view b).men .pos i : Int)).sum := sum_nonneg' (by
      intro x hx; obtain ⟨j, _, rfl⟩ := List.mem_map.1 hx; omega)
    simp only [List.map_cons, List.sum_cons] at hb1 hb2 ⊢
    unfold isValidCount
    simp only [men_neg, men_pos] at *
    split
    · rw [i8_ok (by omega), bind_ok, ih _ _ (by omega) (by omega) (by omega) (by omega)]
      congr 2 <;> omega
    · split
      · rw [i8_ok (by omega), bind_ok, ih _ _ (by omega) (by omega) (by omega) (by omega)]
        congr 2 <;> omega
      · rw [ih _ _ (by omega) (by omega) (by omega) (by omega)]
        congr 2 <;> omega

theorem isValid_ok (pf : Profile) {g : State} (h : Valid g.board) : isValid pf g = .ok () := by
  have e1 := h.total .neg
  have e2 := h.total .pos
  unfold Pos.total sum24 at e1 e2
  have r := h.range 0
  simp only [bar_neg, bar_pos, off_neg, off_pos] at e1 e2
  unfold isValid
  rw [isValidCount_eq pf g.board (List.range 24) 0 0 (by omega) (by omega) (by omega) (by omega)]
  simp only [bind_ok]
  rw [asI8_id (by omega), asI8_id (by omega), asI8_id (by omega), asI8_id (by omega), i8_ok (by omega)]
  simp only [bind_ok]
  rw [i8_ok (by omega)]
  simp only [bind_ok]
  rw [i8_ok (by omega)]
  simp only [bind_ok]
  rw [i8_ok (by omega)]
  simp only [bind_ok, assert]
  rw [if_pos]
  simp only [decide_eq_true_eq]
  omega

/-- C01: along every history each player owns 15 checkers, and `is_valid` passes its assertion. -/
theorem C01_conservation (pf : Profile) {g : State} (h : ReachAny pf g) :
    (∀ s, (view g.board).total s = 15) ∧ isValid pf g = .ok () :=
  ⟨(reachAny_ok h).board.total, isValid_ok pf (reachAny_ok h).board⟩

/-- Also for the value of `new()` before the first roll. -/
theorem C01_new (pf : Profile) : (∀ s, (view new.board).total s = 15) ∧ isValid pf new = .ok () :=
  ⟨initial_valid.total, isValid_ok pf initial_valid⟩

/-- `is_valid` is a real check: it accepts a board with small non-negative counters iff both players own 15. -/
theorem C01_isValid_iff (pf : Profile) (g : State) (hh : ∀ i, -2 ≤ g.board.pt i ∧ g.board.pt i ≤ 2)
    (h1 : 0 ≤ g.board.hit.1 ∧ g.board.hit.1 ≤ 15) (h2 : 0 ≤ g.board.hit.2 ∧ g.board.hit.2 ≤ 15)
    (h3 : 0 ≤ g.board.col.1 ∧ g.board.col.1 ≤ 15) (h4 : 0 ≤ g.board.col.2 ∧ g.board.col.2 ≤ 15) :
    isValid pf g = .ok () ↔ ∀ s, (view g.board).total s = 15 := by
  have bound : ∀ s, ((List.range 24).map fun (i : Nat) => ((view g.board).men s i : Int)).sum ≤ 48 ∧
      0 ≤ ((List.range 24).map fun (i : Nat) => ((view g.board).men s i : Int)).sum := by
    intro s
    have hb : ∀ l : List Nat, (l.map fun (i : Nat) => ((view g.board).men s i : Int)).sum ≤ 2 * l.length ∧
        0 ≤ (l.map fun (i : Nat) => ((view g.board).men s i : Int)).sum := by
      intro l
      induction l with
      | nil => simp
      | cons i l ih =>
        have := hh i
        have : ((view g.board).men s i : Int) ≤ 2 := by cases s <;> simp only [men_neg, men_pos] <;> omega
        simp only [List.map_cons, List.sum_cons, List.length_cons]
        omega
    simpa using hb (List.range 24)
  have b1 := bound .neg
  have b2 := bound .pos
  have hall : (∀ s, (view g.board).total s = 15) ↔
      (view g.board).total .neg = 15 ∧ (view g.board).total .pos = 15 :=
    ⟨fun h => ⟨h _, h _⟩, fun h s => by cases s; exact h.1; exact h.2⟩
  rw [hall]
  unfold Pos.total sum24
  simp only [bar_neg, bar_pos, off_neg, off_pos]
  unfold isValid
  rw [isValidCount_eq pf g.board (List.range 24) 0 0 (by omega) (by omega) (by omega) (by omega)]
  simp only [bind_ok]
  rw [asI8_id (by omega), asI8_id (by omega), asI8_id (by omega), asI8_id (by omega), i8_ok (by omega)]
  simp only [bind_ok]
  rw [i8_ok (by omega)]
  simp only [bind_ok]
  rw [i8_ok (by omega)]
  simp only [bind_ok]
  rw [i8_ok (by omega)]
  simp only [bind_ok, assert]
  split
  · next h => simp only [decide_eq_true_eq] at h; simp only [true_iff]; omega
  · next h => simp only [decide_eq_true_eq] at h; simp only [reduceCtorEq, false_iff]; omega

example (pf : Profile) : ReachAny pf opening := .start ⟨by decide, by decide⟩
example : isValid .debug rearState = .ok () := by decide +kernel
example : isValid .debug { rearState with board := { rearState.board with col := (12, 0) } } = .error .assertFailed := by
  decide +kernel

/-! ## C03 -/

/-- C03 (one move): same player, same dice, flag set exactly after the first half of a double; otherwise the turn
passes, the flag is cleared and the dice are the freshly drawn ones. -/
theorem C03_apply_move (pf : Profile) {g g' : State} (hg : StateOK g) {ms : List Actions}
    (hms : getValidMoves pf g = .ok ms) {m : Actions} (hm : m ∈ ms) (dice : Int × Int)
    (h : applyMove pf g m dice = .ok g') :
    (g.roll.1 = g.roll.2 ∧ g.second = false → g'.player = g.player ∧ g'.roll = g.roll ∧ g'.second = true) ∧
    (¬ (g.roll.1 = g.roll.2 ∧ g.second = false) → g'.player = -g.player ∧ g'.roll = dice ∧ g'.second = false) := by
  rw [applyMove_eq pf hg hms hm] at h
  cases h
  constructor
  · intro hc; rw [if_pos hc]; exact ⟨rfl, rfl, rfl⟩
  · intro hc; rw [if_neg hc]; exact ⟨rfl, rfl, rfl⟩

/-- C03 (skip): the turn passes, fresh dice, flag cleared, board untouched. -/
theorem C03_skip_turn (pf : Profile) {g g' : State} (hg : StateOK g) (dice : Int × Int)
    (h : skipTurn pf g dice = .ok g') :
    g'.player = -g.player ∧ g'.roll = dice ∧ g'.second = false ∧ g'.board = g.board := by
  rw [skipTurn_eq pf hg] at h
  cases h; exact ⟨rfl, rfl, rfl, rfl⟩

/-- C03 (histories): the flag is only set while the dice are equal. -/
theorem C03_flag_means_double (pf : Profile) {g : State} (h : Reach pf g) (hs : g.second = true) :
    g.roll.1 = g.roll.2 := by
  cases h with
  | start _ => simp [rollWith, new] at hs
  | @step g0 _ hr hst =>
    cases hst with
    | move h1 h2 h3 h4 =>
      have := C03_apply_move pf (reach_ok hr) h1 h2 _ h4
      by_cases hc : g0.roll.1 = g0.roll.2 ∧ g0.second = false
      · rw [(this.1 hc).2.1]; exact hc.1
      · rw [(this.2 hc).2.2] at hs; cases hs
    | skip h1 h2 =>
      rw [(C03_skip_turn pf (reach_ok hr) _ h2).2.2.1] at hs; cases hs

/-- C03 (histories): if a player keeps the turn, that turn was the first half of a double and the next half-turn is the
last one: no player ever plays three half-turns in a row. -/
theorem C03_at_most_two_in_a_row (pf : Profile) {g g1 g2 : State} (h : Reach pf g) (h1 : Step pf g g1)
    (h2 : Step pf g1 g2) (hp : g1.player = g.player) :
    g.roll.1 = g.roll.2 ∧ g1.roll = g.roll ∧ g1.second = true ∧ g2.player = -g.player ∧ g2.second = false := by
  have hg := reach_ok h
  have hg1 := step_ok hg h1
  have hne : g1.player ≠ -g.player := by rcases hg.player with e | e <;> rw [hp, e] <;> omega
  have hflag : (g.roll.1 = g.roll.2 ∧ g.second = false) ∧ g1.second = true ∧ g1.roll = g.roll := by
    cases h1 with
    | move a1 a2 a3 a4 =>
      have := C03_apply_move pf hg a1 a2 _ a4
      by_cases hc : g.roll.1 = g.roll.2 ∧ g.second = false
      · exact ⟨hc, (this.1 hc).2.2, (this.1 hc).2.1⟩
      · exact absurd (this.2 hc).1 hne
    | skip a1 a2 => exact absurd (C03_skip_turn pf hg _ a2).1 hne
  refine ⟨hflag.1.1, hflag.2.2, hflag.2.1, ?_⟩
  rw [← hp]
  cases h2 with
  | move a1 a2 a3 a4 =>
    have := (C03_apply_move pf hg1 a1 a2 _ a4).2 (by rw [hflag.2.1]; simp)
    exact ⟨this.1, this.2.2⟩
  | skip a1 a2 =>
    have := C03_skip_turn pf hg1 _ a2
    exact ⟨this.1, this.2.2.1⟩

example : applyMove .debug rearState [(3, -1)] (1, 2) =
    .ok { rearState with second := true, board := { rearState.board with pts := #v[2, 0, 0, 0, 2, -1, 0, 0, 0, 0, 0, 0, 0, 0, 0, 0, 0, 0, 0, 0, 11, 0, 0, 0], col := (14, 0) } } := by
  decide +kernel

/-! ## C04 – C08: each checker move of a returned move obeys the rules at the moment it is played -/

/-- C04: while a checker is on the bar only entries are made. -/
theorem C04_bar_first (pf : Profile) {g : State} (hg : StateOK g) {ms : List Actions}
    (hms : getValidMoves pf g = .ok ms) {m q1 q2 : Actions} {a : Act} (hm : m ∈ ms) (he : m = q1 ++ a :: q2) :
    BarRule (mover g) (afterAll (mover g) (view g.board) q1) a := by
  obtain ⟨d, _, h⟩ := Uses.prefix (returned_uses hg hms hm) he
  exact h.barFirst

example (pf : Profile) : ∃ ms, getValidMoves pf barState = .ok ms ∧ [(-1, 22)] ∈ ms ∧ 0 < (view barState.board).bar .neg :=
  ⟨_, barState_moves pf, by decide, by decide⟩

/-- C05: no landing on a point with two or more opposing checkers; every destination is a point of the board. -/
theorem C05_open_destination (pf : Profile) {g : State} (hg : StateOK g) {ms : List Actions}
    (hms : getValidMoves pf g = .ok ms) {m q1 q2 : Actions} {a : Act} (hm : m ∈ ms) (he : m = q1 ++ a :: q2) :
    OpenRule (mover g) (afterAll (mover g) (view g.board) q1) a := by
  obtain ⟨d, _, h⟩ := Uses.prefix (returned_uses hg hms hm) he
  exact h.openPoint

example (pf : Profile) : ∃ ms, getValidMoves pf shortState = .ok ms ∧ [(7, 2)] ++ (10, 4) :: [] ∈ ms :=
  ⟨_, shortState_moves pf, by decide⟩

/-- C06: the checker moves use distinct dice of the roll, each checker exists at its source and travels the distance of
its die; there are one or two checker moves. -/
theorem C06_one_die_per_checker (pf : Profile) {g : State} (hg : StateOK g) {ms : List Actions}
    (hms : getValidMoves pf g = .ok ms) {m : Actions} (hm : m ∈ ms) :
    Uses (fun P d a => SourceRule (mover g) P a ∧ DieRule (mover g) d a) (mover g) [g.roll.1, g.roll.2]
      (view g.board) m ∧ 1 ≤ m.length ∧ m.length ≤ 2 := by
  have h := returned_uses hg hms hm
  refine ⟨Uses.mono (fun P d a h => ⟨h.source, h.dieUse⟩) h, ?_, Uses.length_le h⟩
  have := (returned hg hms hm).1
  cases m with
  | nil => exact absurd rfl this
  | cons _ _ => simp

example (pf : Profile) : ∃ ms, getValidMoves pf bearState = .ok ms ∧ [(20, -1), (19, -1)] ∈ ms :=
  ⟨_, bearState_moves pf, by decide⟩

/-- C07: a checker is borne off only when all checkers are home. -/
theorem C07_bear_off_all_home (pf : Profile) {g : State} (hg : StateOK g) {ms : List Actions}
    (hms : getValidMoves pf g = .ok ms) {m q1 q2 : Actions} {a : Act} (hm : m ∈ ms) (he : m = q1 ++ a :: q2) :
    HomeRule (mover g) (afterAll (mover g) (view g.board) q1) a := by
  obtain ⟨d, _, h⟩ := Uses.prefix (returned_uses hg hms hm) he
  exact h.home

example (pf : Profile) : ∃ ms, getValidMoves pf bearState = .ok ms ∧ [(19, 23)] ++ (20, -1) :: [] ∈ ms :=
  ⟨_, bearState_moves pf, by decide⟩

/-- Full statement of C08: returned moves obey the rearmost-checker rule. -/
def C08_statement (pf : Profile) : Prop :=
  ∀ g, StateOK g → ∀ ms, getValidMoves pf g = .ok ms → ∀ m ∈ ms,
    Uses (fun P d a => DieRule (mover g) d a ∧ RearRule (mover g) P d a) (mover g) [g.roll.1, g.roll.2] (view g.board) m

/-- C08 is false: with opposing checkers in the home board the code bears off from point 3 with a 5 although a checker
stands on point 5. -/
theorem C08_refuted (pf : Profile) : ¬ C08_statement pf := by
  intro h
  have := h rearState rearState_ok _ (rearState_moves pf) [(3, -1)] (by simp)
  cases this with
  | @cons _ _ d _ _ h1 h2 _ =>
    have hd : d = 5 := by simpa [rearState] using h1
    subst hd
    have := h2.2 rfl (by decide) 5 ⟨by decide, by decide⟩ (by decide)
    revert this
    decide

/-- C08 (partial): the rule holds whenever no opposing checker stands in the mover's home board.
Missing: positions with an opposing checker there, where the rule can fail (`C08_refuted`). -/
theorem C08_rearmost_partial (pf : Profile) {g : State} (hg : StateOK g) (hf : (view g.board).homeFree (mover g))
    {ms : List Actions} (hms : getValidMoves pf g = .ok ms) {m : Actions} (hm : m ∈ ms) :
    Uses (fun P d a => DieRule (mover g) d a ∧ RearRule (mover g) P d a) (mover g) [g.roll.1, g.roll.2]
      (view g.board) m := by
  have hp := MaxPlay.perm (genPlay_play (returned hg hms hm).2 hg.board (dice_ok hg) hf) (allMoves_perm _)
  clear hm hms hf hg
  generalize [g.roll.1, g.roll.2] = dice at hp
  generalize view g.board = P at hp
  induction hp with
  | stop _ => exact .nil
  | step h1 h2 _ ih => exact .cons h1 ⟨h2.dieUse, h2.rear⟩ ih

theorem bearState_free : (view bearState.board).homeFree .pos := by
  intro i hi hp
  simp only [pip_pos, onBoard] at hi hp
  have : i = 18 ∨ i = 19 ∨ i = 20 ∨ i = 21 ∨ i = 22 ∨ i = 23 := by omega
  rcases this with rfl | rfl | rfl | rfl | rfl | rfl <;> decide

example (pf : Profile) : StateOK bearState ∧ (view bearState.board).homeFree (mover bearState) ∧
    ∃ ms, getValidMoves pf bearState = .ok ms ∧ [(20, -1), (19, -1)] ∈ ms :=
  ⟨bearState_ok, bearState_free, _, bearState_moves pf, by decide⟩

/-! ## C09 -/

/-- C09: every rule-legal play of two checker moves leads to the board of a returned move. -/
theorem C09_two_checker_plays (pf : Profile) {g : State} (hg : StateOK g) {a a' : Act}
    (h : Uses (LegalStep (mover g)) (mover g) [g.roll.1, g.roll.2] (view g.board) [a, a']) :
    ∃ ms m b, getValidMoves pf g = .ok ms ∧ m ∈ ms ∧ getNextState pf g.board m g.player = .ok b ∧
      view b = afterAll (mover g) (view g.board) [a, a'] := by
  have h' := Uses.perm h (allMoves_perm g.roll).symm
  obtain ⟨q', hq, hl⟩ := uses_prefix_genPlay h' g.board rfl hg.board (dice_ok hg)
  have hlen : (allMoves g.roll).length = 2 := (allMoves_perm g.roll).length_eq
  rw [hl (by rw [hlen]; rfl), List.append_nil] at hq
  obtain ⟨m, hm, e⟩ := pureMoves_complete (by simp) hq
  have hgm := (mem_pureMoves hm).2
  refine ⟨_, m, run (mover g) g.board m, validMoves_eq pf hg, hm, ?_, ?_⟩
  · rw [mover_sgn hg]; exact getNextState_run pf hgm hg.board (dice_ok hg)
  · rw [e, view_run hq hg.board (dice_ok hg)]

/-- C09: every legal first checker move starts a play whose final board is the board of a returned move. -/
theorem C09_first_moves (pf : Profile) {g : State} (hg : StateOK g) {d : Int} (hd : d = g.roll.1 ∨ d = g.roll.2)
    {a : Act} (h : LegalStep (mover g) (view g.board) d a) :
    ∃ ms m q b, getValidMoves pf g = .ok ms ∧ m ∈ ms ∧ getNextState pf g.board m g.player = .ok b ∧
      view b = afterAll (mover g) (view g.board) (a :: q) ∧
      MaxPlay (AlmostLegalStep (mover g)) (LegalStep (mover g)) (mover g) [g.roll.1, g.roll.2] (view g.board)
        (a :: q) := by
  have hmem : d ∈ allMoves g.roll := (allMoves_perm g.roll).mem_iff.2 (by simpa using hd)
  obtain ⟨q', hq, -⟩ := uses_prefix_genPlay (q := [a]) (.cons hmem h .nil) g.board rfl hg.board (dice_ok hg)
  obtain ⟨m, hm, e⟩ := pureMoves_complete (by simp) hq
  have hgm := (mem_pureMoves hm).2
  refine ⟨_, m, q', run (mover g) g.board m, validMoves_eq pf hg, hm, ?_, ?_, ?_⟩
  · rw [mover_sgn hg]; exact getNextState_run pf hgm hg.board (dice_ok hg)
  · rw [e, view_run hq hg.board (dice_ok hg)]; rfl
  · exact MaxPlay.perm (genPlay_max hq hg.board (dice_ok hg)) (allMoves_perm _)

/-- The hypothesis of `C09_two_checker_plays` is satisfiable: bearing off both checkers of `bearState`. -/
example : Uses (LegalStep (mover bearState)) (mover bearState) [bearState.roll.1, bearState.roll.2]
    (view bearState.board) [(20, -1), (19, -1)] := by
  have := C08_rearmost_partial .debug bearState_ok bearState_free (bearState_moves .debug) (m := [(20, -1), (19, -1)])
    (by simp)
  have h2 := genPlay_play (returned bearState_ok (bearState_moves .debug) (m := [(20, -1), (19, -1)]) (by simp)).2
    bearState_ok.board (dice_ok bearState_ok) bearState_free
  have h3 := MaxPlay.perm h2 (allMoves_perm _)
  clear h2 this
  generalize view bearState.board = P at h3
  generalize [bearState.roll.1, bearState.roll.2] = l at h3
  generalize [((20 : Int), (-1 : Int)), (19, -1)] = q at h3
  induction h3 with
  | stop _ => exact .nil
  | step h1 h2 _ ih => exact .cons h1 h2 ih

/-! ## C10 -/

theorem dedup_spec (pf : Profile) (init : Board) (p : Int) (qs : List Actions) (seen : List Board) (kept : List Actions)
    (h : removeDuplicateLoop pf init p qs seen = .ok kept) :
    kept.Sublist qs ∧
    (∀ q ∈ kept, ∃ b, q.foldlM (fun b a => getNextState pf b [a] p) init = (.ok b : Res Board) ∧ b ∉ seen) ∧
    kept.Pairwise (fun q q' => q.foldlM (fun b a => getNextState pf b [a] p) init ≠
      (q'.foldlM (fun b a => getNextState pf b [a] p) init : Res Board)) ∧
    (∀ l r q, qs = l ++ q :: r → ∃ b, q.foldlM (fun b a => getNextState pf b [a] p) init = (.ok b : Res Board) ∧
      (b ∉ seen → (∀ q' ∈ l, q'.foldlM (fun b a => getNextState pf b [a] p) init ≠ (.ok b : Res Board)) → q ∈ kept)) := by
  induction qs generalizing seen kept with
  | nil =>
    have : kept = [] := by simpa [removeDuplicateLoop] using h.symm
    subst this
    refine ⟨List.Sublist.refl _, by simp, List.Pairwise.nil, ?_⟩
    intro l r q e; simp at e
  | cons q0 qs ih =>
    unfold removeDuplicateLoop at h
    cases hq : (q0.foldlM (fun b a => getNextState pf b [a] p) init : Res Board) with
    | error e => rw [hq] at h; cases h
    | ok b0 =>
      rw [hq, bind_ok] at h
      by_cases hs : b0 ∈ seen
      · rw [if_pos hs] at h
        obtain ⟨i1, i2, i3, i4⟩ := ih _ _ h
        refine ⟨i1.cons _, i2, i3, ?_⟩
        intro l r q e
        cases l with
        | nil =>
          simp only [List.nil_append, List.cons.injEq] at e
          obtain ⟨rfl, rfl⟩ := e
          exact ⟨b0, hq, fun hn => absurd hs hn⟩
        | cons x l =>
          simp only [List.cons_append, List.cons.injEq] at e
          obtain ⟨rfl, e⟩ := e
          obtain ⟨b, hb, h'⟩ := i4 l r q e
          exact ⟨b, hb, fun hn hl => h' hn (fun q' hq' => hl q' (by simp [hq']))⟩
      · rw [if_neg hs] at h
        cases hr : removeDuplicateLoop pf init p qs (b0 :: seen) with
        | error e => rw [hr] at h; cases h
        | ok r0 =>
          rw [hr, bind_ok] at h
          have : kept = q0 :: r0 := by simpa using h.symm
          subst this
          obtain ⟨i1, i2, i3, i4⟩ := ih _ _ hr
          refine ⟨i1.cons_cons _, ?_, List.Pairwise.cons ?_ i3, ?_⟩
          · intro q hq'
            rcases List.mem_cons.1 hq' with rfl | hq'
            · exact ⟨b0, hq, hs⟩
            · obtain ⟨b, hb, hn⟩ := i2 q hq'
              exact ⟨b, hb, fun hc => hn (by simp [hc])⟩
          · intro q' hq' e
            obtain ⟨b, hb, hn⟩ := i2 q' hq'
            rw [hq, hb] at e
            cases e
            exact hn (by simp)
          · intro l r q e
            cases l with
            | nil =>
              simp only [List.nil_append, List.cons.injEq] at e
              obtain ⟨rfl, rfl⟩ := e
              exact ⟨b0, hq, fun _ _ => by simp⟩
            | cons x l =>
              simp only [List.cons_append, List.cons.injEq] at e
              obtain ⟨rfl, e⟩ := e
              obtain ⟨b, hb, h'⟩ := i4 l r q e
              refine ⟨b, hb, fun hn hl => ?_⟩
              have hne : b ≠ b0 := by
                rintro rfl
                exact hl _ (by simp) hq
              exact List.mem_cons_of_mem _ (h' (by simp [hn, hne]) (fun q' hq' => hl q' (by simp [hq'])))

/-- The board a list of checker moves leads to (as computed by `remove_duplicate_states`). -/
def finalBoard (pf : Profile) (init : Board) (p : Int) (q : Actions) : Res Board :=
  q.foldlM (fun b a => getNextState pf b [a] p) init

/-- C10 (any list of sequences): the kept ones are a sublist with pairwise different final boards, and the first sequence
reaching a board is kept, so no board is lost. -/
theorem C10_dedup (pf : Profile) (init : Board) (p : Int) (qs kept : List Actions)
    (h : removeDuplicateStates pf init qs p = .ok kept) :
    kept.Sublist qs ∧
    kept.Pairwise (fun q q' => finalBoard pf init p q ≠ finalBoard pf init p q') ∧
    (∀ l r q, qs = l ++ q :: r → (∀ q' ∈ l, finalBoard pf init p q' ≠ finalBoard pf init p q) → q ∈ kept) ∧
    (∀ q ∈ qs, ∃ q' ∈ kept, finalBoard pf init p q' = finalBoard pf init p q) := by
  obtain ⟨i1, i2, i3, i4⟩ := dedup_spec pf init p qs [] kept h
  have first : ∀ l r q, qs = l ++ q :: r → (∀ q' ∈ l, finalBoard pf init p q' ≠ finalBoard pf init p q) → q ∈ kept := by
    intro l r q e hl
    obtain ⟨b, hb, h'⟩ := i4 l r q e
    refine h' (by simp) (fun q' hq' => ?_)
    have := hl q' hq'
    unfold finalBoard at this
    rw [hb] at this
    exact this
  refine ⟨i1, i3, first, ?_⟩
  intro q hq
  have key : ∀ (l r : List Actions), qs = l ++ r → (∀ q' ∈ l, finalBoard pf init p q' ≠ finalBoard pf init p q) → q ∈ r →
      ∃ q' ∈ kept, finalBoard pf init p q' = finalBoard pf init p q := by
    intro l r
    induction r generalizing l with
    | nil => intro _ _ hc; simp at hc
    | cons x r ih =>
      intro e hl hx
      by_cases hb : finalBoard pf init p x = finalBoard pf init p q
      · exact ⟨x, first l r x e (fun q' hq' => by rw [hb]; exact hl q' hq'), hb⟩
      · have hxr : q ∈ r := by
          rcases List.mem_cons.1 hx with rfl | hx
          · exact absurd rfl hb
          · exact hx
        exact ih (l ++ [x]) (by simp [e]) (by
          intro q' hq'
          rcases List.mem_append.1 hq' with h | h
          · exact hl q' h
          · simp only [List.mem_singleton] at h
            rw [h]; exact hb) hxr
  exact key [] qs rfl (by simp) hq

/-- C10 (returned moves): two different entries of the returned list lead to different boards, in every position and
for every player and roll for which the function returns. -/
theorem C10_distinct_boards (pf : Profile) (g : State) (ms : List Actions) (h : getValidMoves pf g = .ok ms) :
    ms.Pairwise (fun q q' => finalBoard pf g.board g.player q ≠ finalBoard pf g.board g.player q') := by
  unfold getValidMoves at h
  cases h1 : assert (decide (g.roll ≠ (0, 0))) with
  | error e => rw [h1] at h; cases h
  | ok u =>
    rw [h1, bind_ok] at h
    cases h2 : getActionTrees pf (allMoves g.roll) g.board g.player with
    | error e => rw [h2] at h; cases h
    | ok ts =>
      rw [h2, bind_ok] at h
      exact (C10_dedup pf g.board g.player _ ms h).2.1

example : removeDuplicateStates .debug initialBoard [[(12, 9)], [(12, 8)], [(12, 9)]] (-1) = .ok [[(12, 9)], [(12, 8)]] := by
  decide +kernel

/-! ## C11 – C13 -/

/-- C11: after a returned move no unused die admits a legal checker move (its own checker moves obey all rules but the
rearmost one, see C08). -/
theorem C11_maximal (pf : Profile) {g : State} (hg : StateOK g) {ms : List Actions}
    (hms : getValidMoves pf g = .ok ms) {m : Actions} (hm : m ∈ ms) :
    MaxPlay (AlmostLegalStep (mover g)) (LegalStep (mover g)) (mover g) [g.roll.1, g.roll.2] (view g.board) m :=
  MaxPlay.perm (genPlay_max (returned hg hms hm).2 hg.board (dice_ok hg)) (allMoves_perm _)

example (pf : Profile) : ∃ ms, getValidMoves pf shortState = .ok ms ∧ [(10, 5)] ∈ ms :=
  ⟨_, shortState_moves pf, by decide⟩

/-- Full statement of C12: if a play with two checker moves is offered then all offered moves have two. -/
def C12_statement (pf : Profile) : Prop :=
  ∀ g, StateOK g → ∀ ms, getValidMoves pf g = .ok ms → ∀ m ∈ ms, ∀ m' ∈ ms, m.length = 2 → m'.length = 2

/-- C12 is false: in `shortState` the code offers the one-die move 10→5 besides the two-dice move 7→2, 10→4. -/
theorem C12_refuted (pf : Profile) : ¬ C12_statement pf := by
  intro h
  have := h shortState shortState_ok _ (shortState_moves pf) [(7, 2), (10, 4)] (by simp) [(10, 5)] (by simp) rfl
  simp at this

/-- C12 (partial): a one-die move is offered only if the other die is unplayable *after it*, and the set of offered
boards contains every two-dice play. Missing: the code does not discard one-die moves when a two-dice play exists. -/
theorem C12_both_dice_partial (pf : Profile) {g : State} (hg : StateOK g) {ms : List Actions}
    (hms : getValidMoves pf g = .ok ms) {m : Actions} (hm : m ∈ ms) (h1 : m.length = 1) :
    ∃ a d d', m = [a] ∧ [d, d'].Perm [g.roll.1, g.roll.2] ∧ AlmostLegalStep (mover g) (view g.board) d a ∧
      ∀ a', ¬ LegalStep (mover g) (after (mover g) (view g.board) a) d' a' := by
  have h := C11_maximal pf hg hms hm
  match m, h1 with
  | [a], _ =>
    cases h with
    | @step _ _ d _ _ h1 h2 h3 =>
      cases h3 with
      | stop h3 =>
        have hl : ([g.roll.1, g.roll.2].erase d).length = 1 := by rw [List.length_erase_of_mem h1]; rfl
        match he : [g.roll.1, g.roll.2].erase d, hl with
        | [d'], _ =>
          refine ⟨a, d, d', rfl, ?_, h2, fun a' => h3 d' (by rw [he]; simp) a'⟩
          rw [← he]
          exact (List.perm_cons_erase h1).symm

/-- Full statement of C13. -/
def C13_statement (pf : Profile) : Prop :=
  ∀ g, StateOK g → ∀ ms, getValidMoves pf g = .ok ms →
    (ms = [] ↔ ∀ d ∈ [g.roll.1, g.roll.2], ∀ a, ¬ LegalStep (mover g) (view g.board) d a)

/-- C13 is false in the direction "stuck → empty": in `rearState` no legal checker move exists (the checker on point 5
is blocked, the one on point 3 is not rearmost) but the code offers to bear off from point 3. -/
theorem C13_refuted (pf : Profile) : ¬ C13_statement pf := by
  intro h
  have := (h rearState rearState_ok _ (rearState_moves pf)).2
  refine absurd (this ?_) (by simp)
  intro d hd a hl
  have hd5 : d = 5 := by simpa [rearState] using hd
  subst hd5
  have hg := gen_complete rearState_ok.board ⟨by decide, by decide⟩ hl
  have : gen (mover rearState) rearState.board 5 = [(3, -1)] := by decide +kernel
  rw [this] at hg
  simp only [List.mem_singleton] at hg
  subst hg
  have := hl.rear rfl (by decide) 5 ⟨by decide, by decide⟩ (by decide)
  revert this
  decide

/-- C13 (partial): an empty list always means that no legal checker move exists; the converse holds when no opposing
checker is in the mover's home board. Missing: the converse in the other positions (`C13_refuted`). -/
theorem C13_empty_iff_stuck_partial (pf : Profile) {g : State} (hg : StateOK g) {ms : List Actions}
    (hms : getValidMoves pf g = .ok ms) :
    (ms = [] → ∀ d ∈ [g.roll.1, g.roll.2], ∀ a, ¬ LegalStep (mover g) (view g.board) d a) ∧
    ((view g.board).homeFree (mover g) →
      (∀ d ∈ [g.roll.1, g.roll.2], ∀ a, ¬ LegalStep (mover g) (view g.board) d a) → ms = []) ∧
    (ms = [] ↔ ∀ d ∈ [g.roll.1, g.roll.2], gen (mover g) g.board d = []) := by
  have hmem : ∀ d, d ∈ [g.roll.1, g.roll.2] ↔ d ∈ allMoves g.roll := fun d => ((allMoves_perm g.roll).mem_iff).symm
  rw [validMoves_eq pf hg, Except.ok.injEq] at hms
  subst hms
  refine ⟨?_, ?_, ?_⟩
  · intro he d hd a hl
    obtain ⟨q', hq, -⟩ := uses_prefix_genPlay (q := [a]) (.cons ((hmem d).1 hd) hl .nil) g.board rfl hg.board (dice_ok hg)
    obtain ⟨m, hm, -⟩ := pureMoves_complete (by simp) hq
    rw [he] at hm; simp at hm
  · intro hf h
    rw [List.eq_nil_iff_forall_not_mem]
    intro m hm
    obtain ⟨h1, h2⟩ := mem_pureMoves hm
    cases h2 with
    | stop _ => exact h1 rfl
    | @step _ _ d a q h3 h4 _ => exact h d ((hmem d).2 h3) a (gen_legal hg.board (dice_ok hg _ h3) hf h4)
  · constructor
    · intro he d hd
      rw [List.eq_nil_iff_forall_not_mem]
      intro a ha
      have hd' := (hmem d).1 hd
      obtain ⟨q, hq⟩ := genPlay_exists (mover g) _ ((allMoves g.roll).erase d) (next (mover g) g.board a) rfl
      obtain ⟨m, hm, -⟩ := pureMoves_complete (by simp) (.step hd' ha hq)
      rw [he] at hm; simp at hm
    · intro h
      rw [List.eq_nil_iff_forall_not_mem]
      intro m hm
      obtain ⟨h1, h2⟩ := mem_pureMoves hm
      cases h2 with
      | stop _ => exact h1 rfl
      | @step _ _ d a q h3 h4 _ => rw [h d ((hmem d).2 h3)] at h4; simp at h4

/-- A position in which the list is empty: one checker on the bar against a closed board. -/
example : getValidMoves .debug { barState with board := { barState.board with pts := #v[0, -2, 0, -3, 0, -5, 0, -3, 0, 0, 0, 0, 0, 0, 0, 0, 0, 0, 2, 3, 2, 3, 2, 2] } } = .ok [] := by
  decide +kernel

/-! ## C14 -/

/-- C14: swapping the two dice does not change the returned list, for every state, valid or not. -/
theorem C14_dice_order (pf : Profile) (g : State) :
    getValidMoves pf { g with roll := (g.roll.2, g.roll.1) } = getValidMoves pf g := by
  have e : allMoves (g.roll.2, g.roll.1) = allMoves g.roll := by
    unfold allMoves
    simp only
    by_cases h : g.roll.1 = g.roll.2
    · rw [h]
    · split <;> split <;> first | rfl | (exfalso; omega)
  have e2 : decide ((g.roll.2, g.roll.1) ≠ (0, 0)) = decide (g.roll ≠ (0, 0)) := by
    have : (g.roll.2, g.roll.1) ≠ (0, 0) ↔ g.roll ≠ (0, 0) := by
      rw [not_iff_not]
      constructor
      · intro h; exact Prod.ext (by simpa using congrArg Prod.snd h) (by simpa using congrArg Prod.fst h)
      · intro h; rw [h]
    simp only [this]
  unfold getValidMoves
  simp only [e, e2]

example : getValidMoves .debug { shortState with roll := (5, 6) } = .ok [[(7, 2), (10, 4)], [(10, 5)]] := by
  decide +kernel

/-! ## C15 -/

/-- C15: with no opposing checker in the mover's home board the boards offered are exactly the final positions of the
complete plays by the rules (nothing illegal, nothing missing). -/
theorem C15_refinement (pf : Profile) {g : State} (hg : StateOK g) (hf : (view g.board).homeFree (mover g)) :
    ∃ ms, getValidMoves pf g = .ok ms ∧ ∀ Q : Pos,
      (∃ m ∈ ms, ∃ b, getNextState pf g.board m g.player = .ok b ∧ view b = Q) ↔
      (∃ q, q ≠ [] ∧ Play (mover g) [g.roll.1, g.roll.2] (view g.board) q ∧
        afterAll (mover g) (view g.board) q = Q) := by
  refine ⟨_, validMoves_eq pf hg, fun Q => ?_⟩
  constructor
  · rintro ⟨m, hm, b, hb, rfl⟩
    obtain ⟨h1, h2⟩ := mem_pureMoves hm
    refine ⟨m, h1, MaxPlay.perm (genPlay_play h2 hg.board (dice_ok hg) hf) (allMoves_perm _), ?_⟩
    rw [mover_sgn hg, getNextState_run pf h2 hg.board (dice_ok hg), Except.ok.injEq] at hb
    rw [← hb, view_run h2 hg.board (dice_ok hg)]
  · rintro ⟨q, h1, h2, rfl⟩
    have hq := play_genPlay (MaxPlay.perm h2 (allMoves_perm g.roll).symm) g.board rfl hg.board (dice_ok hg) hf
    obtain ⟨m, hm, e⟩ := pureMoves_complete h1 hq
    have hgm := (mem_pureMoves hm).2
    refine ⟨m, hm, run (mover g) g.board m, ?_, ?_⟩
    · rw [mover_sgn hg]; exact getNextState_run pf hgm hg.board (dice_ok hg)
    · rw [e, view_run hq hg.board (dice_ok hg)]

/-- C15: the returned moves themselves are complete plays by the rules. -/
theorem C15_returned_legal (pf : Profile) {g : State} (hg : StateOK g) (hf : (view g.board).homeFree (mover g))
    {ms : List Actions} (hms : getValidMoves pf g = .ok ms) {m : Actions} (hm : m ∈ ms) :
    Play (mover g) [g.roll.1, g.roll.2] (view g.board) m :=
  MaxPlay.perm (genPlay_play (returned hg hms hm).2 hg.board (dice_ok hg) hf) (allMoves_perm _)

example : StateOK bearState ∧ (view bearState.board).homeFree (mover bearState) := ⟨bearState_ok, bearState_free⟩

/-! ## C16 -/

/-- C16: a legal checker move has exactly the effect the rules prescribe (`Spec.after`: one checker leaves the source,
one arrives, a blot goes to the bar, nothing else changes) and keeps the board valid. -/
theorem C16_effect (pf : Profile) (s : Side) {b : Board} (hb : Valid b) {d : Int} (hd : 1 ≤ d ∧ d ≤ 6) {a : Act}
    (h : AlmostLegalStep s (view b) d a) :
    ∃ b', getNextState pf b [a] s.sgn = .ok b' ∧ view b' = after s (view b) a ∧ Valid b' := by
  refine ⟨next s b a, ?_, view_next hb hd.1 h, valid_next hb hd.1 h⟩
  unfold getNextState
  rw [List.foldlM_cons, playOne_next pf hb hd.1 h]
  rfl

/-- C16: points other than source and destination keep their entry. -/
theorem C16_frame (pf : Profile) (s : Side) {b b' : Board} (hb : Valid b) {d : Int} (hd : 1 ≤ d ∧ d ≤ 6) {a : Act}
    (h : AlmostLegalStep s (view b) d a) (he : getNextState pf b [a] s.sgn = .ok b') (i : Int) (h1 : i ≠ a.1)
    (h2 : i ≠ a.2) : b'.pt i = b.pt i := by
  obtain ⟨b'', e, hv, _⟩ := C16_effect pf s hb hd h
  have : b'' = next s b a := by
    unfold getNextState at e
    rw [List.foldlM_cons, playOne_next pf hb hd.1 h] at e
    cases e; rfl
  rw [e] at he
  cases he
  rw [this, pt_next_eq h]
  rw [if_neg (fun hc => h1 hc.1.symm), if_neg (fun hc => h2 hc.1.symm)]

/-- C16: a sequence of actions is the composition of its single actions (every board, player and action list). -/
theorem C16_composition (pf : Profile) (b : Board) (p : Int) (q q' : Actions) :
    getNextState pf b (q ++ q') p = (getNextState pf b q p >>= fun b' => getNextState pf b' q' p) := by
  unfold getNextState
  rw [List.foldlM_append]

/-- C16: the empty move changes nothing. -/
theorem C16_empty (pf : Profile) (b : Board) (p : Int) : getNextState pf b [] p = .ok b := rfl

example : AlmostLegalStep .neg (view barState.board) 2 (-1, 22) := by
  have := (returned_uses (pf := .debug) barState_ok (barState_moves .debug) (m := [(-1, 22)]) (by simp))
  cases this with
  | @cons _ _ d _ _ h1 h2 _ =>
    have hd := h2.dieUse
    have : d = 2 := by
      rw [DieRule] at hd
      simp [mover, barState] at hd
      omega
    subst this
    exact h2

/-! ## C17 -/

/-- C17: a checker move lowers the mover's pip count by at least one and at most the die; the opponent's never drops
(it grows exactly when a blot is hit). -/
theorem C17_progress {s : Side} {P : Pos} {d : Int} {a : Act} (h : AlmostLegalStep s P d a) (hd : 1 ≤ d) :
    (after s P a).pips s ≤ P.pips s - 1 ∧ P.pips s - d ≤ (after s P a).pips s ∧
    P.pips s.opp ≤ (after s P a).pips s.opp ∧
    (P.pips s.opp < (after s P a).pips s.opp ↔ a.2 ≠ -1 ∧ P.men s.opp a.2 = 1) := by
  have e1 := pips_same h
  have e2 := pips_opp h
  have sh := AlmostLegalStep_shape h
  have hdie := h.dieUse
  unfold DieRule at hdie
  have hr1 : onBoard a.1 → 1 ≤ pip s a.1 ∧ pip s a.1 ≤ 24 := pip_range
  have hr2 : onBoard a.2 → 1 ≤ pip s a.2 ∧ pip s a.2 ≤ 24 := pip_range
  have hr3 : onBoard a.2 → 1 ≤ pip s.opp a.2 ∧ pip s.opp a.2 ≤ 24 := pip_range
  have hne : onBoard a.1 → a.1 ≠ -1 := fun h => by have := h.1; omega
  have hne2 : onBoard a.2 → a.2 ≠ -1 := fun h => by have := h.1; omega
  have own : P.pips s - (after s P a).pips s ≥ 1 ∧ P.pips s - (after s P a).pips s ≤ d := by
    rcases sh with ⟨h1, h2, -, -⟩ | ⟨h1, h2, -, -⟩ | ⟨h1, h2, -, -, h5, -⟩
    · have := hr1 h2
      rw [if_neg (hne h2), if_pos h1] at e1
      rw [if_pos h1] at hdie; omega
    · have := hr2 h2
      rw [if_pos h1, if_neg (hne2 h2)] at e1
      rw [if_neg (hne2 h2), if_pos h1] at hdie; omega
    · have := hr1 h1; have := hr2 h2
      rw [if_neg (hne h1), if_neg (hne2 h2)] at e1; omega
  refine ⟨by omega, by omega, ?_, ?_⟩
  · split at e2
    · next hc => have := hr3 (h.openPoint hc.1).1; omega
    · omega
  · split at e2
    · next hc => have := hr3 (h.openPoint hc.1).1; simp only [hc, ne_eq, not_false_eq_true, and_self, iff_true]; omega
    · next hc => simp only [hc, iff_false]; omega

theorem sum_erase {l : List Int} {d : Int} (h : d ∈ l) : d + (l.erase d).sum = l.sum := by
  induction l with
  | nil => simp at h
  | cons x l ih =>
    by_cases hx : x = d
    · subst hx; simp
    · have hm : d ∈ l := by rcases List.mem_cons.1 h with h | h; exact absurd h.symm hx; exact h
      rw [List.erase_cons_tail (by simpa using hx), List.sum_cons, List.sum_cons, ← ih hm]; omega

/-- C17: each returned move lowers the mover's pip count by at least its number of checker moves and at most by the sum
of the dice, and never lowers the opponent's. -/
theorem C17_returned (pf : Profile) {g : State} (hg : StateOK g) {ms : List Actions}
    (hms : getValidMoves pf g = .ok ms) {m : Actions} (hm : m ∈ ms) {b : Board}
    (hb : getNextState pf g.board m g.player = .ok b) :
    (view b).pips (mover g) + m.length ≤ (view g.board).pips (mover g) ∧
    (view g.board).pips (mover g) ≤ (view b).pips (mover g) + g.roll.1 + g.roll.2 ∧
    (view g.board).pips (mover g).opp ≤ (view b).pips (mover g).opp := by
  have hgm := (returned hg hms hm).2
  rw [mover_sgn hg, getNextState_run pf hgm hg.board (dice_ok hg), Except.ok.injEq] at hb
  rw [← hb, view_run hgm hg.board (dice_ok hg)]
  have hu := returned_uses hg hms hm
  have hdice : DiceOK [g.roll.1, g.roll.2] := by
    intro d hd; exact dice_ok hg d ((allMoves_perm g.roll).mem_iff.2 hd)
  have hsum : g.roll.1 + g.roll.2 = [g.roll.1, g.roll.2].sum := by simp
  rw [Int.add_assoc, hsum]
  clear hb hgm hm hms hsum
  generalize mover g = s at *
  generalize view g.board = P at *
  generalize [g.roll.1, g.roll.2] = dice at *
  induction hu with
  | @nil dice P =>
    refine ⟨by simp [afterAll], ?_, by simp [afterAll]⟩
    have : 0 ≤ dice.sum := sum_nonneg' (fun x hx => by have := hdice x hx; omega)
    simp only [afterAll, List.foldl_nil]; omega
  | @cons dice P d a q h1 h2 _ ih =>
    have hd := hdice d h1
    have hp := C17_progress h2 hd.1
    obtain ⟨i1, i2, i3⟩ := ih (hdice.erase d)
    have hs : d + (dice.erase d).sum = dice.sum := by
      exact sum_erase h1
    simp only [afterAll, List.foldl_cons, List.length_cons] at i1 i2 i3 ⊢
    omega

theorem off_mono {s : Side} {P : Pos} {a : Act} (u : Side) : P.off u ≤ (after s P a).off u := by
  rcases side_cases s u with rfl | rfl
  · rw [after_off_same]; omega
  · rw [after_off_opp]

theorem off_mono_all (s u : Side) (P : Pos) (q : Actions) : P.off u ≤ (afterAll s P q).off u := by
  induction q generalizing P with
  | nil => exact Nat.le_refl _
  | cons a q ih => exact Nat.le_trans (off_mono u) (ih _)

/-- C17: collected counts never decrease along a history. -/
theorem C17_collected_monotone (pf : Profile) {g g' : State} (hg : StateOK g) (h : Step pf g g') (u : Side) :
    (view g.board).off u ≤ (view g'.board).off u := by
  cases h with
  | move h1 h2 h3 h4 => rw [applyMove_view hg h1 h2 h4]; exact off_mono_all _ _ _ _
  | skip h1 h2 => rw [skipTurn_board hg h2]

example : (view initialBoard).pips .neg = 167 ∧ (view initialBoard).pips .pos = 167 := by decide +kernel

/-! ## C18 -/

/-- C18: along a game that stops at the first winner, `check_winner` reports exactly the player who has collected all 15
checkers, and at most one player has. -/
theorem C18_winner_iff (pf : Profile) {g : State} (h : ReachStop pf g) :
    (∀ s, checkWinner g = some s.sgn ↔ (view g.board).off s = 15) ∧
    (checkWinner g = none ↔ ∀ s, (view g.board).off s ≠ 15) ∧
    ¬ ((view g.board).off .neg = 15 ∧ (view g.board).off .pos = 15) := by
  have key : ¬ ((view g.board).off .neg = 15 ∧ (view g.board).off .pos = 15) := by
    cases h with
    | start _ => exact fun hc => absurd (show (view initialBoard).off .neg = 15 from hc.1) (by decide)
    | @step g0 _ hr hn hs =>
      have hg := reach_ok (reachStop_reach hr)
      have h0 : g0.board.col.1 ≠ 15 ∧ g0.board.col.2 ≠ 15 := by
        unfold checkWinner checkWinWithoutPlayer at hn
        split at hn
        · cases hn
        · split at hn
          · cases hn
          · constructor <;> assumption
      have hv1 : (view g0.board).off .neg ≠ 15 := by simp only [off_neg]; omega
      have hv2 : (view g0.board).off .pos ≠ 15 := by simp only [off_pos]; omega
      cases hs with
      | move h1 h2 h3 h4 =>
        rw [applyMove_view hg h1 h2 h4]
        -- only the mover's count changes
        have hopp : ∀ (s : Side) (P : Pos) (q : Actions), (afterAll s P q).off s.opp = P.off s.opp := by
          intro s P q
          induction q generalizing P with
          | nil => rfl
          | cons a q ih =>
            show (afterAll s (after s P a) q).off s.opp = _
            rw [ih, after_off_opp]
        have := hopp (mover g0) (view g0.board)
        cases hm : mover g0 <;> rw [hm] at this <;> simp only [opp_neg, opp_pos] at this
        · rw [this]; exact fun hc => hv2 hc.2
        · rw [this]; exact fun hc => hv1 hc.1
      | skip h1 h2 => rw [skipTurn_board hg h2]; exact fun hc => hv1 hc.1
  have hv := (reach_ok (reachStop_reach h)).board
  have hc1 := hv.col1
  have hc2 := hv.col2
  simp only [off_neg, off_pos] at key
  refine ⟨?_, ?_, by simpa only [off_neg, off_pos] using key⟩
  · intro s
    unfold checkWinner checkWinWithoutPlayer
    cases s
    · simp only [sgn_neg, off_neg]
      split
      · simp only [true_iff]; omega
      · split
        · simp only [Option.some.injEq]; constructor <;> intro h <;> omega
        · simp only [reduceCtorEq, false_iff]; omega
    · simp only [sgn_pos, off_pos]
      split
      · simp only [Option.some.injEq]; constructor <;> intro h <;> omega
      · split
        · simp only [true_iff]; omega
        · simp only [reduceCtorEq, false_iff]; omega
  · unfold checkWinner checkWinWithoutPlayer
    constructor
    · intro h s
      split at h
      · cases h
      · split at h
        · cases h
        · cases s <;> simp only [off_neg, off_pos] <;> omega
    · intro h
      have h1 := h .neg
      have h2 := h .pos
      simp only [off_neg, off_pos] at h1 h2
      rw [if_neg (by omega), if_neg (by omega)]

/-- C18, for `check_win`: it says of a player whether that player has collected all 15 checkers, on any board; so it agrees
with `check_winner` along a game that stops at the first winner. -/
theorem C18_check_win (pf : Profile) (s : Side) : (∀ b : Board, checkWin b s.sgn = true ↔ (view b).off s = 15) ∧
    ∀ {g : State}, ReachStop pf g → (checkWin g.board s.sgn = true ↔ checkWinner g = some s.sgn) := by
  have key : ∀ b : Board, checkWin b s.sgn = true ↔ (view b).off s = 15 := by
    intro b
    cases s with
    | neg => simp [checkWin, Side.sgn, off_neg]; omega
    | pos => simp [checkWin, Side.sgn, off_pos]; omega
  exact ⟨key, fun h => (key _).trans ((C18_winner_iff pf h).1 s).symm⟩

/-- C18: the winner is the player who just moved. -/
theorem C18_winner_moved_last (pf : Profile) {g g' : State} (h : ReachStop pf g) (hn : checkWinner g = none)
    (hs : Step pf g g') {w : Int} (hw : checkWinner g' = some w) :
    w = g.player ∧ ∃ ms m dice, getValidMoves pf g = .ok ms ∧ m ∈ ms ∧ applyMove pf g m dice = .ok g' := by
  have hg := reach_ok (reachStop_reach h)
  have h' : ReachStop pf g' := .step h hn hs
  have hno := (C18_winner_iff pf h).2.1.1 hn
  have hiff := (C18_winner_iff pf h').1
  have hopp : ∀ (s : Side) (P : Pos) (q : Actions), (afterAll s P q).off s.opp = P.off s.opp := by
    intro s P q
    induction q generalizing P with
    | nil => rfl
    | cons a q ih =>
      show (afterAll s (after s P a) q).off s.opp = _
      rw [ih, after_off_opp]
  have hws : ∃ s : Side, w = s.sgn := by
    unfold checkWinner checkWinWithoutPlayer at hw
    split at hw
    · exact ⟨.neg, by simpa using hw.symm⟩
    · split at hw
      · exact ⟨.pos, by simpa using hw.symm⟩
      · cases hw
  obtain ⟨s, rfl⟩ := hws
  have hoff := (hiff s).1 hw
  cases hs with
  | move h1 h2 h3 h4 =>
    refine ⟨?_, _, _, _, h1, h2, h4⟩
    rw [applyMove_view hg h1 h2 h4] at hoff
    rw [mover_sgn hg]
    rcases side_cases (mover g) s with e | e
    · rw [e]
    · rw [e, hopp] at hoff
      exact absurd hoff (hno _)
  | skip h1 h2 =>
    rw [skipTurn_board hg h2] at hoff
    exact absurd hoff (hno _)

/-- C18: a player who has collected all checkers keeps that status whatever is played afterwards. -/
theorem C18_persistent (pf : Profile) {g g' : State} (hg : ReachAny pf g) (hs : Step pf g g') (s : Side)
    (h : (view g.board).off s = 15) : (view g'.board).off s = 15 := by
  have hle := C17_collected_monotone pf (reachAny_ok hg) hs s
  have hv := (step_ok (reachAny_ok hg) hs).board.men_le s 0
  omega

/-- The winner of a finished bear-off. -/
example : (applyMove .debug bearState [(20, -1), (19, -1)] (1, 2)).map checkWinner = .ok (some 1) := by decide +kernel

/-! ## C24 -/

/-- All six points of the home board of `s` are made. -/
def closedHome (P : Pos) (s : Side) : Prop := ∀ i, onBoard i → pip s i ≤ 6 → 2 ≤ P.men s i

/-- Both players are on the bar against a closed board. -/
def deadlock (P : Pos) : Prop := ∀ s : Side, 0 < P.bar s ∧ closedHome P s.opp

/-- C24: no reachable position is a mutual bar deadlock. -/
theorem C24_no_deadlock (pf : Profile) {g : State} (h : ReachAny pf g) : ¬ deadlock (view g.board) := by
  refine reachAny_invariant (I := fun P => ¬ deadlock P) ?_ ?_ h
  · intro hd
    have := (hd .neg).1
    revert this
    decide
  · intro s P d a hd6 _ hs hdl
    have hb := (hdl s).1
    rw [after_bar_same] at hb
    have he : a.1 = -1 := hs.barFirst (by omega)
    have hsh := AlmostLegalStep_shape hs
    have h2 : onBoard a.2 ∧ P.men s.opp a.2 ≤ 1 := by
      rcases hsh with ⟨-, h2, -, -⟩ | ⟨-, h2, -, h4⟩ | ⟨h1, -⟩
      · have := h2.1; omega
      · exact ⟨h2, h4⟩
      · have := h1.1; omega
    have hdie := hs.dieUse
    have hne : a.2 ≠ -1 := by have := h2.1.1; omega
    rw [DieRule, if_neg hne, if_pos he] at hdie
    have hhome : pip s.opp a.2 ≤ 6 := by
      have := h2.1
      unfold onBoard at this
      cases s <;> simp only [pip_neg, pip_pos, opp_neg, opp_pos] at * <;> omega
    have := (hdl s).2 a.2 h2.1 hhome
    rw [after_men_opp] at this
    split at this
    · omega
    · omega

/-- The forbidden configuration exists as a valid board, so C24 is not vacuous. -/
example : ∃ b, Valid b ∧ deadlock (view b) := by
  refine ⟨{ pts := #v[-2, -2, -2, -2, -2, -2, 0, 0, 0, 0, 0, 0, 0, 0, 0, 0, 0, 0, 2, 2, 2, 2, 2, 2], hit := (3, 3), col := (0, 0) }, ?_, ?_⟩
  · refine ⟨by decide, by decide, by decide, by decide, ?_⟩
    intro s; cases s <;> decide +kernel
  · intro s
    cases s
    · refine ⟨by decide, ?_⟩
      intro i hi hp
      simp only [opp_neg, pip_pos, onBoard] at hi hp
      have : i = 18 ∨ i = 19 ∨ i = 20 ∨ i = 21 ∨ i = 22 ∨ i = 23 := by omega
      rcases this with rfl | rfl | rfl | rfl | rfl | rfl <;> decide
    · refine ⟨by decide, ?_⟩
      intro i hi hp
      simp only [opp_pos, pip_neg, onBoard] at hi hp
      have : i = 0 ∨ i = 1 ∨ i = 2 ∨ i = 3 ∨ i = 4 ∨ i = 5 := by omega
      rcases this with rfl | rfl | rfl | rfl | rfl | rfl <;> decide

end DieE.Props
