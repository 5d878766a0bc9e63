import Verif.Props.First
import Verif.Props.Labels
import Verif.Props.Symmetry

/-!
# C142: how the plain search opens a game of Backgammon

With the 100 iterations of the configuration the opening move of `mct_search` depends on the roll and the side only (C129).
This is the list of these moves.  The two sides do not play alike: with every roll the side -1 plays a move whose mirror image
is not what the side 1 plays.
-/

namespace DieE.Props.Og
open DieE DieE.Mcts DieE.BG DieE.Spec DieE.Props.S DieE.Props.Fi DieE.Props.Gl DieE.Props.Wn
variable {Fl : Floats} {B : Nat}

/-- The opening moves of a side by the roll, the larger die first. -/
def openings : Side → List ((Int × Int) × Actions)
  | .neg =>
    [((1, 1), [(5, 4), (4, 3)]), ((2, 1), [(5, 4), (4, 2)]), ((2, 2), [(5, 3), (3, 1)]), ((3, 1), [(5, 4), (4, 1)]),
     ((3, 2), [(5, 3), (5, 2)]), ((3, 3), [(5, 2), (5, 2)]), ((4, 1), [(5, 4), (5, 1)]), ((4, 2), [(5, 3), (5, 1)]),
     ((4, 3), [(5, 2), (5, 1)]), ((4, 4), [(5, 1), (5, 1)]), ((5, 1), [(5, 4), (7, 2)]), ((5, 2), [(5, 3), (7, 2)]),
     ((5, 3), [(5, 2), (7, 2)]), ((5, 4), [(5, 1), (7, 2)]), ((5, 5), [(7, 2), (7, 2)]), ((6, 1), [(5, 4), (7, 1)]),
     ((6, 2), [(5, 3), (7, 1)]), ((6, 3), [(5, 2), (7, 1)]), ((6, 4), [(5, 1), (7, 1)]), ((6, 5), [(7, 2), (7, 1)]),
     ((6, 6), [(7, 1), (7, 1)])]
  | .pos =>
    [((1, 1), [(0, 1), (0, 1)]), ((2, 1), [(0, 1), (0, 2)]), ((2, 2), [(0, 2), (0, 2)]), ((3, 1), [(0, 1), (0, 3)]),
     ((3, 2), [(0, 2), (0, 3)]), ((3, 3), [(0, 3), (0, 3)]), ((4, 1), [(0, 1), (0, 4)]), ((4, 2), [(0, 2), (0, 4)]),
     ((4, 3), [(0, 3), (0, 4)]), ((4, 4), [(0, 4), (0, 4)]), ((5, 1), [(0, 1), (1, 6)]), ((5, 2), [(0, 2), (11, 16)]),
     ((5, 3), [(0, 3), (3, 8)]), ((5, 4), [(0, 4), (4, 9)]), ((5, 5), [(11, 16), (11, 16)]), ((6, 1), [(0, 1), (0, 6)]),
     ((6, 2), [(0, 2), (0, 6)]), ((6, 3), [(0, 3), (0, 6)]), ((6, 4), [(0, 4), (0, 6)]), ((6, 5), [(11, 16), (0, 6)]),
     ((6, 6), [(0, 6), (0, 6)])]

/-- The dice, the larger one first. -/
def sorted (r : Int × Int) : Int × Int := (max r.1 r.2, min r.1 r.2)

theorem openings_checked : ∀ u ∈ [Side.neg, .pos], ∀ a ∈ [(1 : Int), 2, 3, 4, 5, 6], ∀ b ∈ [(1 : Int), 2, 3, 4, 5, 6], b ≤ a →
    ∀ q ∈ (extractSequencesList (pureTrees u 2 [a, b] initialBoard)).head?, ((a, b), q) ∈ openings u := by
  decide +kernel

theorem dedup_head (u : Side) (b : Board) (l : List Actions) : (pureDedup u b l []).head? = l.head? := by
  cases l <;> simp [pureDedup]

/-- The first legal move of the opening. -/
theorem head_opening (pf : Profile) {g : State} (hg : StateOK g) (hb : g.board = initialBoard) {ms : List Actions}
    (hm : getValidMoves pf g = .ok ms) {mv : Actions} (hh : ms.head? = some mv) : (sorted g.roll, mv) ∈ openings (mover g) := by
  have e : ms = pureMoves (mover g) g.board (allMoves g.roll) := Except.ok.inj (hm.symm.trans (validMoves_eq pf hg))
  have die : ∀ x : Int, 1 ≤ x ∧ x ≤ 6 → x ∈ [(1 : Int), 2, 3, 4, 5, 6] := by
    intro x hx
    simp only [List.mem_cons, List.not_mem_nil, or_false]
    omega
  have hu : mover g ∈ [Side.neg, .pos] := by cases mover g <;> simp
  have hall : ∃ a b, allMoves g.roll = [a, b] ∧ sorted g.roll = (a, b) ∧
      ∀ q ∈ (extractSequencesList (pureTrees (mover g) 2 [a, b] initialBoard)).head?, ((a, b), q) ∈ openings (mover g) := by
    unfold allMoves sorted
    split
    · exact ⟨_, _, rfl, Prod.ext (max_eq_left (by omega)) (min_eq_right (by omega)),
        openings_checked _ hu _ (die _ hg.die1) _ (die _ hg.die2) (by omega)⟩
    · exact ⟨_, _, rfl, Prod.ext (max_eq_right (by omega)) (min_eq_left (by omega)),
        openings_checked _ hu _ (die _ hg.die2) _ (die _ hg.die1) (by omega)⟩
  obtain ⟨a, b, h1, h2, h3⟩ := hall
  rw [h2]
  refine h3 mv ?_
  rw [e, h1, hb] at hh
  unfold pureMoves at hh
  rw [dedup_head] at hh
  exact hh

/-- C142: the opening move with 100 iterations. -/
theorem C142_openings (hE : Explores Fl B) (hB : B ≤ 16777216) (h100 : 100 ≤ B) {pf : Profile} {g : State} (hg : StateOK g)
    (hb : g.board = initialBoard) (h2 : g.second = false) {player : Int} {limit : Nat} {mv : Actions} {t t' : Tape}
    (h : mctSearch (G := BG.game pf) Fl g player 100 limit t = .ok (mv, t')) : (sorted g.roll, mv) ∈ openings (mover g) :=
  head_opening pf hg hb (validMoves_eq pf hg) (C129_backgammon_opening hE hB h100 hg hb h2 (validMoves_eq pf hg) h)

open Fp Fn in
/-- C142 in single precision, with the exploration constant 2 of the configuration. -/
theorem C142_single {ln : Num → Num} (hln : LogOK ln) {pf : Profile} {g : State} (hg : StateOK g)
    (hb : g.board = initialBoard) (h2 : g.second = false) {player : Int} {limit : Nat} {mv : Actions} {t t' : Tape}
    (h : mctSearch (G := BG.game pf) (single (.fin 2) ln) g player 100 limit t = .ok (mv, t')) : (sorted g.roll, mv) ∈ openings (mover g) :=
  C142_openings (single_explores (c := 2) (by unfold Usual; norm_num) (by norm_num) hln) (by decide) (by decide) hg hb h2 h

/-- One move for each roll. -/
theorem openings_unique : ∀ u, ((openings u).map Prod.fst).Nodup := by
  intro u
  cases u <;> decide

theorem sides_checked : ∀ x ∈ openings .neg, ∀ y ∈ openings .pos, x.1 = y.1 → run .pos initialBoard y.2 ≠ mirrorBoard (run .neg initialBoard x.2) := by
  decide +kernel

/-- C142, refuted for every roll: with the same roll the two sides reach mirrored positions. -/
theorem C142_sides (hE : Explores Fl B) (hB : B ≤ 16777216) (h100 : 100 ≤ B) {pf : Profile} {g g' : State} (hg : StateOK g) (hg' : StateOK g')
    (hb : g.board = initialBoard) (hb' : g'.board = initialBoard) (h2 : g.second = false) (h2' : g'.second = false)
    (hr : sorted g.roll = sorted g'.roll) (hu : mover g = .neg) (hu' : mover g' = .pos) {player player' : Int} {limit limit' : Nat}
    {mv mv' : Actions} {t t' u u' : Tape} (h : mctSearch (G := BG.game pf) Fl g player 100 limit t = .ok (mv, t'))
    (h' : mctSearch (G := BG.game pf) Fl g' player' 100 limit' u = .ok (mv', u')) {d d' : Int × Int} {s s' : State}
    (hs : applyMove pf g mv d = .ok s) (hs' : applyMove pf g' mv' d' = .ok s') : s'.board ≠ mirrorBoard s.board := by
  have hx := C142_openings hE hB h100 hg hb h2 h
  have hy := C142_openings hE hB h100 hg' hb' h2' h'
  have hm := C129_backgammon_opening hE hB h100 hg hb h2 (validMoves_eq pf hg) h
  have hm' := C129_backgammon_opening hE hB h100 hg' hb' h2' (validMoves_eq pf hg') h'
  rw [applyMove_eq pf hg (validMoves_eq pf hg) (List.mem_of_mem_head? hm) d] at hs
  rw [applyMove_eq pf hg' (validMoves_eq pf hg') (List.mem_of_mem_head? hm') d'] at hs'
  have e : s.board = run .neg initialBoard mv := by
    rw [← Except.ok.inj hs, hu, hb]
    split <;> rfl
  have e' : s'.board = run .pos initialBoard mv' := by
    rw [← Except.ok.inj hs', hu', hb']
    split <;> rfl
  rw [hu] at hx
  rw [hu'] at hy
  rw [e, e']
  exact sides_checked _ hx _ hy hr

/-- The position at the beginning is symmetric, and so are the legal moves: what differs is their order. -/
example : mirrorBoard initialBoard = initialBoard := by decide +kernel

/-- C142 in a match: after `l` steps the search with `N` iterations plays the first of its `k` legal moves if
`l + (N - 1) / k` is at most 23. -/
theorem C142_match (hE : Explores Fl B) (hB : B ≤ 16777216) {pf : Profile} {n i : Nat} {s0 s : State} {u u' : Tape}
    (hi : Versus.initState (BG.game pf) n i u = .ok (s0, u')) {l : List (Versus.Step (BG.game pf))}
    (hl : Versus.Linked (BG.game pf) s0 l s) (hf : ∀ st ∈ l, st.Fair) {ms : List Actions} (hm : getValidMoves pf s = .ok ms) (hms : ms ≠ [])
    {N : Nat} (h0 : 0 < N) (hN : N ≤ B) (hk : ms.length ≤ N) (hfar : l.length + (N - 1) / ms.length ≤ 23) {player : Int} {limit : Nat}
    {mv : Actions} {t t' : Tape} (h : mctSearch (G := BG.game pf) Fl s player N limit t = .ok (mv, t')) : ms.head? = some mv := by
  obtain ⟨h1, h2⟩ := Lb.match_start hi
  obtain ⟨h3, h4⟩ := Lb.linked_far hl hf h1
  refine (C129_backgammon hE hB h3 hm hms h0 hN (fun v => h4 _ v ?_) h).2 hk
  have hle : ((((N - 1) / ms.length + 1 : Nat) : Int) + (l.length : Int)) ≤ 24 := by
    have : (N - 1) / ms.length + 1 + l.length ≤ 24 := by omega
    exact_mod_cast this
  rcases h2 v with h | h
  · exact .inl (by omega)
  · exact .inr (by omega)

theorem linked_head {G : Game} {s0 s : G.S} {l : List (Versus.Step G)} (h : Versus.Linked G s0 l s) {st : Versus.Step G}
    (hst : l.head? = some st) : st.before = s0 := by
  induction h with
  | nil => cases hst
  | @snoc l m st' hl hb ih =>
    cases l with
    | nil =>
      cases Option.some.inj hst
      rw [hb]
      generalize hl0 : ([] : List (Versus.Step G)) = l0 at hl
      cases hl with
      | nil => rfl
      | snoc => simp at hl0
    | cons x l => exact ih hst

/-- C142: the first step of every game of a match, at every moment of the match, if the player who begins is a plain search. -/
theorem C142_games (hE : Explores Fl B) (hB : B ≤ 16777216) (h100 : 100 ≤ B) {pf : Profile} {p1 p2 : Versus.Player Fl} {cfg : Versus.Config}
    (hc : cfg.iterations = 100) {o : Versus.Orders} (ho : o.Valid) {t u : Tape} {k : Nat} {m : Versus.Match (BG.game pf)}
    (h : V.Reaches p1 p2 cfg 400 400 o t k m u) {i : Nat} (hi : i < 400) (ha : (if i < 200 then p1 else p2).agent = .mcts)
    {st : Versus.Step (BG.game pf)} (hst : (m.steps i).head? = some st) :
    StateOK st.before ∧ (st.before : State).board = initialBoard ∧ mover (st.before : State) = (if i < 200 then .neg else .pos) ∧
      (sorted (st.before : State).roll, (st.action : Actions)) ∈ openings (if i < 200 then .neg else .pos) ∧
      (st.after : State).board = run (if i < 200 then .neg else .pos) initialBoard st.action := by
  obtain ⟨s0, s, u0, u1, h1, h2, h3⟩ := V.C55_moves (V.bg_ids pf) ho h hi
  obtain ⟨h4, h5⟩ := h3 st (List.mem_of_mem_head? hst)
  have hb := linked_head h2 hst
  obtain ⟨d, rfl, hd⟩ := V.bg_first h1
  obtain ⟨hok, -⟩ := Lb.match_start h1
  have e : (400 / 2 : Nat) = 200 := rfl
  rw [e] at hb hok
  have hok' : StateOK st.before := by rw [hb]; exact hok
  have hboard : (st.before : State).board = initialBoard := by rw [hb]; rfl
  have hsec : (st.before : State).second = false := by rw [hb]; rfl
  have hm : mover (st.before : State) = (if i < 200 then .neg else .pos) := by
    rw [hb]
    unfold mover
    by_cases h : i < 200
    · simp only [h, if_true]
    · simp only [h, if_false]
      rfl
  have hsearch : ∃ t t', mctSearch (G := BG.game pf) Fl st.before ((BG.game pf).player st.before) 100 cfg.limit t = .ok (st.action, t') := by
    obtain ⟨k1, k2⟩ := h5
    have hp : (BG.game pf).player st.before = if i < 200 then -1 else 1 := by rw [hb]; rfl
    by_cases h : i < 200
    · rw [if_pos h] at hp ha
      rw [if_pos (k1.2 hp)] at k2
      unfold Versus.Picks at k2
      rw [ha] at k2
      rw [← hc]
      exact k2
    · rw [if_neg h] at hp ha
      rw [if_neg (fun hf => by rw [k1.1 hf] at hp; cases hp)] at k2
      unfold Versus.Picks at k2
      rw [ha] at k2
      rw [← hc]
      exact k2
  obtain ⟨t1, t2, h6⟩ := hsearch
  have h7 := C142_openings hE hB h100 hok' hboard hsec h6
  have h8 := C129_backgammon_opening hE hB h100 hok' hboard hsec (validMoves_eq pf hok') h6
  refine ⟨hok', hboard, hm, hm ▸ h7, ?_⟩
  have hne : st.action ≠ (BG.game pf).emptyMove := by
    intro he
    rw [he] at h7
    have : ∀ u, ∀ x ∈ openings u, x.2 ≠ [] := by
      intro u
      cases u <;> decide
    exact this _ _ h7 rfl
  obtain ⟨s1, h9, h10⟩ := Fz.bg_plays (h4.2 hne).2
  rw [applyMove_eq pf hok' (validMoves_eq pf hok') (List.mem_of_mem_head? h8) (1, 1)] at h9
  have hs1 : s1.board = run (if i < 200 then .neg else .pos) initialBoard st.action := by
    rw [← Except.ok.inj h9, hm, hboard]
    split <;> rfl
  rcases h10 with ⟨-, -, h10⟩ | ⟨-, d', -, h10⟩
  · rw [h10]
    exact hs1
  · rw [h10]
    exact hs1

/-- C142: in a match of two plain searches no game that player 1 begins and no game that player 2 begins with the same roll
have mirrored positions after their first steps. -/
theorem C142_unlike (hE : Explores Fl B) (hB : B ≤ 16777216) (h100 : 100 ≤ B) {pf : Profile} {p1 p2 : Versus.Player Fl} {cfg : Versus.Config}
    (hc : cfg.iterations = 100) {o : Versus.Orders} (ho : o.Valid) {t u : Tape} {k : Nat} {m : Versus.Match (BG.game pf)}
    (h : V.Reaches p1 p2 cfg 400 400 o t k m u) (h1 : p1.agent = .mcts) (h2 : p2.agent = .mcts) {i j : Nat} (hi : i < 200)
    (hj : 200 ≤ j) (hj' : j < 400) {st st' : Versus.Step (BG.game pf)} (hst : (m.steps i).head? = some st) (hst' : (m.steps j).head? = some st')
    (hr : sorted (st.before : State).roll = sorted (st'.before : State).roll) :
    (st'.after : State).board ≠ mirrorBoard (st.after : State).board := by
  obtain ⟨-, -, -, h3, h4⟩ := C142_games hE hB h100 hc ho h (by omega) (by rw [if_pos hi]; exact h1) hst
  obtain ⟨-, -, -, h5, h6⟩ := C142_games hE hB h100 hc ho h hj' (by rw [if_neg (by omega)]; exact h2) hst'
  rw [if_pos hi] at h3 h4
  rw [if_neg (by omega)] at h5 h6
  rw [h4, h6]
  exact sides_checked _ h3 _ h5 hr

/-- Both sides with a 3-1: side -1 plays a checker from point 6 to point 2, side 1
splits its rear checkers. -/
example {limit : Nat} {mv mv' : Actions} {t t' u u' : Tape}
    (h : mctSearch (G := BG.game .debug) (realFloats 2) { new with roll := (1, 3) } (-1) 100 limit t = .ok (mv, t'))
    (h' : mctSearch (G := BG.game .debug) (realFloats 2) { new with roll := (3, 1), player := 1 } 1 100 limit u = .ok (mv', u')) :
    mv = [(5, 4), (4, 1)] ∧ mv' = [(0, 1), (0, 3)] := by
  have hg : StateOK { new with roll := (1, 3) } := ⟨initial_valid, .inl rfl, by decide, by decide⟩
  have hg' : StateOK { new with roll := (3, 1), player := 1 } := ⟨initial_valid, .inr rfl, by decide, by decide⟩
  have hx := C142_openings (real_explores (c := 2) (by norm_num) 100) (by decide) (by decide) hg rfl rfl h
  have hy := C142_openings (real_explores (c := 2) (by norm_num) 100) (by decide) (by decide) hg' rfl rfl h'
  constructor
  · have : ∀ x ∈ openings .neg, x.1 = (3, 1) → x.2 = [(5, 4), (4, 1)] := by decide
    exact this _ hx rfl
  · have : ∀ x ∈ openings .pos, x.1 = (3, 1) → x.2 = [(0, 1), (0, 3)] := by decide
    exact this _ hy rfl

end DieE.Props.Og
