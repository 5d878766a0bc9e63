import Verif.Train.NextMove
import Verif.Train.Learn
import Verif.Props.SelfPlay

/-! # C91: a move for a position -/

namespace DieE.Props.Nm
open DieE DieE.Mcts DieE.Train DieE.Props.A DieE.Props.S DieE.Props.L

variable {G : Game} {Fl : Floats} {W : Type}

/-- The move `a` may be answered in state `s`. -/
def Answer (G : Game) (s : G.S) (a : G.Mv) : Prop := ∃ ms, G.moves s = .ok ms ∧ (a ∈ ms ∨ ms = [] ∧ a = G.emptyMove)

/-- C91 as stated, for both games. -/
def C91_statement : Prop :=
  ∀ (Fl : Floats) (net : Net Fl) (pf : Profile) (iterations : Nat) (pw : Rat → Rat) (t : Tape), net.alphaOk = true →
    iterations ≠ 0 → PwWarm 1352 pw →
    (∀ s : TTT.State, s.player = 1 ∨ s.player = -1 → TTT.checkWinner s = none →
      ∃ a t', nextMove (G := TTT.game pf) (fun s => alphaMctsProbs (G := TTT.game pf) net s iterations) pw s t = .ok (a, t') ∧
        Answer (TTT.game pf) s a) ∧
    (∀ s : BG.State, Spec.StateOK s → BG.checkWinner s = none →
      ∃ a t', nextMove (G := BG.game pf) (fun s => alphaMctsProbs (G := BG.game pf) net s iterations) pw s t = .ok (a, t') ∧
        Answer (BG.game pf) s a)

/-- It panics for every unfinished state with a legal move (C43). -/
theorem C91_panics {R : G.S → Prop} (hs : SafeNet G R) (net : Net Fl) {s : G.S} (hR : R s) (hw : G.winner s = none)
    {ms : List G.Mv} (hm : G.moves s = .ok ms) (hne : ms ≠ []) (iterations : Nat) (pw : Rat → Rat) (t : Tape) :
    nextMove (fun s => alphaMctsProbs net s iterations) pw s t = .error .tensorError :=
  M.bind_err (C43_panics hs net hR hw hm hne iterations t)

/-- C91 is false. -/
theorem C91_refuted : ¬ C91_statement := by
  intro h
  obtain ⟨a, t', h1, -⟩ := (h demoFloats demoNet .debug 1 id demoTape rfl (by decide) ⟨⟨rfl, fun _ h => h⟩, fun _ h _ => h⟩).1
    TTT.new (.inr rfl) (by decide)
  have h2 := C91_panics (G := TTT.game .debug) (ttt_safeNet .debug) demoNet (s := TTT.new) (.inr rfl)
    (show TTT.checkWinner TTT.new = none by decide) (ms := TTT.getValidMoves TTT.new) rfl
    (show TTT.getValidMoves TTT.new ≠ ([] : List Nat) by decide) 1 id demoTape
  rw [h2] at h1
  cases h1

/-- C91 for states without legal move: the answer is the empty move.  Missing: the other states, for which the statement
is false. -/
theorem C91_stuck_partial {R : G.S → Prop} (hs : SafeNet G R) (net : Net Fl) {s : G.S} (hR : R s) (hm : G.moves s = .ok [])
    (iterations : Nat) (pw : Rat → Rat) (t : Tape) :
    nextMove (fun s => alphaMctsProbs net s iterations) pw s t = .ok (G.emptyMove, t) ∧ Answer G s G.emptyMove :=
  ⟨(M.bind_eq (C43_partial hs net hR (fun _ => hm) iterations t)).trans rfl, [], hm, .inr ⟨rfl, rfl⟩⟩

/-- C91 for any search that would return: if it gives weight only to legal moves, and nothing is `None` unless there is
no legal move, the answer is legal. -/
theorem C91_search_partial {R : G.S → Prop} (hc : Coded G R) {s : G.S} (hR : R s) {ms : List G.Mv} (hms : G.moves s = .ok ms)
    {search : G.S → M (Option Row)} {pw : Rat → Rat} (hpw : pw 0 = 0) {t t' : Tape} {a : G.Mv}
    (hnone : ∀ t1, search s t = .ok (none, t1) → ms = [])
    (hsome : ∀ row t1, search s t = .ok (some row, t1) → ∀ c y, row c = some y → y ≠ 0 → ∃ a, a ∈ ms ∧ G.encode s a = .ok c)
    (h : nextMove search pw s t = .ok (a, t')) : Answer G s a := by
  obtain ⟨r, t1, h1, h2⟩ := M.bind_ok.1 h
  refine ⟨ms, hms, ?_⟩
  cases r with
  | none =>
    obtain ⟨rfl, -⟩ := Prod.mk.inj (Except.ok.inj h2)
    exact .inr ⟨hnone _ h1, rfl⟩
  | some row =>
    obtain ⟨c, t2, h3, h4⟩ := M.bind_ok.1 h2
    obtain ⟨h5, -⟩ := M.lift_ok.1 h4
    obtain ⟨-, x, hx, hpos⟩ := weightedSelect_ok h3
    unfold temper at hx
    cases hr : row c with
    | none => rw [hr] at hx; cases hx
    | some y =>
      rw [hr] at hx
      simp only [Option.map_some, Option.some.injEq] at hx
      have hy : y ≠ 0 := by
        intro h0
        rw [h0, hpw] at hx
        rw [← hx] at hpos
        exact absurd hpos (lt_irrefl _)
      obtain ⟨b, hb, he⟩ := hsome row _ h1 c y hr hy
      obtain ⟨c', k1, -, k3⟩ := hc.code s ms b hR hms hb
      rw [he] at k1
      obtain rfl := Except.ok.inj k1
      obtain rfl := Except.ok.inj (k3.symm.trans h5)
      exact .inl hb

/-- A search that would do. -/
example : (show Option Nat from (nextMove (G := TTT.game .debug) drawSearch id TTT.new demoTape).toOption.map Prod.fst) = some 0 := by
  decide +kernel

/-- `learn`, which searches one state at a time, panics in its first game, whatever the network and configuration. -/
theorem C91_learn (pf : Profile) (S : Setup Fl W) (hl : S.selfPlays ≠ 0) (shuffle : Nat → Nat → List Mem → List Mem) (f k i : Nat) (w : W)
    (ms : Models W) (t : Tape) :
    learnSingle (G := TTT.game pf) S (fun w s => alphaMctsProbs (S.net w) s S.play.iterations) shuffle (f + 1) (k + 1) i w ms t =
      .error .tensorError ∧
    learnSingle (G := BG.game pf) S (fun w s => alphaMctsProbs (S.net w) s S.play.iterations) shuffle (f + 1) (k + 1) i w ms t =
      .error .tensorError := by
  obtain ⟨j, hj⟩ := Nat.exists_eq_succ_of_ne_zero hl
  constructor
  · unfold learnSingle
    rw [hj]
    exact M.bind_err (M.bind_err (C47_tictactoe_panics pf (S.net w) S.play.pw S.play.iterations f t))
  · unfold learnSingle
    rw [hj]
    exact M.bind_err (M.bind_err (C47_backgammon_panics pf (S.net w) S.play.pw S.play.iterations f t))

end DieE.Props.Nm
