import Verif.Mcts.Free
import Verif.Props.FrozenRace
import Verif.Props.NoPanic

/-!
# Used by C106: moves that win in the next turn, and a position in the bear-off
-/

namespace DieE.Props.Fz
open DieE DieE.Mcts DieE.Props.S DieE.Props.Wn

/-! ## What a good move is -/

/-- `w` is to move and can win in this turn. -/
inductive CanWin (G : Game) (w : Int) : G.S → Prop
  | now {s s' : G.S} {ms : List G.Mv} {a : G.Mv} : G.player s = w → G.moves s = .ok ms → a ∈ ms → Plays G s a s' →
      G.winner s' = some w → CanWin G w s
  | again {s s' : G.S} {ms : List G.Mv} {a : G.Mv} : G.player s = w → G.moves s = .ok ms → a ∈ ms → Plays G s a s' →
      G.winner s' = none → CanWin G w s' → CanWin G w s

/-- However the opponent rolls and plays, the opponent has won before `w` is to move again, or then `w` can win in that
turn, whatever `w` rolls. -/
inductive WinsNext (G : Game) (w : Int) : G.S → Prop
  | over {s : G.S} : G.winner s = some (-w) → WinsNext G w s
  | turn {s : G.S} : G.winner s = none → CanWin G w s → WinsNext G w s
  | wait {s : G.S} : G.winner s = none → G.player s ≠ w →
      (∀ (ms : List G.Mv) (a : G.Mv) (s' : G.S), G.moves s = .ok ms → a ∈ ms → Plays G s a s' → WinsNext G w s') →
      WinsNext G w s

theorem CanWin.inv {G : Game} {w : Int} {s : G.S} (h : CanWin G w s) : G.player s = w ∧ ∃ (ms : List G.Mv) (a : G.Mv) (s' : G.S),
    G.moves s = .ok ms ∧ a ∈ ms ∧ Plays G s a s' ∧ (G.winner s' = some w ∨ (G.winner s' = none ∧ CanWin G w s')) := by
  cases h with
  | now h1 h2 h3 h4 h5 => exact ⟨h1, _, _, _, h2, h3, h4, .inl h5⟩
  | again h1 h2 h3 h4 h5 h6 => exact ⟨h1, _, _, _, h2, h3, h4, .inr ⟨h5, h6⟩⟩

theorem WinsNext.inv {G : Game} {w : Int} {s : G.S} (h : WinsNext G w s) : G.winner s = some (-w) ∨
    (G.winner s = none ∧ CanWin G w s) ∨ (G.winner s = none ∧ G.player s ≠ w ∧
      ∀ (ms : List G.Mv) (a : G.Mv) (s' : G.S), G.moves s = .ok ms → a ∈ ms → Plays G s a s' → WinsNext G w s') := by
  cases h with
  | over h => exact .inl h
  | turn h1 h2 => exact .inr (.inl ⟨h1, h2⟩)
  | wait h1 h2 h3 => exact .inr (.inr ⟨h1, h2, h3⟩)

/-- All rolls. -/
def dice : List (Int × Int) :=
  [1, 2, 3, 4, 5, 6].flatMap fun a => [1, 2, 3, 4, 5, 6].map fun b => (a, b)

theorem mem_dice {d : Int × Int} (h : Spec.DiceInRange d) : d ∈ dice := by
  obtain ⟨a, b⟩ := d
  obtain ⟨⟨h1, h2⟩, h3, h4⟩ := h
  simp only at h1 h2 h3 h4
  have e1 : a = 1 ∨ a = 2 ∨ a = 3 ∨ a = 4 ∨ a = 5 ∨ a = 6 := by omega
  have e2 : b = 1 ∨ b = 2 ∨ b = 3 ∨ b = 4 ∨ b = 5 ∨ b = 6 := by omega
  rcases e1 with rfl | rfl | rfl | rfl | rfl | rfl <;> rcases e2 with rfl | rfl | rfl | rfl | rfl | rfl <;> decide

theorem dice_range {d : Int × Int} (h : d ∈ dice) : Spec.DiceInRange d := by
  have : ∀ d ∈ dice, (1 ≤ d.1 ∧ d.1 ≤ 6) ∧ (1 ≤ d.2 ∧ d.2 ≤ 6) := by decide
  exact this d h

/-- Positions after a move: the roll of the next player is arbitrary, unless the same player goes on after a double. -/
theorem bg_plays {pf : Profile} {s s' : BG.State} {a : BG.Actions} (h : Plays (BG.game pf) s a s') :
    ∃ s0, BG.applyMove pf s a (1, 1) = .ok s0 ∧ ((s.roll.1 = s.roll.2 ∧ s.second = false ∧ s' = s0) ∨
      (¬ (s.roll.1 = s.roll.2 ∧ s.second = false) ∧ ∃ d ∈ dice, s' = BG.rollWith s0 d)) := by
  obtain ⟨t, t', h⟩ := h
  have h : BG.applyM pf s a t = .ok (s', t') := h
  unfold BG.applyM at h
  obtain ⟨d, t1, h1, h2⟩ := M.bind_ok.1 h
  have h2 := (M.lift_ok.1 h2).1
  by_cases hc : s.roll.1 = s.roll.2 ∧ s.second = false
  · refine ⟨s', ?_, .inl ⟨hc.1, hc.2, rfl⟩⟩
    rw [← h2]
    unfold BG.applyMove
    simp only [hc, and_self, if_true]
  · rw [if_neg hc] at h1
    have hd : d ∈ dice := by
      obtain ⟨x, t2, g1, h1⟩ := M.bind_ok.1 h1
      obtain ⟨y, t3, g2, h1⟩ := M.bind_ok.1 h1
      obtain ⟨k1, t4, -, g1⟩ := M.bind_ok.1 g1
      obtain ⟨k2, t5, -, g2⟩ := M.bind_ok.1 g2
      have e1 := (Prod.mk.inj (M.pure_ok.1 g1)).1
      have e2 := (Prod.mk.inj (M.pure_ok.1 g2)).1
      have e3 := (Prod.mk.inj (M.pure_ok.1 h1)).1
      rw [e3]
      refine mem_dice ⟨?_, ?_⟩ <;> simp only <;> omega
    unfold BG.applyMove at h2 ⊢
    cases hb : BG.getNextState pf s.board a s.player with
    | error e => rw [hb] at h2; cases h2
    | ok b =>
      rw [hb] at h2
      change (if s.roll.1 = s.roll.2 ∧ s.second = false then _ else _) = _ at h2
      rw [if_neg hc] at h2
      cases hp : i8 pf (s.player * -1) with
      | error e => rw [hp] at h2; cases h2
      | ok p =>
        rw [hp] at h2
        refine ⟨BG.rollWith { s with board := b, second := false, player := p } (1, 1), ?_, .inr ⟨hc, d, hd, ?_⟩⟩
        · show (if s.roll.1 = s.roll.2 ∧ s.second = false then _ else _) = _
          rw [if_neg hc, hp]
          rfl
        · rw [← Except.ok.inj h2]
          rfl

/-- Any roll is possible. -/
theorem free_apply {pf : Profile} {s s' : BG.State} {a : BG.Actions} {d : Int × Int} (hd : d ∈ dice)
    (h : BG.applyMove pf s a d = .ok s') : M.Free (BG.applyM pf s a) s' := by
  have hr := dice_range hd
  unfold BG.applyM
  by_cases hc : s.roll.1 = s.roll.2 ∧ s.second = false
  · rw [if_pos hc]
    refine (M.Free.pure _).bind (M.Free.lift ?_)
    rw [← h]
    unfold BG.applyMove
    simp only [hc, and_self, if_true]
  · rw [if_neg hc]
    refine M.Free.bind (a := d) ?_ (M.Free.lift h)
    exact (M.Free.die hr.1.1 hr.1.2).bind ((M.Free.die hr.2.1 hr.2.2).bind (.pure _))

theorem plays_of {pf : Profile} {s s' : BG.State} {a : BG.Actions} {d : Int × Int} (hd : d ∈ dice)
    (h : BG.applyMove pf s a d = .ok s') : Plays (BG.game pf) s a s' := by
  obtain ⟨t, e⟩ := free_apply hd h (fun _ => 0)
  exact ⟨t, _, e⟩

/-- The build profile makes no difference. -/
theorem profile_moves (pf : Profile) {s : BG.State} (hs : Spec.StateOK s) : BG.getValidMoves pf s = BG.getValidMoves .debug s := by
  rw [BG.validMoves_eq pf hs, BG.validMoves_eq .debug hs]

theorem profile_apply (pf : Profile) {s : BG.State} (hs : Spec.StateOK s) {ms : List BG.Actions}
    (hm : BG.getValidMoves .debug s = .ok ms) {a : BG.Actions} (ha : a ∈ ms) (d : Int × Int) :
    BG.applyMove pf s a d = BG.applyMove .debug s a d := by
  rw [BG.applyMove_eq pf hs ((profile_moves pf hs).trans hm) ha d, BG.applyMove_eq .debug hs hm ha d]

/-- The same position with the dice exchanged. -/
def swap (s : BG.State) : BG.State := { s with roll := (s.roll.2, s.roll.1) }

theorem swap_eq {s : BG.State} (h : s.roll.1 = s.roll.2) : swap s = s := by
  obtain ⟨b, ⟨x, y⟩, p, f, i⟩ := s
  simp only at h
  subst h
  rfl

theorem moves_swap (pf : Profile) (s : BG.State) : BG.getValidMoves pf (swap s) = BG.getValidMoves pf s := by
  by_cases h : s.roll.1 = s.roll.2
  · rw [swap_eq h]
  · have e1 : BG.allMoves (swap s).roll = BG.allMoves s.roll := by
      unfold BG.allMoves swap
      simp only
      split <;> split <;> first | rfl | omega
    have e2 : decide ((swap s).roll ≠ (0, 0)) = decide (s.roll ≠ (0, 0)) := by
      congr 1
      unfold swap
      obtain ⟨b, ⟨x, y⟩, p, f, i⟩ := s
      simp only [ne_eq, Prod.mk.injEq, not_and, eq_iff_iff]
      omega
    unfold BG.getValidMoves
    rw [e1, e2]
    rfl

theorem plays_swap {pf : Profile} {s s' : BG.State} {a : BG.Actions} (h : Plays (BG.game pf) (swap s) a s') :
    Plays (BG.game pf) s a s' := by
  by_cases hd : s.roll.1 = s.roll.2
  · rw [swap_eq hd] at h
    exact h
  · obtain ⟨t, t', h⟩ := h
    refine ⟨t, t', ?_⟩
    have h : BG.applyM pf (swap s) a t = .ok (s', t') := h
    show BG.applyM pf s a t = .ok (s', t')
    rw [← h]
    have c1 : ¬ (s.roll.1 = s.roll.2 ∧ s.second = false) := fun c => hd c.1
    have c2 : ¬ ((swap s).roll.1 = (swap s).roll.2 ∧ (swap s).second = false) := fun c => hd c.1.symm
    have e : ∀ d, BG.applyMove pf s a d = BG.applyMove pf (swap s) a d := by
      intro d
      unfold BG.applyMove
      simp only [c1, c2, if_false]
      rfl
    unfold BG.applyM
    rw [if_neg c1, if_neg c2]
    simp only [e]

theorem CanWin.swap {pf : Profile} {w : Int} {s : BG.State} (h : CanWin (BG.game pf) w (swap s)) : CanWin (BG.game pf) w s := by
  obtain ⟨h1, ms, a, s', h2, h3, h4, h5⟩ := h.inv
  rcases h5 with h5 | ⟨h5, h6⟩
  · exact .now h1 ((moves_swap pf s).symm.trans h2) h3 (plays_swap h4) h5
  · exact .again h1 ((moves_swap pf s).symm.trans h2) h3 (plays_swap h4) h5 h6

theorem swap_swap (s : BG.State) : Fz.swap (Fz.swap s) = s := rfl

theorem WinsNext.swap {pf : Profile} {w : Int} {s : BG.State} (h : WinsNext (BG.game pf) w (Fz.swap s)) :
    WinsNext (BG.game pf) w s := by
  rcases h.inv with h | ⟨h1, h2⟩ | ⟨h1, h2, h3⟩
  · exact .over h
  · exact .turn h1 h2.swap
  · refine .wait h1 h2 ?_
    intro ms a s' hm ha hp
    refine h3 ms a s' ((moves_swap pf s).trans hm) ha ?_
    exact plays_swap (s := Fz.swap s) hp

/-- The rolls up to order. -/
def pairs : List (Int × Int) := dice.filter fun d => d.1 ≤ d.2

theorem pairs_cover {P : Int × Int → Prop} (h : ∀ d ∈ pairs, P d) (hs : ∀ x y, P (y, x) → P (x, y)) : ∀ d ∈ dice, P d := by
  intro d hd
  by_cases hle : d.1 ≤ d.2
  · exact h d (List.mem_filter.2 ⟨hd, decide_eq_true hle⟩)
  · have hr := dice_range hd
    exact hs d.1 d.2 (h (d.2, d.1) (List.mem_filter.2 ⟨mem_dice ⟨hr.2, hr.1⟩, decide_eq_true (by simp only; omega)⟩))

/-! ## Checks by computation -/

def canWinB (w : Int) : Nat → BG.State → Bool
  | 0, _ => false
  | f + 1, s => decide (s.player = w) && match BG.getValidMoves .debug s with
    | .ok ms => ms.any fun a => match BG.applyMove .debug s a (1, 1) with
      | .ok s' => decide (BG.checkWinner s' = some w) || (decide (BG.checkWinner s' = none) && canWinB w f s')
      | .error _ => false
    | .error _ => false

theorem canWinB_sound (pf : Profile) {w : Int} (f : Nat) (s : BG.State) (hs : Spec.StateOK s) (h : canWinB w f s = true) :
    CanWin (BG.game pf) w s := by
  induction f generalizing s with
  | zero => cases h
  | succ f ih =>
    unfold canWinB at h
    rw [Bool.and_eq_true, decide_eq_true_eq] at h
    obtain ⟨hp, h⟩ := h
    split at h
    case h_2 => cases h
    case h_1 ms hm =>
      obtain ⟨a, ha, h⟩ := List.any_eq_true.1 h
      split at h
      case h_2 => cases h
      case h_1 s' hs' =>
        have hd : ((1, 1) : Int × Int) ∈ dice := by decide
        have hok := BG.applyMove_ok hs hm ha (dice_range hd) hs'
        have hpl := plays_of (pf := pf) hd ((profile_apply pf hs hm ha _).trans hs')
        have hm' := (profile_moves pf hs).trans hm
        rw [Bool.or_eq_true, Bool.and_eq_true, decide_eq_true_eq, decide_eq_true_eq] at h
        rcases h with h | ⟨h1, h2⟩
        · exact .now hp hm' ha hpl h
        · exact .again hp hm' ha hpl h1 (ih s' hok h2)

def winsNextB (w : Int) (bs : List BG.Board) : Nat → BG.State → Bool
  | 0, _ => false
  | f + 1, s => match BG.checkWinner s with
    | some v => decide (v = -w)
    | none => decide (s.player ≠ w) && match BG.getValidMoves .debug s with
      | .ok ms => ms.all fun a => match BG.applyMove .debug s a (1, 1) with
        | .ok s' =>
          if s.roll.1 = s.roll.2 ∧ s.second = false then winsNextB w bs f s'
          else match BG.checkWinner s' with
            | some v => decide (v = -w)
            | none => decide (s'.player = w) && (decide (s'.second = false) && (decide (s'.id = 0) && decide (s'.board ∈ bs)))
        | .error _ => false
      | .error _ => false

theorem winsNextB_sound (pf : Profile) {w : Int} {bs : List BG.Board}
    (hb : ∀ b ∈ bs, ∀ d ∈ dice, CanWin (BG.game pf) w ({ board := b, roll := d, player := w, second := false, id := 0 } : BG.State))
    (f : Nat) (s : BG.State) (hs : Spec.StateOK s) (h : winsNextB w bs f s = true) : WinsNext (BG.game pf) w s := by
  induction f generalizing s with
  | zero => cases h
  | succ f ih =>
    unfold winsNextB at h
    split at h
    case h_1 v hv =>
      rw [decide_eq_true_eq] at h
      subst h
      exact .over hv
    case h_2 hv =>
      rw [Bool.and_eq_true, decide_eq_true_eq] at h
      obtain ⟨hp, h⟩ := h
      split at h
      case h_2 => cases h
      case h_1 ms hm =>
        refine .wait hv hp ?_
        intro ms' a s' hm' ha hpl
        have hm' : BG.getValidMoves pf s = .ok ms' := hm'
        rw [profile_moves pf hs, hm] at hm'
        cases Except.ok.inj hm'
        obtain ⟨s0, e, hs0⟩ := bg_plays hpl
        rw [profile_apply pf hs hm ha] at e
        have hok := BG.applyMove_ok hs hm ha (dice_range (by decide)) e
        have h1 := List.all_eq_true.1 h a ha
        rw [e] at h1
        simp only at h1
        rcases hs0 with ⟨c1, c2, rfl⟩ | ⟨hc, d, hd, rfl⟩
        · rw [if_pos ⟨c1, c2⟩] at h1
          exact ih s' hok h1
        · rw [if_neg hc] at h1
          split at h1
          case h_1 v hv0 =>
            rw [decide_eq_true_eq] at h1
            subst h1
            exact .over hv0
          case h_2 hv0 =>
            simp only [Bool.and_eq_true, decide_eq_true_eq] at h1
            obtain ⟨g1, g2, g3, g4⟩ := h1
            refine .turn hv0 ?_
            have := hb s0.board g4 d hd
            rw [← g1, ← g2, ← g3] at this
            rw [← g1]
            exact this

def endsB (w : Int) (s : BG.State) : Bool :=
  decide (BG.checkWinner s = none) && match BG.getValidMoves .debug s with
    | .ok [a] => match BG.applyMove .debug s a (1, 1) with
      | .ok s' => decide (BG.checkWinner s' = some w)
      | .error _ => false
    | _ => false

theorem endsB_sound (pf : Profile) {w : Int} {s : BG.State} (hs : Spec.StateOK s) (h : endsB w s = true) :
    Ends (BG.game pf) w s := by
  unfold endsB at h
  rw [Bool.and_eq_true, decide_eq_true_eq] at h
  obtain ⟨hw, h⟩ := h
  refine ⟨hw, ?_⟩
  split at h
  case h_2 => cases h
  case h_1 a hm =>
    refine ⟨a, (profile_moves pf hs).trans hm, fun s' hpl => ?_⟩
    obtain ⟨s0, e, hs0⟩ := bg_plays hpl
    rw [profile_apply pf hs hm (List.mem_singleton.2 rfl)] at e
    rw [e] at h
    rw [decide_eq_true_eq] at h
    rcases hs0 with ⟨-, -, rfl⟩ | ⟨-, d, -, rfl⟩
    · exact h
    · exact h

/-! ## The position -/

/-- A position in the bear-off before the roll of the player to move. -/
def place (pts : Vector Int 24) (col : Int × Int) (roll : Int × Int) (player : Int) : BG.State where
  board := { pts := pts, hit := (0, 0), col := col }
  roll := roll
  player := player
  second := false
  id := 0

/-- Player -1 has checkers on the points 1, 1 and 2 and rolled 6-1; player 1 has one checker on point 18. -/
def race : BG.State := place #v[0, -2, -1, 0, 0, 0, 0, 0, 0, 0, 0, 0, 0, 0, 0, 0, 0, 0, 1, 0, 0, 0, 0, 0] (12, 14) (6, 1) (-1)

/-- Leaves checkers on the points 0 and 1. -/
def good : BG.Actions := [(1, 0), (2, -1)]

/-- Leaves two checkers on the point 1. -/
def bad : BG.Actions := [(2, 1), (1, -1)]

def afterGood (d : Int × Int) : BG.State :=
  place #v[-1, -1, 0, 0, 0, 0, 0, 0, 0, 0, 0, 0, 0, 0, 0, 0, 0, 0, 1, 0, 0, 0, 0, 0] (13, 14) d 1

def afterBad (d : Int × Int) : BG.State :=
  place #v[0, -2, 0, 0, 0, 0, 0, 0, 0, 0, 0, 0, 0, 0, 0, 0, 0, 0, 1, 0, 0, 0, 0, 0] (13, 14) d 1

theorem place_ok {pts : Vector Int 24} {col roll : Int × Int} {player : Int}
    (hv : Spec.Valid { pts := pts, hit := (0, 0), col := col }) (hp : player = -1 ∨ player = 1) (hr : roll ∈ dice) :
    Spec.StateOK (place pts col roll player) :=
  ⟨hv, hp, (dice_range hr).1, (dice_range hr).2⟩

theorem race_ok : Spec.StateOK race := by
  refine place_ok ⟨by decide, by decide, by decide, by decide, ?_⟩ (.inl rfl) (by decide)
  intro s
  cases s <;> decide

theorem afterGood_ok {d : Int × Int} (hd : d ∈ dice) : Spec.StateOK (afterGood d) := by
  refine place_ok ⟨by decide, by decide, by decide, by decide, ?_⟩ (.inr rfl) hd
  intro s
  cases s <;> decide

theorem afterBad_ok {d : Int × Int} (hd : d ∈ dice) : Spec.StateOK (afterBad d) := by
  refine place_ok ⟨by decide, by decide, by decide, by decide, ?_⟩ (.inr rfl) hd
  intro s
  cases s <;> decide

theorem race_moves' : BG.getValidMoves .debug race = .ok [good, bad] := by decide +kernel

theorem race_moves (pf : Profile) : BG.getValidMoves pf race = .ok [good, bad] := by
  rw [profile_moves pf race_ok, race_moves']

theorem race_good (pf : Profile) (d : Int × Int) : BG.applyMove pf race good d = .ok (afterGood d) := by
  rw [profile_apply pf race_ok race_moves' (by decide)]
  rfl

theorem race_bad (pf : Profile) (d : Int × Int) : BG.applyMove pf race bad d = .ok (afterBad d) := by
  rw [profile_apply pf race_ok race_moves' (by decide)]
  rfl

/-- The boards after a reply of player 1 that did not win. -/
def waiting (pts : Vector Int 24) : BG.Board := { pts := pts, hit := (0, 0), col := (13, 14) }

def goodBoards : List BG.Board :=
  [waiting #v[-1, -1, 0, 0, 0, 0, 0, 0, 0, 0, 0, 0, 0, 0, 0, 0, 0, 0, 0, 0, 0, 1, 0, 0],
   waiting #v[-1, -1, 0, 0, 0, 0, 0, 0, 0, 0, 0, 0, 0, 0, 0, 0, 0, 0, 0, 0, 0, 0, 1, 0],
   waiting #v[-1, -1, 0, 0, 0, 0, 0, 0, 0, 0, 0, 0, 0, 0, 0, 0, 0, 0, 0, 0, 0, 0, 0, 1]]

theorem goodBoards_ok {b : BG.Board} (hb : b ∈ goodBoards) : Spec.Valid b := by
  simp only [goodBoards, List.mem_cons, List.not_mem_nil, or_false] at hb
  rcases hb with rfl | rfl | rfl
  all_goals
    refine ⟨by decide, by decide, by decide, by decide, ?_⟩
    intro s
    cases s <;> decide

theorem wins_a : ∀ d ∈ pairs, canWinB (-1) 2 { board := goodBoards[0], roll := d, player := -1, second := false, id := 0 } = true := by
  decide +kernel

theorem wins_b : ∀ d ∈ pairs, canWinB (-1) 2 { board := goodBoards[1], roll := d, player := -1, second := false, id := 0 } = true := by
  decide +kernel

theorem wins_c : ∀ d ∈ pairs, canWinB (-1) 2 { board := goodBoards[2], roll := d, player := -1, second := false, id := 0 } = true := by
  decide +kernel

theorem next_pairs : ∀ d ∈ pairs, winsNextB (-1) goodBoards 3 (afterGood d) = true := by
  decide +kernel

end DieE.Props.Fz
