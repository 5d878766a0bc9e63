import Verif.Mcts.Twin
import Verif.Props.Chances

/-!
# C127: exchanging the players exchanges the results
-/

namespace DieE.Props.Ee
open DieE DieE.Mcts DieE.Versus DieE.Prob MeasureTheory In
variable {G : Game} {Fl : Floats} {W : Twins G}

/-- Histories with related positions and the same actions. -/
def Tracks (W : Twins G) (l l' : List (Step G)) : Prop := List.Forall₂ (fun x y => W.R x.after y.after ∧ y.action = x.action) l l'

/-- The result with exchanged players. -/
def other : Fin 3 → Fin 3
  | 0 => 1
  | 1 => 0
  | 2 => 2

theorem other_other (w : Fin 3) : other (other w) = w := by
  revert w
  decide

theorem outcome_tracks {l l' : List (Step G)} (h : Tracks W l l') : Versus.outcome l' = -Versus.outcome l := by
  unfold Versus.outcome
  induction h with
  | nil => rfl
  | @cons a b l1 l2 h h' ih =>
    cases h' with
    | nil =>
      show (G.winner b.after).getD 0 = -(G.winner a.after).getD 0
      rw [W.winner h.1]
      cases G.winner a.after <;> rfl
    | cons h1 h2 => exact ih

theorem kind_tracks {l l' : List (Step G)} (h : Tracks W l l') : kind l' = other (kind l) := by
  unfold kind
  rw [outcome_tracks h]
  generalize Versus.outcome l = o
  by_cases h1 : o = -1
  · subst h1
    rfl
  · by_cases h2 : o = 1
    · subst h2
      rfl
    · rw [if_neg (by omega), if_neg (by omega), if_neg h1, if_neg h2]
      rfl

theorem turn_twins (limit round : Nat) (a : G.Mv) {s s' : G.S} (h : W.R s s') :
    RelM (fun x y => W.R x.1 y.1 ∧ y.2 = x.2.map (- ·)) (turn limit round a s) (turn limit round a s') := by
  unfold turn
  split
  · exact (W.skip h).bind fun _ _ h => relM_pure ⟨h, rfl⟩
  · rw [W.moves h]
    refine (relM_eq _).bind ?_
    rintro ms _ rfl
    refine (relM_eq _).bind ?_
    rintro _ _ rfl
    refine (W.apply h a).bind fun s s' h => relM_pure ⟨h, ?_⟩
    rw [W.winner h]
    cases G.winner s with
    | some w => rfl
    | none =>
      show (if round ≥ limit then some 0 else none) = Option.map _ (if round ≥ limit then some 0 else none)
      split <;> rfl

theorem solo_twins {f1 f2 : G.S → M G.Mv} (h1 : ∀ {s s'}, W.R s s' → f1 s' = f1 s) (h2 : ∀ {s s'}, W.R s s' → f2 s' = f2 s)
    (limit f k : Nat) {s s' : G.S} (h : W.R s s') {l l' : List (Step G)} (hl : Tracks W l l') :
    RelM (Tracks W) (solo f1 f2 limit f k s l) (solo f2 f1 limit f k s' l') := by
  induction f generalizing k s s' l l' with
  | zero => exact fun _ => rfl
  | succ f ih =>
    unfold solo
    have e : (if G.player s' = -1 then f2 s' else f1 s') = (if G.player s = -1 then f1 s else f2 s) := by
      rcases W.player h with ⟨h3, h4⟩ | ⟨h3, h4⟩
      · rw [if_neg (by omega), if_pos h3, h1 h]
      · rw [if_pos h4, if_neg (by omega), h2 h]
    rw [e]
    refine (relM_eq _).bind ?_
    rintro a _ rfl
    refine (turn_twins limit (k + 1) a h).bind fun x y hxy => ?_
    have hl' : Tracks W (l ++ [⟨decide (G.player s = -1), s, a, x.1⟩]) (l' ++ [⟨decide (G.player s' = -1), s', a, y.1⟩]) :=
      List.rel_append hl (.cons ⟨hxy.1, rfl⟩ .nil)
    show RelM _ (ite _ _ _) (ite _ _ _)
    rw [hxy.2, Option.isSome_map]
    split
    · exact relM_pure hl'
    · exact ih _ hxy.1 hl'

theorem chooser_twins (pl : Player Fl) (cfg : Config) {s s' : G.S} (h : W.R s s') : chooser pl cfg s' = chooser pl cfg s := by
  unfold chooser
  split
  · rw [show G.player s' = -G.player s by rcases W.player h with ⟨h3, h4⟩ | ⟨h3, h4⟩ <;> omega]
    exact mctSearch_twins Fl h ..
  · unfold randomAction
    rw [W.moves h]

/-- Each game has a counterpart with exchanged players. -/
def Paired (W : Twins G) (n : Nat) : Prop := ∀ i < n, RelM W.R (initState G n i) (initState G n (n - 1 - i))

theorem alone_twins (p1 p2 : Player Fl) (cfg : Config) {n : Nat} (hn : Paired W n) (limit f : Nat) {i : Nat} (hi : i < n) :
    RelM (Tracks W) (alone p1 p2 cfg n limit f i) (alone p2 p1 cfg n limit f (n - 1 - i)) := by
  unfold alone soloGame
  exact (hn i hi).bind fun s s' h => solo_twins (chooser_twins p1 cfg) (chooser_twins p2 cfg) limit f 0 h .nil

theorem alone_kind (p1 p2 : Player Fl) (cfg : Config) {n : Nat} (hn : Paired W n) (limit f : Nat) {i : Nat} (hi : i < n) (w : Fin 3) (t : Tape) :
    (∃ l : List (Step G), kind l = w ∧ value (alone p2 p1 cfg n limit f (n - 1 - i)) t = .ok l) ↔
      ∃ l : List (Step G), kind l = other w ∧ value (alone p1 p2 cfg n limit f i) t = .ok l := by
  have h := alone_twins p1 p2 cfg hn limit f hi t
  unfold value
  match alone p1 p2 cfg n limit f i t, alone p2 p1 cfg n limit f (n - 1 - i) t, h with
  | .error e, .error _, _ => exact ⟨fun ⟨_, _, h⟩ => (nomatch h), fun ⟨_, _, h⟩ => (nomatch h)⟩
  | .ok (l, t1), .ok (l', t2), ⟨h, _⟩ =>
    have hk := kind_tracks h
    constructor
    · rintro ⟨x, rfl, hx⟩
      obtain rfl : l' = x := Except.ok.inj hx
      exact ⟨l, by rw [hk, other_other], rfl⟩
    · rintro ⟨x, hw, hx⟩
      obtain rfl : l = x := Except.ok.inj hx
      exact ⟨l', by rw [hk, hw, other_other], rfl⟩

/-- The results of the counterparts. -/
def across {n : Nat} (w : Fin n → Fin 3) : Fin n → Fin 3 := fun i => other (w i.rev)

theorem across_across {n : Nat} (w : Fin n → Fin 3) : across (across w) = w := by
  funext i
  unfold across
  rw [Fin.rev_rev, other_other]

theorem across_count {n : Nat} (w : Fin n → Fin 3) (v : Fin 3) :
    (Finset.univ.filter fun i => across w i = v).card = (Finset.univ.filter fun i => w i = other v).card := by
  refine Finset.card_bij (fun i _ => i.rev) (fun i hi => ?_) (fun i _ j _ h => Fin.rev_inj.1 h) fun j hj => ⟨j.rev, ?_, Fin.rev_rev _⟩
  · rw [Finset.mem_filter] at hi ⊢
    refine ⟨Finset.mem_univ _, ?_⟩
    rw [← hi.2]
    unfold across
    rw [other_other]
  · rw [Finset.mem_filter] at hj ⊢
    refine ⟨Finset.mem_univ _, ?_⟩
    unfold across
    rw [Fin.rev_rev, hj.2, other_other]

/-- C127 for any game: if every initial position has a counterpart, exchanging the players exchanges the results. -/
theorem C127_exchange (hid : Ids G) (hd : Brief G) (pf : Profile) (rnd : Rat → Rat) {p1 p2 : Player Fl} (h1 : Plain p1) (h2 : Plain p2)
    (cfg : Config) {n : Nat} (hn : Paired W n) (limit : Nat) {o o' : Orders} (ho : o.Valid) (ho' : o'.Valid) (f : Nat) (ν : PMF ℕ) (a b : Nat) :
    iid ν {t | ∃ r, value (playN (G := G) pf rnd p2 p1 cfg n limit o' f) t = .ok r ∧ r.wins1 = b ∧ r.wins2 = a} =
      iid ν {t | ∃ r, value (playN (G := G) pf rnd p1 p2 cfg n limit o f) t = .ok r ∧ r.wins1 = a ∧ r.wins2 = b} := by
  rw [C123_wins hid hd pf rnd h1 h2 cfg n limit ho f ν a b, C123_wins hid hd pf rnd h2 h1 cfg n limit ho' f ν b a]
  refine Finset.sum_bij (fun w _ => across w) (fun w hw => ?_) (fun w _ w' _ h => ?_) (fun w hw => ⟨across w, ?_, across_across w⟩)
    fun w _ => ?_
  · rw [Finset.mem_filter] at hw ⊢
    exact ⟨Finset.mem_univ _, (across_count w 0).trans hw.2.2, (across_count w 1).trans hw.2.1⟩
  · rw [← across_across w, h, across_across]
  · rw [Finset.mem_filter] at hw ⊢
    exact ⟨Finset.mem_univ _, (across_count w 0).trans hw.2.2, (across_count w 1).trans hw.2.1⟩
  · refine Finset.prod_bij (fun i _ => i.rev) (fun _ _ => Finset.mem_univ _) (fun i _ j _ h => Fin.rev_inj.1 h)
      (fun j _ => ⟨j.rev, Finset.mem_univ _, Fin.rev_rev _⟩) fun i _ => ?_
    refine congrArg _ (Set.ext fun t => ?_)
    have := alone_kind p1 p2 cfg hn limit f (i := (i.rev : Fin n)) i.rev.2 (w i) t
    rw [show n - 1 - ((i.rev : Fin n) : Nat) = i by rw [Fin.val_rev]; omega] at this
    refine this.trans ?_
    show _ ↔ ∃ l, kind l = other (w i.rev.rev) ∧ _
    rw [Fin.rev_rev]

/-- C127: with exchanged players the pairs of wins have the exchanged distribution. -/
theorem C127_law (hid : Ids G) (hd : Brief G) (pf : Profile) (rnd : Rat → Rat) {p1 p2 : Player Fl} (h1 : Plain p1) (h2 : Plain p2)
    (cfg : Config) {n : Nat} (hn : Paired W n) (limit : Nat) {o o' : Orders} (ho : o.Valid) (ho' : o'.Valid) (f : Nat) (ν : PMF ℕ)
    (A : Set (Nat × Nat)) :
    iid ν {t | ∃ r, value (playN (G := G) pf rnd p2 p1 cfg n limit o' f) t = .ok r ∧ (r.wins2, r.wins1) ∈ A} =
      iid ν {t | ∃ r, value (playN (G := G) pf rnd p1 p2 cfg n limit o f) t = .ok r ∧ (r.wins1, r.wins2) ∈ A} := by
  have key : ∀ (p q : Player Fl) (o : Orders) (g : PlayResult G → Nat × Nat),
      iid ν {t | ∃ r, value (playN (G := G) pf rnd p q cfg n limit o f) t = .ok r ∧ g r ∈ A} =
        ∑' x : A, iid ν {t | ∃ r, value (playN (G := G) pf rnd p q cfg n limit o f) t = .ok r ∧ g r = x} := by
    intro p q o g
    have e : {t | ∃ r, value (playN (G := G) pf rnd p q cfg n limit o f) t = .ok r ∧ g r ∈ A} =
        ⋃ x : A, {t | ∃ r, value (playN (G := G) pf rnd p q cfg n limit o f) t = .ok r ∧ g r = x} := by
      ext t
      rw [Set.mem_iUnion]
      exact ⟨fun ⟨r, h, hA⟩ => ⟨⟨_, hA⟩, r, h, rfl⟩, fun ⟨x, r, h, hx⟩ => ⟨r, h, by rw [hx]; exact x.2⟩⟩
    rw [e, measure_iUnion]
    · intro x y hxy
      refine Set.disjoint_left.2 ?_
      rintro t ⟨r, h, hr⟩ ⟨r', h', hr'⟩
      rw [h] at h'
      obtain rfl := Except.ok.inj h'
      exact hxy (Subtype.ext (hr.symm.trans hr'))
    · exact fun x => (playN_short hd pf rnd p q cfg n limit o f).measurable {v | ∃ r, v = .ok r ∧ g r = x}
  rw [key p2 p1 o' fun r => (r.wins2, r.wins1), key p1 p2 o fun r => (r.wins1, r.wins2)]
  refine tsum_congr fun x => ?_
  have := C127_exchange hid hd pf rnd h1 h2 cfg hn limit ho ho' f ν x.1.1 x.1.2
  refine Eq.trans (congrArg _ (Set.ext fun t => ?_)) (this.trans (congrArg _ (Set.ext fun t => ?_)))
  · exact exists_congr fun r => and_congr_right fun _ => by rw [Prod.ext_iff]; exact and_comm
  · exact exists_congr fun r => and_congr_right fun _ => by rw [Prod.ext_iff]

/-! ## TicTacToe -/

/-- The same position with the marks exchanged. -/
def opposite (s s' : TTT.State) : Prop :=
  (s.player = -1 ∨ s.player = 1) ∧ s'.player = -s.player ∧ ∀ i (h : i < 9), s'.board[i] = -s.board[i]

theorem cell_opposite {s s' : TTT.State} (h : opposite s s') (i : Nat) : s'.cell i = -s.cell i := by
  unfold TTT.State.cell
  by_cases hi : i < 9
  · rw [List.getD_eq_getElem _ _ (by simpa using hi), List.getD_eq_getElem _ _ (by simpa using hi)]
    simpa using h.2.2 i hi
  · rw [List.getD_eq_default _ _ (by simpa using hi), List.getD_eq_default _ _ (by simpa using hi)]
    rfl

theorem winner_opposite {s s' : TTT.State} (h : opposite s s') : TTT.checkWinner s' = (TTT.checkWinner s).map (- ·) := by
  have h1 : TTT.comboWinner s' = fun c => (TTT.comboWinner s c).map (- ·) := by
    funext c
    unfold TTT.comboWinner
    simp only [cell_opposite h, ne_eq, neg_eq_zero, neg_inj]
    split <;> rfl
  have h2 : ∀ l : List (Nat × Nat × Nat), l.findSome? (TTT.comboWinner s') = (l.findSome? (TTT.comboWinner s)).map (- ·) := by
    intro l
    induction l with
    | nil => rfl
    | cons c l ih =>
      rw [List.findSome?_cons, List.findSome?_cons, h1]
      dsimp only
      cases TTT.comboWinner s c with
      | none =>
        rw [← h1]
        exact ih
      | some w => rfl
  have h3 : s'.board.toList.all (fun v => v != 0) = s.board.toList.all (fun v => v != 0) := by
    rw [Bool.eq_iff_iff, List.all_eq_true, List.all_eq_true]
    simp only [List.mem_iff_getElem, Vector.length_toList, Vector.getElem_toList, bne_iff_ne]
    constructor
    · rintro hx _ ⟨i, hi, rfl⟩
      have := hx _ ⟨i, hi, rfl⟩
      rw [h.2.2 i hi] at this
      omega
    · rintro hx _ ⟨i, hi, rfl⟩
      have := hx _ ⟨i, hi, rfl⟩
      rw [h.2.2 i hi]
      omega
  unfold TTT.checkWinner
  rw [h2, h3]
  cases TTT.combos.findSome? (TTT.comboWinner s) with
  | some w => rfl
  | none =>
    generalize s.board.toList.all _ = b
    cases b <;> rfl

theorem apply_opposite (pf : Profile) {s s' : TTT.State} (h : opposite s s') (a : Nat) :
    RelR opposite (TTT.applyMove pf s a) (TTT.applyMove pf s' a) := by
  unfold TTT.applyMove
  split
  · next ha =>
    rw [h.2.1, i8_ok (by rcases h.1 with h | h <;> rw [h] <;> decide), i8_ok (by rcases h.1 with h | h <;> rw [h] <;> decide)]
    refine ⟨?_, ?_, fun i hi => ?_⟩
    · show s.player * -1 = -1 ∨ s.player * -1 = 1
      rcases h.1 with h | h <;> omega
    · show -s.player * -1 = -(s.player * -1)
      omega
    · show (s'.board.set a (-s.player))[i] = -(s.board.set a s.player)[i]
      rw [Vector.getElem_set, Vector.getElem_set]
      split
      · rfl
      · exact h.2.2 i hi
  · rfl

theorem skip_opposite (pf : Profile) {s s' : TTT.State} (h : opposite s s') : RelR opposite (TTT.skipTurn pf s) (TTT.skipTurn pf s') := by
  unfold TTT.skipTurn
  rw [h.2.1, i8_ok (by rcases h.1 with h | h <;> rw [h] <;> decide), i8_ok (by rcases h.1 with h | h <;> rw [h] <;> decide)]
  refine ⟨?_, ?_, h.2.2⟩
  · show s.player * -1 = -1 ∨ s.player * -1 = 1
    rcases h.1 with h | h <;> omega
  · show -s.player * -1 = -(s.player * -1)
    omega

/-- Exchanging the marks in TicTacToe. -/
def marks (pf : Profile) : Twins (TTT.game pf) where
  R := opposite
  moves := fun {s s'} h => by
    show (.ok (TTT.getValidMoves s') : Res (List Nat)) = .ok (TTT.getValidMoves s)
    unfold TTT.getValidMoves
    simp only [cell_opposite h, neg_eq_zero]
  apply := fun h a => relM_lift (apply_opposite pf h a)
  skip := fun h => relM_lift (skip_opposite pf h)
  winner := winner_opposite
  player := fun {s s'} h => by
    show (s.player = -1 ∧ s'.player = 1) ∨ (s.player = 1 ∧ s'.player = -1)
    rw [h.2.1]
    rcases h.1 with h | h <;> omega

theorem paired (pf : Profile) (m : Nat) : Paired (marks pf) (2 * m) := by
  intro i hi t
  rw [V.ttt_init, V.ttt_init]
  refine ⟨⟨?_, ?_, ?_⟩, rfl⟩
  · show (if i < 2 * m / 2 then (-1 : Int) else 1) = -1 ∨ (if i < 2 * m / 2 then (-1 : Int) else 1) = 1
    split
    · exact .inl rfl
    · exact .inr rfl
  · show (if 2 * m - 1 - i < 2 * m / 2 then (-1 : Int) else 1) = -(if i < 2 * m / 2 then (-1 : Int) else 1)
    split <;> split <;> omega
  · intro i hi
    show TTT.new.board[i] = -TTT.new.board[i]
    unfold TTT.new
    rw [Vector.getElem_replicate]
    rfl

/-- C127: in a TicTacToe match of players without networks, exchanging the players exchanges the distributions of their wins:
neither side of the match has an advantage. -/
theorem C127_tictactoe (pf : Profile) (rnd : Rat → Rat) {p1 p2 : Player Fl} (h1 : Plain p1) (h2 : Plain p2) (cfg : Config)
    {o o' : Orders} (ho : o.Valid) (ho' : o'.Valid) (f : Nat) (ν : PMF ℕ) (A : Set (Nat × Nat)) :
    iid ν {t | ∃ r, value (play (G := TTT.game pf) pf rnd p2 p1 cfg o' f) t = .ok r ∧ (r.wins2, r.wins1) ∈ A} =
      iid ν {t | ∃ r, value (play (G := TTT.game pf) pf rnd p1 p2 cfg o f) t = .ok r ∧ (r.wins1, r.wins2) ∈ A} :=
  C127_law (V.ttt_ids pf) (ttt_brief pf) pf rnd h1 h2 cfg (paired pf 200) 400 ho ho' f ν A

/-- C127: two equal players win the match with the same probability. -/
theorem C127_equal (pf : Profile) (rnd : Rat → Rat) {p : Player Fl} (hp : Plain p) (cfg : Config) {o : Orders} (ho : o.Valid) (f : Nat)
    (ν : PMF ℕ) :
    iid ν {t | ∃ r, value (play (G := TTT.game pf) pf rnd p p cfg o f) t = .ok r ∧ r.wins2 < r.wins1} =
      iid ν {t | ∃ r, value (play (G := TTT.game pf) pf rnd p p cfg o f) t = .ok r ∧ r.wins1 < r.wins2} :=
  (C127_tictactoe pf rnd hp hp cfg ho ho f ν {x | x.2 < x.1}).symm

/-- Two positions with exchanged marks: in the first one `-1` has won, in the second one `1`. -/
example : opposite ⟨1, #v[-1, -1, -1, 1, 1, 0, 0, 0, 0], 0⟩ ⟨-1, #v[1, 1, 1, -1, -1, 0, 0, 0, 0], 7⟩ ∧
    TTT.checkWinner ⟨1, #v[-1, -1, -1, 1, 1, 0, 0, 0, 0], 0⟩ = some (-1) ∧
    TTT.checkWinner ⟨-1, #v[1, 1, 1, -1, -1, 0, 0, 0, 0], 7⟩ = some 1 := by
  refine ⟨⟨by decide, by decide, by decide⟩, by decide, by decide⟩

/-- A player with the plain search. -/
def mctsPlayer : Player S.demoFloats := { agent := .mcts, net := none }

/-- A match of a random player against the plain search and the return match. -/
example (pf : Profile) (ν : PMF ℕ) (f : Nat) :
    iid ν {t | ∃ r, value (play (G := TTT.game pf) pf id mctsPlayer V.randomPlayer V.demoConfig V.demoOrders f) t = .ok r ∧
      (r.wins2, r.wins1) ∈ {x : Nat × Nat | x.1 = 0}} =
    iid ν {t | ∃ r, value (play (G := TTT.game pf) pf id V.randomPlayer mctsPlayer V.demoConfig V.demoOrders f) t = .ok r ∧
      (r.wins1, r.wins2) ∈ {x : Nat × Nat | x.1 = 0}} :=
  C127_tictactoe pf id (.inr rfl) (.inl rfl) V.demoConfig V.demoOrders_valid V.demoOrders_valid f ν _

end DieE.Props.Ee
