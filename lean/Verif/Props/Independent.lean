import Verif.Versus.Solo
import Verif.Props.Parallel

/-!
# C123: the games of a match do not influence each other

All the games of a match are played at the same time (versus.rs:183-260): in every round one action is chosen in each of
them, and games that have ended are removed.  For random players and players with the plain search the games are
nevertheless independent, and each of them is as likely to take a course as if it were played alone.
-/

namespace DieE.Props.In
open DieE DieE.Mcts DieE.Versus DieE.Prob MeasureTheory
variable {G : Game} {Fl : Floats}

/-- The choice of the action in one state by a player that does not use a network, versus.rs:305-316. -/
def chooser (pl : Player Fl) (cfg : Config) (s : G.S) : M G.Mv :=
  match pl.agent with
  | .mcts => mctSearch Fl s (G.player s) cfg.iterations cfg.limit
  | _ => randomAction s

/-- The player does not use a network. -/
def Plain (pl : Player Fl) : Prop := pl.agent = .mcts ∨ pl.agent = .random

/-- Game `i` of a match of `n` games, played alone. -/
def alone (p1 p2 : Player Fl) (cfg : Config) (n limit f i : Nat) : M (List (Step G)) :=
  soloGame (chooser p1 cfg) (chooser p2 cfg) n limit f i

theorem chooser_short (hd : Brief G) (pl : Player Fl) (cfg : Config) (s : G.S) : Short (chooser pl cfg s) := by
  unfold chooser
  split
  · exact mctSearch_short hd.toShorts ..
  · exact randomAction_short s

theorem chooser_each {pl : Player Fl} (h : Plain pl) (cfg : Config) (order : Nat → List Nat) :
    getActions (G := G) pl cfg order = eachGame (chooser pl cfg) := by
  funext ss
  rw [Pl.getActions_each]
  unfold chooser
  rcases h with h | h <;> rw [h]

/-- The steps of the games of a match. -/
def Played (pf : Profile) (rnd : Rat → Rat) (p1 p2 : Player Fl) (cfg : Config) (n limit : Nat) (o : Orders) (f : Nat)
    (t : Tape) (steps : Nat → List (Step G)) : Prop :=
  ∃ t' r m, V.Behind pf rnd p1 p2 cfg n limit o f t t' r m ∧ m.steps = steps

theorem result_ok (hid : Ids G) {p1 p2 : Player Fl} {cfg : Config} {n limit : Nat} {o : Orders} (ho : o.Valid)
    {f : Nat} {t t' : Tape} {m : Match G} (pf : Profile) (rnd : Rat → Rat)
    (h : playRun p1.agent p2.agent (fun k => getActions p1 cfg (o.set1 k)) (fun k => getActions p2 cfg (o.set2 k)) n limit
      o.map f t = .ok (m, t')) : ∃ r, V.Behind pf rnd p1 p2 cfg n limit o f t t' r m := by
  obtain ⟨init, k, D, h3, h4, h5, -⟩ := playRun_inv hid (V.closed_true G) (answers_picks ho.set1 _) (answers_picks ho.set2 _)
    (fun _ _ _ _ _ => trivial) ho.map h
  obtain ⟨r, h6, -⟩ := V.result_of_inv h4 h5 pf rnd
  exact ⟨r, h, h6⟩

theorem forall₂_range {α : Type} (n : Nat) (g : Nat → α) (A : Nat → Set α) :
    List.Forall₂ (fun a i => a ∈ A i) ((List.range n).map g) (List.range n) ↔ ∀ i < n, g i ∈ A i := by
  rw [List.forall₂_map_left_iff, List.forall₂_same]
  exact forall_congr' fun i => by rw [List.mem_range]

theorem value_ok {α : Type} {m : M α} {t : Tape} {a : α} : value m t = .ok a ↔ ∃ t', m t = .ok (a, t') := by
  unfold value
  cases m t with
  | error e => exact ⟨fun h => (nomatch h), fun ⟨_, h⟩ => (nomatch h)⟩
  | ok x =>
    obtain ⟨a', t'⟩ := x
    constructor
    · intro h
      obtain rfl := Except.ok.inj h
      exact ⟨t', rfl⟩
    · rintro ⟨_, h⟩
      obtain ⟨rfl, -⟩ := Prod.mk.inj (Except.ok.inj h)
      rfl

theorem played_iff (hid : Ids G) (pf : Profile) (rnd : Rat → Rat) {p1 p2 : Player Fl} (h1 : Plain p1) (h2 : Plain p2) (cfg : Config)
    (n limit : Nat) {o : Orders} (ho : o.Valid) (f : Nat) (A : Nat → Set (List (Step G))) (t : Tape) :
    (∃ steps, Played pf rnd p1 p2 cfg n limit o f t steps ∧ ∀ i < n, steps i ∈ A i) ↔
      ∃ l, value (playRun p1.agent p2.agent (fun _ => eachGame (chooser p1 cfg)) (fun _ => eachGame (chooser p2 cfg)) n limit o.map f >>=
        fun m => pure ((List.range n).map m.steps)) t = .ok l ∧ List.Forall₂ (fun a i => a ∈ A i) l (List.range n) := by
  constructor
  · rintro ⟨_, ⟨t', r, m, ⟨h3, h4⟩, rfl⟩, h5⟩
    refine ⟨_, value_ok.2 ⟨t', M.bind_ok.2 ⟨m, t', ?_, rfl⟩⟩, (forall₂_range ..).2 h5⟩
    simpa only [chooser_each h1, chooser_each h2] using h3
  · rintro ⟨l, h3, h5⟩
    obtain ⟨t', h3⟩ := value_ok.1 h3
    obtain ⟨m, t1, h6, h4⟩ := M.bind_ok.1 h3
    obtain ⟨rfl, rfl⟩ := Prod.mk.inj (Except.ok.inj h4)
    have h3 : playRun p1.agent p2.agent (fun k => getActions p1 cfg (o.set1 k)) (fun k => getActions p2 cfg (o.set2 k)) n limit
      o.map f t = .ok (m, t1) := by simpa only [chooser_each h1, chooser_each h2] using h6
    obtain ⟨r, hr⟩ := result_ok hid ho pf rnd h3
    exact ⟨_, ⟨_, r, m, hr, rfl⟩, (forall₂_range ..).1 h5⟩

/-- C123: whatever one asks of the course of each game, the probability that all games of the match are as asked is the
product of the probabilities for the games played alone. -/
theorem C123_independent (hid : Ids G) (hd : Brief G) (pf : Profile) (rnd : Rat → Rat) {p1 p2 : Player Fl} (h1 : Plain p1) (h2 : Plain p2)
    (cfg : Config) (n limit : Nat) {o : Orders} (ho : o.Valid) (f : Nat) (ν : PMF ℕ) (A : Nat → Set (List (Step G))) :
    iid ν {t | ∃ steps, Played pf rnd p1 p2 cfg n limit o f t steps ∧ ∀ i < n, steps i ∈ A i} =
      ∏ i ∈ Finset.range n, iid ν {t | ∃ l ∈ A i, value (alone p1 p2 cfg n limit f i) t = .ok l} := by
  simp only [played_iff hid pf rnd h1 h2 cfg n limit ho f A]
  exact (playRun_ind hid hd (chooser_short hd p1 cfg) (chooser_short hd p2 cfg) n limit p1.agent p2.agent ho.map f).prob ν A

theorem played_measurable (hid : Ids G) (hd : Brief G) (pf : Profile) (rnd : Rat → Rat) {p1 p2 : Player Fl} (h1 : Plain p1) (h2 : Plain p2)
    (cfg : Config) (n limit : Nat) {o : Orders} (ho : o.Valid) (f : Nat) (A : Nat → Set (List (Step G))) :
    MeasurableSet {t | ∃ steps, Played pf rnd p1 p2 cfg n limit o f t steps ∧ ∀ i < n, steps i ∈ A i} := by
  have e := played_iff hid pf rnd h1 h2 cfg n limit ho f A
  obtain ⟨p, q, ⟨T, hT, -⟩, -⟩ :=
    playRun_ind hid hd (chooser_short hd p1 cfg) (chooser_short hd p2 cfg) n limit p1.agent p2.agent ho.map f (PMF.pure 0)
  have := Short.measurable ⟨T, hT⟩ {r | ∃ l, r = .ok l ∧ List.Forall₂ (fun a i => a ∈ A i) l (List.range n)}
  exact (congrArg MeasurableSet (Set.ext e)).mpr this

/-- C123: if no match panics, then every single game of the match takes a course with the same probability as the game
played alone. -/
theorem C123_single (hid : Ids G) (hd : Brief G) (pf : Profile) (rnd : Rat → Rat) {p1 p2 : Player Fl} (h1 : Plain p1) (h2 : Plain p2)
    (cfg : Config) (n limit : Nat) {o : Orders} (ho : o.Valid) (f : Nat) (ν : PMF ℕ)
    (hok : ∀ᵐ t ∂ iid ν, ∃ r, value (playN (G := G) pf rnd p1 p2 cfg n limit o f) t = .ok r) {i : Nat} (hi : i < n) (A : Set (List (Step G))) :
    iid ν {t | ∃ steps, Played pf rnd p1 p2 cfg n limit o f t steps ∧ steps i ∈ A} =
      iid ν {t | ∃ l ∈ A, value (alone p1 p2 cfg n limit f i) t = .ok l} := by
  have hall := C123_independent hid hd pf rnd h1 h2 cfg n limit ho f ν fun _ => Set.univ
  have hone : iid ν {t | ∃ steps, Played (G := G) pf rnd p1 p2 cfg n limit o f t steps ∧ ∀ i < n, steps i ∈ Set.univ} = 1 := by
    have : ∀ᵐ t ∂ iid ν, t ∈ {t | ∃ steps, Played (G := G) pf rnd p1 p2 cfg n limit o f t steps ∧ ∀ i < n, steps i ∈ Set.univ} := by
      filter_upwards [hok] with t ht
      obtain ⟨r, hr⟩ := ht
      obtain ⟨t', hr⟩ := value_ok.1 hr
      obtain ⟨m, t1, h3, h4⟩ := M.bind_ok.1 hr
      obtain ⟨h5, rfl⟩ := M.lift_ok.1 h4
      exact ⟨_, ⟨_, r, m, ⟨h3, h5⟩, rfl⟩, fun _ _ => trivial⟩
    exact (measure_congr (Filter.eventuallyEq_univ.2 this)).trans measure_univ
  rw [hone] at hall
  have hle (S : Finset ℕ) (A : Nat → Set (List (Step G))) :
      ∏ j ∈ S, iid ν {t | ∃ l ∈ A j, value (alone p1 p2 cfg n limit f j) t = .ok l} ≤ 1 :=
    Finset.prod_le_one' fun j _ => prob_le_one
  have hmem := Finset.mem_range.2 hi
  have hrest : ∏ j ∈ (Finset.range n).erase i, iid ν {t | ∃ l ∈ Set.univ, value (alone (G := G) p1 p2 cfg n limit f j) t = .ok l} = 1 := by
    refine le_antisymm (hle _ fun _ => Set.univ) ?_
    rw [← Finset.mul_prod_erase _ _ hmem] at hall
    calc (1 : ENNReal) = _ := hall
      _ ≤ 1 * _ := mul_le_mul_left prob_le_one _
      _ = _ := one_mul _
  have h := C123_independent hid hd pf rnd h1 h2 cfg n limit ho f ν fun j => if j = i then A else Set.univ
  rw [← Finset.mul_prod_erase _ _ hmem, if_pos rfl] at h
  have e : ∏ j ∈ (Finset.range n).erase i, iid ν {t | ∃ l ∈ (if j = i then A else Set.univ), value (alone (G := G) p1 p2 cfg n limit f j) t = .ok l} = 1 := by
    rw [← hrest]
    refine Finset.prod_congr rfl fun j hj => ?_
    rw [if_neg (Finset.mem_erase.1 hj).1]
  rw [e, mul_one] at h
  rw [← h]
  congr 1
  ext t
  refine exists_congr fun steps => and_congr_right fun _ => ⟨fun h j hj => ?_, fun h => ?_⟩
  · split
    · next e => rw [e]; exact h
    · trivial
  · simpa using h i hi

/-! ## The results -/

/-- The result of a game: 0 if player 1 has won, 1 if player 2 has won, otherwise 2. -/
def kind (l : List (Step G)) : Fin 3 := if outcome l = -1 then 0 else if outcome l = 1 then 1 else 2

theorem kind_zero (l : List (Step G)) : kind l = 0 ↔ outcome l = -1 := by
  unfold kind
  split
  · next h => exact iff_of_true rfl h
  · next h =>
    refine iff_of_false ?_ h
    split <;> decide

theorem kind_one (l : List (Step G)) : kind l = 1 ↔ outcome l = 1 := by
  unfold kind
  split
  · next h => exact iff_of_false (by decide) (by rw [h]; decide)
  · split
    · next h => exact iff_of_true rfl h
    · next h => exact iff_of_false (by decide) h

theorem kind_two (l : List (Step G)) : kind l = 2 ↔ outcome l ≠ -1 ∧ outcome l ≠ 1 := by
  rw [Ne, Ne, ← kind_zero, ← kind_one]
  generalize kind l = k
  revert k
  decide

theorem count_fin (n : Nat) (p : Nat → Bool) : ((List.range n).filter p).length = (Finset.univ.filter fun i : Fin n => p i = true).card := by
  rw [Finset.card_filter, ← Finset.sum_range fun i => if p i = true then 1 else 0, ← Finset.card_filter]
  show _ = ((List.range n).filter fun i => decide (p i = true)).length
  simp

theorem behind_wins (hid : Ids G) {pf : Profile} {rnd : Rat → Rat} {p1 p2 : Player Fl} {cfg : Config} {n limit : Nat} {o : Orders}
    (ho : o.Valid) {f : Nat} {t t' : Tape} {r : PlayResult G} {m : Match G} (h : V.Behind pf rnd p1 p2 cfg n limit o f t t' r m) :
    value (playN pf rnd p1 p2 cfg n limit o f) t = .ok r ∧ r.wins1 = (Finset.univ.filter fun i : Fin n => kind (m.steps i) = 0).card ∧
      r.wins2 = (Finset.univ.filter fun i : Fin n => kind (m.steps i) = 1).card ∧
      r.draws = (Finset.univ.filter fun i : Fin n => kind (m.steps i) = 2).card := by
  obtain ⟨h1, h2⟩ := h
  have h0 : playN pf rnd p1 p2 cfg n limit o f t = .ok (r, t') := M.bind_ok.2 ⟨m, t', h1, M.lift_ok.2 ⟨h2, rfl⟩⟩
  obtain ⟨m', ⟨h3, -⟩, -, h5, -⟩ := V.accounted hid ho h0
  obtain ⟨rfl, -⟩ := Prod.mk.inj (Except.ok.inj (h1.symm.trans h3))
  refine ⟨value_ok.2 ⟨t', h0⟩, ?_, ?_, ?_⟩
  · rw [h5.wins1, count_fin]
    simp only [decide_eq_true_eq, kind_zero]
  · rw [h5.wins2, count_fin]
    simp only [decide_eq_true_eq, kind_one]
  · rw [h5.draws, count_fin]
    simp only [decide_eq_true_eq, kind_two]

/-- C123: the numbers of wins are distributed as those of independent games: for each possible list of results with
these numbers multiply the probabilities of the results in the games played alone. -/
theorem C123_wins (hid : Ids G) (hd : Brief G) (pf : Profile) (rnd : Rat → Rat) {p1 p2 : Player Fl} (h1 : Plain p1) (h2 : Plain p2)
    (cfg : Config) (n limit : Nat) {o : Orders} (ho : o.Valid) (f : Nat) (ν : PMF ℕ) (a b : Nat) :
    iid ν {t | ∃ r, value (playN (G := G) pf rnd p1 p2 cfg n limit o f) t = .ok r ∧ r.wins1 = a ∧ r.wins2 = b} =
      ∑ w : Fin n → Fin 3 with (Finset.univ.filter fun i => w i = 0).card = a ∧ (Finset.univ.filter fun i => w i = 1).card = b,
        ∏ i : Fin n, iid ν {t | ∃ l : List (Step G), kind l = w i ∧ value (alone p1 p2 cfg n limit f i) t = .ok l} := by
  let E (w : Fin n → Fin 3) : Set Tape := {t | ∃ steps, Played (G := G) pf rnd p1 p2 cfg n limit o f t steps ∧
    ∀ i < n, steps i ∈ {l | ∀ h : i < n, kind l = w ⟨i, h⟩}}
  have hE : ∀ w, MeasurableSet (E w) := fun w => played_measurable hid hd pf rnd h1 h2 cfg n limit ho f _
  have hdis : ∀ w w', w ≠ w' → Disjoint (E w) (E w') := by
    intro w w' hne
    rw [Set.disjoint_left]
    rintro t ⟨_, ⟨t1, r1, m1, ⟨h3, -⟩, rfl⟩, h4⟩ ⟨_, ⟨t2, r2, m2, ⟨h5, -⟩, rfl⟩, h6⟩
    obtain ⟨rfl, -⟩ := Prod.mk.inj (Except.ok.inj (h3.symm.trans h5))
    exact hne (funext fun i => (h4 i i.2 i.2).symm.trans (h6 i i.2 i.2))
  have hset : {t | ∃ r, value (playN (G := G) pf rnd p1 p2 cfg n limit o f) t = .ok r ∧ r.wins1 = a ∧ r.wins2 = b} =
      ⋃ w ∈ (Finset.univ.filter fun w : Fin n → Fin 3 => (Finset.univ.filter fun i => w i = 0).card = a ∧
        (Finset.univ.filter fun i => w i = 1).card = b), E w := by
    ext t
    simp only [Set.mem_iUnion, Finset.mem_filter, Finset.mem_univ, true_and, exists_prop]
    constructor
    · rintro ⟨r, h3, rfl, rfl⟩
      obtain ⟨t', h3⟩ := value_ok.1 h3
      obtain ⟨m, t1, h4, h5⟩ := M.bind_ok.1 h3
      obtain ⟨h6, rfl⟩ := M.lift_ok.1 h5
      obtain ⟨-, h7, h8, -⟩ := behind_wins hid ho ⟨h4, h6⟩
      exact ⟨fun i => kind (m.steps i), ⟨h7.symm, h8.symm⟩, _, ⟨_, r, m, ⟨h4, h6⟩, rfl⟩, fun i _ _ => rfl⟩
    · rintro ⟨w, ⟨rfl, rfl⟩, _, ⟨t', r, m, h3, rfl⟩, h4⟩
      obtain ⟨h5, h6, h7, -⟩ := behind_wins hid ho h3
      have e : ∀ i : Fin n, kind (m.steps i) = w i := fun i => h4 i i.2 i.2
      simp only [e] at h6 h7
      exact ⟨r, h5, h6, h7⟩
  rw [hset, measure_biUnion_finset (fun w _ w' _ hne => hdis w w' hne) fun w _ => hE w]
  refine Finset.sum_congr rfl fun w _ => ?_
  refine (C123_independent hid hd pf rnd h1 h2 cfg n limit ho f ν fun i => {l : List (Step G) | ∀ h : i < n, kind l = w ⟨i, h⟩}).trans ?_
  rw [Finset.prod_range]
  refine Finset.prod_congr rfl fun i _ => ?_
  congr 1
  ext t
  exact exists_congr fun l => and_congr_left fun _ => ⟨fun h => h i.2, fun h _ => h⟩

/-- C123 for TicTacToe: every game of a match of random players or players with the plain search. -/
theorem C123_tictactoe (pf : Profile) (rnd : Rat → Rat) {p1 p2 : Player Fl} (h1 : Plain p1) (h2 : Plain p2) {cfg : Config}
    (hr1 : V.Ready 9 true cfg p1) (hr2 : V.Ready 9 true cfg p2) {o : Orders} (ho : o.Valid) (ν : PMF ℕ) {i : Nat} (hi : i < 400)
    (A : Set (List (Step (TTT.game pf)))) :
    iid ν {t | ∃ steps, Played pf rnd p1 p2 cfg 400 400 o 9 t steps ∧ steps i ∈ A} =
      iid ν {t | ∃ l ∈ A, value (alone p1 p2 cfg 400 400 9 i) t = .ok l} :=
  C123_single (V.ttt_ids pf) (ttt_brief pf) pf rnd h1 h2 cfg 400 400 ho 9 ν (Filter.Eventually.of_forall fun t => by
    obtain ⟨r, t', h⟩ := V.ttt_returns pf pf rnd hr1 hr2 400 400 ho t
    exact ⟨r, value_ok.2 ⟨t', h⟩⟩) hi A

/-! ## Examples -/

/-- A TicTacToe match of two games between random players: with these numbers each player wins the game it begins. -/
example : (value (playN (G := TTT.game .debug) .debug id V.randomPlayer V.randomPlayer V.demoConfig 2 400 V.demoOrders 9)
    (fun _ => 0)).map (fun r => (r.wins1, r.wins2)) = .ok (1, 1) := by decide +kernel

/-- So do the games played alone. -/
example : (value (alone (G := TTT.game .debug) V.randomPlayer V.randomPlayer V.demoConfig 2 400 9 0) (fun _ => 0)).map kind = .ok 0 ∧
    (value (alone (G := TTT.game .debug) V.randomPlayer V.randomPlayer V.demoConfig 2 400 9 1) (fun _ => 0)).map kind = .ok 1 := by
  constructor <;> rfl

/-- For given random numbers the games do influence each other: the second game reads other numbers than alone. -/
example : (value (playRun (G := TTT.game .debug) .random .random (fun _ => eachGame randomAction) (fun _ => eachGame randomAction) 2 400
      (fun _ l => l) 9) (fun n => n)).map (fun m => ((m.steps 1).map fun st => (st.action : Nat))) ≠
    (value (alone (G := TTT.game .debug) V.randomPlayer V.randomPlayer V.demoConfig 2 400 9 1) (fun n => n)).map
      fun l => l.map fun st => (st.action : Nat) := by decide +kernel

/-- The probability that the player that begins wins all games of a TicTacToe match of random players. -/
example (ν : PMF ℕ) : iid ν {t | ∃ steps, Played (G := TTT.game .debug) .debug id V.randomPlayer V.randomPlayer V.demoConfig 400 400
      V.demoOrders 9 t steps ∧ ∀ i < 400, steps i ∈ {l | kind l = if i < 200 then 0 else 1}} =
    ∏ i ∈ Finset.range 400, iid ν {t | ∃ l ∈ {l | kind l = if i < 200 then 0 else 1},
      value (alone (G := TTT.game .debug) V.randomPlayer V.randomPlayer V.demoConfig 400 400 9 i) t = .ok l} :=
  C123_independent (V.ttt_ids _) (ttt_brief _) _ _ (.inr rfl) (.inr rfl) _ _ _ V.demoOrders_valid _ ν _

end DieE.Props.In
