import Verif.TicTacToe.Count
import Verif.Props.Independent
import Mathlib.Probability.Distributions.Uniform
import Mathlib.Data.Int.CardIntervalMod

/-!
# C124: the exact chances in a TicTacToe match of random players
-/

namespace DieE.Props.Ch
open DieE DieE.Mcts DieE.Versus DieE.Prob DieE.TTT.Count MeasureTheory In
open scoped Nat
variable {Fl : Floats}

/-- The choice among up to nine moves is uniform. -/
def Even (ν : PMF ℕ) : Prop := ∀ k, 0 < k → k ≤ 9 → ∀ j < k, ν.toOuterMeasure {n | n % k = j} = (k : ENNReal)⁻¹

/-- The probability that the game has the result. -/
noncomputable def chance {G : Game} (ν : PMF ℕ) (m : M (List (Step G))) (w : Fin 3) : ENNReal :=
  iid ν {t | ∃ l, kind l = w ∧ value m t = .ok l}

theorem chance_pure {G : Game} (ν : PMF ℕ) (l : List (Step G)) (w : Fin 3) :
    chance ν (pure l : M (List (Step G))) w = (only w (kind l) : ENNReal) := by
  unfold chance only
  by_cases h : kind l = w
  · rw [show {t | ∃ l', kind l' = w ∧ value (pure l : M (List (Step G))) t = .ok l'} = Set.univ from
      Set.eq_univ_of_forall fun t => ⟨l, h, rfl⟩, measure_univ, if_pos h, Nat.cast_one]
  · rw [show {t | ∃ l', kind l' = w ∧ value (pure l : M (List (Step G))) t = .ok l'} = ∅ from
      Set.eq_empty_of_forall_notMem fun t ⟨l', h1, h2⟩ => by
        obtain rfl : l = l' := Except.ok.inj h2
        exact h h1, measure_empty, if_neg h, Nat.cast_zero]

theorem chance_draw {G : Game} (ν : PMF ℕ) {g : Nat → M (List (Step G))} (hg : ∀ n, Short (g n)) (w : Fin 3) :
    chance ν (M.draw >>= g) w = ∑' n, ν n * chance ν (g n) w := by
  choose q hq using fun n => (hg n).law ν
  have hset : ∀ m : M (List (Step G)), {t | ∃ l, kind l = w ∧ value m t = .ok l} = {t | value m t ∈ {r | ∃ l, kind l = w ∧ r = .ok l}} :=
    fun _ => rfl
  unfold chance
  rw [hset, (law_bind (law_draw ν) hq).prob]
  unfold andThen
  rw [PMF.bind_bind]
  simp only [PMF.pure_bind]
  rw [PMF.toOuterMeasure_bind_apply]
  refine tsum_congr fun n => ?_
  rw [hset, (hq n).prob]

theorem tsum_mod (ν : PMF ℕ) {k : Nat} (hk : 0 < k) (F : Nat → ENNReal) :
    ∑' n, ν n * F (n % k) = ∑ j ∈ Finset.range k, ν.toOuterMeasure {n | n % k = j} * F j := by
  have h : ∀ n, ν n * F (n % k) = ∑ j ∈ Finset.range k, Set.indicator {n | n % k = j} ν n * F j := by
    intro n
    rw [Finset.sum_eq_single (n % k)]
    · rw [Set.indicator_of_mem (show n ∈ {m | m % k = n % k} from rfl)]
    · intro j _ hj
      rw [Set.indicator_of_notMem (show n ∉ {m | m % k = j} from fun h => hj (Eq.symm h)), zero_mul]
    · intro h
      exact absurd (Finset.mem_range.2 (Nat.mod_lt _ hk)) h
  simp only [h]
  rw [Summable.tsum_finsetSum fun _ _ => ENNReal.summable]
  refine Finset.sum_congr rfl fun j _ => ?_
  rw [ENNReal.tsum_mul_right, PMF.toOuterMeasure_apply]

theorem chance_even {G : Game} {ν : PMF ℕ} (hν : Even ν) {k : Nat} (hk : 0 < k) (hk9 : k ≤ 9) {g : Nat → M (List (Step G))}
    (hg : ∀ n, Short (g n)) (w : Fin 3) :
    chance ν (M.draw >>= fun n => g (n % k)) w = (k : ENNReal)⁻¹ * ∑ j ∈ Finset.range k, chance ν (g j) w := by
  rw [chance_draw ν fun n => hg _, tsum_mod ν hk fun j => chance ν (g j) w, Finset.mul_sum]
  exact Finset.sum_congr rfl fun j hj => by rw [hν k hk hk9 j (Finset.mem_range.1 hj)]

/-! ## The game -/

/-- The state after a move. -/
def moved (s : TTT.State) (a : Nat) (h : a < 9) : TTT.State := { s with board := s.board.set a s.player, player := -s.player }

theorem apply_moved (pf : Profile) {s : TTT.State} (hp : s.player = -1 ∨ s.player = 1) {a : Nat} (h : a < 9) :
    TTT.applyMove pf s a = .ok (moved s a h) := by
  unfold TTT.applyMove
  rw [dif_pos h]
  rcases hp with hp | hp
  · unfold moved; rw [hp]; cases pf <;> rfl
  · unfold moved; rw [hp]; cases pf <;> rfl

theorem moves_gaps (s : TTT.State) :
    TTT.getValidMoves s = (List.range s.board.toList.length).filter fun i => s.board.toList.getD i 0 = 0 := by
  rw [Vector.length_toList]
  rfl

theorem turn_moved (pf : Profile) {s : TTT.State} (hp : s.player = -1 ∨ s.player = 1) {a : Nat} (ha : a ∈ TTT.getValidMoves s) (h : a < 9)
    {limit round : Nat} (hr : round < limit) :
    turn (G := TTT.game pf) limit round a s = pure ((moved s a h, TTT.checkWinner (moved s a h)) : TTT.State × Option Int) := by
  unfold turn
  have hne : a ≠ TTT.emptyMove := by
    unfold TTT.emptyMove
    omega
  refine (if_neg (c := (show (TTT.game pf).Mv from a) = (TTT.game pf).emptyMove) hne).trans ?_
  show (M.lift (.ok (TTT.getValidMoves s)) >>= fun ms => M.lift (assert (decide (a ∈ ms))) >>= fun _ =>
    M.lift (TTT.applyMove pf s a) >>= fun s' => _) = _
  rw [apply_moved pf hp h]
  funext t
  show (M.lift (assert (decide (a ∈ TTT.getValidMoves s))) >>= _) t = _
  rw [decide_eq_true ha]
  show Except.ok ((_, _), t) = Except.ok (_, t)
  congr 3
  show (match TTT.checkWinner (moved s a h) with
    | some w => some w
    | none => if round ≥ limit then some 0 else none) = _
  rw [if_neg (by omega)]
  cases TTT.checkWinner (moved s a h) <;> rfl

/-- The rest of a game after the move. -/
def rest (pf : Profile) (limit f k : Nat) (s : TTT.State) (steps : List (Step (TTT.game pf))) (a : Nat) : M (List (Step (TTT.game pf))) :=
  if h : a < 9 then
    if (TTT.checkWinner (moved s a h)).isSome then pure (steps ++ [⟨decide (s.player = -1), s, a, moved s a h⟩])
    else solo (G := TTT.game pf) randomAction randomAction limit f (k + 1) (moved s a h)
      (steps ++ [⟨decide (s.player = -1), s, a, moved s a h⟩])
  else M.fail .fuel

/-- A game of two random players from a position in which the player is to move. -/
theorem solo_step (pf : Profile) {s : TTT.State} (hp : s.player = -1 ∨ s.player = 1) {e : Nat} (he : s.board.toList.count 0 = e + 1)
    {limit k : Nat} (hk : k + 1 < limit) (f : Nat) (steps : List (Step (TTT.game pf))) :
    solo (G := TTT.game pf) randomAction randomAction limit (f + 1) k s steps = M.draw >>= fun n =>
      rest pf limit f k s steps ((TTT.getValidMoves s).getD (n % (e + 1)) 0) := by
  have hlen : (TTT.getValidMoves s).length = e + 1 := by rw [moves_gaps, gaps_length, he]
  have hch : (if (TTT.game pf).player s = -1 then randomAction (G := TTT.game pf) s else randomAction (G := TTT.game pf) s) =
      (M.draw >>= fun n => pure ((TTT.getValidMoves s).getD (n % (e + 1)) 0) : M (TTT.game pf).Mv) := by
    rw [ite_self]
    have : randomAction (G := TTT.game pf) s = M.choose (TTT.getValidMoves s) >>= fun a => pure (a.getD TTT.emptyMove) := rfl
    rw [this]
    cases hm : TTT.getValidMoves s with
    | nil => rw [hm] at hlen; cases hlen
    | cons a l =>
      rw [hm] at hlen
      have hl : l.length = e := by simpa using hlen
      unfold M.choose
      rw [bind_assoc']
      congr 1
      funext n
      rw [pure_bind', hl]
      have hlt : n % (e + 1) < (a :: l).length := by rw [hlen]; exact Nat.mod_lt _ (by omega)
      rw [List.getD_eq_getElem _ _ hlt, List.getD_eq_getElem _ _ hlt]
      rfl
  show (if (TTT.game pf).player s = -1 then randomAction (G := TTT.game pf) s else randomAction (G := TTT.game pf) s) >>= _ = _
  rw [hch, bind_assoc']
  congr 1
  funext n
  show (turn (G := TTT.game pf) limit (k + 1) ((TTT.getValidMoves s).getD (n % (e + 1)) 0) s >>= _) = _
  have hlt : n % (e + 1) < (TTT.getValidMoves s).length := by rw [hlen]; exact Nat.mod_lt _ (by omega)
  have hmem : (TTT.getValidMoves s).getD (n % (e + 1)) 0 ∈ TTT.getValidMoves s := by
    rw [List.getD_eq_getElem _ _ hlt]
    exact List.getElem_mem hlt
  have h9 : (TTT.getValidMoves s).getD (n % (e + 1)) 0 < 9 := List.mem_range.1 (List.mem_filter.1 hmem).1
  rw [turn_moved pf hp hmem h9 hk]
  unfold rest
  rw [dif_pos h9]
  rfl

theorem won_full {b : List Int} (h : b.count 0 = 0) : won b ≠ none := by
  unfold won
  split
  · exact fun h => nomatch h
  · rw [if_pos]
    · exact fun h => nomatch h
    · rw [List.all_eq_true]
      intro v hv
      rw [bne_iff_ne]
      rintro rfl
      exact List.count_eq_zero.1 h hv

theorem fate_won {v : Fin 3 → Nat} {k : Nat} {p : Int} {b : List Int} {o : Int} (h : won b = some o) : fate v k p b = k ! * v (kindOf o) := by
  cases k with
  | zero => unfold fate; rw [h]; exact (Nat.one_mul _).symm
  | succ k => unfold fate; rw [h]

theorem sum_getD {ms : List Nat} (F : Nat → ENNReal) : ∑ j ∈ Finset.range ms.length, F (ms.getD j 0) = (ms.map F).sum := by
  induction ms with
  | nil => rfl
  | cons a l ih =>
    rw [List.length_cons, Finset.sum_range_succ', List.map_cons, List.sum_cons, ← ih, add_comm]
    rfl

theorem kind_last {pf : Profile} (steps : List (Step (TTT.game pf))) (st : Step (TTT.game pf)) {o : Int}
    (h : TTT.checkWinner st.after = some o) : kind (steps ++ [st]) = kindOf o := by
  have : Versus.outcome (steps ++ [st]) = o := by
    unfold Versus.outcome
    rw [List.getLast?_concat]
    show ((TTT.checkWinner st.after).getD 0) = o
    rw [h]
    rfl
  unfold kind kindOf
  rw [this]

/-- The chances are those of filling the empty cells in any order. -/
theorem chance_solo {ν : PMF ℕ} (hν : Even ν) (pf : Profile) (w : Fin 3) {e : Nat} {s : TTT.State} (hp : s.player = -1 ∨ s.player = 1)
    (he : s.board.toList.count 0 = e) (hw : won s.board.toList = none) {f : Nat} (hf : e ≤ f) {limit k : Nat} (hk : k + e < limit)
    (steps : List (Step (TTT.game pf))) :
    chance ν (solo (G := TTT.game pf) randomAction randomAction limit f k s steps) w =
      (fate (only w) e s.player s.board.toList : ENNReal) / (e ! : Nat) := by
  induction e generalizing s f k steps with
  | zero => exact absurd hw (won_full he)
  | succ e ih =>
    obtain ⟨f, rfl⟩ : ∃ f', f = f' + 1 := ⟨f - 1, by omega⟩
    have hlen : (TTT.getValidMoves s).length = e + 1 := by rw [moves_gaps, gaps_length, he]
    have h9 : e + 1 ≤ 9 := by
      rw [← hlen]
      exact (List.length_filter_le ..).trans (by simp)
    rw [solo_step pf hp he (by omega)]
    have hs : ∀ a, Short (rest pf limit f k s steps a) := by
      intro a
      unfold rest
      split
      · split
        · exact short_pure _
        · exact solo_short (ttt_brief pf).toShorts randomAction_short randomAction_short ..
      · exact short_fail _
    rw [chance_even hν (k := e + 1) (g := fun j => rest pf limit f k s steps ((TTT.getValidMoves s).getD j 0)) (by omega) h9 (fun n => hs _), ← hlen,
      sum_getD fun a => chance ν (rest pf limit f k s steps a) w, hlen]
    have hsum : (TTT.getValidMoves s).map (fun a => chance ν (rest pf limit f k s steps a) w) =
        (TTT.getValidMoves s).map fun a => (fate (only w) e (-s.player) (s.board.toList.set a s.player) : ENNReal) / (e ! : Nat) := by
      refine List.map_congr_left fun a ha => ?_
      have ha9 : a < 9 := List.mem_range.1 (List.mem_filter.1 ha).1
      unfold rest
      rw [dif_pos ha9]
      have hb : (moved s a ha9).board.toList = s.board.toList.set a s.player := by
        unfold moved
        exact Vector.toList_set (h := ha9)
      rw [TTT.Count.checkWinner_won, hb]
      cases ho : won (s.board.toList.set a s.player) with
      | some o =>
        have hk := kind_last steps ⟨decide (s.player = -1), s, a, moved s a ha9⟩ (o := o) (by
          rw [TTT.Count.checkWinner_won, hb, ho])
        rw [Option.isSome_some, if_pos rfl, chance_pure, hk, fate_won ho, Nat.cast_mul, mul_comm,
          ENNReal.mul_div_cancel_right (Nat.cast_ne_zero.2 (Nat.factorial_ne_zero e)) (ENNReal.natCast_ne_top _)]
      | none =>
        have hm : a ∈ (List.range s.board.toList.length).filter fun i => s.board.toList.getD i 0 = 0 := by
          rw [← moves_gaps]
          exact ha
        have hp0 : s.player ≠ 0 := by omega
        rw [Option.isSome_none, if_neg (by decide), ih (s := moved s a ha9) ?_ ?_ ?_ ?_ ?_, hb]
        · rfl
        · show -s.player = -1 ∨ -s.player = 1
          omega
        · rw [hb]
          exact count_move he hp0 hm
        · rw [hb, ho]
        · omega
        · omega
    rw [hsum]
    have hfate : fate (only w) (e + 1) s.player s.board.toList =
        ((TTT.getValidMoves s).map fun a => fate (only w) e (-s.player) (s.board.toList.set a s.player)).sum := by
      rw [moves_gaps, fate, hw]
    rw [hfate, Nat.cast_list_sum, List.map_map, Nat.factorial_succ, Nat.cast_mul]
    simp only [ENNReal.div_eq_inv_mul]
    rw [List.sum_map_mul_left, ← mul_assoc, ← ENNReal.mul_inv]
    · rfl
    · exact .inl (Nat.cast_ne_zero.2 (Nat.succ_ne_zero e))
    · exact .inl (ENNReal.natCast_ne_top _)

/-! ## The match -/

/-- The probabilities of the results of game `i` of a match of 400 games: that player 1 wins, that player 2 wins, and a draw. -/
noncomputable def share (i : Nat) : Fin 3 → ENNReal := if i < 200 then ![737 / 1260, 121 / 420, 8 / 63] else ![121 / 420, 737 / 1260, 8 / 63]

theorem div_nine {a b c : Nat} (hc : c ≠ 0) (h : a * c = b * 362880) : (a : ENNReal) / (9 ! : Nat) = b / c := by
  rw [ENNReal.div_eq_div_iff (Nat.cast_ne_zero.2 hc) (ENNReal.natCast_ne_top _) (Nat.cast_ne_zero.2 (Nat.factorial_ne_zero 9))
    (ENNReal.natCast_ne_top _)]
  rw [Nat.mul_comm a c, Nat.mul_comm b] at h
  exact_mod_cast h

theorem bind_of {α β : Type} {m : M α} {f : α → M β} {t t' : Tape} {a : α} (h : m t = .ok (a, t')) : (m >>= f) t = f a t' := by
  show (match m t with
    | .error e => .error e
    | .ok (a, t') => f a t' : Res (β × Tape)) = _
  rw [h]

/-- C124: the results of a single game of two random players. -/
theorem C124_game {ν : PMF ℕ} (hν : Even ν) (pf : Profile) {p1 p2 : Player Fl} (h1 : p1.agent = .random) (h2 : p2.agent = .random)
    (cfg : Config) (i : Nat) (w : Fin 3) :
    iid ν {t | ∃ l, kind l = w ∧ value (alone (G := TTT.game pf) p1 p2 cfg 400 400 9 i) t = .ok l} = share i w := by
  have e1 : ∀ p : Player Fl, p.agent = .random → chooser (G := TTT.game pf) p cfg = randomAction := by
    intro p hp
    funext s
    unfold chooser
    rw [hp]
  show chance ν (alone (G := TTT.game pf) p1 p2 cfg 400 400 9 i) w = _
  have e2 : alone (G := TTT.game pf) p1 p2 cfg 400 400 9 i = solo (G := TTT.game pf) randomAction randomAction 400 9 0
      (⟨if i < 200 then -1 else 1, TTT.new.board, i⟩ : TTT.State) [] := by
    unfold alone soloGame
    rw [e1 p1 h1, e1 p2 h2]
    funext t
    exact bind_of (V.ttt_init pf 400 i t)
  rw [e2, chance_solo hν pf w (e := 9) ?_ rfl rfl (le_refl _) (by omega)]
  · unfold share
    show (fate (only w) 9 (if i < 200 then -1 else 1) (List.replicate 9 0) : ENNReal) / _ = _
    by_cases hi : i < 200
    · obtain ⟨f0, f1, f2⟩ := fate_first
      rw [if_pos hi, if_pos hi]
      match w with
      | 0 => rw [f0]; exact div_nine (b := 737) (c := 1260) (by decide) (by decide)
      | 1 => rw [f1]; exact div_nine (b := 121) (c := 420) (by decide) (by decide)
      | 2 => rw [f2]; exact div_nine (b := 8) (c := 63) (by decide) (by decide)
    · obtain ⟨f0, f1, f2⟩ := fate_second
      rw [if_neg hi, if_neg hi]
      match w with
      | 0 => rw [f0]; exact div_nine (b := 121) (c := 420) (by decide) (by decide)
      | 1 => rw [f1]; exact div_nine (b := 737) (c := 1260) (by decide) (by decide)
      | 2 => rw [f2]; exact div_nine (b := 8) (c := 63) (by decide) (by decide)
  · show (if i < 200 then (-1 : Int) else 1) = -1 ∨ (if i < 200 then (-1 : Int) else 1) = 1
    split
    · exact .inl rfl
    · exact .inr rfl

/-- C124: the distribution of the wins in a match of random players. -/
theorem C124_wins {ν : PMF ℕ} (hν : Even ν) (pf : Profile) (rnd : Rat → Rat) {p1 p2 : Player Fl} (h1 : p1.agent = .random)
    (h2 : p2.agent = .random) (cfg : Config) {o : Orders} (ho : o.Valid) (a b : Nat) :
    iid ν {t | ∃ r, value (play (G := TTT.game pf) pf rnd p1 p2 cfg o 9) t = .ok r ∧ r.wins1 = a ∧ r.wins2 = b} =
      ∑ w : Fin 400 → Fin 3 with (Finset.univ.filter fun i => w i = 0).card = a ∧ (Finset.univ.filter fun i => w i = 1).card = b,
        ∏ i : Fin 400, share i (w i) := by
  refine (C123_wins (V.ttt_ids pf) (ttt_brief pf) pf rnd (.inr h1) (.inr h2) cfg 400 400 ho 9 ν a b).trans ?_
  exact Finset.sum_congr rfl fun w _ => Finset.prod_congr rfl fun i _ => C124_game hν pf h1 h2 cfg i (w i)

/-- The number, 0 in case of a panic. -/
def amount {G : Game} (x : PlayResult G → Nat) : Res (PlayResult G) → ENNReal
  | .ok r => x r
  | .error _ => 0

/-- The average over all runs. -/
noncomputable def average {G : Game} (ν : PMF ℕ) (m : M (PlayResult G)) (x : PlayResult G → Nat) : ENNReal :=
  ∫⁻ t, amount x (value m t) ∂ iid ν

theorem average_kind {ν : PMF ℕ} (pf : Profile) (rnd : Rat → Rat) {p1 p2 : Player Fl} (h1 : p1.agent = .random)
    (h2 : p2.agent = .random) (cfg : Config) {o : Orders} (ho : o.Valid) (w : Fin 3) (x : PlayResult (TTT.game pf) → Nat)
    (hx : ∀ t t' r m, V.Behind pf rnd p1 p2 cfg 400 400 o 9 t t' r m → x r = (Finset.univ.filter fun i : Fin 400 => kind (m.steps i) = w).card) :
    average ν (play (G := TTT.game pf) pf rnd p1 p2 cfg o 9) x =
      ∑ i : Fin 400, iid ν {t | ∃ l, kind l = w ∧ value (alone (G := TTT.game pf) p1 p2 cfg 400 400 9 i) t = .ok l} := by
  let E (i : Fin 400) : Set Tape := {t | ∃ steps, Played (G := TTT.game pf) pf rnd p1 p2 cfg 400 400 o 9 t steps ∧ kind (steps i) = w}
  have hE : ∀ i, MeasurableSet (E i) := by
    intro i
    have := played_measurable (V.ttt_ids pf) (ttt_brief pf) pf rnd (.inr h1) (.inr h2) cfg 400 400 ho 9
      fun j => {l : List (Step (TTT.game pf)) | j = i → kind l = w}
    refine (congrArg MeasurableSet (Set.ext fun t => ?_)).mpr this
    refine exists_congr fun steps => and_congr_right fun _ => ⟨fun h j _ hj => ?_, fun h => h i i.2 rfl⟩
    rw [hj]
    exact h
  have hpt : ∀ t, amount x (value (play (G := TTT.game pf) pf rnd p1 p2 cfg o 9) t) = ∑ i : Fin 400, (E i).indicator 1 t := by
    intro t
    obtain ⟨r, t', h⟩ := V.C58_random pf rnd h1 h2 cfg ho t
    obtain ⟨m, ⟨h3, h5⟩, -⟩ := V.accounted (V.ttt_ids pf) ho h
    rw [value_ok.2 ⟨_, h⟩]
    show (x r : ENNReal) = _
    rw [hx t _ r m ⟨h3, h5⟩, Finset.card_filter, Nat.cast_sum]
    refine Finset.sum_congr rfl fun i _ => ?_
    by_cases hk : kind (m.steps i) = w
    · rw [if_pos hk, Set.indicator_of_mem (show t ∈ E i from ⟨_, ⟨_, r, m, ⟨h3, h5⟩, rfl⟩, hk⟩)]
      exact Nat.cast_one
    · rw [if_neg hk, Set.indicator_of_notMem]
      · exact Nat.cast_zero
      · rintro ⟨_, ⟨t2, r2, m2, ⟨h6, -⟩, rfl⟩, h7⟩
        obtain ⟨rfl, -⟩ := Prod.mk.inj (Except.ok.inj (h3.symm.trans h6))
        exact hk h7
  unfold average
  simp only [hpt]
  rw [lintegral_finset_sum _ fun i _ => measurable_one.indicator (hE i)]
  refine Finset.sum_congr rfl fun i _ => ?_
  rw [lintegral_indicator_one (hE i)]
  exact C123_tictactoe pf rnd (.inr h1) (.inr h2) (.inl h1) (.inl h2) ho ν i.2 {l | kind l = w}

theorem share_sum (w : Fin 3) : ∑ i : Fin 400, share i w = 200 * share 0 w + 200 * share 200 w := by
  rw [← Finset.sum_range fun i => share i w, ← Finset.sum_range_add_sum_Ico _ (show 200 ≤ 400 by decide)]
  congr 1
  · rw [Finset.sum_congr rfl (g := fun _ => share 0 w) fun i hi => ?_]
    · simp
    · unfold share
      rw [if_pos (Finset.mem_range.1 hi), if_pos (by decide)]
  · rw [Finset.sum_congr rfl (g := fun _ => share 200 w) fun i hi => ?_]
    · simp
    · unfold share
      rw [if_neg (by have := (Finset.mem_Ico.1 hi).1; omega), if_neg (by decide)]

theorem half_sum {a b c d x y : Nat} (hb : b ≠ 0) (hd : d ≠ 0) (hy : y ≠ 0) (h : 200 * (a * d + c * b) * y = x * (b * d)) :
    200 * ((a : ENNReal) / b) + 200 * ((c : ENNReal) / d) = x / y := by
  have hb' : (b : ℝ) ≠ 0 := Nat.cast_ne_zero.2 hb
  have hd' : (d : ℝ) ≠ 0 := Nat.cast_ne_zero.2 hd
  have hy' : (y : ℝ) ≠ 0 := Nat.cast_ne_zero.2 hy
  have f : ∀ m n : Nat, n ≠ 0 → ((m : ENNReal) / n) ≠ ⊤ := fun m n hn =>
    ENNReal.div_ne_top (ENNReal.natCast_ne_top _) (Nat.cast_ne_zero.2 hn)
  have g : ∀ m n : Nat, n ≠ 0 → (200 * ((m : ENNReal) / n)) ≠ ⊤ := fun m n hn => ENNReal.mul_ne_top (by decide) (f m n hn)
  rw [← ENNReal.toReal_eq_toReal_iff' (ENNReal.add_ne_top.2 ⟨g a b hb, g c d hd⟩) (f x y hy), ENNReal.toReal_add (g a b hb) (g c d hd)]
  simp only [ENNReal.toReal_mul, ENNReal.toReal_div, ENNReal.toReal_natCast, ENNReal.toReal_ofNat]
  have h' : (200 : ℝ) * (a * d + c * b) * y = x * (b * d) := by exact_mod_cast h
  field_simp
  linarith

/-- C124: on average each of two random players wins 11000/63 (about 174.6) of the 400 games. -/
theorem C124_average {ν : PMF ℕ} (hν : Even ν) (pf : Profile) (rnd : Rat → Rat) {p1 p2 : Player Fl} (h1 : p1.agent = .random)
    (h2 : p2.agent = .random) (cfg : Config) {o : Orders} (ho : o.Valid) :
    average ν (play (G := TTT.game pf) pf rnd p1 p2 cfg o 9) PlayResult.wins1 = 11000 / 63 ∧
    average ν (play (G := TTT.game pf) pf rnd p1 p2 cfg o 9) PlayResult.wins2 = 11000 / 63 ∧
    average ν (play (G := TTT.game pf) pf rnd p1 p2 cfg o 9) PlayResult.draws = 3200 / 63 := by
  have key (w : Fin 3) (x : PlayResult (TTT.game pf) → Nat)
      (hx : ∀ t t' r m, V.Behind pf rnd p1 p2 cfg 400 400 o 9 t t' r m →
        x r = (Finset.univ.filter fun i : Fin 400 => kind (m.steps i) = w).card) :
      average ν (play (G := TTT.game pf) pf rnd p1 p2 cfg o 9) x = 200 * share 0 w + 200 * share 200 w := by
    rw [average_kind pf rnd h1 h2 cfg ho w x hx, ← share_sum]
    exact Finset.sum_congr rfl fun i _ => C124_game hν pf h1 h2 cfg i w
  refine ⟨(key 0 _ fun t t' r m h => (behind_wins (V.ttt_ids pf) ho h).2.1).trans ?_,
    (key 1 _ fun t t' r m h => (behind_wins (V.ttt_ids pf) ho h).2.2.1).trans ?_,
    (key 2 _ fun t t' r m h => (behind_wins (V.ttt_ids pf) ho h).2.2.2).trans ?_⟩
  · exact half_sum (by decide) (by decide) (by decide) (a := 737) (b := 1260) (c := 121) (d := 420) (x := 11000) (y := 63) (by decide)
  · exact half_sum (by decide) (by decide) (by decide) (a := 121) (b := 420) (c := 737) (d := 1260) (x := 11000) (y := 63) (by decide)
  · exact half_sum (by decide) (by decide) (by decide) (a := 8) (b := 63) (c := 8) (d := 63) (x := 3200) (y := 63) (by decide)

/-! ## Examples -/

theorem residues {k : Nat} (hk : 0 < k) (h9 : k ≤ 9) {j : Nat} (hj : j < k) [DecidablePred fun n => n ∈ {n | n % k = j}] :
    (Finset.filter (fun n => n ∈ {n | n % k = j}) (Finset.range 2520)).card * k = 2520 := by
  have hd : 2520 % k = 0 := by interval_cases k <;> rfl
  have h := Nat.count_modEq_card 2520 hk j
  rw [hd, if_neg (Nat.not_lt_zero _), Nat.add_zero, Nat.count_eq_card_filter_range] at h
  have e : Finset.filter (fun n => n ∈ {n | n % k = j}) (Finset.range 2520) = Finset.filter (fun n => n ≡ j [MOD k]) (Finset.range 2520) := by
    ext n
    simp only [Finset.mem_filter, Set.mem_setOf_eq, Nat.ModEq, Nat.mod_eq_of_lt hj]
  rw [e, h, Nat.div_mul_cancel (Nat.dvd_of_mod_eq_zero hd)]

theorem div_inv {c k : Nat} (h : c * k = 2520) : (c : ENNReal) / (2520 : Nat) = (k : ENNReal)⁻¹ := by
  have h0 : c ≠ 0 := fun h0 => by rw [h0] at h; omega
  rw [← h, Nat.cast_mul, ENNReal.div_eq_inv_mul, ENNReal.mul_inv (.inl (Nat.cast_ne_zero.2 h0)) (.inl (ENNReal.natCast_ne_top _)),
    mul_comm, ← mul_assoc, ENNReal.mul_inv_cancel (Nat.cast_ne_zero.2 h0) (ENNReal.natCast_ne_top _), one_mul]

/-- Numbers that are uniform below 2520. -/
theorem even_uniform : Even (PMF.uniformOfFinset (Finset.range 2520) (Finset.nonempty_range_iff.2 (by decide))) := by
  intro k hk hk9 j hj
  rw [PMF.toOuterMeasure_uniformOfFinset_apply, Finset.card_range]
  refine div_inv ?_
  convert residues hk hk9 hj

/-- The first game of the match is won by player 1 with probability 737/1260. -/
example : iid (PMF.uniformOfFinset (Finset.range 2520) (Finset.nonempty_range_iff.2 (by decide)))
    {t | ∃ l, kind l = 0 ∧ value (alone (G := TTT.game .debug) V.randomPlayer V.randomPlayer V.demoConfig 400 400 9 0) t = .ok l} =
      737 / 1260 :=
  (C124_game even_uniform .debug rfl rfl V.demoConfig 0 0).trans (by simp [share])

end DieE.Props.Ch
