import Verif.Versus.Tail
import Verif.Props.Sure

/-!
# C120: the expected length of a match is finite
-/

namespace DieE.Props.Tl
open DieE DieE.Mcts DieE.Versus DieE.Props DieE.Props.V DieE.Props.S DieE.Props.A DieE.Props.Sr DieE.Spec DieE.BG DieE.Luck
open MeasureTheory

variable {Fl : Floats}

/-- The numbers that a round takes at most from the tape, if a player takes at most `d` per game. -/
def roundCost (d n : Nat) : Nat := (2 * d + 2 * 2) * n

/-- The length of a block of equal dice in which two passes fit. -/
def blockLen (d n : Nat) : Nat := 3 * roundCost d n + 2

/-- The round limit is reached before this position of the tape. -/
def startPos (d n limit : Nat) : Nat := 4 * n + roundCost d n * limit

/-- For one of the six dice none of the first `N` blocks after the round limit shows only this die. -/
def unlucky (d n limit N : Nat) : Set Tape := ⋃ j : Fin 6, without j.1 (blockLen d n) (startPos d n limit) N

/-- The rounds after which a match is over, if each die is shown by one of the first `N` blocks. -/
def roundsFor (d n limit N : Nat) : Nat := limit + startPos d n limit + blockLen d n * N + 3

/-- No game only passes from the round limit to round `F`, if before that every die fills a block of the tape. -/
theorem no_long_passing {pf : Profile} {t : Tape} {n d limit N F : Nat} (ht : t ∉ unlucky d n limit N) (hF : roundsFor d n limit N ≤ F)
    {s : Nat → State} {p : Nat → Nat} (hp0 : p 0 ≤ 4 * n) (hp : ∀ k < F, p (k + 1) ≤ p k + roundCost d n)
    (h : ∀ k < F, limit ≤ k + 1 → BgLive (s k) ∧ BgLive (s (k + 1)) ∧ getValidMoves pf (s k) = .ok [] ∧ p k < p (k + 1) ∧
      ∃ q u, p k ≤ q ∧ q ≤ p k + roundCost d n ∧ (BG.game pf).skip (s k) (skipTape q t) = .ok (s (k + 1), u)) : False := by
  unfold roundsFor at hF
  have hboard : ∀ k, limit + k ≤ F → (s (limit + k)).board = (s limit).board := by
    intro k
    induction k with
    | zero => exact fun _ => rfl
    | succ k ih =>
      intro hk
      obtain ⟨hR, -, -, -, q, u, -, -, hs⟩ := h (limit + k) (by omega) (by omega)
      obtain ⟨d, -, -, h1⟩ := skipM_ok hs
      exact (skipTurn_board hR.1 h1).trans (ih (by omega))
  have hlim := (h limit (by omega) (by omega)).1
  obtain ⟨σ, die, a, hd, hl⟩ := can_move hlim.1.board hlim.2.2 hlim.2.1
  obtain ⟨j, hj, rfl⟩ : ∃ j : Nat, j < 6 ∧ die = (j : Int) + 1 := ⟨(die - 1).toNat, by omega, by omega⟩
  obtain ⟨m, hm, hblock⟩ : ∃ m < N, t ∈ event j (blockLen d n) (startPos d n limit) m := by
    by_contra hc
    push Not at hc
    exact ht (Set.mem_iUnion.2 ⟨⟨j, hj⟩, hc⟩)
  have hpos : p limit ≤ startPos d n limit := by
    have key : ∀ k ≤ F, p k ≤ 4 * n + roundCost d n * k := by
      intro k
      induction k with
      | zero => exact fun _ => hp0
      | succ k ih =>
        intro hk
        have h1 := ih (by omega)
        have h2 := hp k (by omega)
        rw [Nat.mul_add, Nat.mul_one]
        omega
    exact key limit (by omega)
  obtain ⟨b, hb⟩ : ∃ b, b = startPos d n limit + blockLen d n * m := ⟨_, rfl⟩
  have hbN : b + blockLen d n ≤ startPos d n limit + blockLen d n * N := by
    have := Nat.mul_le_mul_left (blockLen d n) (show m + 1 ≤ N from hm)
    rw [Nat.mul_add, Nat.mul_one] at this
    omega
  obtain ⟨B, hB⟩ : ∃ B, B = roundCost d n := ⟨_, rfl⟩
  have hblen : blockLen d n = 3 * B + 2 := by rw [hB]; rfl
  have hblock : ∀ i < 3 * B + 2, t (b + i) % 6 = j := by
    intro i hi
    rw [hb]
    exact hblock i (by omega)
  rw [← hB] at h hp
  have hgrow : ∀ k, limit + k ≤ F → p limit + k ≤ p (limit + k) := by
    intro k
    induction k with
    | zero => exact fun _ => le_refl _
    | succ k ih =>
      intro hk
      have := (h (limit + k) (by omega) (by omega)).2.2.2.1
      have := ih (by omega)
      show p limit + (k + 1) ≤ p (limit + k + 1)
      omega
  have hex : ∃ k, b ≤ p (limit + k) := ⟨b, by have := hgrow b (by omega); omega⟩
  obtain ⟨k, hkb, hk1, hk2⟩ : ∃ k ≤ b, b ≤ p (limit + k) ∧ p (limit + k) ≤ b + B := by
    have hle : Nat.find hex ≤ b := Nat.find_min' hex (by have := hgrow b (by omega); omega)
    refine ⟨Nat.find hex, hle, Nat.find_spec hex, ?_⟩
    cases hf : Nat.find hex with
    | zero =>
      show p limit ≤ b + B
      omega
    | succ k' =>
      have h1 : ¬ b ≤ p (limit + k') := Nat.find_min hex (by omega)
      have h2 := hp (limit + k') (by omega)
      show p (limit + k' + 1) ≤ b + B
      omega
  -- after a pass in the block the player has the roll `(j + 1, j + 1)` and no move
  have key : ∀ k', limit ≤ k' → k' + 1 < F → ∀ q u, (BG.game pf).skip (s k') (skipTape q t) = .ok (s (k' + 1), u) → b ≤ q →
      q + 1 < b + (3 * B + 2) →
      (∀ a, ¬ LegalStep (mover (s (k' + 1))) (view (s limit).board) ((j : Int) + 1) a) ∧ (s (k' + 1)).player = - (s k').player := by
    intro k' hk' hkF q u hs hq1 hq2
    obtain ⟨dd, hd', -, h1⟩ := skipM_ok hs
    have e0 : skipTape q t 0 % 6 = j := by
      have := hblock (q - b) (by omega)
      rw [← this]
      exact congrArg (fun x => t x % 6) (by omega)
    have e1 : skipTape q t 1 % 6 = j := by
      have := hblock (q + 1 - b) (by omega)
      rw [← this]
      exact congrArg (fun x => t x % 6) (by omega)
    rw [e0, e1] at hd'
    have hR := (h k' (by omega) (by omega)).1
    have hR1 := h (k' + 1) (by omega) (by omega)
    have h2 := h1
    rw [skipTurn_eq pf hR.1, Except.ok.injEq] at h2
    have hroll : (s (k' + 1)).roll.1 = (j : Int) + 1 := by rw [← h2, hd']
    have hplayer : (s (k' + 1)).player = - (s k').player := by rw [← h2]
    refine ⟨fun a => ?_, hplayer⟩
    have := stuck_no_step hR1.1.1 hR1.2.2.1 ((j : Int) + 1) (by rw [hroll]; simp) a
    have hbd := hboard (k' + 1 - limit) (by omega)
    rw [show limit + (k' + 1 - limit) = k' + 1 by omega] at hbd
    rwa [hbd] at this
  obtain ⟨hR0, -, -, hp0', q0, u0, ha0, hb0, hs0⟩ := h (limit + k) (by omega) (by omega)
  obtain ⟨hR1, -, -, -, q1, u1, ha1, hb1, hs1⟩ := h (limit + k + 1) (by omega) (by omega)
  have hp1 := hp (limit + k) (by omega)
  obtain ⟨n0, pl0⟩ := key (limit + k) (by omega) (by omega) q0 u0 hs0 (by omega) (by omega)
  obtain ⟨n1, pl1⟩ := key (limit + k + 1) (by omega) (by omega) q1 u1 hs1 (by omega) (by omega)
  have hside : σ = mover (s (limit + k + 1)) ∨ σ = mover (s (limit + k + 1 + 1)) := by
    rcases hR1.1.player with e | e
    · have e' : (s (limit + k + 1 + 1)).player = 1 := by rw [pl1, e]; rfl
      unfold mover
      rw [e, e']
      cases σ <;> simp
    · have e' : (s (limit + k + 1 + 1)).player = -1 := by rw [pl1, e]
      unfold mover
      rw [e, e']
      cases σ <;> simp
  rcases hside with e | e
  · rw [e] at hl
    exact n0 a hl
  · rw [e] at hl
    exact n1 a hl

/-- The numbers a player takes at most for each of its games in a round. -/
def turnCost (cfg : Config) : Nat := 2 + 2 * 1352 * (1 + cfg.iterations)

/-- After finitely many rounds, the number of which can be read off the dice, a match is over. -/
theorem C120_rounds (pf : Profile) (rnd : Rat → Rat) {p1 p2 : Player Fl} {cfg : Config} (h1 : Ready 1352 false cfg p1)
    (h2 : Ready 1352 false cfg p2) (n limit : Nat) {o : Orders} (ho : o.Valid) {N F : Nat} {t : Tape}
    (ht : t ∉ unlucky (turnCost cfg) n limit N) (hF : roundsFor (turnCost cfg) n limit N ≤ F) :
    ∃ r t', playN (G := BG.game pf) pf rnd p1 p2 cfg n limit o F t = .ok (r, t') := by
  have hA1 := able_sub (fun s hs => hs.1) (R := BgLive) (bg_ready (pf := pf) h1 ho.set1)
  have hA2 := able_sub (fun s hs => hs.1) (R := BgLive) (bg_ready (pf := pf) h2 ho.set2)
  obtain ⟨⟨m, t'⟩, h⟩ : ∃ r, playRun p1.agent p2.agent (fun k => getActions (G := BG.game pf) p1 cfg (o.set1 k))
      (fun k => getActions p2 cfg (o.set2 k)) n limit o.map F t = .ok r := by
    by_contra hn
    push Not at hn
    obtain ⟨s, p, q1, q2, q3⟩ := slow_passes (bg_ids pf) (bg_live_closed pf) (bg_live_runs pf) (bg_live_begins pf) (bg_no_empty pf)
      (bg_frugal pf) (bg_init_cost pf n) hA1 hA2 (bg_thrifty h1 ho.set1) (bg_thrifty h2 ho.set2) ho.map hn
    exact no_long_passing (pf := pf) ht hF q1 q2 q3
  obtain ⟨r, h3⟩ := result_ok rnd ho h
  exact ⟨r, t', h3⟩

/-! ## Probabilities -/

theorem unlucky_measurable (d n limit N : Nat) : MeasurableSet (unlucky d n limit N) := by
  refine MeasurableSet.iUnion fun j => ?_
  have : without j.1 (blockLen d n) (startPos d n limit) N =
      ⋂ m ∈ Finset.range N, (event j.1 (blockLen d n) (startPos d n limit) m)ᶜ := by
    ext t
    simp [without]
  rw [this]
  exact Finset.measurableSet_biInter _ fun m _ => (event_measurable _ _ _ _).compl

theorem unlucky_prob {ε : ENNReal} {μ : Measure Tape} [IsProbabilityMeasure μ] (hμ : Lively ε μ) (d n limit N : Nat) :
    μ (unlucky d n limit N) ≤ 6 * (1 - ε ^ blockLen d n) ^ N := by
  refine (measure_iUnion_fintype_le _ _).trans ?_
  refine (Finset.sum_le_sum fun j _ => without_prob hμ j.2 (blockLen d n) (startPos d n limit) N).trans ?_
  rw [Finset.sum_const, Finset.card_univ, Fintype.card_fin, nsmul_eq_mul]
  rfl

/-- C120, the tail: the probability that a match is not over after `roundsFor … N` rounds decreases exponentially in `N`. -/
theorem C120_tail (pf : Profile) (rnd : Rat → Rat) {p1 p2 : Player Fl} {cfg : Config} (h1 : Ready 1352 false cfg p1)
    (h2 : Ready 1352 false cfg p2) {o : Orders} (ho : o.Valid) {μ : Measure Tape} [IsProbabilityMeasure μ] {ε : ENNReal}
    (hμ : Lively ε μ) (N : Nat) :
    μ (EndsBy pf rnd p1 p2 cfg o (roundsFor (turnCost cfg) 400 400 N))ᶜ ≤ 6 * (1 - ε ^ blockLen (turnCost cfg) 400) ^ N := by
  refine (measure_mono fun t ht => ?_).trans (unlucky_prob hμ (turnCost cfg) 400 400 N)
  by_contra hc
  exact ht (C120_rounds pf rnd h1 h2 400 400 ho hc (le_refl _))

/-- The number of rounds of a match: infinite, if it does not end. -/
noncomputable def length (pf : Profile) (rnd : Rat → Rat) (p1 p2 : Player Fl) (cfg : Config) (o : Orders) (t : Tape) : ENNReal :=
  ⨅ f ∈ {f : Nat | t ∈ EndsBy pf rnd p1 p2 cfg o f}, (f : ENNReal)

theorem length_le (pf : Profile) (rnd : Rat → Rat) {p1 p2 : Player Fl} {cfg : Config} (h1 : Ready 1352 false cfg p1)
    (h2 : Ready 1352 false cfg p2) {o : Orders} (ho : o.Valid) (t : Tape) :
    length pf rnd p1 p2 cfg o t ≤ (roundsFor (turnCost cfg) 400 400 0 : ENNReal) + blockLen (turnCost cfg) 400 *
      ∑' N, (unlucky (turnCost cfg) 400 400 N).indicator 1 t := by
  by_cases hall : ∀ N, t ∈ unlucky (turnCost cfg) 400 400 N
  · have : ∑' N, (unlucky (turnCost cfg) 400 400 N).indicator (1 : Tape → ENNReal) t = ⊤ := by
      rw [show (fun N => (unlucky (turnCost cfg) 400 400 N).indicator (1 : Tape → ENNReal) t) = fun _ : Nat => (1 : ENNReal) from
        funext fun N => Set.indicator_of_mem (hall N) _]
      exact ENNReal.tsum_const_eq_top_of_ne_zero one_ne_zero
    rw [this, ENNReal.mul_top (by unfold blockLen; simp), add_top]
    exact le_top
  · classical
    push Not at hall
    obtain ⟨hN, hmin⟩ : t ∉ unlucky (turnCost cfg) 400 400 (Nat.find hall) ∧
        ∀ m < Nat.find hall, t ∈ unlucky (turnCost cfg) 400 400 m :=
      ⟨Nat.find_spec hall, fun m hm => by_contra fun hc => Nat.find_min hall hm hc⟩
    obtain ⟨N, hNe⟩ : ∃ N, N = Nat.find hall := ⟨_, rfl⟩
    rw [← hNe] at hN hmin
    have hin : t ∈ EndsBy pf rnd p1 p2 cfg o (roundsFor (turnCost cfg) 400 400 N) :=
      C120_rounds pf rnd h1 h2 400 400 ho hN (le_refl _)
    refine (iInf₂_le (roundsFor (turnCost cfg) 400 400 N) hin).trans ?_
    have hsum : (N : ENNReal) ≤ ∑' N, (unlucky (turnCost cfg) 400 400 N).indicator (1 : Tape → ENNReal) t := by
      refine le_trans (le_of_eq ?_) (ENNReal.sum_le_tsum (Finset.range N))
      rw [Finset.sum_congr rfl fun m hm => Set.indicator_of_mem (hmin m (Finset.mem_range.1 hm)) _]
      simp
    have hr : roundsFor (turnCost cfg) 400 400 N = roundsFor (turnCost cfg) 400 400 0 + blockLen (turnCost cfg) 400 * N := by
      unfold roundsFor
      omega
    rw [hr]
    push_cast
    gcongr

/-- C120: the expected number of rounds of a match is finite, with an explicit bound. -/
theorem C120_expected (pf : Profile) (rnd : Rat → Rat) {p1 p2 : Player Fl} {cfg : Config} (h1 : Ready 1352 false cfg p1)
    (h2 : Ready 1352 false cfg p2) {o : Orders} (ho : o.Valid) {μ : Measure Tape} [IsProbabilityMeasure μ] {ε : ENNReal} (hε : ε ≠ 0)
    (hμ : Lively ε μ) :
    ∫⁻ t, length pf rnd p1 p2 cfg o t ∂μ ≤
        roundsFor (turnCost cfg) 400 400 0 + blockLen (turnCost cfg) 400 * (6 * (ε ^ blockLen (turnCost cfg) 400)⁻¹) ∧
      ∫⁻ t, length pf rnd p1 p2 cfg o t ∂μ < ⊤ := by
  have hε1 : ε ≤ 1 := by
    have := hμ 0 Set.univ (fun _ _ _ => by simp) 0 (by decide)
    rw [measure_univ, mul_one] at this
    exact this.trans prob_le_one
  have hle : ∫⁻ t, length pf rnd p1 p2 cfg o t ∂μ ≤
      roundsFor (turnCost cfg) 400 400 0 + blockLen (turnCost cfg) 400 * (6 * (ε ^ blockLen (turnCost cfg) 400)⁻¹) := by
    refine (lintegral_mono (length_le pf rnd h1 h2 ho)).trans ?_
    rw [lintegral_add_left measurable_const, lintegral_const, measure_univ, mul_one, lintegral_const_mul]
    · gcongr
      rw [lintegral_tsum fun N => ((measurable_one).indicator (unlucky_measurable _ _ _ N)).aemeasurable]
      calc ∑' N, ∫⁻ t, (unlucky (turnCost cfg) 400 400 N).indicator 1 t ∂μ
          ≤ ∑' N, 6 * (1 - ε ^ blockLen (turnCost cfg) 400) ^ N := by
            refine ENNReal.tsum_le_tsum fun N => ?_
            rw [lintegral_indicator_one (unlucky_measurable _ _ _ N)]
            exact unlucky_prob hμ _ _ _ N
        _ = 6 * (ε ^ blockLen (turnCost cfg) 400)⁻¹ := by
            rw [ENNReal.tsum_mul_left, ENNReal.tsum_geometric, ENNReal.sub_sub_cancel (by simp) (pow_le_one' hε1 _)]
    · exact Measurable.tsum fun N => (measurable_one).indicator (unlucky_measurable _ _ _ N)
  refine ⟨hle, hle.trans_lt ?_⟩
  refine ENNReal.add_lt_top.2 ⟨ENNReal.natCast_lt_top _, ENNReal.mul_lt_top (ENNReal.natCast_lt_top _) (ENNReal.mul_lt_top (by simp) ?_)⟩
  exact (ENNReal.inv_ne_top.2 (pow_ne_zero _ hε)).lt_top

/-- C120 for independent dice. -/
theorem C120_fair (pf : Profile) (rnd : Rat → Rat) {p1 p2 : Player Fl} {cfg : Config} (h1 : Ready 1352 false cfg p1)
    (h2 : Ready 1352 false cfg p2) {o : Orders} (ho : o.Valid) :
    ∫⁻ t, length pf rnd p1 p2 cfg o t ∂(Measure.infinitePi (fun _ : Nat => fairDie) : Measure Tape) < ⊤ :=
  (C120_expected pf rnd h1 h2 ho (ε := (6 : ENNReal)⁻¹) (by simp) (lively_iid fairDie fun _ hj => fairDie_residue hj)).2

/-- The hypotheses hold for the random player. -/
example : ∫⁻ t, length .release (fun x => x) randomPlayer randomPlayer demoConfig demoOrders t
    ∂(Measure.infinitePi (fun _ : Nat => fairDie) : Measure Tape) < ⊤ :=
  C120_fair _ _ (.inl rfl) (.inl rfl) demoOrders_valid

end DieE.Props.Tl
