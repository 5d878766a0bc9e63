import Mathlib.Probability.Moments.SubGaussian
import Mathlib.Analysis.Complex.ExponentialBounds
import Verif.Props.Chances
import Verif.Props.Equal
import Verif.Props.Sure

/-!
# C132: the result of a match is close to the expected one
-/

namespace DieE.Props.Cs
open DieE DieE.Mcts DieE.Versus DieE.Prob DieE.Props.In DieE.Props.Ch MeasureTheory ProbabilityTheory
variable {G : Game} {Fl : Floats}

/-! ## Hoeffding's inequality for events -/

section
variable {Ω : Type} [MeasurableSpace Ω] {μ : Measure Ω} [IsProbabilityMeasure μ] {n : Nat} {D : Fin n → Set Ω}

open Classical in
/-- The number of events that occur. -/
noncomputable def hits (D : Fin n → Set Ω) (ω : Fin n → Ω) : Nat := (Finset.univ.filter fun i => ω i ∈ D i).card

theorem hits_sum (D : Fin n → Set Ω) (ω : Fin n → Ω) : (hits D ω : ℝ) = ∑ i, (D i).indicator (fun _ => (1 : ℝ)) (ω i) := by
  classical
  unfold hits
  rw [Finset.card_filter, Nat.cast_sum]
  refine Finset.sum_congr rfl fun i _ => ?_
  by_cases h : ω i ∈ D i
  · rw [if_pos h, Set.indicator_of_mem h, Nat.cast_one]
  · rw [if_neg h, Set.indicator_of_notMem h, Nat.cast_zero]

theorem hits_upper (hD : ∀ i, MeasurableSet (D i)) {ε : ℝ} (hε : 0 ≤ ε) :
    (Measure.pi fun _ : Fin n => μ).real {ω | ∑ i, μ.real (D i) + ε ≤ hits D ω} ≤ Real.exp (-(2 * ε ^ 2 / n)) := by
  let X (i : Fin n) (x : Ω) : ℝ := (D i).indicator (fun _ => (1 : ℝ)) x - μ.real (D i)
  have hm (i) : Measurable ((D i).indicator fun _ => (1 : ℝ)) := measurable_const.indicator (hD i)
  have hind : iIndepFun (fun i (ω : Fin n → Ω) => X i (ω i)) (Measure.pi fun _ : Fin n => μ) :=
    iIndepFun_pi fun i => ((hm i).sub_const _).aemeasurable
  have hsub (i : Fin n) : HasSubgaussianMGF (fun ω : Fin n → Ω => X i (ω i)) ((‖(1 : ℝ) - 0‖₊ / 2) ^ 2) (Measure.pi fun _ : Fin n => μ) := by
    have he : (Measure.pi fun _ : Fin n => μ)[fun ω => (D i).indicator (fun _ => (1 : ℝ)) (ω i)] = μ.real (D i) := by
      have hp := measurePreserving_eval (fun _ : Fin n => μ) i
      have h1 := integral_map (μ := Measure.pi fun _ : Fin n => μ) hp.measurable.aemeasurable (f := (D i).indicator fun _ => (1 : ℝ)) (hm i).aestronglyMeasurable
      rw [hp.map_eq] at h1
      exact h1.symm.trans (integral_indicator_one (hD i))
    have := hasSubgaussianMGF_of_mem_Icc (μ := Measure.pi fun _ : Fin n => μ) (a := 0) (b := 1)
      (X := fun ω => (D i).indicator (fun _ => (1 : ℝ)) (ω i)) ((hm i).comp (measurable_pi_apply i)).aemeasurable
      (Filter.Eventually.of_forall fun ω => by
        by_cases h : ω i ∈ D i
        · rw [Set.indicator_of_mem h]; exact ⟨zero_le_one, le_refl _⟩
        · rw [Set.indicator_of_notMem h]; exact ⟨le_refl _, zero_le_one⟩)
    rw [he] at this
    exact this
  have h := HasSubgaussianMGF.measure_sum_ge_le_of_iIndepFun hind (s := Finset.univ) (fun i _ => hsub i) hε
  refine (le_of_eq ?_).trans (h.trans (le_of_eq ?_))
  · congr 1
    ext ω
    rw [Set.mem_ofPred_eq, Set.mem_ofPred_eq, hits_sum, Finset.sum_sub_distrib]
    exact ⟨fun h => by linarith, fun h => by linarith⟩
  · congr 1
    simp
    ring

theorem hits_lower (hD : ∀ i, MeasurableSet (D i)) {ε : ℝ} (hε : 0 ≤ ε) :
    (Measure.pi fun _ : Fin n => μ).real {ω | (hits D ω : ℝ) ≤ ∑ i, μ.real (D i) - ε} ≤ Real.exp (-(2 * ε ^ 2 / n)) := by
  refine (le_of_eq ?_).trans (hits_upper (μ := μ) (D := fun i => (D i)ᶜ) (fun i => (hD i).compl) hε)
  congr 1
  ext ω
  rw [Set.mem_ofPred_eq, Set.mem_ofPred_eq, hits_sum, hits_sum]
  have h1 (i) : μ.real (D i)ᶜ = 1 - μ.real (D i) := probReal_compl_eq_one_sub (hD i)
  have h2 (i) : (D i)ᶜ.indicator (fun _ => (1 : ℝ)) (ω i) = 1 - (D i).indicator (fun _ => (1 : ℝ)) (ω i) := by
    by_cases h : ω i ∈ D i
    · rw [Set.indicator_of_mem h, Set.indicator_of_notMem (show ω i ∉ (D i)ᶜ from not_not.2 h), sub_self]
    · rw [Set.indicator_of_notMem h, Set.indicator_of_mem h, sub_zero]
  simp only [h1, h2, Finset.sum_sub_distrib]
  exact ⟨fun h => by linarith, fun h => by linarith⟩

end

/-! ## The games of a match -/

/-- Game `i` of the match, played alone, ends with the result `k`. -/
def won (p1 p2 : Player Fl) (cfg : Config) (G : Game) (n limit f i : Nat) (k : Fin 3) : Set Tape :=
  {t | ∃ l : List (Step G), kind l = k ∧ value (alone p1 p2 cfg n limit f i) t = .ok l}

theorem alone_short (hd : Brief G) (p1 p2 : Player Fl) (cfg : Config) (n limit f i : Nat) : Short (alone (G := G) p1 p2 cfg n limit f i) := by
  unfold alone soloGame
  exact (initState_short hd n i).bind fun s => solo_short hd.toShorts (chooser_short hd p1 cfg) (chooser_short hd p2 cfg) ..

theorem won_measurable (hd : Brief G) (p1 p2 : Player Fl) (cfg : Config) (n limit f i : Nat) (k : Fin 3) :
    MeasurableSet (won p1 p2 cfg G n limit f i k) := by
  refine (congrArg MeasurableSet (Set.ext fun t => ?_)).mpr
    ((alone_short (G := G) hd p1 p2 cfg n limit f i).measurable {r | ∃ l, kind l = k ∧ r = .ok l})
  exact Iff.rfl

/-- The result of a match, with the numbers of wins of player 1, of player 2 and of other results. -/
def part (r : PlayResult G) (k : Fin 3) : Nat := if k = 0 then r.wins1 else if k = 1 then r.wins2 else r.draws

theorem part_count (hid : Ids G) {pf : Profile} {rnd : Rat → Rat} {p1 p2 : Player Fl} {cfg : Config} {n limit : Nat} {o : Orders}
    (ho : o.Valid) {f : Nat} {t : Tape} {r : PlayResult G} (h : value (playN pf rnd p1 p2 cfg n limit o f) t = .ok r) :
    ∃ steps, Played (G := G) pf rnd p1 p2 cfg n limit o f t steps ∧ ∀ k, part r k = (Finset.univ.filter fun i : Fin n => kind (steps i) = k).card := by
  obtain ⟨t', h⟩ := value_ok.1 h
  obtain ⟨m, t1, h1, h2⟩ := M.bind_ok.1 h
  obtain ⟨h3, rfl⟩ := M.lift_ok.1 h2
  refine ⟨m.steps, ⟨_, r, m, ⟨h1, h3⟩, rfl⟩, fun k => ?_⟩
  obtain ⟨-, h4, h5, h6⟩ := behind_wins hid ho ⟨h1, h3⟩
  match k with
  | 0 => exact h4
  | 1 => exact h5
  | 2 => exact h6

/-- A number of results in a match is at most as likely as in games played separately. -/
theorem match_le (hid : Ids G) (hd : Brief G) (pf : Profile) (rnd : Rat → Rat) {p1 p2 : Player Fl} (h1 : Plain p1) (h2 : Plain p2)
    (cfg : Config) (n limit : Nat) {o : Orders} (ho : o.Valid) (f : Nat) (ν : PMF ℕ) (k : Fin 3) (B : Set Nat) :
    iid ν {t | ∃ r : PlayResult G, value (playN pf rnd p1 p2 cfg n limit o f) t = .ok r ∧ part r k ∈ B} ≤
      (Measure.pi fun _ : Fin n => iid ν) {ω | hits (fun i : Fin n => won p1 p2 cfg G n limit f i k) ω ∈ B} := by
  classical
  let E (w : Fin n → Fin 3) : Set Tape := {t | ∃ steps, Played (G := G) pf rnd p1 p2 cfg n limit o f t steps ∧
    ∀ i < n, steps i ∈ {l | ∀ h : i < n, kind l = w ⟨i, h⟩}}
  let F (w : Fin n → Fin 3) : Set (Fin n → Tape) := Set.univ.pi fun i => won p1 p2 cfg G n limit f i (w i)
  let S : Finset (Fin n → Fin 3) := Finset.univ.filter fun w => (Finset.univ.filter fun i => w i = k).card ∈ B
  have hEF : ∀ w, iid ν (E w) = (Measure.pi fun _ : Fin n => iid ν) (F w) := by
    intro w
    rw [Measure.pi_pi, C123_independent hid hd pf rnd h1 h2 cfg n limit ho f ν fun i => {l | ∀ h : i < n, kind l = w ⟨i, h⟩},
      Finset.prod_range]
    refine Finset.prod_congr rfl fun i _ => ?_
    congr 1
    ext t
    exact exists_congr fun l => and_congr_left fun _ => ⟨fun h => h i.2, fun h _ => h⟩
  have hF : ∀ w, MeasurableSet (F w) := fun w => MeasurableSet.univ_pi fun i => won_measurable hd ..
  have huniq : ∀ {i : Fin n} {t : Tape} {a b : Fin 3}, t ∈ won p1 p2 cfg G n limit f i a → t ∈ won p1 p2 cfg G n limit f i b → a = b := by
    rintro i t a b ⟨l, rfl, h3⟩ ⟨l', rfl, h4⟩
    obtain rfl := Except.ok.inj (h3.symm.trans h4)
    rfl
  have hdis : Set.PairwiseDisjoint (S : Set (Fin n → Fin 3)) F := by
    intro w _ w' _ hne
    rw [Function.onFun, Set.disjoint_left]
    intro ω h3 h4
    exact hne (funext fun i => huniq (h3 i trivial) (h4 i trivial))
  calc iid ν {t | ∃ r : PlayResult G, value (playN pf rnd p1 p2 cfg n limit o f) t = .ok r ∧ part r k ∈ B}
      ≤ iid ν (⋃ w ∈ S, E w) := by
        refine measure_mono ?_
        rintro t ⟨r, h3, h4⟩
        obtain ⟨steps, h5, h6⟩ := part_count hid ho h3
        rw [Set.mem_iUnion₂]
        refine ⟨fun i => kind (steps i), ?_, steps, h5, fun i hi _ => rfl⟩
        rw [Finset.mem_filter, ← h6]
        exact ⟨Finset.mem_univ _, h4⟩
    _ ≤ ∑ w ∈ S, iid ν (E w) := measure_biUnion_finset_le _ _
    _ = ∑ w ∈ S, (Measure.pi fun _ : Fin n => iid ν) (F w) := Finset.sum_congr rfl fun w _ => hEF w
    _ = (Measure.pi fun _ : Fin n => iid ν) (⋃ w ∈ S, F w) := (measure_biUnion_finset hdis fun w _ => hF w).symm
    _ ≤ _ := by
        refine measure_mono ?_
        intro ω h3
        obtain ⟨w, hw, h4⟩ := Set.mem_iUnion₂.1 h3
        have : hits (fun i : Fin n => won p1 p2 cfg G n limit f i k) ω = (Finset.univ.filter fun i => w i = k).card := by
          unfold hits
          refine congrArg Finset.card (Finset.filter_congr fun i _ => ⟨fun h5 => huniq (h4 i trivial) h5, fun h5 => ?_⟩)
          have h6 : ω i ∈ won p1 p2 cfg G n limit f i (w i) := h4 i trivial
          rw [h5] at h6
          exact h6
        rw [Set.mem_ofPred_eq, this]
        exact (Finset.mem_filter.1 hw).2

/-- How often the result `k` is to be expected: the sum of its probabilities in the games played alone. -/
noncomputable def mean (ν : PMF ℕ) (p1 p2 : Player Fl) (cfg : Config) (G : Game) (n limit f : Nat) (k : Fin 3) : ℝ :=
  ∑ i : Fin n, (iid ν).real (won p1 p2 cfg G n limit f i k)

/-- Much more results `k` than expected are unlikely; matches of at most `f` rounds. -/
theorem upper (hid : Ids G) (hd : Brief G) (pf : Profile) (rnd : Rat → Rat) {p1 p2 : Player Fl} (h1 : Plain p1) (h2 : Plain p2)
    (cfg : Config) (n limit : Nat) {o : Orders} (ho : o.Valid) (f : Nat) (ν : PMF ℕ) (k : Fin 3) {ε : ℝ} (hε : 0 ≤ ε) :
    (iid ν).real {t | ∃ r : PlayResult G, value (playN pf rnd p1 p2 cfg n limit o f) t = .ok r ∧ mean ν p1 p2 cfg G n limit f k + ε ≤ part r k} ≤
      Real.exp (-(2 * ε ^ 2 / n)) :=
  (ENNReal.toReal_mono (measure_ne_top _ _) (match_le hid hd pf rnd h1 h2 cfg n limit ho f ν k {x | mean ν p1 p2 cfg G n limit f k + ε ≤ x})).trans
    (hits_upper (fun i => won_measurable hd p1 p2 cfg n limit f i k) hε)

/-- Much fewer are unlikely, too. -/
theorem lower (hid : Ids G) (hd : Brief G) (pf : Profile) (rnd : Rat → Rat) {p1 p2 : Player Fl} (h1 : Plain p1) (h2 : Plain p2)
    (cfg : Config) (n limit : Nat) {o : Orders} (ho : o.Valid) (f : Nat) (ν : PMF ℕ) (k : Fin 3) {ε : ℝ} (hε : 0 ≤ ε) :
    (iid ν).real {t | ∃ r : PlayResult G, value (playN pf rnd p1 p2 cfg n limit o f) t = .ok r ∧ (part r k : ℝ) ≤ mean ν p1 p2 cfg G n limit f k - ε} ≤
      Real.exp (-(2 * ε ^ 2 / n)) :=
  (ENNReal.toReal_mono (measure_ne_top _ _) (match_le hid hd pf rnd h1 h2 cfg n limit ho f ν k {x | (x : ℝ) ≤ mean ν p1 p2 cfg G n limit f k - ε})).trans
    (hits_lower (fun i => won_measurable hd p1 p2 cfg n limit f i k) hε)

/-! ## Matches of any length -/

theorem solo_mono (f1 f2 : G.S → M G.Mv) (limit f : Nat) {k : Nat} {s : G.S} {steps l : List (Step G)} {t t' : Tape}
    (h : solo f1 f2 limit f k s steps t = .ok (l, t')) : solo f1 f2 limit (f + 1) k s steps t = .ok (l, t') := by
  induction f generalizing k s steps t with
  | zero => cases h
  | succ f ih =>
    rw [solo] at h ⊢
    obtain ⟨a, t1, e1, h⟩ := M.bind_ok.1 h
    obtain ⟨x, t2, e2, h⟩ := M.bind_ok.1 h
    refine M.bind_ok.2 ⟨a, t1, e1, M.bind_ok.2 ⟨x, t2, e2, ?_⟩⟩
    split
    · next hx => rw [if_pos hx] at h; exact h
    · next hx => rw [if_neg hx] at h; exact ih h

theorem won_mono (p1 p2 : Player Fl) (cfg : Config) (n limit i : Nat) (k : Fin 3) : Monotone fun f => won p1 p2 cfg G n limit f i k := by
  refine monotone_nat_of_le_succ fun f t => ?_
  rintro ⟨l, h1, h2⟩
  obtain ⟨t', h2⟩ := value_ok.1 h2
  obtain ⟨s, t1, h3, h4⟩ := M.bind_ok.1 h2
  exact ⟨l, h1, value_ok.2 ⟨t', M.bind_ok.2 ⟨s, t1, h3, solo_mono _ _ _ _ h4⟩⟩⟩

/-- Game `i` of the match, played alone, ends with the result `k` at some time. -/
def wonEver (p1 p2 : Player Fl) (cfg : Config) (G : Game) (n limit i : Nat) (k : Fin 3) : Set Tape :=
  {t | ∃ (f : Nat) (l : List (Step G)), kind l = k ∧ value (alone p1 p2 cfg n limit f i) t = .ok l}

/-- How often the result `k` is to be expected. -/
noncomputable def expected (ν : PMF ℕ) (p1 p2 : Player Fl) (cfg : Config) (G : Game) (n limit : Nat) (k : Fin 3) : ℝ :=
  ∑ i : Fin n, (iid ν).real (wonEver p1 p2 cfg G n limit i k)

theorem wonEver_union (p1 p2 : Player Fl) (cfg : Config) (n limit i : Nat) (k : Fin 3) :
    wonEver p1 p2 cfg G n limit i k = ⋃ f, won p1 p2 cfg G n limit f i k := by
  ext t
  rw [Set.mem_iUnion]
  rfl

theorem real_union {S : Nat → Set Tape} (hS : Monotone S) (ν : PMF ℕ) :
    Filter.Tendsto (fun f => (iid ν).real (S f)) Filter.atTop (nhds ((iid ν).real (⋃ f, S f))) :=
  (ENNReal.tendsto_toReal (measure_ne_top _ _)).comp (tendsto_measure_iUnion_atTop hS)

theorem mean_tendsto (ν : PMF ℕ) (p1 p2 : Player Fl) (cfg : Config) (n limit : Nat) (k : Fin 3) :
    Filter.Tendsto (fun f => mean ν p1 p2 cfg G n limit f k) Filter.atTop (nhds (expected ν p1 p2 cfg G n limit k)) := by
  refine tendsto_finsetSum _ fun i _ => ?_
  rw [wonEver_union]
  exact real_union (won_mono p1 p2 cfg n limit i k) ν

theorem mean_le (ν : PMF ℕ) (p1 p2 : Player Fl) (cfg : Config) (n limit f : Nat) (k : Fin 3) :
    mean ν p1 p2 cfg G n limit f k ≤ expected ν p1 p2 cfg G n limit k :=
  Finset.sum_le_sum fun i _ => measureReal_mono fun _ h => ⟨f, h⟩

/-- The match ends, with a number of results `k` in `B`. -/
def Ends (pf : Profile) (rnd : Rat → Rat) (p1 p2 : Player Fl) (cfg : Config) (G : Game) (n limit : Nat) (o : Orders) (k : Fin 3) (B : Set Nat) : Set Tape :=
  {t | ∃ (f : Nat) (r : PlayResult G), value (playN pf rnd p1 p2 cfg n limit o f) t = .ok r ∧ part r k ∈ B}

theorem ends_tendsto (pf : Profile) (rnd : Rat → Rat) (p1 p2 : Player Fl) (cfg : Config) (n limit : Nat) (o : Orders) (k : Fin 3) (B : Set Nat) (ν : PMF ℕ) :
    Filter.Tendsto (fun f => (iid ν).real {t | ∃ r : PlayResult G, value (playN pf rnd p1 p2 cfg n limit o f) t = .ok r ∧ part r k ∈ B})
      Filter.atTop (nhds ((iid ν).real (Ends pf rnd p1 p2 cfg G n limit o k B))) := by
  have e : Ends pf rnd p1 p2 cfg G n limit o k B =
      ⋃ f, {t | ∃ r : PlayResult G, value (playN pf rnd p1 p2 cfg n limit o f) t = .ok r ∧ part r k ∈ B} := by
    ext t
    rw [Set.mem_iUnion]
    rfl
  rw [e]
  refine real_union (monotone_nat_of_le_succ fun f t => ?_) ν
  rintro ⟨r, h1, h2⟩
  obtain ⟨t', h1⟩ := value_ok.1 h1
  exact ⟨r, value_ok.2 ⟨t', DieE.Props.Sr.playN_mono h1⟩, h2⟩

/-- C132: that a result occurs `ε` times more often than expected has probability at most `exp (-2 ε² / n)`. -/
theorem C132_more (hid : Ids G) (hd : Brief G) (pf : Profile) (rnd : Rat → Rat) {p1 p2 : Player Fl} (h1 : Plain p1) (h2 : Plain p2)
    (cfg : Config) (n limit : Nat) {o : Orders} (ho : o.Valid) (ν : PMF ℕ) (k : Fin 3) {ε : ℝ} (hε : 0 ≤ ε) :
    (iid ν).real (Ends pf rnd p1 p2 cfg G n limit o k {x | expected ν p1 p2 cfg G n limit k + ε ≤ x}) ≤ Real.exp (-(2 * ε ^ 2 / n)) := by
  refine le_of_tendsto' (ends_tendsto ..) fun f => (measureReal_mono ?_).trans (upper hid hd pf rnd h1 h2 cfg n limit ho f ν k hε)
  rintro t ⟨r, h3, h4⟩
  have h4 : expected ν p1 p2 cfg G n limit k + ε ≤ part r k := h4
  exact ⟨r, h3, (by linarith [mean_le ν p1 p2 cfg (G := G) n limit f k] : mean ν p1 p2 cfg G n limit f k + ε ≤ part r k)⟩

/-- C132: the same for `ε` times less often. -/
theorem C132_less (hid : Ids G) (hd : Brief G) (pf : Profile) (rnd : Rat → Rat) {p1 p2 : Player Fl} (h1 : Plain p1) (h2 : Plain p2)
    (cfg : Config) (n limit : Nat) {o : Orders} (ho : o.Valid) (ν : PMF ℕ) (k : Fin 3) {ε : ℝ} (hε : 0 ≤ ε) :
    (iid ν).real (Ends pf rnd p1 p2 cfg G n limit o k {x | (x : ℝ) ≤ expected ν p1 p2 cfg G n limit k - ε}) ≤ Real.exp (-(2 * ε ^ 2 / n)) := by
  rcases hε.eq_or_lt with rfl | hε
  · refine le_trans measureReal_le_one ?_
    simp
  let δ (g : Nat) : ℝ := expected ν p1 p2 cfg G n limit k - mean ν p1 p2 cfg G n limit g k
  have hδ : Filter.Tendsto δ Filter.atTop (nhds 0) := by
    have := (mean_tendsto (G := G) ν p1 p2 cfg n limit k).const_sub (expected ν p1 p2 cfg G n limit k)
    rwa [sub_self] at this
  have hb : Filter.Tendsto (fun g => Real.exp (-(2 * (ε - δ g) ^ 2 / n))) Filter.atTop (nhds (Real.exp (-(2 * ε ^ 2 / n)))) := by
    have hc : Continuous fun x : ℝ => Real.exp (-(2 * (ε - x) ^ 2 / n)) := by fun_prop
    have := (hc.tendsto 0).comp hδ
    rwa [sub_zero] at this
  refine le_of_tendsto_of_tendsto (ends_tendsto ..) hb ?_
  filter_upwards [hδ.eventually (gt_mem_nhds hε)] with g hg
  refine (measureReal_mono ?_).trans (lower hid hd pf rnd h1 h2 cfg n limit ho g ν k (by linarith : 0 ≤ ε - δ g))
  rintro t ⟨r, h3, h4⟩
  have h4 : (part r k : ℝ) ≤ expected ν p1 p2 cfg G n limit k - ε := h4
  exact ⟨r, h3, (by show (part r k : ℝ) ≤ mean ν p1 p2 cfg G n limit g k - (ε - (expected ν p1 p2 cfg G n limit k - mean ν p1 p2 cfg G n limit g k)); linarith)⟩

/-- C132, both sides together. -/
theorem both (hid : Ids G) (hd : Brief G) (pf : Profile) (rnd : Rat → Rat) {p1 p2 : Player Fl} (h1 : Plain p1) (h2 : Plain p2)
    (cfg : Config) (n limit : Nat) {o : Orders} (ho : o.Valid) (ν : PMF ℕ) (k : Fin 3) {ε : ℝ} (hε : 0 ≤ ε) :
    (iid ν).real (Ends pf rnd p1 p2 cfg G n limit o k {x | ε ≤ |(x : ℝ) - expected ν p1 p2 cfg G n limit k|}) ≤ 2 * Real.exp (-(2 * ε ^ 2 / n)) := by
  have h3 := C132_more hid hd pf rnd h1 h2 cfg n limit ho ν k hε
  have h4 := C132_less hid hd pf rnd h1 h2 cfg n limit ho ν k hε
  refine (measureReal_mono (s₂ := Ends pf rnd p1 p2 cfg G n limit o k {x | expected ν p1 p2 cfg G n limit k + ε ≤ x} ∪
    Ends pf rnd p1 p2 cfg G n limit o k {x | (x : ℝ) ≤ expected ν p1 p2 cfg G n limit k - ε}) ?_).trans
      ((measureReal_union_le _ _).trans (by linarith))
  rintro t ⟨f, r, h5, h6⟩
  rcases le_abs.1 (show ε ≤ |(part r k : ℝ) - expected ν p1 p2 cfg G n limit k| from h6) with h6 | h6
  · exact .inl ⟨f, r, h5, (by linarith : expected ν p1 p2 cfg G n limit k + ε ≤ part r k)⟩
  · exact .inr ⟨f, r, h5, (by linarith : (part r k : ℝ) ≤ expected ν p1 p2 cfg G n limit k - ε)⟩

/-! ## What is expected -/

/-- C132: if matches end, the probability of a result of a game in a match is that of the game played alone. -/
theorem C132_game (hid : Ids G) (hd : Brief G) (pf : Profile) (rnd : Rat → Rat) {p1 p2 : Player Fl} (h1 : Plain p1) (h2 : Plain p2)
    (cfg : Config) (n limit : Nat) {o : Orders} (ho : o.Valid) (ν : PMF ℕ)
    (hok : ∀ᵐ t ∂ iid ν, ∃ f r, value (playN (G := G) pf rnd p1 p2 cfg n limit o f) t = .ok r) {i : Nat} (hi : i < n) (k : Fin 3) :
    iid ν {t | ∃ f steps, Played (G := G) pf rnd p1 p2 cfg n limit o f t steps ∧ kind (steps i) = k} = iid ν (wonEver p1 p2 cfg G n limit i k) := by
  have hmem := Finset.mem_range.2 hi
  let S (f : Nat) : Set Tape := {t | ∃ steps, Played (G := G) pf rnd p1 p2 cfg n limit o f t steps ∧ kind (steps i) = k}
  let T (f : Nat) : Set Tape := {t | ∃ steps, Played (G := G) pf rnd p1 p2 cfg n limit o f t steps}
  let A (f j : Nat) : ENNReal := iid ν {t | ∃ l : List (Step G), value (alone p1 p2 cfg n limit f j) t = .ok l}
  let R (f : Nat) : ENNReal := ∏ j ∈ (Finset.range n).erase i, A f j
  have hmono : ∀ {f t steps}, Played (G := G) pf rnd p1 p2 cfg n limit o f t steps → Played pf rnd p1 p2 cfg n limit o (f + 1) t steps := by
    rintro f t _ ⟨t', r, m, ⟨h3, h4⟩, rfl⟩
    exact ⟨t', r, m, ⟨DieE.Props.Sr.playRun_mono h3, h4⟩, rfl⟩
  have hS : Monotone S := monotone_nat_of_le_succ fun f t ⟨steps, h3, h4⟩ => ⟨steps, hmono h3, h4⟩
  have hT : Monotone T := monotone_nat_of_le_succ fun f t ⟨steps, h3⟩ => ⟨steps, hmono h3⟩
  have hA1 : ∀ f j, A f j ≤ 1 := fun f j => prob_le_one
  have hTA : ∀ f, iid ν (T f) = ∏ j ∈ Finset.range n, A f j := by
    intro f
    have := C123_independent hid hd pf rnd h1 h2 cfg n limit ho f ν fun _ => (Set.univ : Set (List (Step G)))
    simp only [Set.mem_univ, implies_true, and_true, true_and] at this
    exact this
  have hSA : ∀ f, iid ν (S f) = iid ν (won p1 p2 cfg G n limit f i k) * R f := by
    intro f
    have := C123_independent hid hd pf rnd h1 h2 cfg n limit ho f ν fun j => ({l | j = i → kind l = k} : Set (List (Step G)))
    rw [← Finset.mul_prod_erase _ _ hmem] at this
    refine ((congrArg (iid ν) (Set.ext fun t => ?_)).trans this).trans (congrArg₂ (· * ·) (congrArg (iid ν) (Set.ext fun t => ?_)) ?_)
    · refine exists_congr fun steps => and_congr_right fun _ => ⟨fun h j _ hj => ?_, fun h => h i hi rfl⟩
      rw [hj]
      exact h
    · exact exists_congr fun l => and_congr_left fun _ => ⟨fun h => h rfl, fun h _ => h⟩
    · refine Finset.prod_congr rfl fun j hj => congrArg (iid ν) (Set.ext fun t => ?_)
      exact exists_congr fun l => ⟨fun h => h.2, fun h => ⟨fun e => absurd e (Finset.mem_erase.1 hj).1, h⟩⟩
  have hT1 : Filter.Tendsto (fun f => iid ν (T f)) Filter.atTop (nhds 1) := by
    have h3 := tendsto_measure_iUnion_atTop (μ := iid ν) hT
    have h4 : iid ν (⋃ f, T f) = 1 := by
      have : ∀ᵐ t ∂ iid ν, t ∈ ⋃ f, T f := by
        filter_upwards [hok] with t ⟨f, r, hr⟩
        obtain ⟨steps, h5, -⟩ := part_count hid ho hr
        exact Set.mem_iUnion.2 ⟨f, steps, h5⟩
      exact (measure_congr (Filter.eventuallyEq_univ.2 this)).trans measure_univ
    rw [h4] at h3
    exact h3
  have hR1 : Filter.Tendsto R Filter.atTop (nhds 1) := by
    refine tendsto_of_tendsto_of_tendsto_of_le_of_le hT1 tendsto_const_nhds (fun f => ?_) fun f => Finset.prod_le_one' fun j _ => hA1 f j
    show iid ν (T f) ≤ R f
    rw [hTA, ← Finset.mul_prod_erase _ _ hmem]
    exact mul_le_of_le_one_left' (hA1 f i)
  have hlim : Filter.Tendsto (fun f => iid ν (S f)) Filter.atTop (nhds (iid ν (wonEver p1 p2 cfg G n limit i k))) := by
    simp only [hSA]
    rw [wonEver_union]
    have := ENNReal.Tendsto.mul (tendsto_measure_iUnion_atTop (μ := iid ν) (won_mono (G := G) p1 p2 cfg n limit i k)) (.inr ENNReal.one_ne_top) hR1
      (.inr (measure_ne_top _ _))
    rw [mul_one] at this
    exact this
  have e : {t | ∃ f steps, Played (G := G) pf rnd p1 p2 cfg n limit o f t steps ∧ kind (steps i) = k} = ⋃ f, S f := by
    ext t
    rw [Set.mem_iUnion]
    rfl
  rw [e]
  exact tendsto_nhds_unique (tendsto_measure_iUnion_atTop hS) hlim

/-! ## The games -/

theorem div400 (ε : ℝ) : 2 * ε ^ 2 / (400 : Nat) = ε ^ 2 / 200 := by
  rw [show ((400 : Nat) : ℝ) = 400 by norm_num]
  ring

/-- C132 for Backgammon: a match ends, and a number of wins of a player that differs by `ε` from the expected one has probability at
most `2 exp (-ε² / 200)`. -/
theorem C132_backgammon (pf : Profile) (rnd : Rat → Rat) {p1 p2 : Player Fl} (h1 : Plain p1) (h2 : Plain p2) {cfg : Config}
    (hr1 : V.Ready 1352 false cfg p1) (hr2 : V.Ready 1352 false cfg p2) {o : Orders} (ho : o.Valid) {ν : PMF ℕ} {c : ENNReal} (hc : c ≠ 0)
    (hν : ∀ j < 6, c ≤ ν.toMeasure {x | x % 6 = j}) {ε : ℝ} (hε : 0 ≤ ε) :
    (∀ᵐ t ∂ iid ν, ∃ f r, value (play (G := BG.game pf) pf rnd p1 p2 cfg o f) t = .ok r) ∧
    (iid ν).real {t | ∃ f r, value (play (G := BG.game pf) pf rnd p1 p2 cfg o f) t = .ok r ∧
      ε ≤ |(r.wins1 : ℝ) - expected ν p1 p2 cfg (BG.game pf) 400 400 0|} ≤ 2 * Real.exp (-(ε ^ 2 / 200)) ∧
    (iid ν).real {t | ∃ f r, value (play (G := BG.game pf) pf rnd p1 p2 cfg o f) t = .ok r ∧
      ε ≤ |(r.wins2 : ℝ) - expected ν p1 p2 cfg (BG.game pf) 400 400 1|} ≤ 2 * Real.exp (-(ε ^ 2 / 200)) := by
  rw [← div400]
  refine ⟨?_, both (V.bg_ids pf) (bg_brief pf) pf rnd h1 h2 cfg 400 400 ho ν 0 hε, both (V.bg_ids pf) (bg_brief pf) pf rnd h1 h2 cfg 400 400 ho ν 1 hε⟩
  filter_upwards [Sr.C96 pf rnd hr1 hr2 ho hc (Luck.lively_iid ν.toMeasure hν)] with t ⟨f, r, t', h⟩
  exact ⟨f, r, value_ok.2 ⟨t', h⟩⟩

theorem mean_equal (pf : Profile) (p : Player Fl) (cfg : Config) (f : Nat) (ν : PMF ℕ) :
    mean ν p p cfg (TTT.game pf) 400 400 f 0 ≤ 200 := by
  have h1 : mean ν p p cfg (TTT.game pf) 400 400 f 0 = mean ν p p cfg (TTT.game pf) 400 400 f 1 := by
    unfold mean
    refine Finset.sum_bij (fun i _ => i.rev) (fun _ _ => Finset.mem_univ _) (fun i _ j _ h => Fin.rev_inj.1 h)
      (fun j _ => ⟨j.rev, Finset.mem_univ _, Fin.rev_rev _⟩) fun i _ => ?_
    congr 1
    ext t
    have := Ee.alone_kind p p cfg (Ee.paired pf 200) 400 f (i := (i.rev : Fin 400)) i.rev.2 0 t
    rw [show 200 + 200 - 1 - ((i.rev : Fin 400) : Nat) = i by rw [Fin.val_rev]; omega] at this
    exact this
  have h2 : mean ν p p cfg (TTT.game pf) 400 400 f 0 + mean ν p p cfg (TTT.game pf) 400 400 f 1 ≤ 400 := by
    unfold mean
    rw [← Finset.sum_add_distrib]
    refine (Finset.sum_le_sum (g := fun _ => (1 : ℝ)) fun i _ => ?_).trans (by simp)
    rw [← measureReal_union ?_ (won_measurable (ttt_brief pf) ..)]
    · exact measureReal_le_one
    · rw [Set.disjoint_left]
      rintro t ⟨l, h3, h4⟩ ⟨l', h5, h6⟩
      obtain rfl := Except.ok.inj (h4.symm.trans h6)
      rw [h3] at h5
      cases h5
  linarith

/-- C132 for two equal players: a match in which the first one reaches 55 percent has probability at most `exp (-2)`, about 0.135. -/
theorem C132_equal (pf : Profile) (rnd : Rat → Rat) {p : Player Fl} (hp : Plain p) (cfg : Config) {o : Orders} (ho : o.Valid) (f : Nat) (ν : PMF ℕ) :
    (iid ν).real {t | ∃ r, value (play (G := TTT.game pf) pf rnd p p cfg o f) t = .ok r ∧ 220 ≤ r.wins1} ≤ Real.exp (-2) := by
  have h := upper (V.ttt_ids pf) (ttt_brief pf) pf rnd hp hp cfg 400 400 ho f ν 0 (ε := 20) (by norm_num)
  rw [show (2 * (20 : ℝ) ^ 2 / (400 : Nat)) = 2 by norm_num] at h
  refine (measureReal_mono ?_).trans h
  rintro t ⟨r, h1, h2⟩
  refine ⟨r, h1, ?_⟩
  have h3 : (220 : ℝ) ≤ r.wins1 := by exact_mod_cast h2
  have h4 := mean_equal pf p cfg f ν
  show mean ν p p cfg (TTT.game pf) 400 400 f 0 + 20 ≤ (r.wins1 : ℝ)
  linarith

/-- C132 for two random players: the chance that the match makes the first one look better by the standard of the training
(55 percent) is less than 1 in 22000. -/
theorem C132_random {ν : PMF ℕ} (hν : Even ν) (pf : Profile) (rnd : Rat → Rat) {p1 p2 : Player Fl} (h1 : p1.agent = .random)
    (h2 : p2.agent = .random) (cfg : Config) {o : Orders} (ho : o.Valid) :
    (iid ν).real {t | ∃ r, value (play (G := TTT.game pf) pf rnd p1 p2 cfg o 9) t = .ok r ∧ 220 ≤ r.wins1} ≤ 1 / 22000 := by
  have hm : mean ν p1 p2 cfg (TTT.game pf) 400 400 9 0 = 11000 / 63 := by
    have e : ∑ i : Fin 400, iid ν (won p1 p2 cfg (TTT.game pf) 400 400 9 i 0) = (11000 : Nat) / (63 : Nat) := by
      rw [Finset.sum_congr rfl fun (i : Fin 400) _ => show iid ν (won p1 p2 cfg (TTT.game pf) 400 400 9 i 0) = _ from C124_game hν pf h1 h2 cfg i 0, share_sum]
      exact half_sum (by decide) (by decide) (by decide) (a := 737) (b := 1260) (c := 121) (d := 420) (x := 11000) (y := 63) (by decide)
    unfold mean Measure.real
    rw [← ENNReal.toReal_sum fun i _ => measure_ne_top _ _, e, ENNReal.toReal_div]
    simp
  have h := upper (V.ttt_ids pf) (ttt_brief pf) pf rnd (.inr h1) (.inr h2) cfg 400 400 ho 9 ν 0 (ε := 220 - 11000 / 63) (by norm_num)
  refine (measureReal_mono ?_).trans (h.trans ?_)
  · rintro t ⟨r, h1, h2⟩
    refine ⟨r, h1, ?_⟩
    have h3 : (220 : ℝ) ≤ r.wins1 := by exact_mod_cast h2
    show mean ν p1 p2 cfg (TTT.game pf) 400 400 9 0 + (220 - 11000 / 63) ≤ (r.wins1 : ℝ)
    rw [hm]
    linarith
  · have h3 : Real.exp (-(2 * (220 - 11000 / 63 : ℝ) ^ 2 / (400 : Nat))) ≤ Real.exp (-10) := Real.exp_le_exp.2 (by norm_num)
    refine h3.trans ?_
    rw [Real.exp_neg, ← one_div]
    refine one_div_le_one_div_of_le (by norm_num) ?_
    have h4 : Real.exp 10 = Real.exp 1 ^ 10 := by rw [← Real.exp_nat_mul]; norm_num
    rw [h4]
    calc (22000 : ℝ) ≤ 2.7182818283 ^ 10 := by norm_num
      _ ≤ _ := pow_le_pow_left₀ (by norm_num) Real.exp_one_gt_d9.le 10

/-! ## Examples -/

/-- Numbers that are uniform below 2520. -/
noncomputable def ν2520 : PMF ℕ := PMF.uniformOfFinset (Finset.range 2520) (Finset.nonempty_range_iff.2 (by decide))

/-- Random players at dice: the hypotheses of `C132_backgammon`. -/
example : Plain V.randomPlayer ∧ V.Ready 1352 false V.demoConfig V.randomPlayer ∧ V.demoOrders.Valid ∧
    ∀ j < 6, (2520 : ENNReal)⁻¹ ≤ ν2520.toMeasure {x | x % 6 = j} := by
  refine ⟨.inr rfl, .inl rfl, V.demoOrders_valid, fun j hj => ?_⟩
  have h : ν2520.toMeasure {j} ≤ ν2520.toMeasure {x | x % 6 = j} := measure_mono fun x hx => by rw [Set.mem_singleton_iff.1 hx]; exact Nat.mod_eq_of_lt hj
  rw [PMF.toMeasure_apply_singleton _ _ (MeasurableSet.singleton _)] at h
  refine le_trans (le_of_eq ?_) h
  unfold ν2520
  rw [PMF.uniformOfFinset_apply_of_mem _ (Finset.mem_range.2 (by omega)), Finset.card_range]
  norm_num

/-- Two random players are equal players, and the numbers below 2520 are even. -/
example : Plain V.randomPlayer ∧ Even (PMF.uniformOfFinset (Finset.range 2520) (Finset.nonempty_range_iff.2 (by decide))) := ⟨.inr rfl, even_uniform⟩

end DieE.Props.Cs
