import Mathlib.Tactic.FieldSimp
import Mathlib.Tactic.Positivity
import Mathlib.MeasureTheory.Integral.Bochner.Basic
import Mathlib.MeasureTheory.Integral.Bochner.Set
import Mathlib.Probability.ProbabilityMassFunction.Integrals
import Mathlib.Probability.Distributions.Uniform
import Verif.Mcts.RootPriors
import Verif.Props.Alpha

/-!
# C113: how much noise the roots get

`apply_dirichlet` (noise.rs:27-35) mixes the policy of the network with noise over *all* codes of the action space;
afterwards `turn_policy_to_probs_tensor_parallel` (utils.rs:58-72) keeps the legal codes and divides by their sum.
-/

namespace DieE.Props.No
open DieE DieE.Mcts DieE.Props.A DieE.Props.S

variable {G : Game}

/-- The share of the noise in the prior of a root, if the policy gives `P` to the legal codes and the noise `Z`. -/
def share {K : Type} [Field K] (eps P Z : K) : K := eps * Z / ((1 - eps) * P + eps * Z)

section share
variable {K : Type} [Field K] [LinearOrder K] [IsStrictOrderedRing K] {eps P Z : K}

theorem den_pos (h0 : 0 ≤ eps) (h1 : eps < 1) (hP : 0 < P) (hZ : 0 ≤ Z) : 0 < (1 - eps) * P + eps * Z :=
  add_pos_of_pos_of_nonneg (mul_pos (sub_pos.2 h1) hP) (mul_nonneg h0 hZ)

/-- C113: the share lies between 0 and 1, and is the configured one exactly if policy and noise give the legal codes the same
mass; it is larger if the noise gives more, and smaller if the policy does. -/
theorem C113_share (h0 : 0 < eps) (h1 : eps < 1) (hP : 0 < P) (hZ : 0 ≤ Z) :
    0 ≤ share eps P Z ∧ share eps P Z < 1 ∧ (share eps P Z = eps ↔ Z = P) ∧ (share eps P Z < eps ↔ Z < P) ∧
      (share eps P Z = 0 ↔ Z = 0) := by
  have hd := den_pos h0.le h1 hP hZ
  have h1' : 0 < 1 - eps := sub_pos.2 h1
  have hk : ∀ (a : K), a * (eps * (1 - eps)) = 0 ↔ a = 0 := fun a =>
    ⟨fun h => (mul_eq_zero.1 h).resolve_right (mul_pos h0 h1').ne', fun h => by rw [h, zero_mul]⟩
  refine ⟨div_nonneg (mul_nonneg h0.le hZ) hd.le, ?_, ?_, ?_, ?_⟩
  · unfold share
    rw [div_lt_one hd]
    have := mul_pos h1' hP
    linarith
  · unfold share
    rw [div_eq_iff hd.ne']
    constructor
    · intro h
      have : (Z - P) * (eps * (1 - eps)) = 0 := by linear_combination h
      exact sub_eq_zero.1 ((hk _).1 this)
    · rintro rfl
      ring
  · unfold share
    rw [div_lt_iff₀ hd]
    have e : eps * ((1 - eps) * P + eps * Z) - eps * Z = (P - Z) * (eps * (1 - eps)) := by ring
    rw [← sub_pos, e, mul_pos_iff_of_pos_right (mul_pos h0 h1'), sub_pos]
  · unfold share
    rw [div_eq_zero_iff]
    constructor
    · rintro (h | h)
      · exact (mul_eq_zero.1 h).resolve_left h0.ne'
      · exact absurd h hd.ne'
    · intro h
      exact .inl (by rw [h, mul_zero])

end share

/-! ## The prior of a root -/

theorem mixed_sum {eps : Rat} (q z : Nat → Rat) (codes : List Nat) :
    (codes.map fun c => (1 - eps) * q c + eps * z c).sum = (1 - eps) * (codes.map q).sum + eps * (codes.map z).sum := by
  induction codes with
  | nil => simp
  | cons c codes ih => rw [List.map_cons, List.sum_cons, ih, List.map_cons, List.map_cons, List.sum_cons, List.sum_cons]; ring

theorem zero_of_sum {z : Nat → Rat} (l : List Nat) (hl : ∀ d ∈ l, 0 ≤ z d) (hs : (l.map z).sum = 0) : ∀ d ∈ l, z d = 0 := by
  intro d hd
  have := List.single_le_sum (l := l.map z) (by
    intro x hx
    obtain ⟨d, hd, rfl⟩ := List.mem_map.1 hx
    exact hl d hd) (z d) (List.mem_map_of_mem hd)
  exact le_antisymm (by linarith) (hl d hd)

/-- C113: the prior of a legal code is the mix of the normalised policy and the normalised noise, but with weight `share`
for the noise instead of the configured weight; if the noise gives nothing to the legal codes, it is the normalised policy. -/
theorem C113_prior {N : Nat} {eps : Rat} (h0 : 0 ≤ eps) (h1 : eps < 1) {p noise : Row} {q z : Nat → Rat}
    (hp : ∀ c, c < N → p c = some (q c)) (hz : ∀ c, c < N → noise c = some (z c) ∧ 0 ≤ z c) {codes : List Nat}
    (hn : codes.Nodup) (hN : ∀ c ∈ codes, c < N) (hP : 0 < (codes.map q).sum) {c : Nat} (hc : c ∈ codes) :
    priorBatchExact N (fun c => mixExact eps (p c) (noise c)) codes c =
      some ((1 - share eps (codes.map q).sum (codes.map z).sum) * (q c / (codes.map q).sum) +
        share eps (codes.map q).sum (codes.map z).sum * (z c / (codes.map z).sum)) := by
  have hZ : 0 ≤ (codes.map z).sum := by
    apply List.sum_nonneg
    intro x hx
    obtain ⟨d, hd, rfl⟩ := List.mem_map.1 hx
    exact (hz d (hN d hd)).2
  have hd := den_pos h0 h1 hP hZ
  have key : priorBatchExact N (fun c => mixExact eps (p c) (noise c)) codes c =
      some (((1 - eps) * q c + eps * z c) / ((1 - eps) * (codes.map q).sum + eps * (codes.map z).sum)) := by
    unfold priorBatchExact
    refine (normalise_eq (q := fun c => (1 - eps) * q c + eps * z c) hn hN (by rw [mixed_sum]; exact hd.ne') ?_ c
      (hN c hc)).1.trans ?_
    · intro d hdN
      have := putAll_pick (pol := fun _ => some 1) hn d
      simp only [hp d hdN, (hz d hdN).1, this, mixExact]
      by_cases h : d ∈ codes <;> simp [h]
    · rw [if_pos hc, mixed_sum]
  rw [key]
  have hz0 : (codes.map z).sum = 0 → z c = 0 := fun h => zero_of_sum codes (fun d hd => (hz d (hN d hd)).2) h c hc
  generalize (codes.map q).sum = P at *
  generalize (codes.map z).sum = Z at *
  congr 1
  unfold share
  rcases hZ.lt_or_eq with hZ | hZ
  · field_simp
    ring
  · subst hZ
    have : (0 : Rat) < 1 - eps := sub_pos.2 h1
    rw [hz0 rfl]
    field_simp
    ring

/-! ## In the search -/

/-- The priors of the children of all roots in the store `st` of a search: the policy of the game normalised on the codes of
the legal moves, mixed with one row of noise for all games, normalised in the same way; `w P Z` is the weight of the noise if
the policy gives `P` and the noise gives `Z` to the codes of the legal moves. -/
def Noisy (net : Net exactFloats) (states : List G.S) (st : Store G exactFloats) (w : Rat → Rat → Rat) : Prop :=
  ∃ (ts : List (Tensor Int)) (x : Tensor Int) (r : Nat) (z : Nat → Rat), states.mapM G.tensor = .ok ts ∧ batchTensor ts = .ok x ∧
    (∀ c, c < G.actionSpace → net.noise r c = some (z c)) ∧
    ∀ (g : Nat) (s : G.S), states[g]? = some s →
      ∃ (n : Node G exactFloats) (ms : List G.Mv) (codes : List Nat) (q : Nat → Rat), st[g]? = some n ∧ G.moves s = .ok ms ∧
        ms.mapM (G.encode s) = .ok codes ∧ (∀ c, c < G.actionSpace → net.policy x g c = some (q c)) ∧
        ∀ c ∈ n.children, ∃ (m : Node G exactFloats) (a : G.Mv) (code : Nat), st[c]? = some m ∧ m.action = some a ∧
          G.encode s a = .ok code ∧
          m.policy = some ((1 - w (codes.map q).sum (codes.map z).sum) * (q code / (codes.map q).sum) +
            w (codes.map q).sum (codes.map z).sum * (z code / (codes.map z).sum))

/-- The calculations of `eps`-noise over exact numbers: positive policies (of a softmax) and noise that is not negative. -/
structure Exactly (net : Net exactFloats) (N : Nat) (eps : Rat) : Prop where
  prior : net.priorBatch = priorBatchExact N
  mix : net.mixTensor = mixExact eps
  policy : ∀ x g, ∃ q : Nat → Rat, ∀ c, c < N → net.policy x g c = some (q c) ∧ 0 < q c
  noise : ∀ r, ∃ z : Nat → Rat, (∀ c, c < N → net.noise r c = some (z c) ∧ 0 ≤ z c) ∧ ((List.range N).map z).sum = 1
  eps : 0 < eps ∧ eps < 1

/-- C113, for the batched search with exact numbers: from the start to the end of the search the children of a root have the
priors with weight `share` for the noise. -/
theorem C113_search_partial {R : G.S → Prop} (hc : Coded G R) {net : Net exactFloats} {eps : Rat} (he : Exactly net G.actionSpace eps)
    {states : List G.S} (hR : ∀ s ∈ states, R s) {order : List Nat} (ho : order.Perm (List.range states.length))
    {iterations : Nat} {t t' : Tape} {st : Store G exactFloats}
    (h : alphaMctsParallel net order states iterations [] t = .ok (st, t')) : Noisy net states st (share eps) := by
  obtain ⟨ts, x, r, h1, h2, h3⟩ := root_priors ho h
  obtain ⟨z, hz, -⟩ := he.noise r
  refine ⟨ts, x, r, z, h1, h2, fun c hc => (hz c hc).1, fun g s hg => ?_⟩
  obtain ⟨n, ms, codes, k1, k2, k3, k4, k5⟩ := h3 g s hg
  obtain ⟨q, hq⟩ := he.policy x g
  have hRs := hR s (List.mem_of_getElem? hg)
  have hcodes : codes = ms.map (codeOf s) := by
    have : ms.mapM (G.encode s) = .ok (ms.map (codeOf s)) := by
      apply mapM_eq_map
      intro a ha
      obtain ⟨c, e, -⟩ := hc.code s ms a hRs k3 ha
      unfold codeOf
      rw [e]
    rw [k4] at this
    exact Except.ok.inj this
  have hN : ∀ c ∈ codes, c < G.actionSpace := by
    intro c hcm
    rw [hcodes] at hcm
    obtain ⟨a, ha, rfl⟩ := List.mem_map.1 hcm
    obtain ⟨c, e1, e2, -⟩ := hc.code s ms a hRs k3 ha
    unfold codeOf
    rw [e1]
    exact e2
  have hnd : codes.Nodup := by
    rw [hcodes]
    exact nodup_map_codeOf hc hRs k3 (hc.nodup s ms hRs k3) fun _ h => h
  have f := alphaMctsParallel_forest ho h
  refine ⟨n, ms, codes, q, k1, k3, k4, fun c hc => (hq c hc).1, fun c hcc => ?_⟩
  obtain ⟨m, a, code, e1, e2, e3, e4⟩ := k5 c hcc
  refine ⟨m, a, code, e1, e2, e3, ?_⟩
  have hmem : code ∈ codes := by
    obtain ⟨a', ms', p1, p2, p3, -⟩ := child_legal f.wf k1 hcc e1
    rw [e2] at p1
    cases p1
    rw [k2, k3] at p2
    cases p2
    rw [hcodes]
    refine List.mem_map.2 ⟨a, p3, ?_⟩
    unfold codeOf
    rw [e3]
  rw [e4, he.prior, he.mix]
  exact C113_prior he.eps.1.le he.eps.2 (fun c hc => (hq c hc).1) hz hnd hN
    (sum_pos (List.ne_nil_of_mem hmem) fun c hcm => (hq c (hN c hcm)).2) hmem

/-- C113 as intended: the noise at the roots has the configured weight. -/
def C113_statement : Prop :=
  ∀ (G : Game) (R : G.S → Prop) (net : Net exactFloats) (eps : Rat), Coded G R → Exactly net G.actionSpace eps →
    (∀ x g, IsDist G.actionSpace (net.policy x g)) →
    ∀ (states : List G.S) (order : List Nat) (iterations : Nat) (t t' : Tape) (st : Store G exactFloats), (∀ s ∈ states, R s) →
      order.Perm (List.range states.length) → alphaMctsParallel net order states iterations [] t = .ok (st, t') →
      Noisy net states st fun _ _ => eps

/-- A network with policy `(c + 1) / 45` and uniform noise. -/
def slopeNet : Net exactFloats := { exactNet with policy := fun _ _ c => some ((c + 1 : Nat) / 45) }

theorem slopeNet_ok : Exactly slopeNet 9 (1 / 4) where
  prior := rfl
  mix := rfl
  policy := fun _ _ => ⟨fun c => ((c + 1 : Nat) : Rat) / 45, fun c _ => ⟨rfl, by positivity⟩⟩
  noise := fun _ => ⟨fun _ => 1 / 9, fun _ _ => ⟨rfl, by norm_num⟩, by decide +kernel⟩
  eps := by norm_num

/-- The situation of `C113_search_partial` exists: two legal moves, with the codes 7 and 8. -/
theorem slope_run : (alphaMctsParallel (G := TTT.game .debug) slopeNet [0] [lateTTT] 2 [] demoTape).toOption.map (fun r =>
    ((r.1[0]?).map Node.children, (r.1[1]?).map fun n => ((n.policy : Val), (n.action : Option Nat)))) =
    some (some [1, 2], some (some (29 / 61), some 7)) := by decide +kernel

theorem late_moves : TTT.getValidMoves lateTTT = [7, 8] := by decide +kernel

/-- C113 is false: here the noise has weight 10/61 instead of 1/4. -/
theorem C113_refuted : ¬ C113_statement := by
  intro h
  have h1 := slope_run
  cases hr : alphaMctsParallel (G := TTT.game .debug) slopeNet [0] [lateTTT] 2 [] demoTape with
  | error e => rw [hr] at h1; cases h1
  | ok r =>
    rw [hr] at h1
    obtain ⟨st, t'⟩ := r
    simp only [Except.toOption, Option.map_some, Option.some.injEq, Prod.mk.injEq] at h1
    obtain ⟨h1, h3⟩ := h1
    obtain ⟨ts, x, r, z, -, -, hz, h2⟩ := h (TTT.game .debug) _ slopeNet (1 / 4) (ttt_coded _) slopeNet_ok (fun x g => by
      refine ⟨fun c => ((c + 1 : Nat) : Rat) / 45, fun c _ => ⟨rfl, by positivity⟩, by decide +kernel⟩) [lateTTT] [0] 2 demoTape t' st
      (fun s hs => by rw [List.mem_singleton.1 hs]; exact .inr rfl) (List.Perm.refl [0]) hr
    obtain ⟨n, ms, codes, q, k1, k2, k3, k4, k5⟩ := h2 0 lateTTT rfl
    have hms : ([7, 8] : List Nat) = ms := late_moves.symm.trans (Except.ok.inj k2)
    subst hms
    have hcodes : [7, 8] = codes := Except.ok.inj k3
    subst hcodes
    rw [k1] at h1
    have h1 : n.children = [1, 2] := by simpa using h1
    obtain ⟨m, a, code, e1, e2, e3, e4⟩ := k5 1 (by rw [h1]; simp)
    rw [e1] at h3
    obtain ⟨h3, h4⟩ := Prod.mk.inj (Option.some.inj h3)
    have ha : a = (7 : Nat) := Option.some.inj (e2.symm.trans h4)
    subst ha
    have hcode : code = 7 := (Except.ok.inj e3).symm
    subst hcode
    have hq7 : q 7 = 8 / 45 := (Option.some.inj (k4 7 (by decide))).symm.trans (by norm_num)
    have hq8 : q 8 = 9 / 45 := (Option.some.inj (k4 8 (by decide))).symm.trans (by norm_num)
    have hz7 : z 7 = 1 / 9 := (Option.some.inj (hz 7 (by decide))).symm
    have hz8 : z 8 = 1 / 9 := (Option.some.inj (hz 8 (by decide))).symm
    have e5 := Option.some.inj (h3.symm.trans e4)
    simp only [List.map_cons, List.map_nil, List.sum_cons, List.sum_nil, hq7, hq8, hz7, hz8] at e5
    norm_num at e5

/-! ## On average -/

open MeasureTheory in
/-- C113, on average: for noise whose entries have mean `1 / N`, as those of a symmetric Dirichlet distribution, the mean weight of
the noise is at most `share` for the mean mass of the legal codes. -/
theorem C113_average {Ω : Type} [MeasurableSpace Ω] (μ : Measure Ω) [IsProbabilityMeasure μ] {N : Nat} {eps P : ℝ} (h0 : 0 < eps)
    (h1 : eps < 1) (hP : 0 < P) (noise : Ω → Nat → ℝ) (hnn : ∀ ω c, 0 ≤ noise ω c)
    (hint : ∀ c, c < N → Integrable (fun ω => noise ω c) μ) (hmean : ∀ c, c < N → ∫ ω, noise ω c ∂μ = 1 / N)
    {codes : List Nat} (hN : ∀ c ∈ codes, c < N) :
    ∫ ω, share eps P (codes.map (noise ω)).sum ∂μ ≤ share eps P (codes.length / N) := by
  have hsum : Integrable (fun ω => (codes.map (noise ω)).sum) μ ∧
      ∫ ω, (codes.map (noise ω)).sum ∂μ = (codes.length : ℝ) / N := by
    induction codes with
    | nil => simp
    | cons c codes ih =>
      obtain ⟨i1, i2⟩ := ih fun d hd => hN d (List.mem_cons_of_mem _ hd)
      have hc := hN c (List.mem_cons_self ..)
      simp only [List.map_cons, List.sum_cons, List.length_cons]
      refine ⟨(hint c hc).add i1, ?_⟩
      rw [integral_add (hint c hc) i1, hmean c hc, i2]
      push_cast
      ring
  obtain ⟨i1, i2⟩ := hsum
  set Z0 : ℝ := codes.length / N with hZ0
  have hZ0n : 0 ≤ Z0 := by positivity
  have hd0 := den_pos h0.le h1 hP hZ0n
  -- the tangent at `Z0`
  let k : ℝ := eps * (1 - eps) * P / ((1 - eps) * P + eps * Z0) ^ 2
  have htan : ∀ Z : ℝ, 0 ≤ Z → share eps P Z ≤ share eps P Z0 + k * (Z - Z0) := by
    intro Z hZ
    have hd := den_pos h0.le h1 hP hZ
    have e : share eps P Z0 + k * (Z - Z0) - share eps P Z =
        (eps * (Z - Z0)) ^ 2 * ((1 - eps) * P) / (((1 - eps) * P + eps * Z0) ^ 2 * ((1 - eps) * P + eps * Z)) := by
      simp only [share, k]
      field_simp
      ring
    have : 0 ≤ share eps P Z0 + k * (Z - Z0) - share eps P Z := by
      rw [e]
      have := sub_pos.2 h1
      positivity
    linarith
  have hnonneg : ∀ ω, 0 ≤ (codes.map (noise ω)).sum := by
    intro ω
    apply List.sum_nonneg
    intro x hx
    obtain ⟨d, -, rfl⟩ := List.mem_map.1 hx
    exact hnn ω d
  have hle : ∫ ω, share eps P (codes.map (noise ω)).sum ∂μ ≤
      ∫ ω, (share eps P Z0 + k * ((codes.map (noise ω)).sum - Z0)) ∂μ := by
    refine integral_mono_of_nonneg (.of_forall fun ω => (C113_share h0 h1 hP (hnonneg ω)).1) ?_
      (.of_forall fun ω => htan _ (hnonneg ω))
    exact (integrable_const _).add ((i1.sub (integrable_const _)).const_mul k)
  refine hle.trans (le_of_eq ?_)
  have e1 : ∫ ω, (share eps P Z0 + k * ((codes.map (noise ω)).sum - Z0)) ∂μ =
      ∫ _, share eps P Z0 ∂μ + ∫ ω, k * ((codes.map (noise ω)).sum - Z0) ∂μ :=
    integral_add (integrable_const _) ((i1.sub (integrable_const _)).const_mul k)
  have e2 : ∫ ω, ((codes.map (noise ω)).sum - Z0) ∂μ = ∫ ω, (codes.map (noise ω)).sum ∂μ - ∫ _, Z0 ∂μ :=
    integral_sub i1 (integrable_const _)
  rw [e1, integral_const_mul, e2, i2]
  simp

open MeasureTheory in
/-- The situation of `C113_average` exists: all mass of the noise on one of nine codes, each with the same probability. -/
example : ∃ (Ω : Type) (_ : MeasurableSpace Ω) (μ : Measure Ω) (_ : IsProbabilityMeasure μ) (noise : Ω → Nat → ℝ),
    (∀ ω c, 0 ≤ noise ω c) ∧ (∀ c, c < 9 → Integrable (fun ω => noise ω c) μ) ∧
    (∀ c, c < 9 → ∫ ω, noise ω c ∂μ = 1 / (9 : Nat)) ∧ ∀ ω, ∑ c ∈ Finset.range 9, noise ω c = 1 := by
  refine ⟨Fin 9, ⊤, @PMF.toMeasure _ ⊤ (PMF.uniformOfFintype (Fin 9)), inferInstance, fun ω c => if ω.val = c then 1 else 0, ?_, ?_, ?_, ?_⟩
  · intro ω c
    show (0:ℝ) ≤ if ω.val = c then 1 else 0
    split <;> norm_num
  · intro c _
    exact Integrable.of_finite
  · intro c hc
    rw [PMF.integral_eq_sum]
    simp only [PMF.uniformOfFintype_apply, Fintype.card_fin, smul_eq_mul]
    rw [Finset.sum_eq_single (⟨c, hc⟩ : Fin 9)]
    · simp
    · intro b _ hb
      have : b.val ≠ c := fun h => hb (Fin.ext h)
      simp [this]
    · simp
  · intro ω
    rw [Finset.sum_eq_single ω.val]
    · simp
    · intro b _ hb
      simp [hb.symm]
    · simp

/-- For a policy which gives the legal codes at least the mass they would have under a uniform distribution, this is at most the
configured weight; and it is at most `eps / (1 - eps)` times the quotient of the masses. -/
theorem C113_bounds {N m : Nat} (hN : 0 < N) {eps P : ℝ} (h0 : 0 < eps) (h1 : eps < 1) (hP : 0 < P) :
    ((m : ℝ) / N ≤ P → share eps P (m / N) ≤ eps) ∧ share eps P (m / N) ≤ eps / (1 - eps) * ((m / N) / P) := by
  have hm : (0 : ℝ) ≤ m / N := by positivity
  constructor
  · intro h
    rcases h.lt_or_eq with h | h
    · exact ((C113_share h0 h1 hP hm).2.2.2.1.2 h).le
    · exact ((C113_share h0 h1 hP hm).2.2.1.2 h).le
  · unfold share
    have h1' : 0 < 1 - eps := sub_pos.2 h1
    rw [div_mul_div_comm, mul_comm eps]
    refine div_le_div_of_nonneg_left (by positivity) (mul_pos h1' hP) ?_
    have := mul_nonneg h0.le hm
    linarith

/-- C113 for Backgammon: with the configured weight 1/4 and a policy which gives the legal moves at least 9/10, the mean weight of
the noise in a position with at most 40 legal moves is at most 1/90. -/
theorem C113_backgammon {m : Nat} (hm : m ≤ 40) {P : ℝ} (hP : 9 / 10 ≤ P) : share (1 / 4 : ℝ) P (m / 1352) ≤ 1 / 90 := by
  have hP0 : (0 : ℝ) < P := by linarith
  refine ((C113_bounds (N := 1352) (m := m) (by decide) (by norm_num) (by norm_num) hP0).2).trans ?_
  have hm' : (m : ℝ) ≤ 40 := by exact_mod_cast hm
  rw [div_div, div_mul_div_comm, div_le_div_iff₀ (by positivity) (by norm_num)]
  push_cast
  linarith

end DieE.Props.No
