import Verif.Train.Tail
import Verif.Props.Learn
import Verif.Props.Sure

/-! # C87 for Backgammon: a training run returns with probability one -/

namespace DieE.Props.Lr
open DieE DieE.Mcts DieE.Train DieE.Luck DieE.Props.A DieE.Props.S
open DieE.Versus (skipTape cost_bind cost_draw cost_pure)
open MeasureTheory

variable {G : Game} {Fl : Floats} {W : Type}

/-- The computation `m`, for every bound from some one on, returns the same value and leaves a tail of the tape. -/
def Settles {α : Type} (m : Nat → M α) (Q : α → Prop) (t : Tape) : Prop :=
  ∃ F a k, Q a ∧ ∀ f, F ≤ f → m f t = .ok (a, skipTape k t)

theorem playBest_settles (hG : Eater G) {S : Setup Fl W} {o : Versus.Orders} {w : W} {P : W → Prop} (hw : P w) {t : Tape}
    (hplay : ∀ b, P b → ∃ f r t', Versus.play (G := G) S.pf S.rnd { agent := .model, net := some (S.net w) }
      { agent := .model, net := some (S.net b) } S.versus o f t = .ok (r, t')) {ms : Models W}
    (hms : ∀ d, ms = some d → ∀ b, d bestName = some b → P b) :
    Settles (fun f => playBest S G o f w ms) (fun ms' => ∀ d, ms' = some d → ∀ b, d bestName = some b → P b) t := by
  have hsave : ∀ d, saveModel ms bestName w = some d → ∀ b, d bestName = some b → P b := by
    intro d hd b hb
    cases ms with
    | none => cases hd
    | some d' =>
      obtain rfl := Option.some.inj hd
      have hb : (if bestName = bestName then some w else d' bestName) = some b := hb
      rw [if_pos rfl] at hb
      rw [← Option.some.inj hb]
      exact hw
  unfold Settles playBest
  cases hb : ms.bind (fun d => d bestName) with
  | none => exact ⟨0, _, 0, hsave, fun f _ => by rw [Versus.skipTape_zero]; rfl⟩
  | some b =>
    obtain ⟨d, hd, hdb⟩ := Option.bind_eq_some_iff.1 hb
    obtain ⟨F, r, t', h⟩ := hplay b (hms d hd b hdb)
    obtain ⟨k, rfl⟩ := eats_playN hG rfl rfl S.versus 400 400 o F _ _ _ h
    have hmono : ∀ f, F ≤ f → Versus.play (G := G) S.pf S.rnd { agent := .model, net := some (S.net w) }
        { agent := .model, net := some (S.net b) } S.versus o f t = .ok (r, skipTape k t) := by
      intro f hf
      induction f, hf using Nat.le_induction with
      | base => exact h
      | succ f _ ih => exact Sr.playN_mono ih
    have key : ∃ x, (x = some 1 ∨ x = some 2 ∨ x = none) ∧ ∀ f, F ≤ f →
        Versus.playVsModel S.pf S.rnd S.versus o f G (S.net w) (S.net b) t = .ok (x, skipTape k t) := by
      obtain ⟨x, h1, h2⟩ := V.verdict_of h
      refine ⟨x, h2, fun f hf => ?_⟩
      rw [← h1]
      unfold Versus.playVsModel
      rw [M.bind_eq (hmono f hf), M.bind_eq h]
    obtain ⟨x, h2, h1⟩ := key
    rcases h2 with rfl | rfl | rfl
    · exact ⟨F, saveModel ms bestName w, k, hsave, fun f hf => (M.bind_eq (h1 f hf)).trans rfl⟩
    · exact ⟨F, ms, k, hms, fun f hf => (M.bind_eq (h1 f hf)).trans rfl⟩
    · exact ⟨F, ms, k, hms, fun f hf => (M.bind_eq (h1 f hf)).trans rfl⟩

theorem loop_settles (hE : Eater G) {sh : List Nat} {R : G.S → Prop} (hG : Trains G sh R) {S : Setup Fl W} {P : W → Prop}
    (hS : Sound S G.actionSpace sh P) (hpw : PwWarm G.actionSpace S.play.pw) {c : Chance G} (hc : c.Valid) {t : Tape}
    (hplay : ∀ i w b j, P w → P b → ∃ f r t', Versus.play (G := G) S.pf S.rnd { agent := .model, net := some (S.net w) }
      { agent := .model, net := some (S.net b) } S.versus (c.match' i) f (skipTape j t) = .ok (r, t'))
    (k i j : Nat) {w : W} (hw : P w) {ms : Models W} (hms : ∀ d, ms = some d → ∀ b, d bestName = some b → P b) :
    Settles (fun f => learnLoop S c f k i w ms) (fun _ => True) (skipTape j t) := by
  induction k generalizing i j w ms with
  | zero => exact ⟨0, [], 0, trivial, fun f _ => by rw [Versus.skipTape_zero]; rfl⟩
  | succ k ih =>
    obtain ⟨r, t1, h1, h2, h3⟩ := selfPlays_ok hG hS hpw (hc.play i) hw S.selfPlays 0 (memory := []) (by simp) (skipTape j t)
    obtain ⟨j1, rfl⟩ := eats_selfPlays hE _ _ _ _ _ _ _ _ _ h1
    rw [Versus.skipTape_add] at h1
    obtain ⟨e, h4, h5⟩ := epochs_ok hS hG.dims (hc.shuffle i) S.epochs 0
      (lt_of_le_of_lt h3 (by rw [List.length_nil, Nat.zero_add]; exact hS.size)) h2 hw
    have h6 : assert (!S.nan e.2) = .ok () := by unfold assert; rw [hS.clean _ h5]; rfl
    have hms1 : ∀ d, saveModel ms (modelName i) e.2 = some d → ∀ b, d bestName = some b → P b := by
      intro d hd b hb
      cases ms with
      | none => cases hd
      | some d' =>
        obtain rfl := Option.some.inj hd
        have hb : (if bestName = modelName i then some e.2 else d' bestName) = some b := hb
        rw [if_neg (modelName_ne_best i).symm] at hb
        exact hms d' rfl b hb
    obtain ⟨F1, ms', k2, h8, h7⟩ := playBest_settles hE (o := c.match' i) h5 (fun b hb => hplay i e.2 b (j + j1) h5 hb) hms1
    rw [Versus.skipTape_add] at h7
    obtain ⟨F2, l, k3, -, h9⟩ := ih (i + 1) (j + j1 + k2) h5 h8
    refine ⟨max F1 F2, { before := w, results := r.1, dir := r.2.1, epochs := e.1, after := e.2, models := ms' } :: l, j1 + k2 + k3, trivial,
      fun f hf => ?_⟩
    have hit : learnIteration S c f i w ms (skipTape j t) =
        .ok ({ before := w, results := r.1, dir := r.2.1, epochs := e.1, after := e.2, models := ms' }, skipTape (j + j1 + k2) t) :=
      M.bind_ok.2 ⟨r, _, h1, M.bind_ok.2 ⟨e, _, M.lift_ok.2 ⟨h4, rfl⟩, M.bind_ok.2 ⟨(), _, M.lift_ok.2 ⟨h6, rfl⟩,
        M.bind_ok.2 ⟨ms', _, h7 f (le_trans (le_max_left _ _) hf), rfl⟩⟩⟩⟩
    refine M.bind_ok.2 ⟨_, _, hit, M.bind_ok.2 ⟨l, _, h9 f (le_trans (le_max_right _ _) hf), ?_⟩⟩
    rw [Versus.skipTape_add, Versus.skipTape_add]
    rw [show j + (j1 + k2 + k3) = j + j1 + k2 + k3 by omega]
    rfl

theorem bg_eater (pf : Profile) : Eater (BG.game pf) := by
  have hroll : Eats BG.rollDice :=
    eats_bind (eats_bind (.of_cost cost_draw) fun _ => eats_pure _) fun _ =>
      eats_bind (eats_bind (.of_cost cost_draw) fun _ => eats_pure _) fun _ => eats_pure _
  exact
    { apply := fun s a => .of_cost ((Sr.bg_frugal pf).apply s a)
      skip := fun s => eats_bind hroll fun _ => eats_lift _
      roll := fun s => eats_bind hroll fun _ => eats_pure _ }

theorem rich_skip {t : Tape} (h : Rich t) (k : Nat) : Rich (skipTape k t) := by
  intro j hj n a
  obtain ⟨b, hb, h1⟩ := h j hj n (k + a)
  refine ⟨b - k, by omega, fun i hi => ?_⟩
  have := h1 i hi
  rw [← this]
  exact congrArg (fun x => t x % 6) (by omega)

/-- C87 for Backgammon: if the temperature is not too low, a training run returns on every sequence of random numbers with
arbitrarily long blocks of every die, whatever the number of iterations; all these bounds of the rounds of its matches
give the same result. -/
theorem C87_backgammon_rich (pf : Profile) {S : Setup Fl W} (hpf : S.pf = pf) {P : W → Prop}
    (hS : Sound S 1352 [6, 4, 6] P) (hpw : PwWarm 1352 S.play.pw) {c : Chance (BG.game pf)} (hc : c.Valid) {w : W}
    (hw : P w) {ms : Models W} (hms : ∀ d, ms = some d → ∀ b, d bestName = some b → P b) {t : Tape} (ht : Rich t) :
    ∃ F l t', ∀ f, F ≤ f → learnParallel S c f w ms t = .ok (l, t') := by
  subst hpf
  obtain ⟨F, l, k, -, h⟩ := loop_settles (bg_eater S.pf) (bg_trains S.pf) hS hpw hc (t := t) (fun i w b j h1 h2 =>
    Sr.C96_rich S.pf S.rnd (ready hS hpw rfl false h1) (ready hS hpw rfl false h2) 400 400 (hc.match' i) (rich_skip ht j)) S.learns 0 0 hw hms
  rw [Versus.skipTape_zero] at h
  exact ⟨F, l, _, h⟩

/-- C87 for Backgammon: with probability one. -/
theorem C87_backgammon_sure (pf : Profile) {S : Setup Fl W} (hpf : S.pf = pf) {P : W → Prop}
    (hS : Sound S 1352 [6, 4, 6] P) (hpw : PwWarm 1352 S.play.pw) {c : Chance (BG.game pf)} (hc : c.Valid) {w : W}
    (hw : P w) {ms : Models W} (hms : ∀ d, ms = some d → ∀ b, d bestName = some b → P b) {μ : Measure Tape} [IsProbabilityMeasure μ]
    {ε : ENNReal} (hε : ε ≠ 0) (hμ : Lively ε μ) :
    ∀ᵐ t ∂μ, ∃ F l t', ∀ f, F ≤ f → learnParallel S c f w ms t = .ok (l, t') := by
  filter_upwards [ae_rich hε hμ] with t ht
  exact C87_backgammon_rich pf hpf hS hpw hc hw hms ht

/-- The hypotheses hold for a small setup and fair dice. -/
example : ∀ᵐ t ∂(Measure.infinitePi (fun _ : Nat => Sr.fairDie) : Measure Tape),
    ∃ F l t', ∀ f, F ≤ f → learnParallel (G := BG.game demoSetup.pf) demoSetup (demoChance _) f 0 (some fun _ => none) t = .ok (l, t') :=
  C87_backgammon_sure demoSetup.pf rfl (demoSetup_sound _ _) ⟨⟨rfl, fun _ h => h⟩, fun _ h _ => h⟩ (demoChance_valid _) trivial
    (fun d hd b hb => trivial) (ε := (6 : ENNReal)⁻¹) (by simp) (lively_iid Sr.fairDie fun _ hj => Sr.fairDie_residue hj)

end DieE.Props.Lr
