import Verif.Props.Trained
import Verif.Props.LearnSure

/-!
# C108, C110: training runs with the network

Training runs whose network is the one of the program and whose weights are changed as in training.
-/

namespace DieE.Props.Ad
open DieE DieE.Mcts DieE.Train DieE.Net MeasureTheory
open DieE.Props.N (realArith Built asSearchNet)
open DieE.Props.V (res_bind)
open DieE.Props.Lr DieE.Props.A DieE.Props.S

variable {eps : ℝ} {op : OptimizerParams} {net : ResNet} {grad : Gradient} {Fl : Floats} {G : Game}

/-- A setup with the network of the program and its optimizer; entries of tensors are converted by `conv`, everything else
(noise, configuration) is as in `rest` and `S`. -/
noncomputable def netSetup (eps : ℝ) (op : OptimizerParams) (net : ResNet) (grad : Gradient) (conv : ℝ → Fl.F) (rest : Mcts.Net Fl)
    (S : Setup Fl Unit) : Setup Fl Weights :=
  { net := fun w => asSearchNet (realArith eps) conv net w.vs rest
    nan := fun _ => false
    step := trainStep eps op net grad
    play := S.play, games := S.games, selfPlays := S.selfPlays, epochs := S.epochs, learns := S.learns, batch := S.batch
    pf := S.pf, rnd := S.rnd }

/-- The assumptions on the configuration. -/
structure Config (rest : Mcts.Net Fl) (S : Setup Fl Unit) : Prop where
  /-- the noise distribution exists -/
  alpha : rest.alphaOk = true
  /-- at least one search iteration -/
  iterations : S.play.iterations ≠ 0
  /-- at least one round -/
  limit : S.play.limit ≠ 0
  /-- at least one game -/
  games : S.games ≠ 0
  /-- batches are not empty -/
  batch : S.batch ≠ 0 ∧ S.batch < 2 ^ 64
  /-- the fragments fit into memory -/
  size : S.selfPlays * (S.games * (2 * (S.play.limit + 1))) < 2 ^ 63

/-- C110: the network of the program meets the assumptions of C87 on the network and its training. -/
theorem C110_sound {z : Sizes} {rest : Mcts.Net Fl} {S : Setup Fl Unit} (hS : Config rest S) (conv : ℝ → Fl.F) {height width : Nat}
    (hh : 0 < height) (hw : 2 ≤ width) (hc : height * width = z.convOut) :
    Sound (netSetup eps op net grad conv rest S) z.actions [z.channels, height, width] (Trained z net) where
  alpha := fun _ _ => hS.alpha
  iterations := hS.iterations
  limit := hS.limit
  games := hS.games
  batch := hS.batch
  size := hS.size
  step := by
    intro w h sample x hne hu hx
    obtain ⟨w', l, h1, h2, -⟩ := C110_step (eps := eps) (op := op) (grad := grad) h hh hw hc hne hu hx
    exact ⟨w', h1, h2⟩
  clean := fun _ _ => rfl

theorem memory_length {W : Type} {sh : List Nat} {R : G.S → Prop} (hG : Trains G sh R) {S : Setup Fl W} {P : W → Prop}
    (hS : Sound S G.actionSpace sh P) (hpw : PwWarm G.actionSpace S.play.pw) {c : Chance G} (hc : c.Valid) {f i : Nat} {w : W} (hw : P w)
    {ms : Models W} {t t' : Tape} {it : Iter W} (h : learnIteration S c f i w ms t = .ok (it, t')) :
    (it.memory G.actionSpace).length ≤ S.selfPlays * (S.games * (2 * (S.play.limit + 1))) := by
  obtain ⟨t1, mem, h1, -, -, -, rfl⟩ := iteration_inv h
  obtain ⟨g1, g2, -, -⟩ := selfPlays_spec (hc.play i) _ _ _ h1
  unfold Iter.memory
  rw [List.length_map, ← g1]
  have hle : ∀ r ∈ it.results, r.length ≤ S.games * (2 * (S.play.limit + 1)) := by
    intro r hr
    obtain ⟨o, sp, u, u', ho, h2, rfl⟩ := g2 r hr
    exact play_length hG.net hG.coded hG.starts (hS.alpha _ hw) hpw.toPwOK hS.iterations ho h2
  generalize it.results = l at hle
  induction l with
  | nil => simp
  | cons r l ih =>
    have h1 := hle r (List.mem_cons_self ..)
    have h2 := ih fun r h => hle r (List.mem_cons_of_mem _ h)
    rw [List.flatten_cons, List.length_append, List.length_cons, Nat.succ_mul]
    linarith

/-- The number of batches of an epoch: the number of fragments divided by the batch size, rounded up. -/
theorem batches_eq {b : Nat} (hb : b ≠ 0) {mem : List Mem} {xs : List (List Mem)} (h : Epoch b mem xs) :
    xs.length = (mem.length + b - 1) / b := by
  obtain ⟨h1, h2, h3⟩ := h
  rw [← h1.length_eq]
  clear h1
  rcases List.eq_nil_or_concat xs with rfl | ⟨ys, y, rfl⟩
  · rw [List.flatten_nil, List.length_nil, List.length_nil, Nat.zero_add, Nat.div_eq_of_lt (by omega)]
  rw [List.concat_eq_append] at h2 h3 ⊢
  rw [List.dropLast_concat] at h3
  obtain ⟨k1, k2⟩ := h2 y (by simp)
  have key : ∀ l : List (List Mem), (∀ x ∈ l, x.length = b) → l.flatten.length = l.length * b := by
    intro l hl
    induction l with
    | nil => simp
    | cons x l ih =>
      rw [List.flatten_cons, List.length_append, hl x (List.mem_cons_self ..), ih fun x h => hl x (List.mem_cons_of_mem _ h),
        List.length_cons, Nat.succ_mul, Nat.add_comm]
  rw [List.flatten_append, List.length_append, List.length_append, key ys h3]
  simp only [List.flatten_cons, List.flatten_nil, List.append_nil, List.length_cons, List.length_nil, Nat.zero_add]
  symm
  rw [Nat.div_eq_iff (Nat.pos_of_ne_zero hb)]
  constructor
  · rw [Nat.add_mul]
    omega
  · rw [Nat.add_mul]
    omega

theorem epochs_eq {n : Nat} {es : List (List (List Mem))} (h : ∀ xs ∈ es, xs.length = n) : es.flatten.length = es.length * n := by
  induction es with
  | nil => simp
  | cons x xs ih =>
    have h1 := h x (List.mem_cons_self ..)
    have h2 := ih fun x hx => h x (List.mem_cons_of_mem _ hx)
    rw [List.flatten_cons, List.length_append, List.length_cons, Nat.succ_mul]
    omega

/-- The number of optimizer steps of a learn iteration with `n` fragments. -/
def stepCount (S : Setup Fl Unit) (n : Nat) : Nat := S.epochs * ((n + S.batch - 1) / S.batch)

/-- What a learn iteration does with the weights. -/
structure Learned (z : Sizes) (net : ResNet) (lr : ℝ) (steps : Nat) (a b : Weights) : Prop where
  /-- a network of the program -/
  trained : Trained z net b
  /-- weights move by at most 7.271 learning rates in each step -/
  near : Near (7271 / 1000 * lr * steps) a.vs b.vs

/-- C110: the iterations of a training run.  Each weight moves by at most 7.271 learning rates for each epoch and
batch. -/
theorem C110_iterations {z : Sizes} {rest : Mcts.Net Fl} {S : Setup Fl Unit} (hS : Config rest S) (conv : ℝ → Fl.F) (hlr : 0 ≤ op.lr)
    {height width : Nat} (hh : 0 < height) (hw : 2 ≤ width) (hz : height * width = z.convOut) {R : G.S → Prop}
    (hG : Trains G [z.channels, height, width] R) (ha : G.actionSpace = z.actions) (hpw : PwWarm G.actionSpace S.play.pw)
    {c : Chance G} (hc : c.Valid) {f : Nat} {w : Weights} (h0 : Trained z net w) {ms : Models Weights} {t t' : Tape}
    {l : List (Iter Weights)} (h : learnParallel (netSetup eps op net grad conv rest S) c f w ms t = .ok (l, t')) :
    l.length = S.learns ∧ Continued w l ∧ ∀ it ∈ l, it.Proper (netSetup eps op net grad conv rest S) G ∧
      (it.memory G.actionSpace).length ≤ S.selfPlays * (S.games * (2 * (S.play.limit + 1))) ∧
      Learned z net op.lr (stepCount S (it.memory G.actionSpace).length) it.before it.after := by
  have hs : Sound (netSetup eps op net grad conv rest S) G.actionSpace [z.channels, height, width] (Trained z net) := by
    rw [ha]
    exact C110_sound hS conv hh hw hz
  have hpw' : PwWarm G.actionSpace (netSetup eps op net grad conv rest S).play.pw := hpw
  replace h : learnLoop (netSetup eps op net grad conv rest S) c f S.learns 0 w ms t = .ok (l, t') := h
  generalize 0 = i, S.learns = k at h
  induction k generalizing i w ms t l with
  | zero =>
    obtain rfl := (Prod.mk.inj (Except.ok.inj h)).1
    exact ⟨rfl, trivial, fun _ h => by cases h⟩
  | succ k ih =>
    obtain ⟨it, t1, h1, h⟩ := M.bind_ok.1 h
    obtain ⟨l', t2, h2, h⟩ := M.bind_ok.1 h
    obtain ⟨rfl, rfl⟩ := Prod.mk.inj (Except.ok.inj h)
    have hlen := memory_length hG hs hpw' hc h0 h1
    obtain ⟨hp, -⟩ := iteration_proper (S := netSetup eps op net grad conv rest S) hS.batch.2 hc h1 (lt_of_le_of_lt hlen hS.size)
    obtain ⟨-, -, -, -, -, -, hb⟩ := iteration_inv h1
    obtain ⟨es, e1, e2, e3⟩ := hp.trained
    have hb0 : Trained z net it.before := by rw [hb]; exact h0
    obtain ⟨d1, d2⟩ := C108_drift (eps := eps) (op := op) (grad := grad) hlr hb0 e3
    have hle : es.flatten.length = stepCount S (it.memory G.actionSpace).length := by
      have := epochs_eq (es := es) fun xs hx => batches_eq hS.batch.1 (e2 xs hx)
      rw [e1] at this
      exact this
    have hd : Learned z net op.lr (stepCount S (it.memory G.actionSpace).length) it.before it.after :=
      ⟨d1, by rw [← hle]; exact d2⟩
    obtain ⟨g1, g2, g3⟩ := ih d1 _ h2
    refine ⟨congrArg (· + 1) g1, ⟨hb, g2⟩, ?_⟩
    intro it' hit
    rcases List.mem_cons.1 hit with rfl | hit
    · exact ⟨hp, hlen, hd⟩
    · exact g3 it' hit

/-- C110 for TicTacToe: training of the network of the program returns. -/
theorem C110_tictactoe (pf : Profile) {rest : Mcts.Net Fl} {S : Setup Fl Unit} (hS : Config rest S) (conv : ℝ → Fl.F) (hlr : 0 ≤ op.lr)
    (hpw : PwWarm 9 S.play.pw) {c : Chance (TTT.game pf)} (hc : c.Valid) {vs : VarStore ℝ} (hb : Built tttSizes net vs)
    (hp : Positive vs) {ms : Models Weights} (hms : ∀ d, ms = some d → ∀ b, d bestName = some b → Trained tttSizes net b) (t : Tape) :
    ∃ l t', learnParallel (netSetup eps op net grad conv rest S) c 9 (.new vs) ms t = .ok (l, t') ∧
      ∀ it ∈ l, Learned tttSizes net op.lr (stepCount S (it.memory 9).length) it.before it.after := by
  obtain ⟨l, t', h⟩ := C87_tictactoe_partial pf (C110_sound (z := tttSizes) (eps := eps) (op := op) (net := net) (grad := grad) hS conv
    (height := 3) (width := 3) (by decide) (by decide) (by decide)) hpw hc (trained_new hb hp) hms t
  refine ⟨l, t', h, fun it hit => ?_⟩
  exact ((C110_iterations (z := tttSizes) hS conv hlr (height := 3) (width := 3) (by decide) (by decide) (by decide) (ttt_trains pf) rfl
    hpw hc (trained_new hb hp) h).2.2 it hit).2.2

/-- C110 for Backgammon: training of the network of the program returns with probability one. -/
theorem C110_backgammon (pf : Profile) {rest : Mcts.Net Fl} {S : Setup Fl Unit} (hpf : S.pf = pf) (hS : Config rest S) (conv : ℝ → Fl.F)
    (hlr : 0 ≤ op.lr) (hpw : PwWarm 1352 S.play.pw) {c : Chance (BG.game pf)} (hc : c.Valid) {vs : VarStore ℝ}
    (hb : Built bgSizes net vs) (hp : Positive vs) {ms : Models Weights}
    (hms : ∀ d, ms = some d → ∀ b, d bestName = some b → Trained bgSizes net b) {μ : Measure Tape} [IsProbabilityMeasure μ]
    {ε : ENNReal} (hε : ε ≠ 0) (hμ : Luck.Lively ε μ) :
    ∀ᵐ t ∂μ, ∃ F l t', (∀ f, F ≤ f → learnParallel (netSetup eps op net grad conv rest S) c f (.new vs) ms t = .ok (l, t')) ∧
      ∀ it ∈ l, Learned bgSizes net op.lr (stepCount S (it.memory 1352).length) it.before it.after := by
  filter_upwards [C87_backgammon_sure pf (S := netSetup eps op net grad conv rest S) hpf (C110_sound (z := bgSizes) (eps := eps) (op := op) (net := net) (grad := grad) hS conv
    (height := 4) (width := 6) (by decide) (by decide) (by decide)) hpw hc (trained_new hb hp) hms hε hμ] with t ht
  obtain ⟨F, l, t', h⟩ := ht
  refine ⟨F, l, t', h, fun it hit => ?_⟩
  exact ((C110_iterations (z := bgSizes) hS conv hlr (height := 4) (width := 6) (by decide) (by decide) (by decide) (bg_trains pf) rfl
    hpw hc (trained_new hb hp) (h F (Nat.le_refl _))).2.2 it hit).2.2

/-! ## Example -/

/-- A setup of small size. -/
def exampleSetup : Setup demoFloats Unit :=
  { net := fun _ => demoNet, nan := fun _ => false, step := fun w _ => .ok w, play := L.demoConfig 9, games := 1,
    selfPlays := 2, epochs := 2, learns := 1, batch := 4, pf := .debug, rnd := fun x => x }

/-- All entries set to one. -/
noncomputable def ones (vs : VarStore ℝ) : VarStore ℝ := mapVars (fun _ x => ⟨x.shape, fun _ => 1⟩) vs

theorem ones_built {z : Sizes} {vs : VarStore ℝ} (h : Built z net vs) : Built z net (ones vs) :=
  built_layout h (layout_mapVars (f := fun _ x => ⟨x.shape, fun _ => 1⟩) (fun _ _ => rfl) vs)

theorem ones_positive (vs : VarStore ℝ) : Positive (ones vs) := by
  intro n x _ hx idx
  unfold ones at hx
  rw [get_mapVars] at hx
  obtain ⟨o, -, rfl⟩ := Option.map_eq_some_iff.1 hx
  exact one_pos

theorem exists_built (z : Sizes) : ∃ net vs, Built (F := ℝ) z net vs ∧ Positive vs :=
  ⟨_, _, ones_built (N.built_new (fun _ _ => (1 : ℝ)) z), ones_positive _⟩

/-- The hypotheses of `C110_tictactoe` and `C110_backgammon` hold for new networks whose entries are all one, and the
parameters of config-example.toml. -/
example : Config demoNet exampleSetup ∧ PwWarm 9 exampleSetup.play.pw ∧ PwWarm 1352 exampleSetup.play.pw ∧ 0 ≤ exampleParams.lr ∧
    ∀ z : Sizes, ∃ net vs, Built (F := ℝ) z net vs ∧ Positive vs :=
  ⟨⟨rfl, by decide, by decide, by decide, by decide, by decide⟩, ⟨⟨rfl, fun _ h => h⟩, fun _ h _ => h⟩, ⟨⟨rfl, fun _ h => h⟩, fun _ h _ => h⟩,
    by norm_num [exampleParams], exists_built⟩

end DieE.Props.Ad
