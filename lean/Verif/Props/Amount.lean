import Verif.Props.LabelsTtt
import Verif.Props.TrainedRun

/-!
# C144: the amount of training in TicTacToe runs

The games of a run determine the number of optimizer steps up to a factor of two, and the number of steps bounds how far the
weights can move.
-/

namespace DieE.Props.Am
open DieE DieE.Mcts DieE.Train DieE.Net
open DieE.Props.N (Built)
open DieE.Props.Lr DieE.Props.A DieE.Props.Ad

variable {Fl : Floats} {W : Type} {pf : Profile}

theorem flatten_bounds {α : Type} {a b : Nat} {l : List (List α)} (h : ∀ r ∈ l, a ≤ r.length ∧ r.length ≤ b) :
    a * l.length ≤ l.flatten.length ∧ l.flatten.length ≤ b * l.length := by
  induction l with
  | nil => simp
  | cons r l ih =>
    obtain ⟨h1, h2⟩ := h r (List.mem_cons_self ..)
    obtain ⟨h3, h4⟩ := ih fun r hr => h r (List.mem_cons_of_mem _ hr)
    rw [List.flatten_cons, List.length_append, List.length_cons, Nat.mul_succ, Nat.mul_succ]
    omega

/-- C144: the fragments of a learn iteration. -/
theorem C144_fragments {S : Setup Fl W} {it : Iter W} (hp : it.Proper S (TTT.game pf)) (ha : (S.net it.before).alphaOk = true)
    (hpw : PwWarm 9 S.play.pw) (hit : S.play.iterations ≠ 0) (hl : 9 ≤ S.play.limit) :
    5 * S.games * S.selfPlays ≤ (it.memory 9).length ∧ (it.memory 9).length ≤ 9 * S.games * S.selfPlays := by
  unfold Iter.memory
  rw [List.length_map, ← hp.count]
  refine flatten_bounds fun r hr => ?_
  obtain ⟨o, sp, t, t', ho, h, rfl⟩ := hp.played r hr
  exact (Lt.C143_run ha hpw hit ho hl h).2.2

/-- They fit into memory. -/
theorem small {S : Setup Fl W} (ha : ∀ w, (S.net w).alphaOk = true) (hpw : PwWarm 9 S.play.pw) (hit : S.play.iterations ≠ 0)
    (hl : 9 ≤ S.play.limit) {c : Chance (TTT.game pf)} (hc : c.Valid) {f : Nat} : ∀ {k i : Nat} {w : W} {ms : Models W} {t t' : Tape}
    {l : List (Iter W)}, learnLoop S c f k i w ms t = .ok (l, t') → ∀ it ∈ l, (it.memory 9).length ≤ 9 * S.games * S.selfPlays := by
  intro k
  induction k with
  | zero =>
    intro i w ms t t' l h
    obtain rfl := (Prod.mk.inj (Except.ok.inj h)).1
    exact fun _ h => by cases h
  | succ k ih =>
    intro i w ms t t' l h
    obtain ⟨it, t1, h1, h⟩ := M.bind_ok.1 h
    obtain ⟨l', t2, h2, h⟩ := M.bind_ok.1 h
    obtain ⟨rfl, rfl⟩ := Prod.mk.inj (Except.ok.inj h)
    intro it' hit'
    rcases List.mem_cons.1 hit' with rfl | hit'
    · obtain ⟨t1, mem, h3, -⟩ := iteration_inv h1
      obtain ⟨g1, g2, -, -⟩ := selfPlays_spec (hc.play i) _ _ _ h3
      unfold Iter.memory
      rw [List.length_map, ← g1]
      refine (flatten_bounds (a := 0) fun r hr => ⟨Nat.zero_le _, ?_⟩).2
      obtain ⟨o, sp, t, t', ho, h, rfl⟩ := g2 r hr
      exact (Lt.C143_run (ha _) hpw hit ho hl h).2.2.2
    · exact ih h2 it' hit'

/-- C144: the optimizer steps of a learn iteration: in each epoch, all fragments divided by the batch size, rounded up. -/
theorem C144_steps {S : Setup Fl W} {it : Iter W} (hp : it.Proper S (TTT.game pf)) (ha : (S.net it.before).alphaOk = true)
    (hpw : PwWarm 9 S.play.pw) (hit : S.play.iterations ≠ 0) (hl : 9 ≤ S.play.limit) (hb : S.batch ≠ 0) :
    ∃ xs : List (List Mem), Steps S.step xs it.before it.after ∧
      xs.length = S.epochs * (((it.memory 9).length + S.batch - 1) / S.batch) ∧
      S.epochs * ((5 * S.games * S.selfPlays + S.batch - 1) / S.batch) ≤ xs.length ∧
      xs.length ≤ S.epochs * ((9 * S.games * S.selfPlays + S.batch - 1) / S.batch) := by
  obtain ⟨h1, h2⟩ := C144_fragments hp ha hpw hit hl
  obtain ⟨es, e1, e2, e3⟩ := hp.trained
  have e : es.flatten.length = S.epochs * (((it.memory 9).length + S.batch - 1) / S.batch) := by
    rw [← e1]
    exact epochs_eq fun xs hx => batches_eq hb (e2 xs hx)
  refine ⟨es.flatten, e3, e, ?_, ?_⟩
  · rw [e]
    exact Nat.mul_le_mul_left _ (Nat.div_le_div_right (by omega))
  · rw [e]
    exact Nat.mul_le_mul_left _ (Nat.div_le_div_right (by omega))

/-- The counts of config-example.toml:2-7 and 12. -/
structure Example (S : Setup Fl W) : Prop where
  learns : S.learns = 100
  epochs : S.epochs = 4
  batch : S.batch = 256
  selfPlays : S.selfPlays = 4
  games : S.games = 1024
  limit : S.play.limit = 400

theorem fits {S : Setup Fl W} (he : Example S) (ha : ∀ w, (S.net w).alphaOk = true) (hpw : PwWarm 9 S.play.pw)
    (hit : S.play.iterations ≠ 0) {c : Chance (TTT.game pf)} (hc : c.Valid) {f : Nat} {w : W} {ms : Models W} {t t' : Tape}
    {l : List (Iter W)} (h : learnParallel S c f w ms t = .ok (l, t')) : ∀ it ∈ l, (it.memory 9).length < 2 ^ 63 := by
  intro it hi
  have := small ha hpw hit (by rw [he.limit]; decide) hc h it hi
  rw [he.games, he.selfPlays] at this
  omega

/-- C144 with the counts of config-example.toml: between 320 and 576 steps in each of 100 learn iterations. -/
theorem C144_example {S : Setup Fl W} (he : Example S) (ha : ∀ w, (S.net w).alphaOk = true) (hpw : PwWarm 9 S.play.pw)
    (hit : S.play.iterations ≠ 0) {c : Chance (TTT.game pf)} (hc : c.Valid) {f : Nat} {w : W} {ms : Models W} {t t' : Tape}
    {l : List (Iter W)} (h : learnParallel S c f w ms t = .ok (l, t')) :
    l.length = 100 ∧ ∀ it ∈ l, ∃ xs : List (List Mem), Steps S.step xs it.before it.after ∧ 320 ≤ xs.length ∧ xs.length ≤ 576 := by
  obtain ⟨h1, -, h3⟩ := C84_iterations (by rw [he.batch]; decide) hc h (fits he ha hpw hit hc h)
  refine ⟨h1.trans he.learns, fun it hl => ?_⟩
  obtain ⟨xs, k1, -, k3, k4⟩ := C144_steps (h3 it hl) (ha _) hpw hit (by rw [he.limit]; decide) (by rw [he.batch]; decide)
  rw [he.epochs, he.batch, he.selfPlays, he.games] at k3 k4
  exact ⟨xs, k1, by simpa using k3, by simpa using k4⟩

/-- Steps of consecutive iterations. -/
theorem chain {S : Setup Fl W} {a b : Nat} : ∀ {l : List (Iter W)} {w : W}, Continued w l →
    (∀ it ∈ l, ∃ xs : List (List Mem), Steps S.step xs it.before it.after ∧ a ≤ xs.length ∧ xs.length ≤ b) →
    ∃ xs : List (List Mem), Steps S.step xs w (lastWeights w l) ∧ a * l.length ≤ xs.length ∧ xs.length ≤ b * l.length
  | [], w, _, _ => ⟨[], .nil w, Nat.le_refl _, Nat.zero_le _⟩
  | it :: l, w, h, hs => by
    obtain ⟨rfl, h⟩ := h
    obtain ⟨xs, k1, k2, k3⟩ := hs it (List.mem_cons_self ..)
    obtain ⟨ys, k4, k5, k6⟩ := chain h fun i hi => hs i (List.mem_cons_of_mem _ hi)
    have e : lastWeights it.before (it :: l) = lastWeights it.after l := by
      unfold lastWeights
      cases l with
      | nil => rfl
      | cons x l =>
        rw [List.getLast?_cons_cons]
        cases hx : (x :: l).getLast? with
        | none => simp at hx
        | some y => rfl
    refine ⟨xs ++ ys, by rw [e]; exact steps_append k1 k4, ?_, ?_⟩
    · rw [List.length_append, List.length_cons, Nat.mul_succ]
      omega
    · rw [List.length_append, List.length_cons, Nat.mul_succ]
      omega

/-- C144: the whole run takes between 32000 and 57600 steps. -/
theorem C144_run {S : Setup Fl W} (he : Example S) (ha : ∀ w, (S.net w).alphaOk = true) (hpw : PwWarm 9 S.play.pw)
    (hit : S.play.iterations ≠ 0) {c : Chance (TTT.game pf)} (hc : c.Valid) {f : Nat} {w : W} {ms : Models W} {t t' : Tape}
    {l : List (Iter W)} (h : learnParallel S c f w ms t = .ok (l, t')) :
    ∃ xs : List (List Mem), Steps S.step xs w (lastWeights w l) ∧ 32000 ≤ xs.length ∧ xs.length ≤ 57600 := by
  obtain ⟨-, h2, -⟩ := C84_iterations (by rw [he.batch]; decide) hc h (fits he ha hpw hit hc h)
  obtain ⟨h3, h4⟩ := C144_example he ha hpw hit hc h
  have := chain h2 h4
  rwa [h3] at this

/-- A setup with these counts, whose weights count the steps. -/
def longSetup : Setup S.demoFloats Nat :=
  { demoSetup with learns := 100, epochs := 4, batch := 256, selfPlays := 4, games := 1024, play := L.demoConfig 400 }

/-- The run with these counts returns for every random source, with between 32000 and 57600 steps. -/
example (t : Tape) : ∃ l t', learnParallel (G := TTT.game .debug) longSetup (demoChance _) 9 0 none t = .ok (l, t') ∧ l.length = 100 ∧
    ∃ xs : List (List Mem), Steps longSetup.step xs 0 (lastWeights 0 l) ∧ 32000 ≤ xs.length ∧ xs.length ≤ 57600 := by
  have hS : Sound longSetup 9 [3, 3, 3] (fun _ => True) :=
    ⟨fun _ _ => rfl, by decide, by decide, by decide, by decide, by decide, fun w _ _ _ _ _ _ => ⟨w + 1, rfl, trivial⟩, fun _ _ => rfl⟩
  have hpw : PwWarm 9 longSetup.play.pw := ⟨⟨rfl, fun _ h => h⟩, fun _ h _ => h⟩
  obtain ⟨l, t', h⟩ := C87_tictactoe_partial .debug hS hpw (demoChance_valid _) (w := 0) (ms := none) trivial (fun _ h => by cases h) t
  have he : Example longSetup := ⟨rfl, rfl, rfl, rfl, rfl, rfl⟩
  exact ⟨l, t', h, (C144_example he (fun _ => rfl) hpw (by decide) (demoChance_valid _) h).1,
    C144_run he (fun _ => rfl) hpw (by decide) (demoChance_valid _) h⟩

variable {eps : ℝ} {op : OptimizerParams} {net : ResNet} {grad : Gradient}

/-- C144: how far a learn iteration moves the weights of the network of the program. -/
theorem C144_drift {rest : Mcts.Net Fl} {S : Setup Fl Unit} (hS : Config rest S) (conv : ℝ → Fl.F) (hlr : 0 ≤ op.lr)
    (hpw : PwWarm 9 S.play.pw) (hl : 9 ≤ S.play.limit) {c : Chance (TTT.game pf)} (hc : c.Valid) {f : Nat} {w : Weights}
    (h0 : Trained tttSizes net w) {ms : Models Weights} {t t' : Tape} {l : List (Iter Weights)}
    (h : learnParallel (netSetup eps op net grad conv rest S) c f w ms t = .ok (l, t')) :
    ∀ it ∈ l, Near (7271 / 1000 * op.lr * (S.epochs * ((9 * S.games * S.selfPlays + S.batch - 1) / S.batch) : Nat))
      it.before.vs it.after.vs := by
  intro it hit
  obtain ⟨h1, -, h3⟩ := (C110_iterations (z := tttSizes) hS conv hlr (height := 3) (width := 3) (by decide) (by decide) (by decide)
    (ttt_trains pf) rfl hpw hc h0 h).2.2 it hit
  obtain ⟨-, h4⟩ := C144_fragments h1 hS.alpha hpw hS.iterations hl
  have h5 : stepCount S (it.memory 9).length ≤ S.epochs * ((9 * S.games * S.selfPlays + S.batch - 1) / S.batch) :=
    Nat.mul_le_mul_left _ (Nat.div_le_div_right (by
      have h4 : (it.memory 9).length ≤ 9 * S.games * S.selfPlays := h4
      omega))
  exact fun n x y hn hx hy idx => (h3.near n x y hn hx hy idx).trans
    (mul_le_mul_of_nonneg_left (by exact_mod_cast h5) (by positivity))

end DieE.Props.Am
