import Verif.Train.Output
import Verif.Train.OutputSpec
import Verif.Props.App
import Verif.Props.Learn
import Verif.Props.Single32

/-!
# C130: the output of a training run tells which model is the best one
-/

namespace DieE.Props.Ou
open DieE DieE.Mcts DieE.Train DieE.Text DieE.Props DieE.Fp
open DieE.Versus (PlayResult line)
open DieE.Props.Rp (shown_ok newline_digits newline_agent natValue_digits)

variable {G : Game} {Fl : Floats} {W : Type}

/-! ## The output does not matter -/

theorem playBest_of {dir err : Name} {S : Setup Fl W} {o : Versus.Orders} {f : Nat} {w : W} {ms ms' : Models W} {out : Out} {t t' : Tape}
    (h : playBestOut dir err S G o f w ms t = .ok ((ms', out), t')) : playBest S G o f w ms t = .ok (ms', t') := by
  unfold playBestOut at h
  unfold playBest
  cases hb : ms.bind (fun d => d bestName) with
  | none =>
    rw [hb] at h
    obtain ⟨h1, rfl⟩ := Prod.mk.inj (Except.ok.inj h)
    obtain ⟨rfl, -⟩ := Prod.mk.inj h1
    rfl
  | some b =>
    rw [hb] at h
    obtain ⟨x, t1, h1, h⟩ := M.bind_ok.1 h
    obtain ⟨r, t2, h2, h3⟩ := M.bind_ok.1 h1
    obtain ⟨rfl, rfl⟩ := Prod.mk.inj (Except.ok.inj h3)
    have hv : Versus.playVsModel S.pf S.rnd S.versus o f G (S.net w) (S.net b) t =
        .ok (if r.winrate ≥ S.rnd (55 / 100) then some 1 else if r.winrate ≤ S.rnd (45 / 100) then some 2 else none, t2) :=
      M.bind_ok.2 ⟨r, t2, h2, rfl⟩
    refine M.bind_ok.2 ⟨_, t2, hv, ?_⟩
    dsimp only at h
    obtain ⟨v, t3, h4, h⟩ := M.bind_ok.1 h
    obtain ⟨h5, rfl⟩ := Prod.mk.inj (Except.ok.inj h)
    obtain ⟨rfl, -⟩ := Prod.mk.inj h5
    generalize hx : (if r.winrate ≥ S.rnd (55 / 100) then some 1 else if r.winrate ≤ S.rnd (45 / 100) then some 2 else none : Option Nat) = x at h4
    refine M.bind_ok.2 ⟨v.1, t3, ?_, rfl⟩
    split at h4
    · obtain ⟨rfl, rfl⟩ := Prod.mk.inj (Except.ok.inj h4); rfl
    · obtain ⟨rfl, rfl⟩ := Prod.mk.inj (Except.ok.inj h4); rfl
    · obtain ⟨rfl, rfl⟩ := Prod.mk.inj (Except.ok.inj h4); rfl
    · cases h4

theorem iteration_of {dir err : Name} {S : Setup Fl W} {c : Chance G} {f i : Nat} {w : W} {ms : Models W} {it : Iter W} {out : Out} {t t' : Tape}
    (h : learnIterationOut dir err S c f i w ms t = .ok ((it, out), t')) : learnIteration S c f i w ms t = .ok (it, t') ∧
      ∃ t1 o1, playBestOut dir err S G (c.match' i) f it.after (saveModel ms (modelName i) it.after) t1 = .ok ((it.models, o1), t') ∧
        out = (savedOut dir err ms i).then o1 := by
  obtain ⟨r, t1, h1, k1⟩ := M.bind_ok.1 h
  obtain ⟨e, t2, h2, k2⟩ := M.bind_ok.1 k1
  obtain ⟨u, t3, h3, k3⟩ := M.bind_ok.1 k2
  obtain ⟨b, t4, h4, k4⟩ := M.bind_ok.1 k3
  obtain ⟨k5, rfl⟩ := Prod.mk.inj (Except.ok.inj k4)
  obtain ⟨rfl, rfl⟩ := Prod.mk.inj k5
  refine ⟨?_, t3, b.2, h4, rfl⟩
  refine M.bind_ok.2 ⟨r, t1, h1, M.bind_ok.2 ⟨e, t2, h2, M.bind_ok.2 ⟨u, t3, h3, M.bind_ok.2 ⟨b.1, t4, playBest_of h4, rfl⟩⟩⟩⟩

theorem loop_of {dir err : Name} {S : Setup Fl W} {c : Chance G} {f : Nat} : ∀ (k i : Nat) {w : W} {ms : Models W} {l : List (Iter W)} {out : Out}
    {t t' : Tape}, learnLoopOut dir err S c f k i w ms t = .ok ((l, out), t') → learnLoop S c f k i w ms t = .ok (l, t') := by
  intro k
  induction k with
  | zero =>
    intro i w ms l out t t' h
    obtain ⟨h1, rfl⟩ := Prod.mk.inj (Except.ok.inj h)
    obtain ⟨rfl, -⟩ := Prod.mk.inj h1
    rfl
  | succ k ih =>
    intro i w ms l out t t' h
    obtain ⟨it, t1, h1, h⟩ := M.bind_ok.1 h
    obtain ⟨x, t2, h2, h⟩ := M.bind_ok.1 h
    obtain ⟨h3, rfl⟩ := Prod.mk.inj (Except.ok.inj h)
    obtain ⟨rfl, -⟩ := Prod.mk.inj h3
    exact M.bind_ok.2 ⟨it.1, t1, (iteration_of h1).1, M.bind_ok.2 ⟨x.1, t2, ih (i + 1) h2, rfl⟩⟩

/-- A run with its output is a run. -/
theorem learn_of {dir err id : Name} {S : Setup Fl W} {c : Chance G} {f : Nat} {w : W} {ms : Models W} {l : List (Iter W)} {out : Out} {t t' : Tape}
    (h : learnOut dir err id S c f w ms t = .ok ((l, out), t')) : learnParallel S c f w ms t = .ok (l, t') ∧
      ∃ o, learnLoopOut dir err S c f S.learns 0 w ms t = .ok ((l, o), t') ∧
        out = Out.then ⟨line (lit "Staring up run with run_id: " ++ id), [lit "Starting learn parallel..."]⟩ o := by
  obtain ⟨x, t1, h1, h⟩ := M.bind_ok.1 h
  obtain ⟨h2, rfl⟩ := Prod.mk.inj (Except.ok.inj h)
  obtain ⟨rfl, rfl⟩ := Prod.mk.inj h2
  exact ⟨loop_of _ _ h1, x.2, h1, rfl⟩

theorem playBest_has (dir err : Name) {S : Setup Fl W} {o : Versus.Orders} {f : Nat} {w : W} {ms ms' : Models W} {t t' : Tape}
    (h : playBest S G o f w ms t = .ok (ms', t')) : ∃ out, playBestOut dir err S G o f w ms t = .ok ((ms', out), t') := by
  unfold playBestOut
  unfold playBest at h
  cases hb : ms.bind (fun d => d bestName) with
  | none =>
    rw [hb] at h
    obtain ⟨rfl, rfl⟩ := Prod.mk.inj (Except.ok.inj h)
    exact ⟨_, rfl⟩
  | some b =>
    rw [hb] at h
    obtain ⟨x, t1, h1, h⟩ := M.bind_ok.1 h
    obtain ⟨r, t2, h2, h3⟩ := M.bind_ok.1 h1
    obtain ⟨hx, rfl⟩ := Prod.mk.inj (Except.ok.inj h3)
    obtain ⟨v, t3, h4, h⟩ := M.bind_ok.1 h
    obtain ⟨rfl, rfl⟩ := Prod.mk.inj (Except.ok.inj h)
    have hv : playVsModelOut S G o f w b t = .ok ((x, line [] ++ line (lit "Starting play!") ++ line (lit "Match result: " ++ r.text)), t2) :=
      M.bind_ok.2 ⟨r, t2, h2, by rw [← hx]; rfl⟩
    have : ∃ y, (match x with
      | some 1 => pure (true, lit "new model was better!")
      | some 2 => pure (false, lit "current best model is still better!")
      | none => pure (false, lit "new model vs current best was inconclusive, keeping current best!")
      | some _ => M.fail .unreachableCode : M (Bool × Name)) t2 = .ok ((v, y), t3) := by
      split at h4
      · obtain ⟨rfl, rfl⟩ := Prod.mk.inj (Except.ok.inj h4); exact ⟨_, rfl⟩
      · obtain ⟨rfl, rfl⟩ := Prod.mk.inj (Except.ok.inj h4); exact ⟨_, rfl⟩
      · obtain ⟨rfl, rfl⟩ := Prod.mk.inj (Except.ok.inj h4); exact ⟨_, rfl⟩
      · cases h4
    obtain ⟨y, hy⟩ := this
    exact ⟨_, M.bind_ok.2 ⟨_, t2, hv, M.bind_ok.2 ⟨(v, y), t3, hy, rfl⟩⟩⟩

theorem loop_has (dir err : Name) {S : Setup Fl W} {c : Chance G} {f : Nat} : ∀ (k i : Nat) {w : W} {ms : Models W} {l : List (Iter W)} {t t' : Tape},
    learnLoop S c f k i w ms t = .ok (l, t') → ∃ out, learnLoopOut dir err S c f k i w ms t = .ok ((l, out), t') := by
  intro k
  induction k with
  | zero =>
    intro i w ms l t t' h
    obtain ⟨rfl, rfl⟩ := Prod.mk.inj (Except.ok.inj h)
    exact ⟨_, rfl⟩
  | succ k ih =>
    intro i w ms l t t' h
    obtain ⟨it, t1, h1, h⟩ := M.bind_ok.1 h
    obtain ⟨x, t2, h2, h⟩ := M.bind_ok.1 h
    obtain ⟨rfl, rfl⟩ := Prod.mk.inj (Except.ok.inj h)
    obtain ⟨out, g2⟩ := ih (i + 1) h2
    obtain ⟨r, u1, e1, k1⟩ := M.bind_ok.1 h1
    obtain ⟨e, u2, e2, k2⟩ := M.bind_ok.1 k1
    obtain ⟨u, u3, e3, k3⟩ := M.bind_ok.1 k2
    obtain ⟨b, u4, e4, k4⟩ := M.bind_ok.1 k3
    obtain ⟨rfl, rfl⟩ := Prod.mk.inj (Except.ok.inj k4)
    obtain ⟨o1, e5⟩ := playBest_has dir err e4
    exact ⟨_, M.bind_ok.2 ⟨_, u4, M.bind_ok.2 ⟨r, u1, e1, M.bind_ok.2 ⟨e, u2, e2, M.bind_ok.2 ⟨u, u3, e3, M.bind_ok.2 ⟨(b, o1), u4, e5, rfl⟩⟩⟩⟩,
      M.bind_ok.2 ⟨(x, out), t2, g2, rfl⟩⟩⟩

/-- Every run has an output. -/
theorem learn_has (dir err id : Name) {S : Setup Fl W} {c : Chance G} {f : Nat} {w : W} {ms : Models W} {l : List (Iter W)} {t t' : Tape}
    (h : learnParallel S c f w ms t = .ok (l, t')) : ∃ out, learnOut dir err id S c f w ms t = .ok ((l, out), t') := by
  obtain ⟨out, h1⟩ := loop_has dir err _ _ h
  exact ⟨_, M.bind_ok.2 ⟨(l, out), t', h1, rfl⟩⟩

/-! ## Reading -/

/-- The text is read from `r` on. -/
def readFrom (r : Reading) (txt : Name) : Reading := (split '\n' txt).foldl Reading.line r

theorem read_line {a : Name} (ha : '\n' ∉ a) (r : Reading) (rest : Name) : readFrom r (line a ++ rest) = readFrom (r.line a) rest := by
  unfold readFrom
  rw [Ap.split_line ha]
  rfl

/-- Lines that say nothing. -/
theorem line_skip {a : Name} (r : Reading) (h1 : "Iteration ".toList.isPrefixOf a = false) (h2 : a ≠ "model saved!".toList)
    (h3 : "Wins Player 1: ".toList.isPrefixOf a = false) : r.line a = r := by
  unfold Reading.line
  rw [if_neg (by rw [h1]; decide), if_neg h2, if_neg (by rw [h3]; decide)]

theorem read_skip {a : Name} (ha : '\n' ∉ a) (h1 : "Iteration ".toList.isPrefixOf a = false) (h2 : a ≠ "model saved!".toList)
    (h3 : "Wins Player 1: ".toList.isPrefixOf a = false) (r : Reading) (rest : Name) : readFrom r (line a ++ rest) = readFrom r rest := by
  rw [read_line ha, line_skip r h1 h2 h3]

theorem newline_name (i : Nat) : '\n' ∉ modelName i := by
  unfold modelName
  rw [List.mem_append, List.mem_append, not_or, not_or]
  exact ⟨⟨by decide, newline_digits i⟩, by decide⟩

theorem digits_space (i : Nat) (rest : Name) : (digits i ++ ' ' :: rest).takeWhile (· ≠ ' ') = digits i := by
  rw [List.takeWhile_append_of_pos]
  · simp
  · intro c hc
    have := digits_isDigit hc
    simp only [decide_eq_true_eq]
    rintro rfl
    revert this
    decide

/-- The line of a saved model names the iteration. -/
theorem read_saved {dir err : Name} (hd : '\n' ∉ dir) (d : Name → Option W) (i : Nat) (r : Reading) (rest : Name) :
    readFrom r ((savedOut dir err (some d) i).stdout ++ rest) = readFrom { r with last := some i } rest := by
  show readFrom r (line (lit "Iteration " ++ digits i ++ lit " saved successfully, path: " ++ (dir ++ ['/'] ++ modelName i)) ++ rest) = _
  rw [read_line]
  · congr 1
    have hp : "Iteration ".toList.isPrefixOf (lit "Iteration " ++ digits i ++ lit " saved successfully, path: " ++ (dir ++ ['/'] ++ modelName i)) = true :=
      rfl
    unfold Reading.line
    rw [if_pos hp]
    congr 1
    show natValue ((digits i ++ lit " saved successfully, path: " ++ (dir ++ ['/'] ++ modelName i)).takeWhile (· ≠ ' ')) = some i
    rw [List.append_assoc]
    show natValue ((digits i ++ ' ' :: (lit "saved successfully, path: " ++ (dir ++ ['/'] ++ modelName i))).takeWhile (· ≠ ' ')) = some i
    rw [digits_space, natValue_digits]
  · simp only [List.mem_append, not_or]
    exact ⟨⟨⟨by decide, newline_digits i⟩, by decide⟩, ⟨hd, by decide⟩, newline_name i⟩

/-- The printed result names the wins. -/
theorem read_result {r : PlayResult G} (hn : '\n' ∉ display64 (Versus.percentage r.winrate)) (R : Reading) (rest : Name) :
    readFrom R (line [] ++ line (lit "Starting play!") ++ line (lit "Match result: " ++ r.text) ++ rest) =
      readFrom { R with best := if 220 ≤ r.wins1 then R.last else R.best, wins := R.wins ++ [r.wins1] } rest := by
  have e : line [] ++ line (lit "Starting play!") ++ line (lit "Match result: " ++ r.text) ++ rest =
      line [] ++ (line (lit "Starting play!") ++ (line (lit "Match result: Player 1: " ++ r.player1.name) ++
        (line (lit "Player 2: " ++ r.player2.name) ++ (line (lit "Wins Player 1: " ++ digits r.wins1) ++
        (line (lit "Wins Player 2: " ++ digits r.wins2) ++ (line (lit "Draws: " ++ digits r.draws) ++
        (line (lit "Number of Games: " ++ digits r.nGames) ++ (line (lit "Winrate: " ++ display64 (Versus.percentage r.winrate) ++ lit "%") ++
        (line [] ++ rest))))))))) := by
    simp [line, PlayResult.text, Text.lit]
  have nl : ∀ {a b : Name}, '\n' ∉ a → '\n' ∉ b → '\n' ∉ a ++ b := fun ha hb h => (List.mem_append.1 h).elim ha hb
  rw [e, read_skip (by simp) rfl (by decide) rfl, read_skip (by decide) (by decide) (by decide) (by decide),
    read_skip (nl (by decide) (newline_agent _)) rfl (by intro h; cases h) rfl,
    read_skip (nl (by decide) (newline_agent _)) rfl (by intro h; cases h) rfl, read_line (nl (by decide) (newline_digits _)),
    read_skip (nl (by decide) (newline_digits _)) rfl (by intro h; cases h) rfl,
    read_skip (nl (by decide) (newline_digits _)) rfl (by intro h; cases h) rfl,
    read_skip (nl (by decide) (newline_digits _)) rfl (by intro h; cases h) rfl,
    read_skip (nl (nl (by decide) hn) (by decide)) rfl (by intro h; cases h) rfl, read_skip (by simp) rfl (by decide) rfl]
  congr 1
  unfold Reading.line
  rw [if_neg (show ¬ ("Iteration ".toList.isPrefixOf (lit "Wins Player 1: " ++ digits r.wins1) = true) from by
      rw [show "Iteration ".toList.isPrefixOf (lit "Wins Player 1: " ++ digits r.wins1) = false from rfl]; decide),
    if_neg (by intro h; cases h),
    if_pos (show "Wins Player 1: ".toList.isPrefixOf (lit "Wins Player 1: " ++ digits r.wins1) = true from rfl),
    show natValue ((lit "Wins Player 1: " ++ digits r.wins1).drop 15) = some r.wins1 from natValue_digits _]

/-! ## The messages of an iteration -/

/-- What is printed about the best model. -/
theorem best_read (hid : Versus.Ids G) {S : Setup Fl W} (hS : S.rnd = rnd f64) {dir err : Name} (hd : '\n' ∉ dir) {o : Versus.Orders} (ho : o.Valid)
    {f : Nat} {w : W} {d : Name → Option W} {t t' : Tape} {ms' : Models W} {out : Out}
    (h : playBestOut dir err S G o f w (some d) t = .ok ((ms', out), t')) :
    ∃ d', ms' = some d' ∧ (∀ n, n ≠ bestName → d' n = d n) ∧
      ((d bestName = none ∧ d' bestName = some w ∧ out.bar = [] ∧
        ∀ r rest, readFrom r (out.stdout ++ rest) = readFrom { r with best := r.last } rest) ∨
      ∃ b k, d bestName = some b ∧ Beats S G w b k ∧ d' bestName = some (if 220 ≤ k then w else b) ∧
        out.bar.filterMap verdictIn = [verdictOf k] ∧
        ∀ r rest, readFrom r (out.stdout ++ rest) =
          readFrom { r with best := if 220 ≤ k then r.last else r.best, wins := r.wins ++ [k] } rest) := by
  unfold playBestOut at h
  cases hb : d bestName with
  | none =>
    rw [show (some d : Models W).bind (fun d => d bestName) = none from hb] at h
    obtain ⟨h1, -⟩ := Prod.mk.inj (Except.ok.inj h)
    obtain ⟨rfl, rfl⟩ := Prod.mk.inj h1
    refine ⟨_, rfl, fun n hn => if_neg hn, .inl ⟨rfl, if_pos rfl, rfl, fun r rest => ?_⟩⟩
    show readFrom r (line (lit "No best model was found, saving current model as best...") ++ line (lit "model saved!") ++ rest) = _
    rw [List.append_assoc, read_skip (by decide) (by decide) (by decide) (by decide), read_line (by decide)]
    rfl
  | some b =>
    rw [show (some d : Models W).bind (fun d => d bestName) = some b from hb] at h
    obtain ⟨x, t1, h1, h⟩ := M.bind_ok.1 h
    obtain ⟨r, t2, h2, h3⟩ := M.bind_ok.1 h1
    obtain ⟨rfl, rfl⟩ := Prod.mk.inj (Except.ok.inj h3)
    rw [hS] at h2
    obtain ⟨m, h4, hw, h5, -⟩ := V.accounted hid ho h2
    have hle : r.wins1 ≤ 400 := by have := h5.total; omega
    have hbeat : Beats S G w b r.wins1 := ⟨o, f, t, t2, m, ho, h4.1, h5.wins1⟩
    have hn : '\n' ∉ display64 (Versus.percentage r.winrate) := by
      rw [hw]
      exact (shown_ok hle).1
    have hge := V.winrate_ge Fn.C100_gate hle
    have hlt := V.winrate_le Fn.C100_gate hle
    dsimp only at h
    rw [hS, hw] at h
    obtain ⟨v, t3, h6, h⟩ := M.bind_ok.1 h
    obtain ⟨h7, -⟩ := Prod.mk.inj (Except.ok.inj h)
    obtain ⟨rfl, rfl⟩ := Prod.mk.inj h7
    have hread : ∀ (a : Out) R rest, a.stdout = line (lit "Successfully loaded model on path " ++ (dir ++ ['/'] ++ bestName)) ++
        (line [] ++ line (lit "Starting play!") ++ line (lit "Match result: " ++ r.text)) → readFrom R (a.stdout ++ rest) =
          readFrom { R with best := if 220 ≤ r.wins1 then R.last else R.best, wins := R.wins ++ [r.wins1] } rest := by
      intro a R rest ha
      rw [ha, List.append_assoc, read_skip _ rfl (by intro h; cases h) rfl]
      · exact read_result hn R rest
      · simp only [List.mem_append, not_or]
        exact ⟨by decide, ⟨hd, by decide⟩, by decide⟩
    by_cases c1 : 220 ≤ r.wins1
    · rw [if_pos (hge.2 c1)] at h6
      obtain ⟨rfl, rfl⟩ := Prod.mk.inj (Except.ok.inj h6)
      refine ⟨_, rfl, fun n hn => if_neg hn, .inr ⟨b, r.wins1, rfl, hbeat, ?_, ?_, fun R rest => hread _ R rest rfl⟩⟩
      · rw [if_pos c1]
        exact if_pos rfl
      · unfold verdictOf
        rw [if_pos c1]
        show [lit "new model was better!", lit "saved new best model"].filterMap verdictIn = [.better]
        decide
    · rw [if_neg (fun h => c1 (hge.1 h))] at h6
      by_cases c2 : r.wins1 ≤ 180
      · rw [if_pos (hlt.2 c2)] at h6
        obtain ⟨rfl, rfl⟩ := Prod.mk.inj (Except.ok.inj h6)
        refine ⟨d, rfl, fun n _ => rfl, .inr ⟨b, r.wins1, rfl, hbeat, ?_, ?_, fun R rest => hread _ R rest rfl⟩⟩
        · rw [if_neg c1]
          exact hb
        · unfold verdictOf
          rw [if_neg c1, if_pos c2]
          show [lit "current best model is still better!"].filterMap verdictIn = [.worse]
          decide
      · rw [if_neg (fun h => c2 (hlt.1 h))] at h6
        obtain ⟨rfl, rfl⟩ := Prod.mk.inj (Except.ok.inj h6)
        refine ⟨d, rfl, fun n _ => rfl, .inr ⟨b, r.wins1, rfl, hbeat, ?_, ?_, fun R rest => hread _ R rest rfl⟩⟩
        · rw [if_neg c1]
          exact hb
        · unfold verdictOf
          rw [if_neg c1, if_neg c2]
          show [lit "new model vs current best was inconclusive, keeping current best!"].filterMap verdictIn = [.unclear]
          decide

/-- What is printed in the iterations. -/
theorem loop_read (hid : Versus.Ids G) {S : Setup Fl W} (hS : S.rnd = rnd f64) {dir err : Name} (hd : '\n' ∉ dir) {c : Chance G} (hc : c.Valid)
    {f : Nat} : ∀ (k i : Nat) {w : W} {d : Name → Option W} {t t' : Tape} {l : List (Iter W)} {out : Out},
      learnLoopOut dir err S c f k i w (some d) t = .ok ((l, out), t') →
      ∃ d' ks, lastModels (some d) l = some d' ∧ Matches S G (d bestName) l ks (d' bestName) ∧
        out.bar.filterMap verdictIn = ks.map verdictOf ∧
        ∀ R, ∃ R' : Reading, (∀ rest, readFrom R (out.stdout ++ rest) = readFrom R' rest) ∧ R'.wins = R.wins ++ ks ∧
          (R'.best = R.best ∧ d' bestName = d bestName ∨
            ∃ (j : Nat) (it : Iter W), l[j]? = some it ∧ R'.best = some (i + j) ∧ d' bestName = some it.after) := by
  intro k
  induction k with
  | zero =>
    intro i w d t t' l out h
    obtain ⟨h1, -⟩ := Prod.mk.inj (Except.ok.inj h)
    obtain ⟨rfl, rfl⟩ := Prod.mk.inj h1
    exact ⟨d, [], rfl, .nil _, rfl, fun R => ⟨R, fun _ => rfl, by simp, .inl ⟨rfl, rfl⟩⟩⟩
  | succ k ih =>
    intro i w d t t' l out h
    obtain ⟨x, t1, h1, h⟩ := M.bind_ok.1 h
    obtain ⟨y, t2, h2, h⟩ := M.bind_ok.1 h
    obtain ⟨h3, -⟩ := Prod.mk.inj (Except.ok.inj h)
    obtain ⟨rfl, rfl⟩ := Prod.mk.inj h3
    obtain ⟨-, t3, o1, h4, ho⟩ := iteration_of h1
    obtain ⟨d1, e1, e2, e3⟩ := best_read hid hS hd (hc.match' i) h4
    rw [e1] at h2
    obtain ⟨d', ks, g1, g2, g3, g4⟩ := ih (i + 1) h2
    have hlast : lastModels (some d) (x.1 :: y.1) = some d' := by rw [Lr.last_cons, e1, g1]
    have hb0 : (fun (f : Name → Option W) m => if m = modelName i then some x.1.after else f m) d bestName = d bestName :=
      if_neg (Lr.modelName_ne_best i).symm
    rw [hb0] at e3
    have hbar : (x.2.then y.2).bar.filterMap verdictIn = o1.bar.filterMap verdictIn ++ ks.map verdictOf := by
      rw [← g3, ho]
      show List.filterMap verdictIn (([] ++ o1.bar) ++ y.2.bar) = _
      rw [List.nil_append, List.filterMap_append]
    have hout : ∀ rest, (x.2.then y.2).stdout ++ rest = (savedOut dir err (some d) i).stdout ++ (o1.stdout ++ (y.2.stdout ++ rest)) := by
      intro rest
      rw [ho]
      show ((_ ++ o1.stdout) ++ y.2.stdout) ++ rest = _
      simp only [List.append_assoc]
    rcases e3 with ⟨a1, a2, a3, a4⟩ | ⟨b, n, a1, a2, a3, a4, a5⟩
    · rw [a2] at g2
      rw [a1]
      refine ⟨d', ks, hlast, .first g2, by rw [hbar, a3]; rfl, fun R => ?_⟩
      obtain ⟨R', k1, k2, k3⟩ := g4 { R with last := some i, best := some i }
      refine ⟨R', fun rest => ?_, k2, .inr ?_⟩
      · rw [hout, read_saved hd, a4, ← k1]
      · rcases k3 with ⟨k3, k4⟩ | ⟨j, it, k3, k4, k5⟩
        · exact ⟨0, x.1, rfl, k3, by rw [k4, a2]⟩
        · exact ⟨j + 1, it, k3, by rw [k4]; congr 1; omega, k5⟩
    · rw [a3] at g2
      rw [a1]
      refine ⟨d', n :: ks, hlast, .played a2 g2, by rw [hbar, a4]; rfl, fun R => ?_⟩
      obtain ⟨R', k1, k2, k3⟩ := g4 { R with last := some i, best := if 220 ≤ n then some i else R.best, wins := R.wins ++ [n] }
      refine ⟨R', fun rest => ?_, by rw [k2]; simp, ?_⟩
      · rw [hout, read_saved hd, a5, ← k1]
      · rcases k3 with ⟨k3, k4⟩ | ⟨j, it, k3, k4, k5⟩
        · by_cases cn : 220 ≤ n
          · refine .inr ⟨0, x.1, rfl, ?_, ?_⟩
            · rw [k3]; exact if_pos cn
            · rw [k4, a3, if_pos cn]
          · refine .inl ⟨?_, ?_⟩
            · rw [k3]; exact if_neg cn
            · rw [k4, a3, if_neg cn]
        · exact .inr ⟨j + 1, it, k3, by rw [k4]; congr 1; omega, k5⟩

/-! ## C130 -/

/-- C130: the output of a training run whose models can be stored.  The numbers of wins in the standard output are those of the
matches played, the messages above the progress bars give the verdicts of these matches, and the best model stored at the end
is that of the iteration which the standard output names, or the one from before the run if it names none. -/
theorem C130 (hid : Versus.Ids G) {S : Setup Fl W} (hS : S.rnd = rnd f64) {dir err id : Name} (hd : '\n' ∉ dir) (hi : '\n' ∉ id) {c : Chance G}
    (hc : c.Valid) {f : Nat} {w : W} {d : Name → Option W} {t t' : Tape} {l : List (Iter W)} {out : Out}
    (h : learnOut dir err id S c f w (some d) t = .ok ((l, out), t')) :
    learnParallel S c f w (some d) t = .ok (l, t') ∧
    ∃ d', lastModels (some d) l = some d' ∧
      Matches S G (d bestName) l (readOut out.stdout).wins (d' bestName) ∧
      out.bar.filterMap verdictIn = (readOut out.stdout).wins.map verdictOf ∧
      match (readOut out.stdout).best with
      | none => d' bestName = d bestName
      | some k => ∃ it, l[k]? = some it ∧ d' bestName = some it.after ∧ d' (modelName k) = some it.after := by
  obtain ⟨h1, o, h2, ho⟩ := learn_of h
  refine ⟨h1, ?_⟩
  obtain ⟨d', ks, g1, g2, g3, g4⟩ := loop_read hid hS hd hc _ _ h2
  obtain ⟨R', k1, k2, k3⟩ := g4 ⟨none, none, []⟩
  have hread : readOut out.stdout = R' := by
    show readFrom ⟨none, none, []⟩ out.stdout = R'
    rw [ho]
    show readFrom _ (line (lit "Staring up run with run_id: " ++ id) ++ o.stdout) = R'
    rw [read_skip _ rfl (by intro h; cases h) rfl]
    · have := k1 []
      rw [List.append_nil] at this
      rw [this]
      show Reading.line R' [] = R'
      exact line_skip R' rfl (by decide) rfl
    · simp only [List.mem_append, not_or]
      exact ⟨by decide, hi⟩
  have hbar : out.bar.filterMap verdictIn = ks.map verdictOf := by
    rw [← g3, ho]
    rfl
  rw [hread, k2]
  refine ⟨d', g1, g2, hbar, ?_⟩
  rcases k3 with ⟨k3, k4⟩ | ⟨j, it, k3, k4, k5⟩
  · rw [k3]
    exact k4
  · rw [k4, Nat.zero_add]
    obtain ⟨d'', e1, e2, -⟩ := Lr.C85_partial hid (by rw [hS]; exact Fn.C100_gate) hc h1
    rw [g1] at e1
    obtain rfl := Option.some.inj e1
    exact ⟨it, k3, k5, e2 j it k3⟩

/-- The settings of the example of C87, with the win rate of the code, three iterations. -/
def printSetup : Setup S.demoFloats Nat := { Lr.demoSetup with rnd := rnd f64, learns := 3 }

/-- A run of TicTacToe with an existing best model: C130 applies to its output, which exists. -/
example (d : Name → Option Nat) (t : Tape) : ∃ l out t', learnOut (G := TTT.game .debug) (lit "./models/tictactoe") [] (lit "V1StGXR8") printSetup
      (Lr.demoChance _) 9 0 (some d) t = .ok ((l, out), t') ∧ Versus.Ids (TTT.game .debug) ∧ '\n' ∉ lit "./models/tictactoe" ∧
      '\n' ∉ lit "V1StGXR8" ∧ (Lr.demoChance (TTT.game .debug)).Valid := by
  have hS : Lr.Sound printSetup 9 [3, 3, 3] (fun _ => True) :=
    { alpha := fun _ _ => rfl, iterations := by decide, limit := by decide, games := by decide, batch := by decide, size := by decide,
      step := fun w _ _ _ _ _ _ => ⟨w + 1, rfl, trivial⟩, clean := fun _ _ => rfl }
  obtain ⟨l, t', h⟩ := Lr.C87_tictactoe_partial .debug hS ⟨⟨rfl, fun _ h => h⟩, fun _ h _ => h⟩ (Lr.demoChance_valid _) (w := 0) trivial
    (ms := some d) (fun _ _ _ _ => trivial) t
  obtain ⟨out, h⟩ := learn_has (lit "./models/tictactoe") [] (lit "V1StGXR8") h
  exact ⟨l, out, t', h, V.ttt_ids _, by decide, by decide, Lr.demoChance_valid _⟩

/-- How an output is read: the second iteration loses the match against the first, the third one wins. -/
example : readOut (lit "Staring up run with run_id: x\nIteration 0 saved successfully, path: ./models/tictactoe/model_0.ot\nNo best model was found, saving current model as best...\nmodel saved!\nIteration 1 saved successfully, path: ./models/tictactoe/model_1.ot\nMatch result: Player 1: Model\nWins Player 1: 219\nWins Player 2: 181\nIteration 2 saved successfully, path: ./models/tictactoe/model_2.ot\nWins Player 1: 220\n") =
    ⟨some 2, some 2, [219, 220]⟩ := by decide +kernel

/-! ## Without a directory for the models -/

/-- The line does not say that a model has been saved or loaded. -/
def Silent (l : Name) : Prop :=
  "Iteration ".toList.isPrefixOf l = false ∧ l ≠ "model saved!".toList ∧ "Successfully".toList.isPrefixOf l = false

/-- Saying that a model could not be saved. -/
def unsaved (i : Nat) (l : Name) : Prop := ∃ dir err, l = "Unable to save model: ".toList ++ dir ++ "/model_".toList ++ Nat.toDigits 10 i ++ ".ot".toList ++ err

theorem lost_loop {dir err : Name} (hd : '\n' ∉ dir) (he : '\n' ∉ err) {S : Setup Fl W} {c : Chance G} {f : Nat} : ∀ (k i : Nat) {w : W} {t t' : Tape}
    {l : List (Iter W)} {out : Out}, learnLoopOut dir err S c f k i w none t = .ok ((l, out), t') → lastModels none l = none ∧ out.bar = [] ∧
    ∃ ls : List Name, (∀ rest, split '\n' (out.stdout ++ rest) = ls ++ split '\n' rest) ∧ (∀ x ∈ ls, Silent x) ∧
      ∀ j < k, ∃ x ∈ ls, unsaved (i + j) x := by
  intro k
  induction k with
  | zero =>
    intro i w t t' l out h
    obtain ⟨h1, rfl⟩ := Prod.mk.inj (Except.ok.inj h)
    obtain ⟨rfl, rfl⟩ := Prod.mk.inj h1
    exact ⟨rfl, rfl, [], fun _ => rfl, fun x hx => absurd hx List.not_mem_nil, fun j hj => absurd hj (Nat.not_lt_zero j)⟩
  | succ k ih =>
    intro i w t t' l out h
    obtain ⟨⟨it, o1⟩, t1, h1, h2⟩ := M.bind_ok.1 h
    obtain ⟨⟨l2, o2⟩, t2, h3, h4⟩ := M.bind_ok.1 h2
    obtain ⟨h5, rfl⟩ := Prod.mk.inj (Except.ok.inj h4)
    obtain ⟨rfl, rfl⟩ := Prod.mk.inj h5
    obtain ⟨-, t5, o3, h6, rfl⟩ := iteration_of h1
    obtain ⟨h7, -⟩ := Prod.mk.inj (Except.ok.inj h6)
    obtain ⟨h8, rfl⟩ := Prod.mk.inj h7
    have hm : it.models = none := h8.symm
    simp only at h3
    rw [hm] at h3
    obtain ⟨g1, g2, ls, g3, g4, g5⟩ := ih (i + 1) h3
    refine ⟨?_, ?_, [lit "Unable to save model: " ++ (dir ++ ['/'] ++ modelName i) ++ lit ", caught error: " ++ err,
      lit "No best model was found, saving current model as best...", lit "unable to save model, caught error: " ++ err] ++ ls, fun rest => ?_, ?_, ?_⟩
    rotate_left 2
    · have e : (Out.then (Out.then (savedOut dir err (none : Models W) i) ⟨line (lit "No best model was found, saving current model as best...") ++
          line (lit "unable to save model, caught error: " ++ err), []⟩) o2).stdout ++ rest =
          line (lit "Unable to save model: " ++ (dir ++ ['/'] ++ modelName i) ++ lit ", caught error: " ++ err) ++
            (line (lit "No best model was found, saving current model as best...") ++ (line (lit "unable to save model, caught error: " ++ err) ++
              (o2.stdout ++ rest))) := by
        simp only [Out.then, savedOut, Option.isSome_none, Bool.false_eq_true, if_false, List.append_assoc]
      refine (congrArg (split '\n') e).trans ?_
      rw [Ap.split_line, Ap.split_line, Ap.split_line, g3]
      · rfl
      · simp only [List.mem_append, not_or]
        exact ⟨by decide, he⟩
      · decide
      · simp only [List.mem_append, not_or]
        exact ⟨⟨⟨by decide, ⟨hd, by decide⟩, newline_name i⟩, by decide⟩, he⟩
    · intro x hx
      rcases List.mem_append.1 hx with hx | hx
      · simp only [List.mem_cons, List.not_mem_nil, or_false] at hx
        rcases hx with rfl | rfl | rfl
        · refine ⟨?_, ?_, ?_⟩
          · rw [List.append_assoc, List.append_assoc]
            exact Ap.prefix_apart (by decide) (by decide)
          · intro e
            cases e
          · rw [List.append_assoc, List.append_assoc]
            exact Ap.prefix_apart (by decide) (by decide)
        · exact ⟨by decide, by decide, by decide⟩
        · exact ⟨Ap.prefix_apart (by decide) (by decide), (by intro e; cases e), Ap.prefix_apart (by decide) (by decide)⟩
      · exact g4 x hx
    · intro j hj
      cases j with
      | zero =>
        refine ⟨_, List.mem_append_left _ (List.mem_cons_self ..), dir, lit ", caught error: " ++ err, ?_⟩
        simp only [modelName, lit, digits, List.append_assoc]
        rfl
      | succ j =>
        obtain ⟨x, hx, hu⟩ := g5 j (by omega)
        refine ⟨x, List.mem_append_right _ hx, ?_⟩
        have : i + (j + 1) = i + 1 + j := by omega
        rw [this]
        exact hu
    · rw [Lr.last_cons, hm]
      exact g1
    · show [] ++ [] ++ o2.bar = []
      rw [g2]
      rfl

/-- C130, without a directory: there are no models after the run, and the output says so: each model that could not be saved is
announced, no line tells of a saved or loaded model. -/
theorem C130_lost {dir err id : Name} (hd : '\n' ∉ dir) (he : '\n' ∉ err) (hi : '\n' ∉ id) {S : Setup Fl W} {c : Chance G} {f : Nat} {w : W}
    {t t' : Tape} {l : List (Iter W)} {out : Out} (h : learnOut dir err id S c f w none t = .ok ((l, out), t')) :
    lastModels none l = none ∧ (∀ x ∈ split '\n' out.stdout, Silent x) ∧ (∀ i < S.learns, ∃ x ∈ split '\n' out.stdout, unsaved i x) ∧
      out.bar.filterMap verdictIn = [] := by
  obtain ⟨⟨l2, o2⟩, t2, h3, h4⟩ := M.bind_ok.1 h
  obtain ⟨h5, rfl⟩ := Prod.mk.inj (Except.ok.inj h4)
  obtain ⟨rfl, rfl⟩ := Prod.mk.inj h5
  obtain ⟨g1, g2, ls, g3, g4, g5⟩ := lost_loop hd he _ _ h3
  have hs : split '\n' (Out.then ⟨line (lit "Staring up run with run_id: " ++ id), [lit "Starting learn parallel..."]⟩ o2).stdout =
      (lit "Staring up run with run_id: " ++ id) :: (ls ++ [[]]) := by
    show split '\n' (line _ ++ o2.stdout) = _
    rw [Ap.split_line]
    · have := g3 []
      rw [List.append_nil] at this
      rw [this]
      rfl
    · simp only [List.mem_append, not_or]
      exact ⟨by decide, hi⟩
  refine ⟨g1, fun x hx => ?_, fun i hi => ?_, ?_⟩
  · rw [hs] at hx
    rcases List.mem_cons.1 hx with rfl | hx
    · exact ⟨Ap.prefix_apart (by decide) (by decide), (by intro e; cases e), Ap.prefix_apart (by decide) (by decide)⟩
    · rcases List.mem_append.1 hx with hx | hx
      · exact g4 x hx
      · rw [List.mem_singleton.1 hx]
        exact ⟨by decide, by decide, by decide⟩
  · obtain ⟨x, hx, hu⟩ := g5 i hi
    rw [hs]
    refine ⟨x, List.mem_cons_of_mem _ (List.mem_append_left _ hx), ?_⟩
    rwa [Nat.zero_add] at hu
  · show ([lit "Starting learn parallel..."] ++ o2.bar).filterMap verdictIn = []
    rw [g2]
    decide

/-- The run of the example above without the directory. -/
example (t : Tape) : ∃ l out t', learnOut (G := TTT.game .debug) (lit "./models/tictactoe") (lit "No such file or directory") (lit "V1StGXR8") printSetup
      (Lr.demoChance _) 9 0 none t = .ok ((l, out), t') ∧ '\n' ∉ lit "./models/tictactoe" ∧ '\n' ∉ lit "No such file or directory" ∧
      '\n' ∉ lit "V1StGXR8" := by
  have hS : Lr.Sound printSetup 9 [3, 3, 3] (fun _ => True) :=
    { alpha := fun _ _ => rfl, iterations := by decide, limit := by decide, games := by decide, batch := by decide, size := by decide,
      step := fun w _ _ _ _ _ _ => ⟨w + 1, rfl, trivial⟩, clean := fun _ _ => rfl }
  obtain ⟨l, t', h⟩ := Lr.C87_tictactoe_partial .debug hS ⟨⟨rfl, fun _ h => h⟩, fun _ h _ => h⟩ (Lr.demoChance_valid _) (w := 0) trivial
    (ms := none) (fun _ h _ _ => by cases h) t
  obtain ⟨out, h⟩ := learn_has (lit "./models/tictactoe") (lit "No such file or directory") (lit "V1StGXR8") h
  exact ⟨l, out, t', h, by decide, by decide, by decide⟩

end DieE.Props.Ou
