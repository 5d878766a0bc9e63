import Verif.App.SessionSpec
import Verif.Props.Output
import Verif.Props.Replay
import Verif.Props.RunId

/-!
# C134: what is stored by one run of the program is what later runs find
-/

namespace DieE.Props.Se
open DieE DieE.App DieE.Versus DieE.Text DieE.Fp DieE.Props.Ap
open DieE.Train (Name digits Setup Chance Tree Iter Mem Out modelName bestName trainedName Models)

/-! ## Paths -/

theorem best_ours : Ours bestName := .best
theorem model_ours (i : Nat) : Ours (modelName i) := .model i

theorem ours_plain {n : Name} (h : Ours n) : '/' ∉ n ∧ n ≠ [] ∧ n ≠ ['.'] := by
  cases h with
  | best => decide
  | model i =>
    refine ⟨?_, ?_, ?_⟩
    · simp only [List.mem_append, not_or]
      refine ⟨⟨by decide, fun h => ?_⟩, by decide⟩
      have := digits_isDigit (n := i) h
      revert this
      decide
    · intro h
      have := congrArg List.length h
      simp at this
    · intro h
      have := congrArg List.length h
      simp at this

theorem path_dir (w : Cli.Which) : path (modelDir w) = some (modelsFolder w) := by
  cases w <;> decide +kernel

theorem path_plain (w : Cli.Which) {n : Name} (h : '/' ∉ n ∧ n ≠ [] ∧ n ≠ ['.']) : path (modelPath w n) = some (modelFile w n) := by
  have h1 := path_join (path_dir w) h.1 h.2.1 h.2.2
  have h2 : joinPath (modelDir w) n = modelPath w n := by
    unfold joinPath modelPath
    rw [if_neg, if_neg]
    · simp
    · cases w <;> decide
    · rintro (hh | hh)
      · exact h.1 (List.mem_of_head? hh)
      · cases w <;> revert hh <;> decide
  rw [← h2, h1]
  rfl

theorem path_model (w : Cli.Which) {n : Name} (h : Ours n) : path (modelPath w n) = some (modelFile w n) := path_plain w (ours_plain h)

theorem modelFile_inj {w : Cli.Which} {m n : Name} (h : modelFile w m = modelFile w n) : m = n := by
  have := congrArg Path.parts h
  simpa [modelFile] using this

/-! ## Saving -/

variable {E : Env} {T : Trainer E} {w : Cli.Which}

theorem text_model {fs : Fs} {n : Name} (h : Ours n) : (fs.text (modelPath w n)).bind (E.load w) = held E w fs n := by
  unfold Fs.text Fs.entry held
  rw [path_model w h, Option.bind_some]
  cases fs (modelFile w n) with
  | none => rfl
  | some e => cases e <;> rfl

/-- Nothing but models has changed. -/
def Only (w : Cli.Which) (fs fs' : Fs) : Prop := ∀ q, (∀ n, Ours n → q ≠ modelFile w n) → fs' q = fs q

theorem Only.refl (fs : Fs) : Only w fs fs := fun _ _ => rfl
theorem Only.trans {a b c : Fs} (h : Only w a b) (h' : Only w b c) : Only w a c := fun q hq => (h' q hq).trans (h q hq)

theorem folder_ne (w : Cli.Which) (n : Name) : modelsFolder w ≠ modelFile w n := by
  intro h
  have := congrArg (fun p => p.parts.length) h
  simp [modelsFolder, modelFile] at this

theorem saveFs_some (hT : T.Faithful w) {fs : Fs} {d : Name → Option (E.W × T.O)} (h : Stores T w fs (some d)) {n : Name} (hn : Ours n)
    (x : E.W × T.O) : ∃ fs', saveFs T fs (modelPath w n) x.1 = (fs', true) ∧ Stores T w fs' (Train.saveModel (some d) n x) ∧ Only w fs fs' := by
  have hw : fs.write (modelPath w n) (T.store x.1) = .ok fun r => if r = modelFile w n then some (.file (T.store x.1)) else fs r := by
    unfold Fs.write
    rw [path_model w hn]
    simp only
    rw [if_neg]
    rintro (h1 | h1 | h1)
    · simp [modelFile] at h1
    · exact (h.files d rfl n hn).1 h1
    · exact h1 (h.folder rfl)
  refine ⟨_, by unfold saveFs; rw [hw], ⟨fun _ => ?_, fun h' => (by cases h'), fun d' hd' m hm => ?_⟩, fun q hq => if_neg (hq n hn)⟩
  · show (if _ then _ else _) = _
    rw [if_neg (folder_ne w n)]
    exact h.folder rfl
  · obtain rfl := Option.some.inj hd'
    by_cases hmn : m = n
    · subst hmn
      simp [held, hT x.1]
    · have hne : modelFile w m ≠ modelFile w n := fun e => hmn (modelFile_inj e)
      simp only [held, if_neg hne, if_neg hmn]
      exact h.files d rfl m hm

theorem saveFs_none {fs : Fs} (h : Stores T w fs none) {n : Name} (hn : Ours n) (x : E.W) :
    saveFs T fs (modelPath w n) x = (fs, false) := by
  have hw : fs.write (modelPath w n) (T.store x) = .error .unwrapNone := by
    unfold Fs.write
    rw [path_model w hn]
    simp only
    exact if_pos (.inr (.inr (h.gone rfl).1))
  unfold saveFs
  rw [hw]

/-- Saving a model in the files and in the model of the folder. -/
theorem saveFs_stores (hT : T.Faithful w) {fs : Fs} {ms : Models (E.W × T.O)} (h : Stores T w fs ms) {n : Name} (hn : Ours n)
    (x : E.W × T.O) : ∃ fs', saveFs T fs (modelPath w n) x.1 = (fs', ms.isSome) ∧ Stores T w fs' (Train.saveModel ms n x) ∧ Only w fs fs' := by
  cases ms with
  | none => exact ⟨fs, saveFs_none h hn x.1, h, .refl _⟩
  | some d => exact saveFs_some hT h hn x

/-! ## A training run -/

theorem playBest_sim (hT : T.Faithful w) {s : Settings} {G : Game} {o : Orders} {f : Nat} {x : E.W × T.O} {fs fs' : Fs} {ms : Models (E.W × T.O)}
    (hs : Stores T w fs ms) {out : Out} {t t' : Tape} (h : playBestFs T w s G o f x fs t = .ok ((fs', out), t')) :
    ∃ ms', Train.playBestOut (modelDir w) T.err (setup T s) G o f x ms t = .ok ((ms', out), t') ∧ Stores T w fs' ms' ∧ Only w fs fs' := by
  unfold playBestFs at h
  have hent : fs.entry (modelPath w bestName) = fs (modelFile w bestName) := by
    unfold Fs.entry
    rw [path_model w best_ours]
    rfl
  cases he : fs (modelFile w bestName) with
  | none =>
    rw [hent, he] at h
    simp only at h
    obtain ⟨fs1, h1, h2, h3⟩ := saveFs_stores hT hs best_ours x
    rw [h1] at h
    obtain ⟨h4, rfl⟩ := Prod.mk.inj (Except.ok.inj h)
    obtain ⟨rfl, rfl⟩ := Prod.mk.inj h4
    have hn : ms.bind (fun d => d bestName) = none := by
      cases ms with
      | none => rfl
      | some d =>
        have := (hs.files d rfl _ best_ours).2
        unfold held at this
        rw [he] at this
        simpa using this.symm
    refine ⟨Train.saveModel ms bestName x, ?_, h2, h3⟩
    unfold Train.playBestOut
    rw [hn]
    rfl
  | some e =>
    rw [hent, he] at h
    simp only at h
    obtain ⟨b, t1, h0, hb⟩ := M.bind_ok.1 h
    obtain ⟨r, t2, h2, hr⟩ := M.bind_ok.1 hb
    clear h hb
    obtain ⟨h1, rfl⟩ := M.lift_ok.1 h0
    rw [text_model best_ours] at h1
    have h := hr
    cases ms with
    | none =>
      exfalso
      rw [(hs.gone rfl).2 _ best_ours] at he
      cases he
    | some d =>
      have hd := (hs.files d rfl _ best_ours).2
      cases hdb : d bestName with
      | none =>
        rw [hdb] at hd
        rw [hd] at h1
        cases h1
      | some y =>
        rw [hdb] at hd
        rw [hd] at h1
        obtain rfl : y.1 = b := Except.ok.inj h1
        have hb : (some d : Models (E.W × T.O)).bind (fun d => d bestName) = some y := hdb
        unfold Train.playBestOut
        rw [hb]
        simp only
        unfold Train.playVsModelOut
        by_cases c1 : r.winrate ≥ (setup T s).rnd (55 / 100)
        · rw [if_pos c1] at h
          obtain ⟨fs1, k1, k2, k3⟩ := saveFs_stores hT hs best_ours x
          rw [k1] at h
          obtain ⟨h4, rfl⟩ := Prod.mk.inj (Except.ok.inj h)
          obtain ⟨rfl, rfl⟩ := Prod.mk.inj h4
          refine ⟨_, (M.bind_eq ((M.bind_eq h2).trans rfl)).trans ?_, k2, k3⟩
          rw [if_pos c1]
          rfl
        · rw [if_neg c1] at h
          by_cases c2 : r.winrate ≤ (setup T s).rnd (45 / 100)
          · rw [if_pos c2] at h
            obtain ⟨h4, rfl⟩ := Prod.mk.inj (Except.ok.inj h)
            obtain ⟨rfl, rfl⟩ := Prod.mk.inj h4
            refine ⟨_, (M.bind_eq ((M.bind_eq h2).trans rfl)).trans ?_, hs, .refl _⟩
            rw [if_neg c1, if_pos c2]
            rfl
          · rw [if_neg c2] at h
            obtain ⟨h4, rfl⟩ := Prod.mk.inj (Except.ok.inj h)
            obtain ⟨rfl, rfl⟩ := Prod.mk.inj h4
            refine ⟨_, (M.bind_eq ((M.bind_eq h2).trans rfl)).trans ?_, hs, .refl _⟩
            rw [if_neg c1, if_neg c2]
            rfl

theorem step_sim (hT : T.Faithful w) {s : Settings} {G : Game} {c : Chance G} {f i : Nat} {x y : E.W × T.O} {fs fs' : Fs} {ms : Models (E.W × T.O)}
    (hs : Stores T w fs ms) {dir : List (Name × Tree)} {out : Out} {t t' : Tape}
    (h : learnStepFs T w s c f i x fs t = .ok ((dir, y, fs', out), t')) :
    ∃ it, Train.learnIterationOut (modelDir w) T.err (setup T s) c f i x ms t = .ok ((it, out), t') ∧ it.dir = dir ∧ it.after = y ∧
      Stores T w fs' it.models ∧ Only w fs fs' := by
  obtain ⟨r, t1, h1, h⟩ := M.bind_ok.1 h
  obtain ⟨e, t2, h2, h⟩ := M.bind_ok.1 h
  obtain ⟨u, t3, h3, h⟩ := M.bind_ok.1 h
  obtain ⟨fs1, k1, k2, k3⟩ := saveFs_stores hT hs (model_ours i) e.2
  rw [k1] at h
  obtain ⟨⟨fs2, o2⟩, t4, h4, h⟩ := M.bind_ok.1 h
  obtain ⟨h5, rfl⟩ := Prod.mk.inj (Except.ok.inj h)
  obtain ⟨rfl, h6⟩ := Prod.mk.inj h5
  obtain ⟨rfl, h7⟩ := Prod.mk.inj h6
  obtain ⟨rfl, rfl⟩ := Prod.mk.inj h7
  obtain ⟨ms', g1, g2, g3⟩ := playBest_sim hT k2 h4
  refine ⟨_, (M.bind_eq h1).trans ((M.bind_eq h2).trans ((M.bind_eq h3).trans ((M.bind_eq g1).trans rfl))), rfl, rfl, g2, k3.trans g3⟩

theorem loop_sim (hT : T.Faithful w) {s : Settings} {G : Game} {c : Chance G} {f : Nat} : ∀ (k i : Nat) {x : E.W × T.O} {fs fs' : Fs}
    {ms : Models (E.W × T.O)}, Stores T w fs ms → ∀ {dirs : List (Name × Tree)} {out : Out} {t t' : Tape},
    learnLoopFs T w s c f k i x fs t = .ok ((dirs, fs', out), t') →
    ∃ l, Train.learnLoopOut (modelDir w) T.err (setup T s) c f k i x ms t = .ok ((l, out), t') ∧ dirs = Train.runEntries i l ∧
      Stores T w fs' (Train.lastModels ms l) ∧ Only w fs fs' := by
  intro k
  induction k with
  | zero =>
    intro i x fs fs' ms hs dirs out t t' h
    obtain ⟨h1, rfl⟩ := Prod.mk.inj (Except.ok.inj h)
    obtain ⟨rfl, h2⟩ := Prod.mk.inj h1
    obtain ⟨rfl, rfl⟩ := Prod.mk.inj h2
    exact ⟨[], rfl, rfl, hs, .refl _⟩
  | succ k ih =>
    intro i x fs fs' ms hs dirs out t t' h
    obtain ⟨⟨dir, y, fs1, o1⟩, t1, h1, h⟩ := M.bind_ok.1 h
    obtain ⟨⟨ds, fs2, o2⟩, t2, h2, h⟩ := M.bind_ok.1 h
    obtain ⟨h3, rfl⟩ := Prod.mk.inj (Except.ok.inj h)
    obtain ⟨rfl, h4⟩ := Prod.mk.inj h3
    obtain ⟨rfl, rfl⟩ := Prod.mk.inj h4
    obtain ⟨it, g1, rfl, rfl, g2, g3⟩ := step_sim hT hs h1
    obtain ⟨l, k1, rfl, k2, k3⟩ := ih (i + 1) g2 h2
    refine ⟨it :: l, (M.bind_eq g1).trans ((M.bind_eq k1).trans rfl), rfl, ?_, g3.trans k3⟩
    rw [Lr.last_cons]
    exact k2

/-- What the learn command does. -/
theorem learn_files (hT : T.Faithful w) {G : Game} {m : Option Name} {conf : Config.Conf Num} {wd wd' : World} {c : Chance G} {f : Nat} {id : Name}
    {x : E.W × T.O} {ms : Models (E.W × T.O)} (hs : Stores T w wd.fs ms) {out : Out} {t t' : Tape}
    (h : learnMain T w m conf wd c f id x t = .ok ((out, wd'), t')) :
    ∃ a l o, fromConfig T w m conf wd.fs = .ok a ∧
      Train.learnOut (modelDir w) T.err id (setup T a.1) c f x ms t = .ok ((l, o), t') ∧ out = Out.then ⟨a.2, []⟩ o ∧
      Stores T w wd'.fs (Train.lastModels ms l) ∧ Only w wd.fs wd'.fs ∧
      wd'.data = fun v => if v = w then some ((wd.data w).getD [] ++ [(Train.runName id, .dir (Train.runEntries 0 l))]) else wd.data v := by
  obtain ⟨a, t1, h1, k1⟩ := M.bind_ok.1 h
  obtain ⟨e1, rfl⟩ := M.lift_ok.1 h1
  obtain ⟨⟨ds, fs1, o1⟩, t2, h2, k2⟩ := M.bind_ok.1 k1
  obtain ⟨h3, rfl⟩ := Prod.mk.inj (Except.ok.inj k2)
  obtain ⟨rfl, rfl⟩ := Prod.mk.inj h3
  obtain ⟨l, g1, rfl, g2, g3⟩ := loop_sim hT _ _ hs h2
  exact ⟨a, l, _, e1, (M.bind_eq g1).trans rfl, rfl, g2, g3, rfl⟩

/-! ## Reading the output -/

/-- The texts of the device and of floats are on one line. -/
structure OneLine (T : Trainer E) : Prop where
  device : '\n' ∉ T.device
  float : ∀ x, '\n' ∉ T.float x

theorem read_message {m : Option Name} (hp : ∀ p, m = some p → '\n' ∉ p) {fs : Fs} {s : Name} (h : openModel T w fs m = .ok s) (R : Reading)
    (rest : Name) : Ou.readFrom R (s ++ rest) = Ou.readFrom R rest := by
  unfold openModel at h
  cases m with
  | some p =>
    simp only at h
    cases ht : fs.text p with
    | none => rw [ht] at h; cases h
    | some x =>
      rw [ht] at h
      simp only at h
      split at h
      · obtain rfl := Except.ok.inj h
        exact Ou.read_skip (by rw [List.mem_append, not_or]; exact ⟨by decide, hp p rfl⟩) rfl (by intro h; cases h) rfl R rest
      · cases h
  | none =>
    simp only at h
    cases he : fs.entry (modelPath w bestName) with
    | none =>
      rw [he] at h
      obtain rfl := Except.ok.inj h
      exact Ou.read_skip (by decide) rfl (by intro h; cases h) rfl R rest
    | some e =>
      rw [he] at h
      cases e with
      | dir => cases h
      | file x =>
        simp only at h
        split at h
        · obtain rfl := Except.ok.inj h
          exact Ou.read_skip (by decide) rfl (by intro h; cases h) rfl R rest
        · cases h

theorem newline_az {T : Trainer E} (hl : OneLine T) (c : Config.AlphaZeroConfig Num) : '\n' ∉ azText T.float c := by
  unfold azText
  simp only [List.mem_append, not_or]
  exact ⟨⟨⟨⟨⟨⟨⟨⟨⟨⟨⟨⟨by decide, hl.float _⟩, by decide⟩, Rp.newline_digits _⟩, by decide⟩, Rp.newline_digits _⟩, by decide⟩, Rp.newline_digits _⟩,
    by decide⟩, Rp.newline_digits _⟩, by decide⟩, Rp.newline_digits _⟩, by decide⟩

theorem newline_mcts {T : Trainer E} (hl : OneLine T) (c : Config.MctsConfig Num) : '\n' ∉ mctsText T.float c := by
  unfold mctsText
  simp only [List.mem_append, not_or]
  exact ⟨⟨⟨⟨⟨⟨⟨⟨⟨⟨by decide, Rp.newline_digits _⟩, by decide⟩, hl.float _⟩, by decide⟩, Rp.newline_digits _⟩, by decide⟩, hl.float _⟩, by decide⟩, hl.float _⟩,
    by decide⟩

/-- What is printed before a run is not read. -/
theorem read_config (hl : OneLine T) {m : Option Name} (hp : ∀ p, m = some p → '\n' ∉ p) {conf : Config.Conf Num} {fs : Fs} {a : Settings × Name}
    (h : fromConfig T w m conf fs = .ok a) (R : Reading) (rest : Name) : Ou.readFrom R (a.2 ++ rest) = Ou.readFrom R rest := by
  unfold fromConfig at h
  cases hs : settings conf with
  | error e => rw [hs] at h; cases h
  | ok s =>
    rw [hs] at h
    cases ho : openModel T w fs m with
    | error e => simp only [bind, Except.bind] at h; rw [ho] at h; cases h
    | ok x =>
      simp only [bind, Except.bind] at h
      rw [ho] at h
      obtain rfl := Except.ok.inj h
      have e : ∀ a b c d : Name, (a ++ b ++ c ++ d ++ x) ++ rest = a ++ (b ++ (c ++ (d ++ (x ++ rest)))) := by
        intro a b c d
        simp only [List.append_assoc]
      show Ou.readFrom R ((_ ++ _ ++ _ ++ _ ++ x) ++ rest) = _
      rw [e, Ou.read_skip (by decide) rfl (by intro h; cases h) rfl,
        Ou.read_skip (by rw [List.mem_append, not_or]; exact ⟨by decide, hl.device⟩) rfl (by intro h; cases h) rfl,
        Ou.read_skip (newline_az hl _) rfl (by intro h; cases h) rfl, Ou.read_skip (newline_mcts hl _) rfl (by intro h; cases h) rfl,
        read_message hp ho]

theorem newline_dir (w : Cli.Which) : '\n' ∉ modelDir w := by cases w <;> decide

/-- What a run of `learn` leaves behind. -/
structure Learned (T : Trainer E) (w : Cli.Which) (wd wd' : World) (out : Out) (id : Name) : Prop where
  /-- the model that is the best one by the output is in the file of the best model, or else the best model is as before -/
  best : match (readOut out.stdout).best with
    | none => held E w wd'.fs "best_model.ot".toList = held E w wd.fs "best_model.ot".toList
    | some k => ∃ b, held E w wd'.fs "best_model.ot".toList = some b ∧
      held E w wd'.fs ("model_".toList ++ Nat.toDigits 10 k ++ ".ot".toList) = some b
  /-- nothing but models has changed -/
  files : ∀ q, (∀ n, Ours n → q ≠ modelFile w n) → wd'.fs q = wd.fs q
  /-- the data of this run has been added to that of the game -/
  data : ∃ dir, wd'.data w = some ((wd.data w).getD [] ++ [("run-".toList ++ id, .dir dir)]) ∧ ∀ v, v ≠ w → wd'.data v = wd.data v

theorem learn_learned {G : Game} (hid : Versus.Ids G) (hT : T.Faithful w) (hl : OneLine T) {m : Option Name} (hp : ∀ p, m = some p → '\n' ∉ p)
    {conf : Config.Conf Num} {wd wd' : World} {c : Chance G} (hc : c.Valid) {f : Nat} {id : Name} (hi : '\n' ∉ id) {x : E.W × T.O}
    {d : Name → Option (E.W × T.O)} (hs : Stores T w wd.fs (some d)) {out : Out} {t t' : Tape}
    (h : learnMain T w m conf wd c f id x t = .ok ((out, wd'), t')) (n : Nat) :
    Learned T w wd wd' (Out.then ⟨line (headLine n), []⟩ out) id ∧ ∃ d', Stores T w wd'.fs (some d') := by
  obtain ⟨a, l, o, h1, h2, rfl, h3, h4, h5⟩ := learn_files hT hs h
  obtain ⟨-, d', g1, -, -, g2⟩ := Ou.C130 hid rfl (newline_dir w) hi hc h2
  rw [g1] at h3
  have hread : readOut (Out.then ⟨line (headLine n), []⟩ (Out.then ⟨a.2, []⟩ o)).stdout = readOut o.stdout := by
    show Ou.readFrom _ (line (headLine n) ++ (a.2 ++ o.stdout)) = Ou.readFrom _ o.stdout
    rw [Ou.read_skip (headLine_plain n) rfl (by intro h; cases h) rfl, read_config hl hp h1]
  refine ⟨⟨?_, h4, ⟨Train.runEntries 0 l, ?_, fun v hv => ?_⟩⟩, d', h3⟩
  · rw [hread]
    cases hb : (readOut o.stdout).best with
    | none =>
      rw [hb] at g2
      exact (h3.files d' rfl _ best_ours).2.trans (by rw [g2]; exact (hs.files d rfl _ best_ours).2.symm)
    | some k =>
      rw [hb] at g2
      obtain ⟨it, -, g3, g4⟩ := g2
      exact ⟨it.after.1, (h3.files d' rfl _ best_ours).2.trans (by rw [g3]; rfl), (h3.files d' rfl _ (model_ours k)).2.trans (by rw [g4]; rfl)⟩
  · rw [h5]
    exact if_pos rfl
  · rw [h5]
    exact if_neg hv

/-! ## The program -/

theorem invoke_ok {argv : List Name} {a : Cli.Args} (ha : Cli.Means argv a) {wd : World} {c : Choices E T} {t t' : Tape} {r : Option Out × World}
    (h : invoke T argv wd c t = .ok (r, t')) : ∃ conf n, Begins E a wd.fs conf n ∧
      match a.command with
      | .learn m => ∃ o, r = (some (Out.then ⟨line (headLine n), []⟩ o), r.2) ∧
        match a.game with
        | .backgammon => learnMain T .backgammon m conf wd c.bg c.bound c.id c.fresh t = .ok ((o, r.2), t')
        | .ticTacToe => learnMain T .ticTacToe m conf wd c.ttt c.bound c.id c.fresh t = .ok ((o, r.2), t')
      | .train m out run lrn sp => ∃ s, r = (some ⟨line (headLine n) ++ s, []⟩, r.2) ∧ t' = t ∧
        trainMain T a.game m out run lrn sp conf wd c.shuffle c.fresh = .ok (s, r.2)
      | .play .. => ∃ s fs', r = (some ⟨line (headLine n) ++ s, []⟩, { wd with fs := fs' }) ∧
        dispatch E a conf wd.fs c.orders c.bound c.ids t = .ok ((s, fs'), t')
      | .replay _ => ∃ s fs', r = (some ⟨line (headLine n) ++ s, []⟩, { wd with fs := fs' }) ∧
        dispatch E a conf wd.fs c.orders c.bound c.ids t = .ok ((s, fs'), t') := by
  unfold invoke at h
  rw [(Cl.C92 argv a).2 ha] at h
  obtain ⟨conf, t1, h1, k1⟩ := M.bind_ok.1 h
  obtain ⟨n, t2, h2, k2⟩ := M.bind_ok.1 k1
  obtain ⟨e1, rfl⟩ := M.lift_ok.1 h1
  obtain ⟨e2, rfl⟩ := M.lift_ok.1 h2
  refine ⟨conf, n, ⟨?_, e2⟩, ?_⟩
  · cases hc : (configText wd.fs (a.config.getD (lit "./config"))).bind E.toml with
    | none => rw [hc] at e1; cases e1
    | some c => rw [hc] at e1; rw [Except.ok.inj e1]
  · cases hcmd : a.command with
    | learn m =>
      rw [hcmd] at k2
      simp only at k2 ⊢
      obtain ⟨⟨o, wd1⟩, t3, h3, k3⟩ := M.bind_ok.1 k2
      obtain ⟨rfl, rfl⟩ := Prod.mk.inj (Except.ok.inj k3)
      refine ⟨o, rfl, ?_⟩
      cases hg : a.game <;> rw [hg] at h3 <;> exact h3
    | train m out run lrn sp =>
      rw [hcmd] at k2
      simp only at k2 ⊢
      obtain ⟨⟨s, wd1⟩, t3, h3, k3⟩ := M.bind_ok.1 k2
      obtain ⟨rfl, rfl⟩ := Prod.mk.inj (Except.ok.inj k3)
      obtain ⟨e3, rfl⟩ := M.lift_ok.1 h3
      exact ⟨s, rfl, rfl, e3⟩
    | play one m1 two m2 out =>
      rw [hcmd] at k2
      simp only at k2 ⊢
      obtain ⟨⟨s, fs1⟩, t3, h3, k3⟩ := M.bind_ok.1 k2
      obtain ⟨rfl, rfl⟩ := Prod.mk.inj (Except.ok.inj k3)
      exact ⟨s, fs1, rfl, h3⟩
    | replay p =>
      rw [hcmd] at k2
      simp only at k2 ⊢
      obtain ⟨⟨s, fs1⟩, t3, h3, k3⟩ := M.bind_ok.1 k2
      obtain ⟨rfl, rfl⟩ := Prod.mk.inj (Except.ok.inj k3)
      exact ⟨s, fs1, rfl, h3⟩

/-- C134, learn: the model that is the best one by the output of the run is in the file of the best model; nothing but the models
of the game has changed, and the data of the run has been added. -/
theorem C134_learn {argv : List Name} {a : Cli.Args} (ha : Cli.Means argv a) {m : Option Name} (hc : a.command = .learn m)
    (hT : T.Faithful a.game) (hl : OneLine T) (hp : ∀ p, m = some p → '\n' ∉ p) {wd wd' : World} {c : Choices E T} (h1 : c.bg.Valid) (h2 : c.ttt.Valid)
    (hi : Nano c.id) {d : Name → Option (E.W × T.O)} (hs : Stores T a.game wd.fs (some d)) {out : Option Out} {t t' : Tape}
    (h : invoke T argv wd c t = .ok ((out, wd'), t')) :
    ∃ o, out = some o ∧ Learned T a.game wd wd' o c.id ∧ ∃ d', Stores T a.game wd'.fs (some d') := by
  obtain ⟨conf, n, -, h3⟩ := invoke_ok ha h
  rw [hc] at h3
  obtain ⟨o, h4, h5⟩ := h3
  refine ⟨_, (Prod.mk.inj h4).1, ?_⟩
  cases hg : a.game with
  | backgammon =>
    rw [hg] at h5 hT hs
    exact learn_learned (V.bg_ids E.pf) hT hl hp h1 (nano_newline hi) hs h5 n
  | ticTacToe =>
    rw [hg] at h5 hT hs
    exact learn_learned (V.ttt_ids E.pf) hT hl hp h2 (nano_newline hi) hs h5 n

/-! ## Files that stay as they are -/

theorem saveFs_other {fs : Fs} {p : Name} {x : E.W} {q : Path} (h : path p ≠ some q) : (saveFs T fs p x).1 q = fs q := by
  unfold saveFs
  cases hp : path p with
  | none =>
    have hw : fs.write p (T.store x) = .error .unwrapNone := by unfold Fs.write; rw [hp]
    rw [hw]
  | some r =>
    cases hw : fs.write p (T.store x) with
    | error e => rfl
    | ok fs' =>
      rw [write_ok hp hw]
      rw [hp] at h
      exact if_neg fun e => h (by rw [e])

theorem saveFs_only {fs : Fs} {n : Name} (hn : Ours n) (x : E.W) : Only w fs (saveFs T fs (modelPath w n) x).1 :=
  fun q hq => saveFs_other (by rw [path_model w hn]; exact fun e => hq n hn (Option.some.inj e).symm)

theorem playBest_only {s : Settings} {G : Game} {o : Orders} {f : Nat} {x : E.W × T.O} {fs fs' : Fs} {out : Out} {t t' : Tape}
    (h : playBestFs T w s G o f x fs t = .ok ((fs', out), t')) : Only w fs fs' := by
  unfold playBestFs at h
  cases he : fs.entry (modelPath w bestName) with
  | none =>
    rw [he] at h
    obtain ⟨h4, rfl⟩ := Prod.mk.inj (Except.ok.inj h)
    obtain ⟨rfl, rfl⟩ := Prod.mk.inj h4
    exact saveFs_only best_ours _
  | some e =>
    rw [he] at h
    obtain ⟨b, t1, -, hb⟩ := M.bind_ok.1 h
    obtain ⟨r, t2, -, hr⟩ := M.bind_ok.1 hb
    dsimp only at hr
    split at hr
    · obtain ⟨h4, rfl⟩ := Prod.mk.inj (Except.ok.inj hr)
      obtain ⟨rfl, rfl⟩ := Prod.mk.inj h4
      exact saveFs_only best_ours _
    · split at hr
      all_goals
        obtain ⟨h4, rfl⟩ := Prod.mk.inj (Except.ok.inj hr)
        obtain ⟨rfl, rfl⟩ := Prod.mk.inj h4
        exact .refl _

theorem step_only {s : Settings} {G : Game} {c : Chance G} {f i : Nat} {x y : E.W × T.O} {fs fs' : Fs} {dir : List (Name × Tree)} {out : Out}
    {t t' : Tape} (h : learnStepFs T w s c f i x fs t = .ok ((dir, y, fs', out), t')) : Only w fs fs' := by
  obtain ⟨r, t1, h1, k1⟩ := M.bind_ok.1 h
  obtain ⟨e, t2, h2, k2⟩ := M.bind_ok.1 k1
  obtain ⟨u, t3, h3, k3⟩ := M.bind_ok.1 k2
  obtain ⟨⟨fs2, o2⟩, t4, h4, k4⟩ := M.bind_ok.1 k3
  obtain ⟨h5, rfl⟩ := Prod.mk.inj (Except.ok.inj k4)
  obtain ⟨rfl, h6⟩ := Prod.mk.inj h5
  obtain ⟨rfl, h7⟩ := Prod.mk.inj h6
  obtain ⟨rfl, rfl⟩ := Prod.mk.inj h7
  exact (saveFs_only (model_ours i) _).trans (playBest_only h4)

theorem loop_only {s : Settings} {G : Game} {c : Chance G} {f : Nat} : ∀ (k i : Nat) {x : E.W × T.O} {fs fs' : Fs} {dirs : List (Name × Tree)}
    {out : Out} {t t' : Tape}, learnLoopFs T w s c f k i x fs t = .ok ((dirs, fs', out), t') → Only w fs fs' := by
  intro k
  induction k with
  | zero =>
    intro i x fs fs' dirs out t t' h
    obtain ⟨h1, rfl⟩ := Prod.mk.inj (Except.ok.inj h)
    obtain ⟨rfl, h2⟩ := Prod.mk.inj h1
    obtain ⟨rfl, rfl⟩ := Prod.mk.inj h2
    exact .refl _
  | succ k ih =>
    intro i x fs fs' dirs out t t' h
    obtain ⟨⟨dir, y, fs1, o1⟩, t1, h1, h2⟩ := M.bind_ok.1 h
    obtain ⟨⟨ds, fs2, o2⟩, t2, h3, h4⟩ := M.bind_ok.1 h2
    obtain ⟨h5, rfl⟩ := Prod.mk.inj (Except.ok.inj h4)
    obtain ⟨rfl, h6⟩ := Prod.mk.inj h5
    obtain ⟨rfl, rfl⟩ := Prod.mk.inj h6
    exact (step_only h1).trans (ih (i + 1) h3)

/-- What the learn command changes, whatever the files are. -/
theorem learn_only {G : Game} {m : Option Name} {conf : Config.Conf Num} {wd wd' : World} {c : Chance G} {f : Nat} {id : Name} {x : E.W × T.O}
    {out : Out} {t t' : Tape} (h : learnMain T w m conf wd c f id x t = .ok ((out, wd'), t')) : Only w wd.fs wd'.fs ∧
      ∃ e, wd'.data = fun v => if v = w then some ((wd.data w).getD [] ++ [e]) else wd.data v := by
  obtain ⟨a, t1, h1, k1⟩ := M.bind_ok.1 h
  obtain ⟨⟨ds, fs1, o1⟩, t2, h2, k2⟩ := M.bind_ok.1 k1
  obtain ⟨h3, rfl⟩ := Prod.mk.inj (Except.ok.inj k2)
  obtain ⟨rfl, rfl⟩ := Prod.mk.inj h3
  exact ⟨loop_only _ _ h2, _, rfl⟩

/-- The data is not a file and the target is written. -/
theorem train_ok {m out run lrn sp : Option Name} {conf : Config.Conf Num} {wd wd' : World} {shuffle : List Mem → List Mem} {x : E.W × T.O} {s : Name}
    (h : trainMain T w m out run lrn sp conf wd shuffle x = .ok (s, wd')) :
    ∃ es data a y, wd.data w = some es ∧ Train.trainingData (.dir es) run lrn sp = .ok data ∧ fromConfig T w m conf wd.fs = .ok a ∧
      Train.train E.pf a.1.az.trainingBatchSize (T.step a.1.op) (shuffle data) x = .ok y ∧
      wd.fs.write (out.getD (modelPath w trainedName)) (T.store y.1) = .ok wd'.fs ∧ wd'.data = wd.data := by
  unfold trainMain at h
  cases hp : dataText w run lrn sp with
  | error e => rw [hp] at h; cases h
  | ok p =>
    rw [hp] at h
    cases hd : wd.data w with
    | none => rw [hd] at h; cases h
    | some es =>
      rw [hd] at h
      cases ht : Train.trainingData (.dir es) run lrn sp with
      | error e => simp only [bind, Except.bind] at h; rw [ht] at h; cases h
      | ok data =>
        simp only [bind, Except.bind] at h
        rw [ht] at h
        cases ha : fromConfig T w m conf wd.fs with
        | error e => rw [ha] at h; cases h
        | ok a =>
          rw [ha] at h
          simp only at h
          cases hy : Train.train E.pf a.1.az.trainingBatchSize (T.step a.1.op) (shuffle data) x with
          | error e => rw [hy] at h; cases h
          | ok y =>
            rw [hy] at h
            simp only at h
            refine ⟨es, data, a, y, rfl, ht, rfl, hy, ?_⟩
            unfold saveFs at h
            cases hw : wd.fs.write (out.getD (modelPath w trainedName)) (T.store y.1) with
            | error e =>
              rw [hw] at h
              simp only [Bool.false_eq_true, if_false] at h
              cases h
            | ok fs' =>
              rw [hw] at h
              simp only [if_true] at h
              obtain ⟨-, rfl⟩ := Prod.mk.inj (Except.ok.inj h)
              exact ⟨rfl, rfl⟩

theorem saveAll_other {G : Game} {K : Printer G} {out : Name} {P : Path} (hP : path out = some P) {gs : List (SavedGame G.S)}
    (hn : ∀ g ∈ gs, Nano g.id) {fs fs' : Fs} (h : saveAll K out gs fs = .ok fs') {q : Path} (hq : ¬ IsGame q) : fs' q = fs q := by
  induction gs generalizing fs with
  | nil =>
    obtain rfl := Except.ok.inj h
    rfl
  | cons g gs ih =>
    unfold saveAll at h
    cases hw : fs.write (joinPath out (g.id ++ jsonExt)) (text ((gameSerde K.serde).ser g)) with
    | error e => rw [hw] at h; cases h
    | ok fs1 =>
      rw [hw] at h
      obtain ⟨k1, k2, k3⟩ := nano_path (hn g (List.mem_cons_self ..))
      rw [ih (fun g' hg' => hn g' (List.mem_cons_of_mem _ hg')) h, write_ok (path_join hP k1 k2 k3) hw]
      exact if_neg fun e => hq ⟨P, g.id, e⟩

/-- What a path of a model gives. -/
def Loads (E : Env) (w : Cli.Which) (fs : Fs) (m : Option Name) (x : Option E.W) : Prop :=
  (m = none → x = none) ∧ ∀ p, m = some p → ∃ b, x = some b ∧ ∀ n, path p = some (modelFile w n) → held E w fs n = some b

theorem loads_ok {fs : Fs} {m : Option Name} {x : Option E.W} (h : loadModel E w fs m = .ok x) : Loads E w fs m x := by
  refine ⟨?_, fun p hp => ?_⟩
  · rintro rfl
    exact (Except.ok.inj h).symm
  · obtain ⟨txt, y, h1, h2, h3⟩ := Re.loadModel_ok h p hp
    refine ⟨y, h3, fun n hn => ?_⟩
    unfold Fs.text Fs.entry at h1
    rw [hn, Option.bind_some] at h1
    unfold held
    cases he : fs (modelFile w n) with
    | none => rw [he] at h1; cases h1
    | some e =>
      rw [he] at h1
      cases e with
      | dir => cases h1
      | file z =>
        obtain rfl := Option.some.inj h1
        exact h2

/-- A match as `play` sets it up: with the networks `x` and `y`. -/
def Fought (G : Game) (E : Env) (one two : Option Name) (conf : Config.Conf Num) (x y : Option E.W) (o : Orders) (f : Nat) (t t' : Tape) : Prop :=
  ∃ a1 a2 temp c r, parseAgent one = .ok a1 ∧ parseAgent two = .ok a2 ∧ conf.float "temperature" = some temp ∧
    Config.MctsConfig.fromConfig toSingle conf = some c ∧
    play (G := G) E.pf (rnd f64) { agent := a1, net := x.map (E.net c) } { agent := a2, net := y.map (E.net c) }
      { iterations := c.iterations, limit := c.simulateRoundLimit, pw := E.pw temp } o f t = .ok (r, t')

theorem playMain_nets {G : Game} {K : Printer G} {one m1 two m2 out : Option Name} {conf : Config.Conf Num} {fs : Fs}
    {o : Orders} {f : Nat} {ids : Nat → Name} {t t' : Tape} {s : Name} {fs' : Fs}
    (h : playMain E w K one m1 two m2 out conf fs o f ids t = .ok ((s, fs'), t')) :
    (∃ x y, Loads E w fs m1 x ∧ Loads E w fs m2 y ∧ Fought G E one two conf x y o f t t') ∧
      ((∀ i, Nano (ids i)) → ∀ q, ¬ IsGame q → fs' q = fs q) := by
  cases out with
  | none =>
    exfalso
    obtain ⟨a1, t1, h1, k1⟩ := M.bind_ok.1 h
    obtain ⟨a2, t2, h2, k2⟩ := M.bind_ok.1 k1
    obtain ⟨out', t3, h3, k3⟩ := M.bind_ok.1 k2
    obtain ⟨e3, rfl⟩ := M.lift_ok.1 h3
    cases e3
  | some out =>
    obtain ⟨_, _, P, _, _, _, _, r0, -, -, hP, -, -, hs, -⟩ := playMain_ok h
    refine ⟨?_, fun hn q hq => saveAll_other hP (fun g hg => ?_) hs hq⟩
    · obtain ⟨a1, t1, h1, k1⟩ := M.bind_ok.1 h
      obtain ⟨e1, rfl⟩ := M.lift_ok.1 h1
      obtain ⟨a2, t2, h2, k2⟩ := M.bind_ok.1 k1
      obtain ⟨e2, rfl⟩ := M.lift_ok.1 h2
      obtain ⟨out', t3, h3, k3⟩ := M.bind_ok.1 k2
      obtain ⟨e3, rfl⟩ := M.lift_ok.1 h3
      obtain ⟨x4, t4, h4, k4⟩ := M.bind_ok.1 k3
      obtain ⟨e4, rfl⟩ := M.lift_ok.1 h4
      obtain ⟨w1, t5, h5, k5⟩ := M.bind_ok.1 k4
      obtain ⟨e5, rfl⟩ := M.lift_ok.1 h5
      obtain ⟨w2, t6, h6, k6⟩ := M.bind_ok.1 k5
      obtain ⟨e6, rfl⟩ := M.lift_ok.1 h6
      obtain ⟨temp, t7, h7, k7⟩ := M.bind_ok.1 k6
      obtain ⟨e7, rfl⟩ := M.lift_ok.1 h7
      obtain ⟨c, t8, h8, k8⟩ := M.bind_ok.1 k7
      obtain ⟨e8, rfl⟩ := M.lift_ok.1 h8
      obtain ⟨r, t9, h9, k9⟩ := M.bind_ok.1 k8
      obtain ⟨fs1, t10, h10, k10⟩ := M.bind_ok.1 k9
      obtain ⟨e10, rfl⟩ := M.lift_ok.1 h10
      obtain ⟨e11, rfl⟩ := M.pure_ok.1 k10
      refine ⟨w1, w2, loads_ok e5, loads_ok e6, a1, a2, temp, c, r, e1, e2, ?_, ?_, h9⟩
      · cases hc : conf.float "temperature" with
        | none => rw [hc] at e7; cases e7
        | some z => rw [hc] at e7; rw [Except.ok.inj e7]
      · cases hc : Config.MctsConfig.fromConfig toSingle conf with
        | none => rw [hc] at e8; cases e8
        | some z => rw [hc] at e8; rw [Except.ok.inj e8]
    · obtain ⟨r, -, rfl⟩ := List.mem_map.1 hg
      exact hn _

/-- The commands other than learn and train. -/
theorem dispatch_only {a : Cli.Args} (h1 : ∀ m, a.command ≠ .learn m) (h2 : ∀ m out run lrn sp, a.command ≠ .train m out run lrn sp)
    {conf : Config.Conf Num} {fs fs' : Fs} {o : Orders} {f : Nat} {ids : Nat → Name} {t t' : Tape} {s : Name}
    (h : dispatch E a conf fs o f ids t = .ok ((s, fs'), t')) (hn : ∀ i, Nano (ids i)) {q : Path} (hq : ¬ IsGame q) : fs' q = fs q := by
  unfold dispatch at h
  cases hg : a.game <;> rw [hg] at h <;> unfold handle at h <;> cases hc : a.command <;> rw [hc] at h
  case backgammon.learn m => exact absurd hc (h1 m)
  case ticTacToe.learn m => exact absurd hc (h1 m)
  case backgammon.train m out run lrn sp => exact absurd hc (h2 m out run lrn sp)
  case ticTacToe.train m out run lrn sp => exact absurd hc (h2 m out run lrn sp)
  case backgammon.play => exact (playMain_nets h).2 hn q hq
  case ticTacToe.play => exact (playMain_nets h).2 hn q hq
  all_goals
    obtain ⟨x, t1, -, k⟩ := M.bind_ok.1 h
    obtain ⟨e, rfl⟩ := Prod.mk.inj (Except.ok.inj k)
    obtain ⟨rfl, rfl⟩ := Prod.mk.inj e
    rfl

theorem invoke_usage {argv : List Name} (ha : Cli.parseArgs argv = none) {wd wd' : World} {c : Choices E T} {t t' : Tape} {o : Option Out}
    (h : invoke T argv wd c t = .ok ((o, wd'), t')) : o = none ∧ wd' = wd := by
  unfold invoke at h
  rw [ha] at h
  obtain ⟨e, rfl⟩ := Prod.mk.inj (Except.ok.inj h)
  obtain ⟨rfl, rfl⟩ := Prod.mk.inj e
  exact ⟨rfl, rfl⟩

theorem invoke_only {argv : List Name} {wd wd' : World} {c : Choices E T} {t t' : Tape} {o : Option Out}
    (h : invoke T argv wd c t = .ok ((o, wd'), t')) (hn : ∀ i, Nano (c.ids i)) {q : Path} (hq : ¬ IsGame q)
    (hw : ∀ a, Cli.Means argv a → ¬ Writes a q) : wd'.fs q = wd.fs q := by
  cases hp : Cli.parseArgs argv with
  | none => rw [(invoke_usage hp h).2]
  | some a =>
    have ha := (Cl.C92 argv a).1 hp
    have hwa := hw a ha
    obtain ⟨conf, n, -, h1⟩ := invoke_ok ha h
    cases hc : a.command with
    | learn m =>
      rw [hc] at h1
      obtain ⟨o1, -, h2⟩ := h1
      have h3 : Only a.game wd.fs wd'.fs := by
        cases hg : a.game <;> rw [hg] at h2 <;> exact (learn_only h2).1
      exact h3 q fun n hn e => hwa (e ▸ Writes.learn hc hn)
    | train m out run lrn sp =>
      rw [hc] at h1
      obtain ⟨s, -, -, h2⟩ := h1
      obtain ⟨es, data, b, y, -, -, -, -, h3, -⟩ := train_ok h2
      have h4 : wd'.fs = (saveFs T wd.fs (out.getD (modelPath a.game trainedName)) y.1).1 := by
        unfold saveFs
        rw [h3]
      rw [h4]
      refine saveFs_other fun e => hwa ?_
      cases out with
      | some p => exact .train hc e
      | none =>
        have := (path_plain a.game (n := trainedName) (by decide)).symm.trans e
        rw [← Option.some.inj this]
        exact .trained hc
    | play one m1 two m2 out =>
      rw [hc] at h1
      obtain ⟨s, fs', h2, h3⟩ := h1
      have e := (Prod.mk.inj h2).2
      rw [e]
      exact dispatch_only (by intro m; rw [hc]; intro e; cases e) (by intro m _ _ _ _; rw [hc]; intro e; cases e) h3 hn hq
    | replay p =>
      rw [hc] at h1
      obtain ⟨s, fs', h2, h3⟩ := h1
      have e := (Prod.mk.inj h2).2
      rw [e]
      exact dispatch_only (by intro m; rw [hc]; intro e; cases e) (by intro m _ _ _ _; rw [hc]; intro e; cases e) h3 hn hq

/-- C134, files: a file that no command of the session writes is the same afterwards (games are only saved under names ending
in `.json`). -/
theorem C134_files {wd wd' : World} {l : List (List Name)} (h : Session T wd l wd') {q : Path} (hq : ¬ IsGame q)
    (hw : ∀ argv ∈ l, ∀ a, Cli.Means argv a → ¬ Writes a q) : wd'.fs q = wd.fs q := by
  induction h with
  | nil => rfl
  | cons hn h1 _ ih =>
    rw [ih fun argv ha => hw argv (List.mem_cons_of_mem _ ha)]
    exact invoke_only h1 hn hq (hw _ (List.mem_cons_self ..))

/-! ## The data -/

theorem invoke_data {argv : List Name} {wd wd' : World} {c : Choices E T} {t t' : Tape} {o : Option Out}
    (h : invoke T argv wd c t = .ok ((o, wd'), t')) {es : List (Name × Tree)} (hd : wd.data w = some es) :
    ∃ more, wd'.data w = some (es ++ more) := by
  cases hp : Cli.parseArgs argv with
  | none =>
    rw [(invoke_usage hp h).2]
    exact ⟨[], by rw [List.append_nil]; exact hd⟩
  | some a =>
    have ha := (Cl.C92 argv a).1 hp
    obtain ⟨conf, n, -, h1⟩ := invoke_ok ha h
    have same : wd'.data = wd.data → ∃ more, wd'.data w = some (es ++ more) := fun e => ⟨[], by rw [List.append_nil, e]; exact hd⟩
    cases hc : a.command with
    | learn m =>
      rw [hc] at h1
      obtain ⟨o1, -, h2⟩ := h1
      obtain ⟨e, h3⟩ : ∃ e, wd'.data = fun v => if v = a.game then some ((wd.data a.game).getD [] ++ [e]) else wd.data v := by
        cases hg : a.game <;> rw [hg] at h2 <;> exact (learn_only h2).2
      by_cases hg : w = a.game
      · subst hg
        exact ⟨[e], by rw [h3, hd]; exact if_pos rfl⟩
      · exact ⟨[], by rw [h3, List.append_nil]; exact (if_neg hg).trans hd⟩
    | train m out run lrn sp =>
      rw [hc] at h1
      obtain ⟨s, -, -, h2⟩ := h1
      obtain ⟨_, _, _, _, -, -, -, -, -, h3⟩ := train_ok h2
      exact same h3
    | play one m1 two m2 out =>
      rw [hc] at h1
      obtain ⟨s, fs', h2, -⟩ := h1
      have e := (Prod.mk.inj h2).2
      exact same (by rw [e])
    | replay p =>
      rw [hc] at h1
      obtain ⟨s, fs', h2, -⟩ := h1
      have e := (Prod.mk.inj h2).2
      exact same (by rw [e])

theorem session_data {wd wd' : World} {l : List (List Name)} (h : Session T wd l wd') {es : List (Name × Tree)} (hd : wd.data w = some es) :
    ∃ more, wd'.data w = some (es ++ more) := by
  induction h generalizing es with
  | nil => exact ⟨[], by rw [List.append_nil]; exact hd⟩
  | cons _ h1 _ ih =>
    obtain ⟨m1, h2⟩ := invoke_data h1 hd
    obtain ⟨m2, h3⟩ := ih h2
    exact ⟨m1 ++ m2, by rw [h3, List.append_assoc]⟩

mutual
theorem paths_below : ∀ (t : Tree) (p q : List Name), q ∈ Train.allPaths p t → ∃ r, q = p ++ r
  | .file _, p, q, h => by unfold Train.allPaths at h; cases h
  | .dir es, p, q, h => by unfold Train.allPaths at h; exact paths_below_in es p q h

theorem paths_below_in : ∀ (es : List (Name × Tree)) (p q : List Name), q ∈ Train.allPathsIn p es → ∃ r, q = p ++ r
  | [], p, q, h => by unfold Train.allPathsIn at h; cases h
  | (n, t) :: es, p, q, h => by
    unfold Train.allPathsIn at h
    rcases List.mem_append.1 h with h | h
    · split at h
      · exact ⟨[n], List.mem_singleton.1 h⟩
      · obtain ⟨r, hr⟩ := paths_below t (p ++ [n]) q h
        exact ⟨n :: r, by rw [hr, List.append_assoc]; rfl⟩
    · exact paths_below_in es p q h
end

theorem lookup_more {es more : List (Name × Tree)} {n : Name} (h : ∃ e ∈ es, e.1 = n) (p : List Name) :
    Tree.lookup (n :: p) (.dir (es ++ more)) = Tree.lookup (n :: p) (.dir es) := by
  unfold Tree.lookup
  have : (es.find? fun e => e.1 = n).isSome := by
    rw [List.find?_isSome]
    obtain ⟨e, he, hn⟩ := h
    exact ⟨e, he, by simp [hn]⟩
  rw [List.find?_append]
  cases hf : es.find? fun e => e.1 = n with
  | none => rw [hf] at this; cases this
  | some e => rfl

theorem load_more {es more : List (Name × Tree)} {n : Name} (h : ∃ e ∈ es, e.1 = n) (p : List Name) :
    Train.loadTrainingData (.dir (es ++ more)) (n :: p) = Train.loadTrainingData (.dir es) (n :: p) := by
  unfold Train.loadTrainingData
  simp only [List.cons_append, lookup_more h]

theorem mapM_congr {α β : Type} {f g : α → Res β} : ∀ {l : List α}, (∀ x ∈ l, f x = g x) → l.mapM f = l.mapM g
  | [], _ => rfl
  | x :: l, h => by
    rw [List.mapM_cons, List.mapM_cons, h x (List.mem_cons_self ..), mapM_congr fun y hy => h y (List.mem_cons_of_mem _ hy)]

theorem data_path {id : Name} {lrn sp : Option Name} {p : List Name} (h : Train.dataPath (some id) lrn sp = .ok p) :
    ∃ r, p = Train.runName id :: r := by
  cases lrn with
  | none =>
    cases sp with
    | none => exact ⟨_, (Except.ok.inj h).symm⟩
    | some s => cases h
  | some l =>
    cases sp with
    | none => exact ⟨_, (Except.ok.inj h).symm⟩
    | some s => exact ⟨_, (Except.ok.inj h).symm⟩

/-- Further runs do not change the data of a run. -/
theorem data_more {es more : List (Name × Tree)} {id : Name} (h : ∃ e ∈ es, e.1 = Train.runName id) (lrn sp : Option Name) :
    Train.trainingData (.dir (es ++ more)) (some id) lrn sp = Train.trainingData (.dir es) (some id) lrn sp := by
  unfold Train.trainingData
  cases hp : Train.dataPath (some id) lrn sp with
  | error e => rfl
  | ok p =>
    obtain ⟨r, rfl⟩ := data_path hp
    simp only [bind, Except.bind]
    rw [lookup_more h]
    cases hl : Tree.lookup (Train.runName id :: r) (.dir es) with
    | none => rfl
    | some t =>
      simp only
      have := mapM_congr (l := Train.allPaths (Train.runName id :: r) t) (f := Train.loadTrainingData (.dir (es ++ more)))
        (g := Train.loadTrainingData (.dir es)) (by
          intro q hq
          obtain ⟨r', rfl⟩ := paths_below _ _ _ hq
          exact load_more h _)
      rw [this]

/-- C134, data: the data of a run is the same after any session. -/
theorem C134_data {wd wd' : World} {l : List (List Name)} (h : Session T wd l wd') {es : List (Name × Tree)} (hd : wd.data w = some es) :
    ∃ es', wd'.data w = some es' ∧ (∀ e ∈ es, e ∈ es') ∧ ∀ id, (∃ e ∈ es, e.1 = "run-".toList ++ id) → ∀ lrn sp,
      Train.trainingData (.dir es') (some id) lrn sp = Train.trainingData (.dir es) (some id) lrn sp := by
  obtain ⟨more, h1⟩ := session_data h hd
  exact ⟨_, h1, fun e he => List.mem_append_left _ he, fun id hid lrn sp => data_more hid lrn sp⟩

/-! ## The other commands -/

/-- C134, play: the networks of the players are the ones in the files named. -/
theorem C134_play {argv : List Name} {a : Cli.Args} (ha : Cli.Means argv a) {one m1 two m2 out : Option Name} (hc : a.command = .play one m1 two m2 out)
    {wd wd' : World} {c : Choices E T} {o : Option Out} {t t' : Tape} (h : invoke T argv wd c t = .ok ((o, wd'), t')) :
    ∃ conf x y, (configText wd.fs (a.config.getD "./config".toList)).bind E.toml = some conf ∧
      Loads E a.game wd.fs m1 x ∧ Loads E a.game wd.fs m2 y ∧
      match a.game with
      | .backgammon => Fought (BG.game E.pf) E one two conf x y c.orders c.bound t t'
      | .ticTacToe => Fought (TTT.game E.pf) E one two conf x y c.orders c.bound t t' := by
  obtain ⟨conf, n, hb, h1⟩ := invoke_ok ha h
  rw [hc] at h1
  obtain ⟨s, fs', -, h2⟩ := h1
  unfold dispatch at h2
  refine ⟨conf, ?_⟩
  cases hg : a.game <;> rw [hg] at h2 <;> unfold handle at h2 <;> rw [hc] at h2
  all_goals
    obtain ⟨⟨x, y, k1, k2, k3⟩, -⟩ := playMain_nets h2
    exact ⟨x, y, hb.conf, k1, k2, k3⟩

/-- C134, train: the network trained on the data kept for the game is in the file named, from which it can be loaded again;
nothing else has changed. -/
theorem C134_train {argv : List Name} {a : Cli.Args} (ha : Cli.Means argv a) {m out run lrn sp : Option Name} (hc : a.command = .train m out run lrn sp)
    (hT : T.Faithful a.game) {wd wd' : World} {c : Choices E T} {o : Option Out} {t t' : Tape} (h : invoke T argv wd c t = .ok ((o, wd'), t')) :
    ∃ es data n op y q, wd.data a.game = some es ∧ Train.trainingData (.dir es) run lrn sp = .ok data ∧
      Train.train E.pf n (T.step op) (c.shuffle data) c.fresh = .ok y ∧
      path (out.getD ("./models/".toList ++ gameName a.game ++ "/trained_model.ot".toList)) = some q ∧
      (∀ p, path p = some q → loadModel E a.game wd'.fs (some p) = .ok (some y.1)) ∧
      (∀ r, r ≠ q → wd'.fs r = wd.fs r) ∧ wd'.data = wd.data := by
  obtain ⟨conf, n, hb, h1⟩ := invoke_ok ha h
  rw [hc] at h1
  obtain ⟨s, -, -, h2⟩ := h1
  obtain ⟨es, data, b, y, k1, k2, k3, k4, k5, k6⟩ := train_ok h2
  have hp : modelPath a.game trainedName = "./models/".toList ++ gameName a.game ++ "/trained_model.ot".toList := by
    cases a.game <;> decide
  rw [hp] at k5
  cases hq : path (out.getD ("./models/".toList ++ gameName a.game ++ "/trained_model.ot".toList)) with
  | none =>
    unfold Fs.write at k5
    rw [hq] at k5
    cases k5
  | some q =>
    have k7 := write_ok hq k5
    refine ⟨es, data, _, _, y, q, k1, k2, k4, rfl, fun p hp => ?_, fun r hr => ?_, k6⟩
    · have ht : wd'.fs.text p = some (T.store y.1) := by
        unfold Fs.text Fs.entry
        rw [hp, Option.bind_some, k7]
        simp only [if_true]
      unfold loadModel
      simp only
      rw [ht, Option.bind_some, hT y.1]
    · rw [k7]
      exact if_neg hr

/-- C134, other commands: for play and replay the program is the one of C102. -/
theorem C134_main {argv : List Name} {a : Cli.Args} (ha : Cli.Means argv a) (h1 : ∀ m, a.command ≠ .learn m)
    (h2 : ∀ m out run lrn sp, a.command ≠ .train m out run lrn sp) {wd : World} {c : Choices E T} {t t' : Tape} {s : Name} {fs' : Fs} :
    main E argv wd.fs c.orders c.bound c.ids t = .ok (.done s fs', t') ↔
      invoke T argv wd c t = .ok ((some ⟨s, []⟩, { wd with fs := fs' }), t') := by
  rw [main_ok ha]
  constructor
  · rintro ⟨conf, n, s1, hb, hd, rfl⟩
    unfold invoke
    rw [(Cl.C92 argv a).2 ha]
    refine M.bind_ok.2 ⟨conf, t, M.lift_ok.2 ⟨by rw [hb.conf], rfl⟩, M.bind_ok.2 ⟨n, t, M.lift_ok.2 ⟨hb.threads, rfl⟩, ?_⟩⟩
    cases hc : a.command with
    | learn m => exact absurd hc (h1 m)
    | train m out run lrn sp => exact absurd hc (h2 m out run lrn sp)
    | play one m1 two m2 out => exact M.bind_ok.2 ⟨(s1, fs'), t', hd, rfl⟩
    | replay p => exact M.bind_ok.2 ⟨(s1, fs'), t', hd, rfl⟩
  · intro h
    obtain ⟨conf, n, hb, h3⟩ := invoke_ok ha h
    cases hc : a.command with
    | learn m => exact absurd hc (h1 m)
    | train m out run lrn sp => exact absurd hc (h2 m out run lrn sp)
    | play one m1 two m2 out =>
      rw [hc] at h3
      obtain ⟨s1, fs1, h4, h5⟩ := h3
      obtain ⟨h6, h7⟩ := Prod.mk.inj h4
      injection h6 with h6
      injection h6 with h6
      injection h7 with h7
      exact ⟨conf, n, s1, hb, by rw [h7]; exact h5, h6⟩
    | replay p =>
      rw [hc] at h3
      obtain ⟨s1, fs1, h4, h5⟩ := h3
      obtain ⟨h6, h7⟩ := Prod.mk.inj h4
      injection h6 with h6
      injection h6 with h6
      injection h7 with h7
      exact ⟨conf, n, s1, hb, by rw [h7]; exact h5, h6⟩

/-! ## One run after the other -/

theorem ours_no_game {n : Name} (h : Ours n) : ¬ IsGame (modelFile w n) := by
  rintro ⟨dir, id, e⟩
  have h1 := congrArg (fun p => p.parts.getLast?.bind List.getLast?) e
  have h2 : n.getLast? = some 't' := by
    cases h with
    | best => decide
    | model i => exact List.getLast?_append_of_ne_nil (l₂ := ".ot".toList) _ (by decide)
  simp [modelFile, h2] at h1

/-- C134: the model that the output of a training run names as the best one is the one that a later run loads as the best model,
and the one it loads as the model of that iteration, as long as no run between writes these files. -/
theorem C134 {argv argv' : List Name} {a a' : Cli.Args} (ha : Cli.Means argv a) (ha' : Cli.Means argv' a') (hg : a'.game = a.game) {m : Option Name}
    (hc : a.command = .learn m) {one m1 two m2 out : Option Name} (hc' : a'.command = .play one m1 two m2 out) (hT : T.Faithful a.game) (hl : OneLine T)
    (hp : ∀ p, m = some p → '\n' ∉ p) {wd wd1 wd2 wd3 : World} {c c' : Choices E T} (h1 : c.bg.Valid) (h2 : c.ttt.Valid) (hi : Nano c.id)
    {d : Name → Option (E.W × T.O)} (hs : Stores T a.game wd.fs (some d)) {o : Out} {o' : Option Out} {t t' u u' : Tape}
    (h : invoke T argv wd c t = .ok ((some o, wd1), t')) {l : List (List Name)} (hS : Session T wd1 l wd2)
    (h' : invoke T argv' wd2 c' u = .ok ((o', wd3), u')) {k : Nat} (hk : (readOut o.stdout).best = some k)
    (hw : ∀ v ∈ l, ∀ b, Cli.Means v b → ¬ Writes b (modelFile a.game "best_model.ot".toList) ∧
      ¬ Writes b (modelFile a.game ("model_".toList ++ Nat.toDigits 10 k ++ ".ot".toList)))
    (hm1 : m1 = some ("./models/".toList ++ gameName a.game ++ "/best_model.ot".toList))
    (hm2 : m2 = some ("./models/".toList ++ gameName a.game ++ "/model_".toList ++ Nat.toDigits 10 k ++ ".ot".toList)) :
    ∃ conf b, match a.game with
      | .backgammon => Fought (BG.game E.pf) E one two conf (some b) (some b) c'.orders c'.bound u u'
      | .ticTacToe => Fought (TTT.game E.pf) E one two conf (some b) (some b) c'.orders c'.bound u u' := by
  obtain ⟨o1, e1, hL, -⟩ := C134_learn ha hc hT hl hp h1 h2 hi hs h
  obtain rfl := Option.some.inj e1
  have hb := hL.best
  rw [hk] at hb
  obtain ⟨b, hb1, hb2⟩ := hb
  obtain ⟨conf, x, y, -, hx, hy, hF⟩ := C134_play ha' hc' h'
  rw [hg] at hx hy hF
  have keep : ∀ n, Ours n → (∀ v ∈ l, ∀ b, Cli.Means v b → ¬ Writes b (modelFile a.game n)) → held E a.game wd2.fs n = held E a.game wd1.fs n := by
    intro n hn hwn
    unfold held
    rw [C134_files hS (ours_no_game hn) hwn]
  have hp1 : path ("./models/".toList ++ gameName a.game ++ "/best_model.ot".toList) = some (modelFile a.game "best_model.ot".toList) := by
    rw [← path_model a.game .best]
    congr 1
    simp [modelPath, modelDir, lit]
  have hp2 : path ("./models/".toList ++ gameName a.game ++ "/model_".toList ++ Nat.toDigits 10 k ++ ".ot".toList) =
      some (modelFile a.game ("model_".toList ++ Nat.toDigits 10 k ++ ".ot".toList)) := by
    rw [← path_model a.game (.model k)]
    congr 1
    simp [modelPath, modelDir, lit]
  obtain ⟨b1, rfl, g1⟩ := hx.2 _ hm1
  obtain ⟨b2, rfl, g2⟩ := hy.2 _ hm2
  have e1 := (g1 _ hp1).symm.trans ((keep _ .best fun v hv b hb => (hw v hv b hb).1).trans hb1)
  have e2 := (g2 _ hp2).symm.trans ((keep _ (.model k) fun v hv b hb => (hw v hv b hb).2).trans hb2)
  rw [Option.some.inj e1, Option.some.inj e2] at hF
  exact ⟨conf, b, hF⟩

/-! ## Without a directory for the models -/

/-- C134, lost: if the directory of the models is missing, `learn` returns without having changed a file, and the output
says so. -/
theorem C134_lost {argv : List Name} {a : Cli.Args} (ha : Cli.Means argv a) {m : Option Name} (hc : a.command = .learn m)
    (hT : T.Faithful a.game) (he : '\n' ∉ T.err) {wd wd' : World} {c : Choices E T} (hi : Nano c.id) (hs : Stores T a.game wd.fs none)
    {out : Option Out} {t t' : Tape} (h : invoke T argv wd c t = .ok ((out, wd'), t')) :
    wd'.fs = wd.fs ∧ ∃ conf s o, out = some o ∧ fromConfig T a.game m conf wd.fs = .ok s ∧ ∃ pre post, o.stdout = pre ++ post ∧
      (∀ x ∈ split '\n' post, Ou.Silent x) ∧ ∀ i < s.1.az.learnIterations, ∃ x ∈ split '\n' post, Ou.unsaved i x := by
  obtain ⟨conf, n, -, h3⟩ := invoke_ok ha h
  rw [hc] at h3
  obtain ⟨o, h4, h5⟩ := h3
  have same : ∀ {fs : Fs}, Stores T a.game fs none → Only a.game wd.fs fs → fs = wd.fs := by
    intro fs h1 h2
    funext q
    by_cases hq : ∃ n, Ours n ∧ q = modelFile a.game n
    · obtain ⟨n, hn, rfl⟩ := hq
      rw [(h1.gone rfl).2 n hn, (hs.gone rfl).2 n hn]
    · exact h2 q fun n hn e => hq ⟨n, hn, e⟩
  have key : ∀ {G : Game} {x : Chance G}, learnMain T a.game m conf wd x c.bound c.id c.fresh t = .ok ((o, wd'), t') → wd'.fs = wd.fs ∧
      ∃ s, fromConfig T a.game m conf wd.fs = .ok s ∧ ∃ post, o.stdout = s.2 ++ post ∧ (∀ x ∈ split '\n' post, Ou.Silent x) ∧
        ∀ i < s.1.az.learnIterations, ∃ x ∈ split '\n' post, Ou.unsaved i x := by
    intro G x hx
    obtain ⟨s, l, o1, k1, k2, rfl, k3, k4, -⟩ := learn_files hT hs hx
    obtain ⟨g1, g2, g3, -⟩ := Ou.C130_lost (newline_dir a.game) he (nano_newline hi) k2
    rw [g1] at k3
    exact ⟨same k3 k4, s, k1, o1.stdout, rfl, g2, g3⟩
  obtain ⟨k1, s, k2, post, k3, k4, k5⟩ : wd'.fs = wd.fs ∧
      ∃ s, fromConfig T a.game m conf wd.fs = .ok s ∧ ∃ post, o.stdout = s.2 ++ post ∧ (∀ x ∈ split '\n' post, Ou.Silent x) ∧
        ∀ i < s.1.az.learnIterations, ∃ x ∈ split '\n' post, Ou.unsaved i x := by
    cases hg : a.game with
    | backgammon => rw [hg] at h5 key; exact key h5
    | ticTacToe => rw [hg] at h5 key; exact key h5
  refine ⟨k1, conf, s, _, (Prod.mk.inj h4).1, k2, line (headLine n) ++ s.2, post, ?_, k4, k5⟩
  show line (headLine n) ++ o.stdout = _
  rw [k3, List.append_assoc]

/-! ## It returns -/

/-- The file of the best model can be read. -/
def Readable (E : Env) (w : Cli.Which) (fs : Fs) : Prop := fs (modelFile w bestName) ≠ none → (held E w fs bestName).isSome

theorem playBest_back (hT : T.Faithful w) {s : Settings} {G : Game} {o : Orders} {f : Nat} {x : E.W × T.O} {fs : Fs} {ms ms' : Models (E.W × T.O)}
    (hs : Stores T w fs ms) (hr : Readable E w fs) {out : Out} {t t' : Tape}
    (h : Train.playBestOut (modelDir w) T.err (setup T s) G o f x ms t = .ok ((ms', out), t')) :
    ∃ fs', playBestFs T w s G o f x fs t = .ok ((fs', out), t') ∧ Readable E w fs' := by
  have hent : fs.entry (modelPath w bestName) = fs (modelFile w bestName) := by
    unfold Fs.entry
    rw [path_model w best_ours]
    rfl
  have saved : ∀ {fs1 : Fs} {b : Bool}, saveFs T fs (modelPath w bestName) x.1 = (fs1, b) → Readable E w fs1 := by
    intro fs1 b hfs
    obtain ⟨fs2, k1, k2, -⟩ := saveFs_stores hT hs best_ours x
    rw [hfs] at k1
    obtain ⟨rfl, -⟩ := Prod.mk.inj k1
    cases ms with
    | none => exact fun hne => absurd ((k2.gone rfl).2 _ best_ours) hne
    | some d =>
      intro _
      rw [(k2.files _ rfl _ best_ours).2]
      simp
  unfold Train.playBestOut at h
  unfold playBestFs
  cases hb : ms.bind (fun d => d bestName) with
  | none =>
    rw [hb] at h
    obtain ⟨h1, rfl⟩ := Prod.mk.inj (Except.ok.inj h)
    obtain ⟨rfl, rfl⟩ := Prod.mk.inj h1
    have hnone : fs (modelFile w bestName) = none := by
      cases ms with
      | none => exact (hs.gone rfl).2 _ best_ours
      | some d =>
        cases hf : fs (modelFile w bestName) with
        | none => rfl
        | some e =>
          have h2 := hr (by rw [hf]; exact Option.some_ne_none e)
          rw [(hs.files d rfl _ best_ours).2] at h2
          have h3 : d bestName = none := hb
          rw [h3] at h2
          cases h2
    rw [hent, hnone]
    obtain ⟨fs2, k1, -, -⟩ := saveFs_stores hT hs best_ours x
    refine ⟨fs2, ?_, saved k1⟩
    simp only [k1]
    rfl
  | some y =>
    rw [hb] at h
    cases ms with
    | none => cases hb
    | some d =>
      have hd : d bestName = some y := hb
      have hheld := (hs.files d rfl _ best_ours).2
      rw [hd] at hheld
      cases hf : fs (modelFile w bestName) with
      | none =>
        unfold held at hheld
        rw [hf] at hheld
        cases hheld
      | some e =>
        rw [hent, hf]
        simp only
        rw [text_model best_ours, hheld]
        obtain ⟨r, t1, h1, h2⟩ := M.bind_ok.1 h
        obtain ⟨q, t2, h3, h4⟩ := M.bind_ok.1 h1
        obtain ⟨rfl, rfl⟩ := Prod.mk.inj (Except.ok.inj h4)
        clear h h1 h4
        have step : ∀ {v}, (if q.winrate ≥ (setup T s).rnd (55 / 100) then
              pure ((saveFs T fs (modelPath w bestName) x.1).1, ⟨line (lit "Successfully loaded model on path " ++ modelPath w bestName) ++
                (line [] ++ line (lit "Starting play!") ++ line (lit "Match result: " ++ q.text)),
                [lit "new model was better!", if (saveFs T fs (modelPath w bestName) x.1).2 then lit "saved new best model" else lit "new model was better! couldn't save :("]⟩)
            else if q.winrate ≤ (setup T s).rnd (45 / 100) then
              pure (fs, ⟨line (lit "Successfully loaded model on path " ++ modelPath w bestName) ++
                (line [] ++ line (lit "Starting play!") ++ line (lit "Match result: " ++ q.text)), [lit "current best model is still better!"]⟩)
            else pure (fs, ⟨line (lit "Successfully loaded model on path " ++ modelPath w bestName) ++
                (line [] ++ line (lit "Starting play!") ++ line (lit "Match result: " ++ q.text)),
                [lit "new model vs current best was inconclusive, keeping current best!"]⟩) : M (Fs × Out)) t2 = v →
            (playBestFs T w s G o f x fs) t = v := by
          intro v hv
          unfold playBestFs
          rw [hent, hf]
          simp only
          rw [text_model best_ours, hheld]
          exact (M.bind_eq (t' := t) rfl).trans ((M.bind_eq h3).trans hv)
        unfold playBestFs at step
        rw [hent, hf] at step
        simp only at step
        rw [text_model best_ours, hheld] at step
        by_cases c1 : q.winrate ≥ (setup T s).rnd (55 / 100)
        · obtain ⟨fs2, k1, -, -⟩ := saveFs_stores hT hs best_ours x
          refine ⟨fs2, step ?_, saved k1⟩
          rw [if_pos c1, k1]
          dsimp only at h2
          rw [if_pos c1] at h2
          obtain ⟨h5, rfl⟩ := Prod.mk.inj (Except.ok.inj h2)
          obtain ⟨-, rfl⟩ := Prod.mk.inj h5
          rfl
        · dsimp only at h2
          rw [if_neg c1] at h2
          by_cases c2 : q.winrate ≤ (setup T s).rnd (45 / 100)
          · rw [if_pos c2] at h2
            obtain ⟨h5, rfl⟩ := Prod.mk.inj (Except.ok.inj h2)
            obtain ⟨-, rfl⟩ := Prod.mk.inj h5
            refine ⟨fs, step ?_, hr⟩
            rw [if_neg c1, if_pos c2]
            rfl
          · rw [if_neg c2] at h2
            obtain ⟨h5, rfl⟩ := Prod.mk.inj (Except.ok.inj h2)
            obtain ⟨-, rfl⟩ := Prod.mk.inj h5
            refine ⟨fs, step ?_, hr⟩
            rw [if_neg c1, if_neg c2]
            rfl

theorem modelName_ne (i : Nat) : modelName i ≠ bestName := by
  intro e
  cases e

theorem step_back (hT : T.Faithful w) {s : Settings} {G : Game} {c : Chance G} {f i : Nat} {x : E.W × T.O} {fs : Fs} {ms : Models (E.W × T.O)}
    (hs : Stores T w fs ms) (hr : Readable E w fs) {it : Iter (E.W × T.O)} {out : Out} {t t' : Tape}
    (h : Train.learnIterationOut (modelDir w) T.err (setup T s) c f i x ms t = .ok ((it, out), t')) :
    ∃ fs', learnStepFs T w s c f i x fs t = .ok ((it.dir, it.after, fs', out), t') ∧ Stores T w fs' it.models ∧ Readable E w fs' := by
  have h0 := h
  obtain ⟨r, t1, h1, k1⟩ := M.bind_ok.1 h
  obtain ⟨e, t2, h2, k2⟩ := M.bind_ok.1 k1
  obtain ⟨u, t3, h3, k3⟩ := M.bind_ok.1 k2
  obtain ⟨⟨ms', o'⟩, t4, h4, k4⟩ := M.bind_ok.1 k3
  obtain ⟨k5, rfl⟩ := Prod.mk.inj (Except.ok.inj k4)
  obtain ⟨rfl, rfl⟩ := Prod.mk.inj k5
  obtain ⟨fs1, g1, g2, g3⟩ := saveFs_stores hT hs (model_ours i) e.2
  have hr1 : Readable E w fs1 := by
    have hq : fs1 (modelFile w bestName) = fs (modelFile w bestName) := by
      have : (saveFs T fs (modelPath w (modelName i)) e.2.1).1 (modelFile w bestName) = fs (modelFile w bestName) :=
        saveFs_other (by
          rw [path_model w (model_ours i)]
          exact fun e => modelName_ne i (modelFile_inj (Option.some.inj e)))
      rwa [g1] at this
    unfold Readable held
    rw [hq]
    exact hr
  obtain ⟨fs', h5, hr'⟩ := playBest_back hT g2 hr1 h4
  have hfin : learnStepFs T w s c f i x fs t = .ok ((r.2.1, e.2, fs', (Train.savedOut (modelDir w) T.err ms i).then o'), t4) := by
    refine (M.bind_eq h1).trans ((M.bind_eq h2).trans ((M.bind_eq h3).trans ?_))
    rw [g1]
    exact (M.bind_eq h5).trans rfl
  refine ⟨fs', hfin, ?_, hr'⟩
  obtain ⟨it', j1, -, -, j2, -⟩ := step_sim hT hs hfin
  rw [h0] at j1
  obtain ⟨j3, -⟩ := Prod.mk.inj (Except.ok.inj j1)
  obtain ⟨j4, -⟩ := Prod.mk.inj j3
  rw [← j4] at j2
  exact j2

theorem loop_back (hT : T.Faithful w) {s : Settings} {G : Game} {c : Chance G} {f : Nat} : ∀ (k i : Nat) {x : E.W × T.O} {fs : Fs}
    {ms : Models (E.W × T.O)}, Stores T w fs ms → Readable E w fs → ∀ {l : List (Iter (E.W × T.O))} {out : Out} {t t' : Tape},
    Train.learnLoopOut (modelDir w) T.err (setup T s) c f k i x ms t = .ok ((l, out), t') →
    ∃ fs', learnLoopFs T w s c f k i x fs t = .ok ((Train.runEntries i l, fs', out), t') := by
  intro k
  induction k with
  | zero =>
    intro i x fs ms hs hr l out t t' h
    obtain ⟨h1, rfl⟩ := Prod.mk.inj (Except.ok.inj h)
    obtain ⟨rfl, rfl⟩ := Prod.mk.inj h1
    exact ⟨fs, rfl⟩
  | succ k ih =>
    intro i x fs ms hs hr l out t t' h
    obtain ⟨⟨it, o1⟩, t1, h1, h2⟩ := M.bind_ok.1 h
    obtain ⟨⟨l2, o2⟩, t2, h3, h4⟩ := M.bind_ok.1 h2
    obtain ⟨h5, rfl⟩ := Prod.mk.inj (Except.ok.inj h4)
    obtain ⟨rfl, rfl⟩ := Prod.mk.inj h5
    obtain ⟨fs1, g1, g2, g3⟩ := step_back hT hs hr h1
    obtain ⟨fs2, k1⟩ := ih (i + 1) g2 g3 h3
    exact ⟨fs2, (M.bind_eq g1).trans ((M.bind_eq k1).trans rfl)⟩

/-- C134, returns: if the run of C130 returns, so does the command with the files. -/
theorem learn_returns (hT : T.Faithful w) {G : Game} {m : Option Name} {conf : Config.Conf Num} {wd : World} {c : Chance G} {f : Nat} {id : Name}
    {x : E.W × T.O} {ms : Models (E.W × T.O)} (hs : Stores T w wd.fs ms) (hr : Readable E w wd.fs) {a : Settings × Name}
    (ha : fromConfig T w m conf wd.fs = .ok a) {l : List (Iter (E.W × T.O))} {o : Out} {t t' : Tape}
    (h : Train.learnOut (modelDir w) T.err id (setup T a.1) c f x ms t = .ok ((l, o), t')) :
    ∃ wd', learnMain T w m conf wd c f id x t = .ok ((Out.then ⟨a.2, []⟩ o, wd'), t') := by
  obtain ⟨⟨l2, o2⟩, t2, h3, h4⟩ := M.bind_ok.1 h
  obtain ⟨h5, rfl⟩ := Prod.mk.inj (Except.ok.inj h4)
  obtain ⟨rfl, rfl⟩ := Prod.mk.inj h5
  obtain ⟨fs', k1⟩ := loop_back hT _ _ hs hr h3
  exact ⟨_, (M.bind_eq (M.lift_ok.2 ⟨ha, rfl⟩)).trans ((M.bind_eq k1).trans rfl)⟩

/-! ## An example -/

theorem loop_length {dir err : Name} {Fl : Mcts.Floats} {W : Type} {S : Setup Fl W} {G : Game} {c : Chance G} {f : Nat} : ∀ (k i : Nat) {x : W}
    {ms : Models W} {l : List (Iter W)} {out : Out} {t t' : Tape},
    Train.learnLoopOut dir err S c f k i x ms t = .ok ((l, out), t') → l.length = k := by
  intro k
  induction k with
  | zero =>
    intro i x ms l out t t' h
    obtain ⟨h1, rfl⟩ := Prod.mk.inj (Except.ok.inj h)
    obtain ⟨rfl, rfl⟩ := Prod.mk.inj h1
    rfl
  | succ k ih =>
    intro i x ms l out t t' h
    obtain ⟨⟨it, o1⟩, t1, h1, h2⟩ := M.bind_ok.1 h
    obtain ⟨⟨l2, o2⟩, t2, h3, h4⟩ := M.bind_ok.1 h2
    obtain ⟨h5, rfl⟩ := Prod.mk.inj (Except.ok.inj h4)
    obtain ⟨rfl, rfl⟩ := Prod.mk.inj h5
    rw [List.length_cons, ih (i + 1) h3]

/-- A configuration with one iteration. -/
def shortConf : Config.Conf Num where
  int k := if k = "iterations" ∨ k = "learn_iterations" then some 1 else some 9
  float _ := some (.fin 1)
  range k v h := by
    split at h <;> obtain rfl := Option.some.inj h <;> decide

/-- Networks are numbers, stored in decimal. -/
noncomputable def demoWorld : Env where
  pf := .debug
  cpus := 4
  toml _ := some shortConf
  W := Nat
  load _ t := natValue t
  floats _ := S.demoFloats
  net _ _ := A.demoNet
  pw _ x := x
  learn _ _ _ fs := pure ([], fs)
  train _ _ _ fs := pure ([], fs)

/-- Each optimizer step adds one. -/
noncomputable def demoTrainer : Trainer demoWorld where
  O := Unit
  store x := digits x
  readable _ := true
  nan _ := false
  step _ x _ := .ok (Nat.succ x.1, ())
  device := lit "Cpu"
  float _ := lit "1.0"
  err := lit "No such file or directory"

theorem demo_faithful (w : Cli.Which) : demoTrainer.Faithful w := fun x => Rp.natValue_digits x

theorem demo_oneLine : OneLine demoTrainer := ⟨by decide, fun _ => (by decide : '\n' ∉ lit "1.0")⟩

/-- Directories for games and models, and the configuration. -/
def startFs : Fs := fun p =>
  if p = { abs := false, parts := [lit "models", lit "tictactoe"] } then some .dir else Ap.demoFs p

theorem start_stores : Stores demoTrainer .ticTacToe startFs (some fun _ => none) where
  folder _ := rfl
  gone h := by cases h
  files d hd n hn := by
    obtain rfl := Option.some.inj hd
    have : startFs (modelFile .ticTacToe n) = none := by
      have h1 : modelFile .ticTacToe n ≠ { abs := false, parts := [lit "models", lit "tictactoe"] } := by simp [modelFile]
      have h2 : modelFile .ticTacToe n ≠ { abs := false, parts := [lit "config.toml"] } := by simp [modelFile]
      have h3 : modelFile .ticTacToe n ≠ { abs := false, parts := [lit "games"] } := by simp [modelFile]
      unfold startFs Ap.demoFs
      rw [if_neg h1, if_neg h2, if_neg h3]
    unfold held
    rw [this]
    exact ⟨by simp, rfl⟩

def startWorld : World := { fs := startFs, data := fun _ => none }

noncomputable def demoChoices : Choices demoWorld demoTrainer where
  orders := V.demoOrders
  bound := 9
  ids := demoIds
  bg := Lr.demoChance _
  ttt := Lr.demoChance _
  id := lit "V1StGXR8"
  shuffle l := l
  fresh := (Nat.zero, ())

def learnArgv : List Name := [lit "-gtic-tac-toe", lit "learn"]
def learnArgs : Cli.Args := { config := none, game := .ticTacToe, nCpus := none, command := .learn none }

theorem learn_means : Cli.Means learnArgv learnArgs := (Cl.C92 _ _).1 (by decide +kernel)

/-- The run with `learn` returns. -/
theorem demo_learn (t : Tape) : ∃ o wd' t', invoke demoTrainer learnArgv startWorld demoChoices t = .ok ((some o, wd'), t') ∧
    (readOut o.stdout).best = some 0 := by
  obtain ⟨a, ha⟩ : ∃ a, fromConfig demoTrainer .ticTacToe none shortConf startFs = .ok a := by
    have : startFs.entry (modelPath .ticTacToe bestName) = none := by decide +kernel
    unfold fromConfig openModel
    simp only
    rw [this]
    exact ⟨_, rfl⟩
  have hset : a.1 = { az := ⟨.fin 1, 1, 9, 9, 9, 9⟩, mcts := ⟨1, toSingle (.fin 1), 9, toSingle (.fin 1), toSingle (.fin 1)⟩, op := ⟨.fin 1, .fin 1⟩ } := by
    have : startFs.entry (modelPath .ticTacToe bestName) = none := by decide +kernel
    unfold fromConfig openModel at ha
    simp only at ha
    rw [this] at ha
    obtain rfl := Except.ok.inj ha
    rfl
  have hS : Lr.Sound (setup demoTrainer a.1) 9 [3, 3, 3] (fun _ => True) := by
    rw [hset]
    exact { alpha := fun _ _ => rfl, iterations := by decide, limit := by decide, games := by decide, batch := by decide, size := by decide,
            step := fun w _ _ _ _ _ _ => ⟨_, rfl, trivial⟩, clean := fun _ _ => rfl }
  obtain ⟨l, t', h⟩ := Lr.C87_tictactoe_partial .debug hS ⟨⟨rfl, fun _ h => h⟩, fun _ h _ => h⟩ (Lr.demoChance_valid _) (w := (Nat.zero, ())) trivial
    (ms := some fun _ => none) (fun _ _ _ _ => trivial) t
  obtain ⟨o, h⟩ := Ou.learn_has (modelDir .ticTacToe) demoTrainer.err (lit "V1StGXR8") h
  obtain ⟨wd', h'⟩ := learn_returns (wd := startWorld) (demo_faithful .ticTacToe) start_stores (by
    intro hne
    exact absurd (by decide +kernel : startFs (modelFile .ticTacToe bestName) = none) hne) ha h
  have hlen : l.length = 1 := by
    obtain ⟨⟨l2, o2⟩, t2, h3, h4⟩ := M.bind_ok.1 h
    obtain ⟨h5, rfl⟩ := Prod.mk.inj (Except.ok.inj h4)
    obtain ⟨rfl, rfl⟩ := Prod.mk.inj h5
    have := loop_length _ _ h3
    rw [hset] at this
    exact this
  refine ⟨Out.then ⟨line (headLine 2), []⟩ (Out.then ⟨a.2, []⟩ o), wd', t', ?_, ?_⟩
  rotate_left
  · show (Ou.readFrom _ (line (headLine 2) ++ (a.2 ++ o.stdout))).best = _
    rw [Ou.read_skip (headLine_plain 2) rfl (by intro h; cases h) rfl, read_config demo_oneLine (by intro p hp; cases hp) ha]
    obtain ⟨-, d', g1, g2, -, g3⟩ := Ou.C130 (V.ttt_ids .debug) rfl (newline_dir .ticTacToe) (by decide) (Lr.demoChance_valid _) h
    show (readOut o.stdout).best = _
    cases hb : (readOut o.stdout).best with
    | none =>
      exfalso
      rw [hb] at g3
      have g4 : d' bestName = none := g3
      rw [g4] at g2
      clear hb g3
      generalize (readOut o.stdout).wins = ks at g2
      match l, hlen with
      | [it], _ =>
        cases g2 with
        | first g2 => cases g2
    | some k =>
      rw [hb] at g3
      obtain ⟨it, g4, -⟩ := g3
      have := (List.getElem?_eq_some_iff.1 g4).1
      rw [hlen] at this
      rw [Nat.lt_one_iff.1 this]
  unfold invoke
  rw [(Cl.C92 _ _).2 learn_means]
  have hcfg : configText startFs (lit "./config") = some (lit "...") := by decide +kernel
  refine M.bind_ok.2 ⟨shortConf, t, M.lift_ok.2 ⟨?_, rfl⟩, M.bind_ok.2 ⟨2, t, M.lift_ok.2 ⟨rfl, rfl⟩, M.bind_ok.2 ⟨_, t', h', rfl⟩⟩⟩
  have hcfg' : (configText startWorld.fs (learnArgs.config.getD (lit "./config"))).bind demoWorld.toml = some shortConf := by
    show (configText startFs (lit "./config")).bind _ = _
    rw [hcfg]
    rfl
  rw [hcfg']

def fightArgv : List Name :=
  [lit "-gtic-tac-toe", lit "play", lit "-a", lit "model", lit "-m", lit "./models/tictactoe/best_model.ot", lit "--agent-two=model",
    lit "--model-path-two=./models/tictactoe/model_0.ot", lit "-ogames"]

def fightArgs : Cli.Args :=
  { config := none, game := .ticTacToe, nCpus := none,
    command := .play (some (lit "model")) (some (lit "./models/tictactoe/best_model.ot")) (some (lit "model"))
      (some (lit "./models/tictactoe/model_0.ot")) (some (lit "games")) }

theorem fight_means : Cli.Means fightArgv fightArgs := (Cl.C92 _ _).1 (by decide +kernel)

/-- The hypotheses of C134 can be met: a training run, a run without arguments, and a match of the best model against that of
iteration 0. -/
theorem C134_runs (t u : Tape) : ∃ o wd1 wd2 wd3 o' t' u', invoke demoTrainer learnArgv startWorld demoChoices t = .ok ((some o, wd1), t') ∧
    (readOut o.stdout).best = some 0 ∧ Session demoTrainer wd1 [[]] wd2 ∧ invoke demoTrainer fightArgv wd2 demoChoices u = .ok ((o', wd3), u') := by
  obtain ⟨o, wd1, t', h, hk⟩ := demo_learn t
  have hS : Session demoTrainer wd1 [[]] wd1 :=
    .cons (c := demoChoices) (t := t) (t' := t) (o := none) (fun i => demoIds_nano i) rfl (.nil _)
  obtain ⟨o1, e1, hL, -⟩ := C134_learn learn_means rfl (demo_faithful _) demo_oneLine (by intro p hp; cases hp) (Lr.demoChance_valid _)
    (Lr.demoChance_valid _) (by show Nano (lit "V1StGXR8"); unfold Nano; decide) (wd := startWorld) start_stores h
  obtain rfl := Option.some.inj e1
  have hb := hL.best
  rw [hk] at hb
  obtain ⟨b, hb1, hb2⟩ := hb
  have keep : ∀ q : App.Path, q.parts.length ≠ 3 → wd1.fs q = startFs q := by
    intro q hq
    refine hL.files q ?_
    rintro n - rfl
    exact hq rfl
  have load : ∀ p n, Ours n → p = modelPath .ticTacToe n → held demoWorld .ticTacToe wd1.fs n = some b →
      loadModel demoWorld .ticTacToe wd1.fs (some p) = .ok (some b) := by
    rintro p n hn rfl hh
    unfold loadModel
    simp only
    rw [text_model hn, hh]
  suffices hm : ∃ s fs' u', main demoWorld fightArgv wd1.fs V.demoOrders 9 demoIds u = .ok (.done s fs', u') by
    obtain ⟨s, fs', u', hm⟩ := hm
    exact ⟨o, wd1, wd1, _, _, t', u', h, hk, hS, (C134_main (c := demoChoices) fight_means (by intro m e; cases e) (by intro m _ _ _ _ e; cases e)).1 hm⟩
  refine C102_returns (E := demoWorld) fight_means rfl (fs := wd1.fs) (ids := demoIds) (P := { abs := false, parts := [lit "games"] })
    (conf := shortConf) (a1 := .model) (a2 := .model) (w1 := some b) (w2 := some b) (temp := .fin 1)
    (c := { iterations := 1, c := toSingle (.fin 1), simulateRoundLimit := 9, dirichletAlpha := toSingle (.fin 1), dirichletEpsilon := toSingle (.fin 1) })
    ⟨rfl, ⟨2, ?_, rfl⟩, ⟨by decide, by decide⟩, ⟨by decide, ?_⟩, ?_, ⟨?_, ?_⟩, rfl, rfl⟩ (fun i _ => demoIds_nano i)
    (.inr (.inl ⟨rfl, ⟨_, rfl, rfl⟩, ⟨⟨rfl, fun _ h => h⟩, fun _ h _ => h⟩, by decide⟩))
    (.inr (.inl ⟨rfl, ⟨_, rfl, rfl⟩, ⟨⟨rfl, fun _ h => h⟩, fun _ h _ => h⟩, by decide⟩)) V.demoOrders_valid u
  · have h1 : wd1.fs.text (lit "./config") = startFs.text (lit "./config") := by
      unfold Fs.text Fs.entry
      rw [show path (lit "./config") = some { abs := false, parts := [lit "config"] } by decide +kernel, Option.bind_some, Option.bind_some,
        keep _ (by decide)]
    have h2 : wd1.fs.text (lit "./config" ++ lit ".toml") = startFs.text (lit "./config" ++ lit ".toml") := by
      unfold Fs.text Fs.entry
      rw [show path (lit "./config" ++ lit ".toml") = some { abs := false, parts := [lit "config.toml"] } by decide +kernel, Option.bind_some,
        Option.bind_some, keep _ (by decide)]
    have h3 : configText wd1.fs (lit "./config") = some (lit "...") := by
      unfold configText
      rw [h1, h2]
      decide +kernel
    show (configText wd1.fs (lit "./config")).bind demoWorld.toml = _
    rw [h3]
    rfl
  · rw [keep _ (by decide)]
    decide +kernel
  · intro i _ hd
    rw [keep _ (by simp [gamePath])] at hd
    unfold startFs Ap.demoFs gamePath at hd
    rw [if_neg (by simp; intro e; cases e), if_neg (by simp), if_neg (by simp)] at hd
    cases hd
  · exact load _ _ .best (by decide) hb1
  · exact load _ _ (.model 0) (by decide) hb2

end DieE.Props.Se
