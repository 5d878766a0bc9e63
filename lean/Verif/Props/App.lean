import Verif.App.Spec
import Verif.Props.Report
import Verif.Props.Saved
import Verif.Props.Cli
import Verif.Props.Sure

/-!
# C102: play, then replay
-/

namespace DieE.Props.Ap
open DieE DieE.App DieE.Versus DieE.Text DieE.Fp
open DieE.Train (Name digits)
variable {G : Game} {Fl : Mcts.Floats}

/-! ## Paths -/

theorem split_append (c : Char) (a b : Name) : split c (a ++ c :: b) = split c a ++ split c b := by
  induction a with
  | nil => simp [split]
  | cons x a ih =>
    rw [List.cons_append, split, split]
    split
    · rw [ih]; rfl
    · rw [ih]
      cases h : split c a with
      | nil => exact absurd h (Rp.split_ne_nil _ _)
      | cons y ys => rfl

theorem path_join {p q : Name} {P : Path} (hp : path p = some P) (hq : '/' ∉ q) (hq0 : q ≠ []) (hq1 : q ≠ ['.']) :
    path (joinPath p q) = some { P with parts := P.parts ++ [q] } := by
  unfold path at hp
  split at hp
  case isTrue => cases hp
  case isFalse hp0 =>
    obtain rfl := Option.some.inj hp
    have hh : ¬ (q.head? = some '/' ∨ p = []) := by
      rintro (h | h)
      · exact hq (List.mem_of_head? h)
      · exact hp0 h
    unfold joinPath
    rw [if_neg hh]
    have hsq : (split '/' q).filter (fun c => c != [] && c != ['.']) = [q] := by
      rw [Pr.split_none hq]
      simp [hq0, hq1]
    split
    case isTrue hl =>
      obtain ⟨p', rfl⟩ : ∃ p', p = p' ++ ['/'] := by
        rw [List.getLast?_eq_some_iff] at hl
        exact hl
      unfold path
      have e : p' ++ ['/'] ++ q = p' ++ '/' :: q := by simp
      rw [if_neg (by simp), e, split_append, split_append, List.filter_append, List.filter_append, hsq]
      cases p' <;> simp [split]
    case isFalse =>
      unfold path
      rw [if_neg (by simp), split_append, List.filter_append, hsq]
      cases p with
      | nil => exact absurd rfl hp0
      | cons x p => rfl

theorem nano_path {id : Name} (h : Nano id) : '/' ∉ id ++ jsonExt ∧ id ++ jsonExt ≠ [] ∧ id ++ jsonExt ≠ ['.'] := by
  refine ⟨?_, by simp [jsonExt], ?_⟩
  · intro hm
    rcases List.mem_append.1 hm with hm | hm
    · have := h _ hm
      revert this
      decide
    · revert hm
      decide
  · intro he
    have := congrArg List.length he
    simp [jsonExt] at this

theorem nano_newline {id : Name} (h : Nano id) : '\n' ∉ id := by
  intro hm
  have := h _ hm
  revert this
  decide

/-! ## Saving -/

/-- The games `gs` are in their files, nothing else has changed. -/
structure Written (K : Printer G) (P : Path) (gs : List (SavedGame G.S)) (fs fs' : Fs) : Prop where
  files : ∀ g ∈ gs, fs' (gamePath P g.id) = some (.file (text ((gameSerde K.serde).ser g)))
  other : ∀ p, (∀ g ∈ gs, p ≠ gamePath P g.id) → fs' p = fs p

theorem gamePath_inj {P : Path} {a b : Name} (h : gamePath P a = gamePath P b) : a = b := by
  have h1 := congrArg Path.parts h
  simp only [gamePath] at h1
  have h2 := List.append_cancel_left h1
  rw [List.cons_eq_cons] at h2
  exact List.append_cancel_right h2.1

theorem gamePath_ne (P : Path) (a : Name) : gamePath P a ≠ P := by
  intro h
  have h1 := congrArg (fun q => q.parts.length) h
  simp [gamePath] at h1

theorem write_ok {fs fs' : Fs} {p txt : Name} {q : Path} (hq : path p = some q) (h : fs.write p txt = .ok fs') :
    fs' = fun r => if r = q then some (.file txt) else fs r := by
  unfold Fs.write at h
  rw [hq] at h
  simp only at h
  split at h
  · cases h
  · exact (Except.ok.inj h).symm

theorem saveAll_written {K : Printer G} {out : Name} {P : Path} (hP : path out = some P) {gs : List (SavedGame G.S)}
    (hn : ∀ g ∈ gs, Nano g.id) (hd : (gs.map SavedGame.id).Nodup) {fs fs' : Fs} (h : saveAll K out gs fs = .ok fs') :
    Written K P gs fs fs' := by
  induction gs generalizing fs with
  | nil =>
    obtain rfl := Except.ok.inj h
    exact ⟨fun g hg => absurd hg List.not_mem_nil, fun _ _ => rfl⟩
  | cons g gs ih =>
    obtain ⟨fs1, h1, h2⟩ : ∃ fs1, fs.write (joinPath out (g.id ++ jsonExt)) (text ((gameSerde K.serde).ser g)) = .ok fs1 ∧
        saveAll K out gs fs1 = .ok fs' := by
      unfold saveAll at h
      cases hw : fs.write (joinPath out (g.id ++ jsonExt)) (text ((gameSerde K.serde).ser g)) with
      | error e => rw [hw] at h; cases h
      | ok fs1 => rw [hw] at h; exact ⟨fs1, rfl, h⟩
    rw [List.map_cons, List.nodup_cons] at hd
    have hng := hn g (List.mem_cons_self ..)
    obtain ⟨k1, k2, k3⟩ := nano_path hng
    have hpath : path (joinPath out (g.id ++ jsonExt)) = some (gamePath P g.id) := path_join hP k1 k2 k3
    have e1 := write_ok hpath h1
    have w := ih (fun g' hg' => hn g' (List.mem_cons_of_mem _ hg')) hd.2 h2
    refine ⟨?_, ?_⟩
    · intro g' hg'
      rcases List.mem_cons.1 hg' with rfl | hg'
      · rw [w.other _ (fun g'' hg'' he => hd.1 (by rw [gamePath_inj he]; exact List.mem_map.2 ⟨g'', hg'', rfl⟩)), e1]
        simp
      · exact w.files g' hg'
    · intro p hp
      rw [w.other p fun g' hg' => hp g' (List.mem_cons_of_mem _ hg'), e1]
      simp [hp g (List.mem_cons_self ..)]

theorem saveAll_runs {K : Printer G} {out : Name} {P : Path} (hP : path out = some P) {gs : List (SavedGame G.S)}
    (hn : ∀ g ∈ gs, Nano g.id) {fs : Fs} (hdir : fs P = some .dir) (hfree : ∀ g ∈ gs, fs (gamePath P g.id) ≠ some .dir) :
    ∃ fs', saveAll K out gs fs = .ok fs' := by
  induction gs generalizing fs with
  | nil => exact ⟨fs, rfl⟩
  | cons g gs ih =>
    have hng := hn g (List.mem_cons_self ..)
    obtain ⟨k1, k2, k3⟩ := nano_path hng
    have hpath : path (joinPath out (g.id ++ jsonExt)) = some (gamePath P g.id) := path_join hP k1 k2 k3
    have hw : fs.write (joinPath out (g.id ++ jsonExt)) (text ((gameSerde K.serde).ser g)) =
        .ok fun r => if r = gamePath P g.id then some (.file (text ((gameSerde K.serde).ser g))) else fs r := by
      unfold Fs.write
      rw [hpath]
      simp only
      rw [if_neg]
      rintro (h | h | h)
      · simp [gamePath] at h
      · exact hfree g (List.mem_cons_self ..) h
      · exact h (by simpa [gamePath] using hdir)
    obtain ⟨fs', h'⟩ := ih (fun g' hg' => hn g' (List.mem_cons_of_mem _ hg'))
      (fs := fun r => if r = gamePath P g.id then some (.file (text ((gameSerde K.serde).ser g))) else fs r)
      (by rw [if_neg (fun e => gamePath_ne P g.id e.symm)]; exact hdir) (by
        intro g' hg'
        split
        · simp
        · exact hfree g' (List.mem_cons_of_mem _ hg'))
    refine ⟨fs', ?_⟩
    unfold saveAll
    rw [hw]
    exact h'

/-! ## Reading text -/

theorem split_line {a : Name} (ha : '\n' ∉ a) (r : Name) : split '\n' (line a ++ r) = a :: split '\n' r := Pr.split_sep ha

theorem entry_skip {label : String} {a r : Name} (ha : '\n' ∉ a) (hl : label.toList.isPrefixOf a = false) :
    entry label (line a ++ r) = entry label r := by
  unfold entry
  rw [split_line ha, List.find?_cons_of_neg (by simp [hl])]

theorem entry_first {label : String} {a r : Name} (ha : '\n' ∉ a) : entry label (line (lit label ++ a) ++ r) =
    if '\n' ∈ lit label then entry label (line (lit label ++ a) ++ r) else some a := by
  split
  · rfl
  · rename_i hl
    unfold entry
    rw [split_line (by simp only [List.mem_append, not_or]; exact ⟨hl, ha⟩),
      List.find?_cons_of_pos (by rw [List.isPrefixOf_iff_prefix]; exact List.prefix_append _ _)]
    show some ((label.toList ++ a).drop label.length) = _
    rw [← String.length_toList, List.drop_left]

theorem entry_more {label : String} {txt x : Name} (h : entry label txt = some x) (r : Name) :
    entry label (txt ++ '\n' :: r) = some x := by
  unfold entry at h ⊢
  rw [split_append, List.find?_append]
  cases h1 : (split '\n' txt).find? fun l => label.toList.isPrefixOf l with
  | none => rw [h1] at h; cases h
  | some y => rw [h1] at h; exact h

theorem entry_more_bind {β : Type} {label : String} {txt r : Name} {k : Name → Option β} {x : β}
    (h : (entry label txt).bind k = some x) : (entry label (txt ++ '\n' :: r)).bind k = some x := by
  cases h1 : entry label txt with
  | none => rw [h1] at h; cases h
  | some y => rw [h1] at h; rw [entry_more h1 r]; exact h

theorem prefix_apart {l a b : Name} (h1 : l.isPrefixOf a = false) (h2 : a.isPrefixOf l = false) : l.isPrefixOf (a ++ b) = false := by
  rw [Bool.eq_false_iff] at h1 h2 ⊢
  intro h
  rw [Ne, List.isPrefixOf_iff_prefix] at h1 h2
  rw [List.isPrefixOf_iff_prefix] at h
  rcases Nat.le_total l.length a.length with hl | hl
  · exact h1 (List.prefix_of_prefix_length_le h (List.prefix_append a b) hl)
  · exact h2 (List.prefix_of_prefix_length_le (List.prefix_append a b) h hl)

theorem says_more {txt : Name} {p1 p2 : Agent} {w1 w2 d n : Nat} {v : Rat} (h : Rp.Says txt p1 p2 w1 w2 d n v) (r : Name) :
    Rp.Says (txt ++ '\n' :: r) p1 p2 w1 w2 d n v :=
  ⟨entry_more h.1 r, entry_more h.2 r, entry_more_bind h.3, entry_more_bind h.4, entry_more_bind h.5, entry_more_bind h.6,
    entry_more_bind h.7⟩

theorem says_skip {a txt : Name} {p1 p2 : Agent} {w1 w2 d n : Nat} {v : Rat} (h : Rp.Says txt p1 p2 w1 w2 d n v) (ha : '\n' ∉ a)
    (hl : ∀ l ∈ ["Player 1: ", "Player 2: ", "Wins Player 1: ", "Wins Player 2: ", "Draws: ", "Number of Games: ", "Winrate: "],
      l.toList.isPrefixOf a = false) : Rp.Says (line a ++ txt) p1 p2 w1 w2 d n v := by
  simp only [List.mem_cons, List.not_mem_nil, or_false, forall_eq_or_imp, forall_eq] at hl
  obtain ⟨l1, l2, l3, l4, l5, l6, l7⟩ := hl
  exact ⟨by rw [entry_skip ha l1, h.1], by rw [entry_skip ha l2, h.2], by rw [entry_skip ha l3, h.3], by rw [entry_skip ha l4, h.4],
    by rw [entry_skip ha l5, h.5], by rw [entry_skip ha l6, h.6], by rw [entry_skip ha l7, h.7]⟩

/-- The first line of the output. -/
abbrev headLine (n : Nat) : Name := lit "Number of CPU's to use " ++ digits n

theorem headLine_plain (n : Nat) : '\n' ∉ headLine n := by
  rw [List.mem_append, not_or]
  exact ⟨by decide, Rp.newline_digits n⟩

theorem says_loaded {txt : Name} {p1 p2 : Agent} {w1 w2 d n : Nat} {v : Rat} (h : Rp.Says txt p1 p2 w1 w2 d n v) {m : Option Name}
    (hm : ∀ p, m = some p → '\n' ∉ p) : Rp.Says (loadedText m ++ txt) p1 p2 w1 w2 d n v := by
  cases m with
  | none => exact h
  | some p =>
    refine says_skip h (by rw [List.mem_append, not_or]; exact ⟨by decide, hm p rfl⟩) ?_
    simp only [List.mem_cons, List.not_mem_nil, or_false, forall_eq_or_imp, forall_eq]
    exact ⟨prefix_apart (by decide) (by decide), prefix_apart (by decide) (by decide), prefix_apart (by decide) (by decide),
      prefix_apart (by decide) (by decide), prefix_apart (by decide) (by decide), prefix_apart (by decide) (by decide),
      prefix_apart (by decide) (by decide)⟩

/-- What the play command prints shows the result. -/
theorem says_output {r : Name} {p1 p2 : Agent} {w1 w2 d n : Nat} {v : Rat} (h : Rp.Says r p1 p2 w1 w2 d n v) {m1 m2 : Option Name}
    (hm1 : ∀ p, m1 = some p → '\n' ∉ p) (hm2 : ∀ p, m2 = some p → '\n' ∉ p) (k : Nat) :
    Rp.Says (line (headLine k) ++ (loadedText m1 ++ (loadedText m2 ++ (line [] ++ line (lit "Starting play!") ++
      line (r ++ line [] ++ lit " Saving games..."))))) p1 p2 w1 w2 d n v := by
  have e : line [] ++ line (lit "Starting play!") ++ line (r ++ line [] ++ lit " Saving games...") =
      line [] ++ (line (lit "Starting play!") ++ (r ++ '\n' :: line (lit " Saving games..."))) := by
    simp [line]
  rw [e]
  refine says_skip (says_loaded (says_loaded (says_skip (says_skip (says_more h _) (by decide) (by decide)) (by decide) (by decide)) hm2) hm1)
    (headLine_plain k) ?_
  simp only [List.mem_cons, List.not_mem_nil, or_false, forall_eq_or_imp, forall_eq]
  exact ⟨prefix_apart (by decide) (by decide), prefix_apart (by decide) (by decide), prefix_apart (by decide) (by decide),
    prefix_apart (by decide) (by decide), prefix_apart (by decide) (by decide), prefix_apart (by decide) (by decide),
    prefix_apart (by decide) (by decide)⟩

/-- What `print_game` prints of a game without turns. -/
abbrev shortText (id : Name) (a1 a2 w : Agent) (board : Name) : Name :=
  line (lit "Game ID: " ++ id) ++ line (lit "Player 1: " ++ a1.name ++ lit ", Player 2: " ++ a2.name) ++
    line (lit "Game winner: " ++ w.name) ++ line (lit "Initial State:") ++ line board

theorem players_plain (a1 a2 : Agent) : '\n' ∉ a1.name ++ lit ", Player 2: " ++ a2.name := by
  rw [List.mem_append, List.mem_append, not_or, not_or]
  exact ⟨⟨Rp.newline_agent _, by decide⟩, Rp.newline_agent _⟩

theorem short_shape (id : Name) (a1 a2 w : Agent) (board : Name) : shortText id a1 a2 w board =
    line (lit "Game ID: " ++ id) ++ (line (lit "Player 1: " ++ (a1.name ++ lit ", Player 2: " ++ a2.name)) ++
      (line (lit "Game winner: " ++ w.name) ++ (line (lit "Initial State:") ++ (line board ++ [])))) := by
  simp only [shortText, List.append_assoc, List.append_nil]

theorem short_replayed {id : Name} (hid : '\n' ∉ id) (a1 a2 w : Agent) (board : Name) (k : Nat) :
    Replayed (line (headLine k) ++ shortText id a1 a2 w board) id a1 a2 w := by
  have hk : ∀ l ∈ ["Game ID: ", "Player 1: ", "Game winner: "], l.toList.isPrefixOf (headLine k) = false := by
    simp only [List.mem_cons, List.not_mem_nil, or_false, forall_eq_or_imp, forall_eq]
    exact ⟨prefix_apart (by decide) (by decide), prefix_apart (by decide) (by decide), prefix_apart (by decide) (by decide)⟩
  have h1 : '\n' ∉ lit "Game ID: " ++ id := by rw [List.mem_append, not_or]; exact ⟨by decide, hid⟩
  have h2 : '\n' ∉ lit "Player 1: " ++ (a1.name ++ lit ", Player 2: " ++ a2.name) := by
    rw [List.mem_append, not_or]; exact ⟨by decide, players_plain _ _⟩
  rw [short_shape]
  refine ⟨?_, ?_, ?_⟩
  · rw [entry_skip (headLine_plain k) (hk _ (by decide)), entry_first hid, if_neg (by decide)]
  · rw [entry_skip (headLine_plain k) (hk _ (by decide)), entry_skip h1 (prefix_apart (by decide) (by decide)),
      entry_first (players_plain _ _), if_neg (by decide)]
    rfl
  · rw [entry_skip (headLine_plain k) (hk _ (by decide)), entry_skip h1 (prefix_apart (by decide) (by decide)),
      entry_skip h2 (prefix_apart (by decide) (by decide)), entry_first (Rp.newline_agent _), if_neg (by decide)]

theorem ne_of_prefix {a b : Name} (h1 : (lit "Initial State:").isPrefixOf a = false) (h2 : a.isPrefixOf (lit "Initial State:") = false) :
    a ++ b ≠ lit "Initial State:" := by
  intro e
  have := prefix_apart (b := b) h1 h2
  rw [e] at this
  revert this
  decide

theorem skip_line {x y : Name} {l : List Name} (h : x ≠ y) : (x :: l).dropWhile (· ≠ y) = l.dropWhile (· ≠ y) := by
  rw [List.dropWhile_cons_of_pos (by simpa using h)]

theorem stop_line (y : Name) (l : List Name) : (y :: l).dropWhile (· ≠ y) = y :: l := by
  rw [List.dropWhile_cons_of_neg (by simp)]

theorem short_block {id : Name} (hid : '\n' ∉ id) (a1 a2 w : Agent) (board : Name) (k : Nat) :
    block "Initial State:" (line (headLine k) ++ shortText id a1 a2 w board) = split '\n' board := by
  have h1 : '\n' ∉ lit "Game ID: " ++ id := by rw [List.mem_append, not_or]; exact ⟨by decide, hid⟩
  have h2 : '\n' ∉ lit "Player 1: " ++ (a1.name ++ lit ", Player 2: " ++ a2.name) := by
    rw [List.mem_append, not_or]; exact ⟨by decide, players_plain _ _⟩
  have h3 : '\n' ∉ lit "Game winner: " ++ w.name := by rw [List.mem_append, not_or]; exact ⟨by decide, Rp.newline_agent _⟩
  rw [short_shape]
  unfold block
  rw [split_line (headLine_plain k), split_line h1, split_line h2, split_line h3, split_line (by decide)]
  have n0 : headLine k ≠ lit "Initial State:" := ne_of_prefix (by decide) (by decide)
  have n1 : lit "Game ID: " ++ id ≠ lit "Initial State:" := ne_of_prefix (by decide) (by decide)
  have n2 : lit "Player 1: " ++ (a1.name ++ lit ", Player 2: " ++ a2.name) ≠ lit "Initial State:" :=
    ne_of_prefix (by decide) (by decide)
  have n3 : lit "Game winner: " ++ w.name ≠ lit "Initial State:" := ne_of_prefix (by decide) (by decide)
  show (((_ :: _ :: _ :: _ :: _ :: _).dropWhile (· ≠ lit "Initial State:")).drop 1).dropLast = _
  rw [skip_line n0, skip_line n1, skip_line n2, skip_line n3, stop_line, List.drop_one, List.tail_cons]
  have e : line board ++ [] = board ++ '\n' :: [] := by simp [line]
  rw [e, split_append, show split '\n' [] = [[]] from rfl, List.dropLast_concat]

/-! ## The program -/

theorem playMain_ok {E : Env} {w : Cli.Which} {K : Printer G} {one m1 two m2 : Option Name} {out : Name} {conf : Config.Conf Num} {fs : Fs}
    {o : Orders} {f : Nat} {ids : Nat → Name} {t t' : Tape} {s : Name} {fs' : Fs}
    (h : playMain E w K one m1 two m2 (some out) conf fs o f ids t = .ok ((s, fs'), t')) :
    ∃ (a1 a2 : Agent) (P : Path) (c : Config.MctsConfig Num) (n1 n2 : Option (Mcts.Net (E.floats c))) (cfg : Versus.Config) (r : PlayResult G),
      parseAgent one = .ok a1 ∧ parseAgent two = .ok a2 ∧ path out = some P ∧ fs P = some .dir ∧
      play (G := G) E.pf (rnd f64) { agent := a1, net := n1 } { agent := a2, net := n2 } cfg o f t = .ok (r, t') ∧
      saveAll K out (r.games.map (Rec.saved ids)) fs = .ok fs' ∧
      s = loadedText m1 ++ (loadedText m2 ++ (line [] ++ line (lit "Starting play!") ++
        line (r.text ++ line [] ++ lit " Saving games..."))) := by
  obtain ⟨a1, t1, h1, k1⟩ := M.bind_ok.1 h
  obtain ⟨e1, rfl⟩ := M.lift_ok.1 h1
  obtain ⟨a2, t2, h2, k2⟩ := M.bind_ok.1 k1
  obtain ⟨e2, rfl⟩ := M.lift_ok.1 h2
  obtain ⟨out', t3, h3, k3⟩ := M.bind_ok.1 k2
  obtain ⟨e3, rfl⟩ := M.lift_ok.1 h3
  obtain rfl := Except.ok.inj e3
  obtain ⟨x4, t4, h4, k4⟩ := M.bind_ok.1 k3
  obtain ⟨e4, rfl⟩ := M.lift_ok.1 h4
  obtain ⟨w1, t5, h5, k5⟩ := M.bind_ok.1 k4
  obtain ⟨-, rfl⟩ := M.lift_ok.1 h5
  obtain ⟨w2, t6, h6, k6⟩ := M.bind_ok.1 k5
  obtain ⟨-, rfl⟩ := M.lift_ok.1 h6
  obtain ⟨temp, t7, h7, k7⟩ := M.bind_ok.1 k6
  obtain ⟨-, rfl⟩ := M.lift_ok.1 h7
  obtain ⟨c, t8, h8, k8⟩ := M.bind_ok.1 k7
  obtain ⟨-, rfl⟩ := M.lift_ok.1 h8
  obtain ⟨r, t9, h9, k9⟩ := M.bind_ok.1 k8
  obtain ⟨fs1, t10, h10, k10⟩ := M.bind_ok.1 k9
  obtain ⟨e10, rfl⟩ := M.lift_ok.1 h10
  obtain ⟨e11, rfl⟩ := M.pure_ok.1 k10
  have hdir : fs.isDir out = true := by
    by_contra hc
    rw [if_neg hc] at e4
    cases e4
  unfold Fs.isDir Fs.entry at hdir
  cases hP : path out with
  | none => rw [hP] at hdir; cases hdir
  | some P =>
    rw [hP] at hdir
    exact ⟨a1, a2, P, c, _, _, _, r, e1, e2, rfl, by simpa using hdir, h9, e10, rfl⟩

theorem replayMain_ok {K : Printer G} {Q : G.S → Prop} (hk : K.serde.Keeps Q) {g : SavedGame G.S} (hg : FitsGame Q g)
    {p : Name} {q : Path} {fs : Fs} (hp : path p = some q) (hf : fs q = some (.file (text ((gameSerde K.serde).ser g)))) {board : Name}
    (hb : K.pretty g.initial = .ok board) (ht : g.turns = []) :
    replayMain K p fs = .ok (shortText g.id g.player1 g.player2 g.winner board) := by
  have h1 : fs.text p = some (text ((gameSerde K.serde).ser g)) := by
    unfold Fs.text Fs.entry
    rw [hp, Option.bind_some, hf]
  unfold replayMain
  rw [h1, Option.bind_some, loadText_save hk hg]
  simp only [gameText, hb, ht]
  show Except.ok _ = Except.ok _
  simp only [List.map_nil, List.flatten_nil, List.append_nil]

/-- What `main` does before the command. -/
structure Begins (E : Env) (a : Cli.Args) (fs : Fs) (conf : Config.Conf Num) (n : Nat) : Prop where
  conf : (configText fs (a.config.getD (lit "./config"))).bind E.toml = some conf
  threads : Cli.threads E.cpus a.nCpus = .ok n

theorem main_ok {E : Env} {argv : List Name} {a : Cli.Args} (ha : Cli.Means argv a) {fs : Fs} {o : Orders} {f : Nat} {ids : Nat → Name}
    {t t' : Tape} {s : Name} {fs' : Fs} : main E argv fs o f ids t = .ok (.done s fs', t') ↔
    ∃ conf n s1, Begins E a fs conf n ∧ dispatch E a conf fs o f ids t = .ok ((s1, fs'), t') ∧ s = line (headLine n) ++ s1 := by
  unfold main
  rw [(Cl.C92 argv a).2 ha]
  constructor
  · intro h
    obtain ⟨conf, t1, h1, k1⟩ := M.bind_ok.1 h
    obtain ⟨e1, rfl⟩ := M.lift_ok.1 h1
    obtain ⟨n, t2, h2, k2⟩ := M.bind_ok.1 k1
    obtain ⟨e2, rfl⟩ := M.lift_ok.1 h2
    obtain ⟨⟨s1, fs1⟩, t3, h3, k3⟩ := M.bind_ok.1 k2
    obtain ⟨e3, rfl⟩ := M.pure_ok.1 k3
    refine ⟨conf, n, s1, ⟨?_, e2⟩, h3, rfl⟩
    cases hc : (configText fs (a.config.getD (lit "./config"))).bind E.toml with
    | none => rw [hc] at e1; cases e1
    | some c => rw [hc] at e1; rw [Except.ok.inj e1]
  · rintro ⟨conf, n, s1, ⟨h1, h2⟩, h3, rfl⟩
    refine M.bind_ok.2 ⟨conf, t, M.lift_ok.2 ⟨by rw [h1], rfl⟩, M.bind_ok.2 ⟨n, t, M.lift_ok.2 ⟨h2, rfl⟩,
      M.bind_ok.2 ⟨(s1, fs'), t', h3, rfl⟩⟩⟩

theorem begins_later {E : Env} {a : Cli.Args} {fs fs' : Fs} {conf : Config.Conf Num} {n : Nat} (h : Begins E a fs conf n)
    (hf : ∀ c ∈ configNames a, ∀ q, path c = some q → fs' q = fs q) (cmd : Cli.Command) : Begins E { a with command := cmd } fs' conf n := by
  have ht : ∀ c ∈ configNames a, fs'.text c = fs.text c := by
    intro c hc
    unfold Fs.text Fs.entry
    cases hq : path c with
    | none => rfl
    | some q => rw [Option.bind_some, Option.bind_some, hf c hc q hq]
  refine ⟨?_, h.threads⟩
  rw [← h.conf]
  unfold configText
  show (match fs'.text (a.config.getD (lit "./config")) with
    | some t => some t
    | none => fs'.text (a.config.getD (lit "./config") ++ lit ".toml")).bind E.toml = _
  rw [ht (a.config.getD (lit "./config")) (List.mem_cons_self ..),
    ht (a.config.getD (lit "./config") ++ lit ".toml") (List.mem_cons_of_mem _ (List.mem_cons_self ..))]
  rfl

/-- What is said of a match: the agents, the games, the printed text, the files. -/
structure Reported (G : Game) (E : Env) (one m1 two m2 : Option Name) (P : Path) (ids : Nat → Name) (o : Orders) (f : Nat) (t t' : Tape)
    (fs : Fs) (s : Name) (fs' : Fs) (a1 a2 : Agent) (m : Match G) (first : Nat → G.S) : Prop where
  /-- the agents are those of the command line -/
  agents : parseAgent one = .ok a1 ∧ parseAgent two = .ok a2
  /-- `m` is the match that was played -/
  behind : ∃ (c : Config.MctsConfig Num) (p1 p2 : Player (E.floats c)) (cfg : Versus.Config) (r : PlayResult G), p1.agent = a1 ∧ p2.agent = a2 ∧
    V.Behind E.pf (rnd f64) p1 p2 cfg 400 400 o f t t' r m
  /-- the printed result counts its games, if the paths of the models are on one line -/
  printed : (∀ p, m1 = some p → '\n' ∉ p) → (∀ p, m2 = some p → '\n' ∉ p) → ∃ (w1 w2 d : Nat) (v : Rat), Rp.Says s a1 a2 w1 w2 d 400 v ∧
    w1 = ((List.range 400).filter fun i => decide (outcome (m.steps i) = -1)).length ∧
    w2 = ((List.range 400).filter fun i => decide (outcome (m.steps i) = 1)).length ∧ w1 + w2 + d = 400 ∧
    |v - (w1 : Rat) / 4| ≤ 1 / 10 ^ 13
  /-- nothing but the files of the games was written -/
  files : ∀ p, (∀ i < 400, p ≠ gamePath P (ids i)) → fs' p = fs p
  /-- each game was played from its first state -/
  first : ∀ i < 400, (∃ u u', initState G 400 i u = .ok (first i, u')) ∧ ∃ s, Linked G (first i) (m.steps i) s

theorem play_replay (hid : Ids G) {K : Printer G} {Q : G.S → Prop} (hk : K.serde.Keeps Q) {E : Env} {w : Cli.Which}
    {one m1 two m2 : Option Name} {out : Name} {conf : Config.Conf Num} {fs fs' : Fs} {o : Orders} (ho : o.Valid) {f : Nat}
    {ids : Nat → Name} (hn : ∀ i < 400, Nano (ids i)) (hi : ∀ i j, i < 400 → j < 400 → ids i = ids j → i = j) {t t' : Tape} {s : Name}
    (hf : ∀ (c : Config.MctsConfig Num) (p1 p2 : Player (E.floats c)) (cfg : Versus.Config) (r : PlayResult G),
      play E.pf (rnd f64) p1 p2 cfg o f t = .ok (r, t') → ∀ g ∈ r.games, FitsGame Q (g.saved ids))
    (h : playMain E w K one m1 two m2 (some out) conf fs o f ids t = .ok ((s, fs'), t')) (k : Nat) :
    ∃ P a1 a2 m first, path out = some P ∧ fs P = some .dir ∧
      Reported G E one m1 two m2 P ids o f t t' fs (line (headLine k) ++ s) fs' a1 a2 m first ∧
      ∀ i < 400, ∀ p, path p = some (gamePath P (ids i)) → ∀ board, K.pretty (first i) = .ok board →
        replayMain K p fs' = .ok (shortText (ids i) a1 a2 (winnerAgent a1 a2 (outcome (m.steps i))) board) := by
  obtain ⟨a1, a2, P, c, n1, n2, cfg, r, e1, e2, hP, hdir, hplay, hsave, rfl⟩ := playMain_ok h
  obtain ⟨m, hb, hw, hac, hin, hturn⟩ := V.accounted hid ho hplay
  have hkey : ∀ g ∈ r.games, g.key < 400 := fun g hg =>
    List.mem_range.1 (hac.keys.mem_iff.1 (List.mem_map.2 ⟨g, hg, rfl⟩))
  have hw' := saveAll_written hP (gs := r.games.map (Rec.saved ids)) (by
    intro g hg
    obtain ⟨g', hg', rfl⟩ := List.mem_map.1 hg
    exact hn _ (hkey g' hg')) (SG.nodup_ids hac hi) hsave
  have hrec : ∀ i : Nat, i < 400 → ∃ g ∈ r.games, g.key = i := fun i hi =>
    List.mem_map.1 (hac.keys.mem_iff.2 (List.mem_range.2 hi))
  have : Nonempty (Rec G) := let ⟨g, _⟩ := hrec 0 (by decide); ⟨g⟩
  choose! rec hrec1 hrec2 using hrec
  refine ⟨P, a1, a2, m, fun i => (rec i).initial, hP, hdir, ⟨⟨e1, e2⟩, ⟨c, _, _, cfg, r, rfl, rfl, hb⟩, ?_, ?_, ?_⟩, ?_⟩
  · intro hm1 hm2
    obtain ⟨h3, v, h4, h5⟩ := Rp.shown_ok (k := r.wins1) (by have := hac.total; omega)
    refine ⟨r.wins1, r.wins2, r.draws, v, ?_, hac.wins1, hac.wins2, hac.total, h5.1⟩
    have := Rp.text_says (r := r) (s := Rp.shown r.wins1) (by rw [hw]; rfl) h3 h4
    rw [hac.players.1, hac.players.2.1, hac.nGames] at this
    exact says_output this hm1 hm2 k
  · intro p hp
    refine hw'.other p fun g hg => ?_
    obtain ⟨g', hg', rfl⟩ := List.mem_map.1 hg
    exact hp _ (hkey g' hg')
  · intro i hi
    have h1 := hin _ (hrec1 i hi)
    have h2 := (hac.finished _ (hrec1 i hi)).1
    rw [hrec2 i hi] at h1 h2
    exact ⟨h1, h2⟩
  · intro i hi p hp board hboard
    have hg := hrec1 i hi
    have hmem : (rec i).saved ids ∈ r.games.map (Rec.saved ids) := List.mem_map.2 ⟨_, hg, rfl⟩
    have hidi : ((rec i).saved ids).id = ids i := by show ids (rec i).key = _; rw [hrec2 i hi]
    have := replayMain_ok hk (hf _ _ _ _ _ hplay _ hg) (p := p) (q := gamePath P (ids i)) (fs := fs') hp
      (by have := hw'.files _ hmem; rw [hidi] at this; exact this) (board := board) hboard
      (by show (rec i).turns.map _ = []; rw [hturn _ hg]; rfl)
    rw [this, hidi]
    show Except.ok (shortText _ (rec i).player1 (rec i).player2 (rec i).winner board) = _
    have hpl := hac.players.2.2 _ hg
    have hwin := hac.winner _ hg
    rw [hrec2 i hi] at hwin
    rw [hpl.1, hpl.2, hwin]

/-- C102 for TicTacToe: after `play` has returned, its printed result counts the 400 games that were played, nothing but
their files was written, and `replay` with the file of game `i` succeeds, prints id, players, winner and the empty board,
and changes nothing. -/
theorem C102_tictactoe {E : Env} {argv : List Name} {a : Cli.Args} (ha : Cli.Means argv a) (hg : a.game = .ticTacToe)
    {one m1 two m2 : Option Name} {out : Name} (hc : a.command = .play one m1 two m2 (some out)) {o : Orders} (ho : o.Valid)
    {ids : Nat → Name} (hn : ∀ i < 400, Nano (ids i)) (hi : ∀ i j, i < 400 → j < 400 → ids i = ids j → i = j) {fs fs' : Fs} {f : Nat}
    {t t' : Tape} {s : Name} (h : main E argv fs o f ids t = .ok (.done s fs', t')) :
    ∃ P a1 a2 m first, path out = some P ∧ fs P = some .dir ∧
      Reported (TTT.game E.pf) E one m1 two m2 P ids o f t t' fs s fs' a1 a2 m first ∧
      ((∀ c ∈ configNames a, ∀ i < 400, path c ≠ some (gamePath P (ids i))) →
        ∀ i < 400, ∀ argv' p, Cli.Means argv' { a with command := .replay p } → path p = some (gamePath P (ids i)) →
          ∀ o' f' ids' u, ∃ s', main E argv' fs' o' f' ids' u = .ok (.done s' fs', u) ∧
            Replayed s' (ids i) a1 a2 (winnerAgent a1 a2 (outcome (m.steps i))) ∧
            ∀ r < 3, ∀ c < 3, (((block "Initial State:" s').map (split '|')).getD r []).getD c [] = "0".toList) := by
  obtain ⟨conf, n, s1, hb, hrun, rfl⟩ := (main_ok ha).1 h
  unfold dispatch handle at hrun
  simp only [hg, hc] at hrun
  obtain ⟨P, a1, a2, m, first, hP, hdir, hrep, hall⟩ := play_replay (G := TTT.game E.pf) (K := tttPrinter E.pf) (V.ttt_ids E.pf)
    tttSerde_keeps ho hn hi (fun _ _ _ _ _ hp => SG.fits_ttt ho hp ids) hrun n
  refine ⟨P, a1, a2, m, first, hP, hdir, hrep, ?_⟩
  intro hcfg i hil argv' p hm hp o' f' ids' u
  obtain ⟨⟨u1, u2, hu⟩, -⟩ := hrep.first i hil
  have hr := hall i hil p hp (TTT.toPrettyStr (first i)) rfl
  have hplain := nano_newline (hn i hil)
  refine ⟨_, (main_ok hm).2 ⟨conf, n, shortText (ids i) a1 a2 (winnerAgent a1 a2 (outcome (m.steps i))) (TTT.toPrettyStr (first i)), begins_later hb (fun c hc q hq => hrep.files q fun j hj he => ?_) _, ?_, rfl⟩, ?_, ?_⟩
  · exact hcfg c hc j hj (by rw [hq, he])
  · unfold dispatch handle
    simp only [hg]
    exact M.bind_ok.2 ⟨_, u, M.lift_ok.2 ⟨hr, rfl⟩, rfl⟩
  · exact short_replayed hplain _ _ _ _ _
  · intro r hr c hc
    rw [short_block hplain]
    refine (Pr.C90_shows (first i) hr hc).trans ?_
    rw [show first i = _ from V.ttt_first hu]
    have : ∀ r < 3, ∀ c < 3, writeInt (TTT.State.cell { player := 0, board := TTT.new.board, id := 0 } (3 * r + c)) = "0".toList := by
      decide
    exact this r hr c hc

/-- C102 for Backgammon: the replay shows the starting position, with player 1 to move in games 0 to 199 and player 2 in
the others, and the dice of the first turn. -/
theorem C102_backgammon {E : Env} {argv : List Name} {a : Cli.Args} (ha : Cli.Means argv a) (hg : a.game = .backgammon)
    {one m1 two m2 : Option Name} {out : Name} (hc : a.command = .play one m1 two m2 (some out)) {o : Orders} (ho : o.Valid)
    {ids : Nat → Name} (hn : ∀ i < 400, Nano (ids i)) (hi : ∀ i j, i < 400 → j < 400 → ids i = ids j → i = j) {fs fs' : Fs} {f : Nat}
    {t t' : Tape} {s : Name} (h : main E argv fs o f ids t = .ok (.done s fs', t')) :
    ∃ P a1 a2 m first, path out = some P ∧ fs P = some .dir ∧
      Reported (BG.game E.pf) E one m1 two m2 P ids o f t t' fs s fs' a1 a2 m first ∧
      ((∀ c ∈ configNames a, ∀ i < 400, path c ≠ some (gamePath P (ids i))) →
        ∀ i < 400, ∀ argv' p, Cli.Means argv' { a with command := .replay p } → path p = some (gamePath P (ids i)) →
          ∀ o' f' ids' u, ∃ s', main E argv' fs' o' f' ids' u = .ok (.done s' fs', u) ∧
            Replayed s' (ids i) a1 a2 (winnerAgent a1 a2 (outcome (m.steps i))) ∧
            ∃ txt d, block "Initial State:" s' = split '\n' txt ∧ Pr.Shows txt (first i) ∧ Spec.DiceInRange d ∧
              first i = { BG.new with player := if i < 200 then -1 else 1, roll := d, id := i }) := by
  obtain ⟨conf, n, s1, hb, hrun, rfl⟩ := (main_ok ha).1 h
  unfold dispatch handle at hrun
  simp only [hg, hc] at hrun
  obtain ⟨P, a1, a2, m, first, hP, hdir, hrep, hall⟩ := play_replay (G := BG.game E.pf) (K := bgPrinter E.pf) (V.bg_ids E.pf)
    bgSerde_keeps ho hn hi (fun _ _ _ _ _ hp => SG.fits_bg ho hp ids) hrun n
  refine ⟨P, a1, a2, m, first, hP, hdir, hrep, ?_⟩
  intro hcfg i hil argv' p hm hp o' f' ids' u
  obtain ⟨⟨u1, u2, hu⟩, -⟩ := hrep.first i hil
  have hok : Spec.StateOK (first i) := by
    obtain ⟨s2, u3, h3, h4⟩ := V.bg_begins E.pf 400 i u1
    obtain ⟨rfl, -⟩ := Prod.mk.inj (Except.ok.inj (hu.symm.trans h3))
    exact h4
  obtain ⟨d, hd, hdr⟩ := V.bg_first hu
  obtain ⟨txt, ht1, ht2⟩ := Pr.C89_backgammon E.pf hok
  have hr := hall i hil p hp txt ht1
  have hplain := nano_newline (hn i hil)
  refine ⟨_, (main_ok hm).2 ⟨conf, n, shortText (ids i) a1 a2 (winnerAgent a1 a2 (outcome (m.steps i))) txt, begins_later hb (fun c hc q hq => hrep.files q fun j hj he => ?_) _, ?_, rfl⟩, ?_, txt, d, ?_, ht2, hdr, hd⟩
  · exact hcfg c hc j hj (by rw [hq, he])
  · unfold dispatch handle
    simp only [hg]
    exact M.bind_ok.2 ⟨_, u, M.lift_ok.2 ⟨hr, rfl⟩, rfl⟩
  · exact short_replayed hplain _ _ _ _ _
  · exact short_block hplain _ _ _ _ _

/-- The path of a model that breaks the line. -/
def forged : Name := lit "m" ++ '\n' :: (lit "Wins Player 1: " ++ lit "400")

/-- Why `printed` in `Reported` needs paths on one line: the message of `from_path` repeats the path, so a path can print a
result before the match begins, which is then the first one to be read. -/
theorem C102_forged {K : Printer G} {E : Env} {w : Cli.Which} {one two m2 : Option Name} {out : Name} {conf : Config.Conf Num} {fs fs' : Fs}
    {o : Orders} {f : Nat} {ids : Nat → Name} {t t' : Tape} {s : Name}
    (h : playMain E w K one (some forged) two m2 (some out) conf fs o f ids t = .ok ((s, fs'), t')) (k : Nat) :
    entry "Wins Player 1: " (line (headLine k) ++ s) = some (lit "400") := by
  obtain ⟨a1, a2, P, c, n1, n2, cfg, r, -, -, -, -, -, -, rfl⟩ := playMain_ok h
  have e : ∀ x, loadedText (some forged) ++ x =
      line (lit "Successfully loaded model on path " ++ lit "m") ++ (line (lit "Wins Player 1: " ++ lit "400") ++ x) := by
    intro x
    simp only [loadedText, forged, line, List.append_assoc, List.cons_append, List.nil_append]
  rw [entry_skip (headLine_plain k) (prefix_apart (by decide) (by decide)), e, entry_skip (by decide) (by decide),
    entry_first (by decide), if_neg (by decide)]

/-! ## It returns -/

/-- What `play` needs: a directory for the games, the networks, the configuration. -/
structure Prepared (E : Env) (a : Cli.Args) (fs : Fs) (ids : Nat → Name) (one m1 two m2 : Option Name) (out : Name) (P : Path)
    (conf : Config.Conf Num) (a1 a2 : Agent) (w1 w2 : Option E.W) (temp : Num) (c : Config.MctsConfig Num) : Prop where
  command : a.command = .play one m1 two m2 (some out)
  begins : ∃ n, Begins E a fs conf n
  agents : parseAgent one = .ok a1 ∧ parseAgent two = .ok a2
  out : path out = some P ∧ fs P = some .dir
  free : ∀ i < 400, fs (gamePath P (ids i)) ≠ some .dir
  nets : loadModel E a.game fs m1 = .ok w1 ∧ loadModel E a.game fs m2 = .ok w2
  temperature : conf.float "temperature" = some temp
  config : Config.MctsConfig.fromConfig toSingle conf = some c

theorem playMain_runs (hid : Ids G) {K : Printer G} {E : Env} {a : Cli.Args} {fs : Fs} {ids : Nat → Name} {one m1 two m2 : Option Name} {out : Name}
    {P : Path} {conf : Config.Conf Num} {a1 a2 : Agent} {w1 w2 : Option E.W} {temp : Num} {c : Config.MctsConfig Num}
    (hp : Prepared E a fs ids one m1 two m2 out P conf a1 a2 w1 w2 temp c) (hn : ∀ i < 400, Nano (ids i)) {o : Orders} (ho : o.Valid) {f : Nat}
    {t t' : Tape} {r : PlayResult G} (h : play (G := G) E.pf (rnd f64) { agent := a1, net := w1.map (E.net c) }
      { agent := a2, net := w2.map (E.net c) } { iterations := c.iterations, limit := c.simulateRoundLimit, pw := E.pw temp } o f t = .ok (r, t')) :
    ∃ s fs', playMain E a.game K one m1 two m2 (some out) conf fs o f ids t = .ok ((s, fs'), t') := by
  obtain ⟨m, -, -, hac, -⟩ := V.accounted hid ho h
  have hkey : ∀ g ∈ r.games, g.key < 400 := fun g hg =>
    List.mem_range.1 (hac.keys.mem_iff.1 (List.mem_map.2 ⟨g, hg, rfl⟩))
  obtain ⟨fs', hs⟩ := saveAll_runs (K := K) hp.out.1 (gs := r.games.map (Rec.saved ids)) (by
    intro g hg
    obtain ⟨g', hg', rfl⟩ := List.mem_map.1 hg
    exact hn _ (hkey g' hg')) hp.out.2 (by
    intro g hg
    obtain ⟨g', hg', rfl⟩ := List.mem_map.1 hg
    exact hp.free _ (hkey g' hg'))
  have hdir : fs.isDir out = true := by
    unfold Fs.isDir Fs.entry
    rw [hp.out.1, Option.bind_some, hp.out.2]
    rfl
  refine ⟨_, fs', M.bind_ok.2 ⟨a1, t, M.lift_ok.2 ⟨hp.agents.1, rfl⟩, M.bind_ok.2 ⟨a2, t, M.lift_ok.2 ⟨hp.agents.2, rfl⟩,
    M.bind_ok.2 ⟨out, t, rfl, M.bind_ok.2 ⟨(), t, M.lift_ok.2 ⟨if_pos hdir, rfl⟩, M.bind_ok.2 ⟨w1, t, M.lift_ok.2 ⟨hp.nets.1, rfl⟩,
    M.bind_ok.2 ⟨w2, t, M.lift_ok.2 ⟨hp.nets.2, rfl⟩, M.bind_ok.2 ⟨temp, t, M.lift_ok.2 ⟨by rw [hp.temperature], rfl⟩,
    M.bind_ok.2 ⟨c, t, M.lift_ok.2 ⟨by rw [hp.config], rfl⟩, M.bind_ok.2 ⟨r, t', h, M.bind_ok.2 ⟨fs', t', M.lift_ok.2 ⟨hs, rfl⟩, rfl⟩⟩⟩⟩⟩⟩⟩⟩⟩⟩⟩

/-- C102: on TicTacToe `play` returns, whatever the random numbers are. -/
theorem C102_returns {E : Env} {argv : List Name} {a : Cli.Args} (ha : Cli.Means argv a) (hg : a.game = .ticTacToe) {fs : Fs} {ids : Nat → Name}
    {one m1 two m2 : Option Name} {out : Name} {P : Path} {conf : Config.Conf Num} {a1 a2 : Agent} {w1 w2 : Option E.W} {temp : Num}
    {c : Config.MctsConfig Num} (hp : Prepared E a fs ids one m1 two m2 out P conf a1 a2 w1 w2 temp c) (hn : ∀ i < 400, Nano (ids i))
    (h1 : V.Ready 9 true { iterations := c.iterations, limit := c.simulateRoundLimit, pw := E.pw temp } { agent := a1, net := w1.map (E.net c) })
    (h2 : V.Ready 9 true { iterations := c.iterations, limit := c.simulateRoundLimit, pw := E.pw temp } { agent := a2, net := w2.map (E.net c) })
    {o : Orders} (ho : o.Valid) (t : Tape) : ∃ s fs' t', main E argv fs o 9 ids t = .ok (.done s fs', t') := by
  obtain ⟨r, t', h⟩ := V.C67_tictactoe E.pf (rnd f64) h1 h2 ho t
  obtain ⟨n, hb⟩ := hp.begins
  obtain ⟨s, fs', hs⟩ := playMain_runs (V.ttt_ids E.pf) (K := tttPrinter E.pf) hp hn ho h
  refine ⟨_, fs', t', (main_ok ha).2 ⟨conf, n, s, hb, ?_, rfl⟩⟩
  unfold dispatch handle
  rw [hg] at hs
  simp only [hg, hp.command]
  exact hs

/-- C102: on Backgammon `play` returns with probability one if the players are random or networks. -/
theorem C102_sure {E : Env} {argv : List Name} {a : Cli.Args} (ha : Cli.Means argv a) (hg : a.game = .backgammon) {fs : Fs} {ids : Nat → Name}
    {one m1 two m2 : Option Name} {out : Name} {P : Path} {conf : Config.Conf Num} {a1 a2 : Agent} {w1 w2 : Option E.W} {temp : Num}
    {c : Config.MctsConfig Num} (hp : Prepared E a fs ids one m1 two m2 out P conf a1 a2 w1 w2 temp c) (hn : ∀ i < 400, Nano (ids i))
    (h1 : V.Ready 1352 false { iterations := c.iterations, limit := c.simulateRoundLimit, pw := E.pw temp } { agent := a1, net := w1.map (E.net c) })
    (h2 : V.Ready 1352 false { iterations := c.iterations, limit := c.simulateRoundLimit, pw := E.pw temp } { agent := a2, net := w2.map (E.net c) })
    {o : Orders} (ho : o.Valid) : ∀ᵐ t ∂(MeasureTheory.Measure.infinitePi (fun _ : Nat => Sr.fairDie) : MeasureTheory.Measure Tape),
      ∃ f s fs' t', main E argv fs o f ids t = .ok (.done s fs', t') := by
  filter_upwards [Sr.C96_fair E.pf (rnd f64) h1 h2 ho] with t ht
  obtain ⟨f, r, t', h⟩ := ht
  obtain ⟨n, hb⟩ := hp.begins
  obtain ⟨s, fs', hs⟩ := playMain_runs (V.bg_ids E.pf) (K := bgPrinter E.pf) hp hn ho h
  refine ⟨f, _, fs', t', (main_ok ha).2 ⟨conf, n, s, hb, ?_, rfl⟩⟩
  unfold dispatch handle
  rw [hg] at hs
  simp only [hg, hp.command]
  exact hs

/-! ## An example -/

/-- A configuration. -/
def demoConf : Config.Conf Num where
  int k := if k = "iterations" then some 1 else some 9
  float _ := some (.fin 1)
  range k v h := by
    split at h <;> obtain rfl := Option.some.inj h <;> decide

/-- An environment. -/
noncomputable def demoEnv : Env where
  pf := .release
  cpus := 4
  toml _ := some demoConf
  W := Unit
  load _ _ := none
  floats _ := S.demoFloats
  net _ _ := A.demoNet
  pw _ x := x
  learn _ _ _ fs := pure ([], fs)
  train _ _ _ fs := pure ([], fs)

/-- Files: the configuration and a directory `games`. -/
def demoFs : Fs := fun p =>
  if p = { abs := false, parts := [lit "config.toml"] } then some (.file (lit "..."))
  else if p = { abs := false, parts := [lit "games"] } then some .dir
  else none

/-- Ids: `0`, `1`, ... -/
def demoIds (i : Nat) : Name := digits i

theorem demoIds_nano (i : Nat) : Nano (demoIds i) := fun c hc => .inl (by
  rw [Char.isAlphanum, Bool.or_eq_true]; exact .inr (digits_isDigit hc))

def demoArgs : Cli.Args := { config := none, game := .ticTacToe, nCpus := none, command := .play (some (lit "random")) none (some (lit "Random")) none (some (lit "games/")) }

def demoArgv : List Name :=
  [lit "--game", lit "tic-tac-toe", lit "play", lit "-a", lit "random", lit "--agent-two=Random", lit "-ogames/"]

theorem demo_means : Cli.Means demoArgv demoArgs := (Cl.C92 _ _).1 (by decide +kernel)

/-- The hypotheses of C102 can be met: this command returns for every source of random numbers. -/
theorem C102_runs (t : Tape) : ∃ s fs' t', main demoEnv demoArgv demoFs V.demoOrders 9 demoIds t = .ok (.done s fs', t') := by
  refine C102_returns demo_means rfl (P := { abs := false, parts := [lit "games"] }) (conf := demoConf) (a1 := .random) (a2 := .random)
    (w1 := none) (w2 := none) (temp := .fin 1) (c := { iterations := 1, c := toSingle (.fin 1), simulateRoundLimit := 9, dirichletAlpha := toSingle (.fin 1), dirichletEpsilon := toSingle (.fin 1) })
    ⟨rfl, ⟨2, ?_, rfl⟩, ⟨by decide, by decide⟩, ⟨by decide, by decide⟩, ?_, ⟨rfl, rfl⟩, rfl, rfl⟩ (fun i _ => demoIds_nano i) (.inl rfl) (.inl rfl)
    V.demoOrders_valid t
  · have : configText demoFs (lit "./config") = some (lit "...") := by decide +kernel
    show (configText demoFs (lit "./config")).bind demoEnv.toml = _
    rw [this]
    rfl
  · intro i _ h
    unfold demoFs gamePath at h
    split at h
    · cases h
    · split at h
      · rename_i _ h1
        have := congrArg (fun p => p.parts.length) h1
        simp at this
      · cases h

/-- After it game 7 can be replayed from its file. -/
example (t : Tape) : ∃ s fs' t' s', main demoEnv demoArgv demoFs V.demoOrders 9 demoIds t = .ok (.done s fs', t') ∧
    main demoEnv [lit "-gtic-tac-toe", lit "replay", lit "-g", lit "games/7.json"] fs' V.demoOrders 9 demoIds t =
      .ok (.done s' fs', t) ∧ entry "Game ID: " s' = some (lit "7") ∧ entry "Player 1: " s' = some (lit "Random, Player 2: Random") := by
  obtain ⟨s, fs', t', h⟩ := C102_runs t
  obtain ⟨P, a1, a2, m, first, hP, -, hr, hall⟩ := C102_tictactoe demo_means rfl rfl V.demoOrders_valid (fun i _ => demoIds_nano i)
    (fun i j _ _ he => Pr.digits_inj he) h
  obtain rfl : P = { abs := false, parts := [lit "games"] } := Option.some.inj (hP.symm.trans (by decide +kernel))
  have h1 : a1 = .random := Except.ok.inj (hr.agents.1.symm.trans (by decide +kernel))
  have h2 : a2 = .random := Except.ok.inj (hr.agents.2.symm.trans (by decide +kernel))
  obtain ⟨s', k1, k2, -⟩ := hall (by
    intro c hc i _ he
    have hp : path c = some { abs := false, parts := [lit "config"] } ∨ path c = some { abs := false, parts := [lit "config.toml"] } := by
      clear he
      revert c
      decide +kernel
    have hlen := congrArg (fun p => p.map fun q => q.parts.length) he
    rcases hp with hp | hp <;> rw [hp] at hlen <;> simp [gamePath] at hlen) 7 (by decide)
    [lit "-gtic-tac-toe", lit "replay", lit "-g", lit "games/7.json"] (lit "games/7.json") ((Cl.C92 _ _).1 (by decide +kernel))
    (by decide +kernel) V.demoOrders 9 demoIds t
  refine ⟨s, fs', t', s', h, k1, k2.id, ?_⟩
  rw [k2.players, h1, h2]
  decide

end DieE.Props.Ap
