import Verif.Props.Versus
import Verif.Versus.SavedFacts
import Verif.Text.JsonPrefix

/-! # C71–C76: saved games and the play command -/

namespace DieE.Props.SG
open DieE DieE.Mcts DieE.Train DieE.Versus DieE.Text DieE.Props.A DieE.Props.S DieE.Props.V

variable {Fl : Floats}

/-! ## C71: a saved game is loaded unchanged -/

/-- C71 for TicTacToe: every game whose numbers fit into their types is loaded as it was saved. -/
theorem C71_tictactoe (g : SavedGame TTT.State) (hg : FitsGame FitsTTT g) :
    loadText tttSerde (text ((gameSerde tttSerde).ser g)) = some g := loadText_save tttSerde_keeps hg

/-- C71 for Backgammon. -/
theorem C71_backgammon (g : SavedGame BG.State) (hg : FitsGame FitsBG g) :
    loadText bgSerde (text ((gameSerde bgSerde).ser g)) = some g := loadText_save bgSerde_keeps hg

/-- Different games have different files. -/
theorem C71_injective {g h : SavedGame BG.State} (hg : FitsGame FitsBG g) (hh : FitsGame FitsBG h)
    (he : text ((gameSerde bgSerde).ser g) = text ((gameSerde bgSerde).ser h)) : g = h := by
  have h1 := C71_backgammon g hg
  rw [he, C71_backgammon h hh] at h1
  exact (Option.some.inj h1).symm

/-- A small TicTacToe game with one turn. -/
def demoGame : SavedGame TTT.State where
  id := ['a', '"', '\n']
  player1 := .model
  player2 := .random
  turns := [{ roll := some (1, 2), action := [TTT.new], player := .mcts }]
  winner := .none
  initial := { TTT.new with player := 1, id := 10 }

example : FitsGame FitsTTT demoGame := by
  refine ⟨?_, ?_⟩
  · intro t ht
    obtain rfl := List.mem_singleton.1 ht
    refine ⟨fun x hx => ?_, fun x hx => ?_⟩
    · obtain rfl := Option.some.inj hx
      exact ⟨by decide, by decide⟩
    · obtain rfl := List.mem_singleton.1 hx
      exact ⟨by decide, by decide, by decide⟩
  · exact ⟨by decide, by decide, by decide⟩

/-- The text of the game, as written by `to_string_pretty`. -/
example : text ((gameSerde tttSerde).ser demoGame) = ("{
  \"id\": \"a\\\"\\n\",
  \"player1\": \"Model\",
  \"player2\": \"Random\",
  \"turns\": [
    {
      \"roll\": [
        1,
        2
      ],
      \"action\": [
        {
          \"player\": -1,
          \"board\": [
            0,
            0,
            0,
            0,
            0,
            0,
            0,
            0,
            0
          ],
          \"id\": 0
        }
      ],
      \"player\": \"Mcts\"
    }
  ],
  \"winner\": \"None\",
  \"initial_state\": {
    \"player\": 1,
    \"board\": [
      0,
      0,
      0,
      0,
      0,
      0,
      0,
      0,
      0
    ],
    \"id\": 10
  }
}").toList := by decide +kernel

/-- A number that does not fit is rejected: `load_game` does not wrap it. -/
example : loadText tttSerde (text ((gameSerde tttSerde).ser { demoGame with initial := { TTT.new with player := 128 } })) = none := by
  rw [loadText, parse_text]
  rfl

/-! ## C74: truncated files -/

/-- C74: a file cut off anywhere is rejected, whatever game it was written for. -/
theorem C74_truncated {S : Type} (s : Serde S) (g : SavedGame S) {p q : Name} (h : p ++ q = text ((gameSerde s).ser g))
    (hq : q ≠ []) : loadText s p = none := by
  rw [loadText, show parse p = none from parse_prefix h hq]
  rfl

/-- A single cut-off file makes `load_all_games` fail as a whole. -/
theorem C74_all {S : Type} (s : Serde S) (g : SavedGame S) {p q n : Name} (h : p ++ q = text ((gameSerde s).ser g))
    (hq : q ≠ []) (hn : jsonExt <:+ n) {d : Dir} (hd : (n, .file p) ∈ d) : loadAllGames s d = none := by
  induction d with
  | nil => simp at hd
  | cons e d ih =>
    rcases List.mem_cons.1 hd with rfl | hd'
    · rw [loadAllGames, if_pos (List.isSuffixOf_iff_suffix.2 hn), C74_truncated s g h hq]
      rfl
    · obtain ⟨m, e⟩ := e
      cases e with
      | dir => rw [loadAllGames, ih hd']
      | file t =>
        rw [loadAllGames, ih hd']
        split
        · cases loadText s t <;> rfl
        · rfl

/-- The text of the game above without its last character. -/
example : loadText tttSerde (text ((gameSerde tttSerde).ser demoGame)).dropLast = none :=
  C74_truncated tttSerde demoGame (q := [(text ((gameSerde tttSerde).ser demoGame)).getLast (by
    simp [text, gameSerde, write])]) (List.dropLast_append_getLast _) (by simp)

/-! ## C72: all games are loaded again -/

/-- C72 for arbitrary games with different ids: saved into a directory without `.json` entries and read back in any
order of the directory, they are the same games. -/
theorem C72_any {S : Type} {s : Serde S} {P : S → Prop} (hs : s.Keeps P) {gs : List (SavedGame S)} (hg : ∀ g ∈ gs, FitsGame P g)
    (hn : (gs.map SavedGame.id).Nodup) {d d' : Dir} (hd : ∀ e ∈ d, ¬ jsonExt <:+ e.1) (hp : d'.Perm (saveGames s gs d)) :
    ∃ l, loadAllGames s d' = some l ∧ l.Perm gs := by
  have hd' : ∀ e ∈ d, jsonExt.isSuffixOf e.1 = false := fun e he => by
    rw [Bool.eq_false_iff]
    exact fun h => hd e he (List.isSuffixOf_iff_suffix.1 h)
  have h1 : loadAllGames s (saveGames s gs d) = some gs := by
    rw [saveGames_new s gs d (fun e he g _ h => hd e he ⟨g.id, h.symm⟩) hn, loadAllGames_append, loadAllGames_other s hd',
      loadAllGames_saved hs gs hg]
    rfl
  exact loadAllGames_perm s hp.symm h1

theorem fits_ttt {pf : Profile} {rnd : Rat → Rat} {p1 p2 : Player Fl} {cfg : Config} {o : Orders} (ho : o.Valid) {f : Nat}
    {t t' : Tape} {r : PlayResult (TTT.game pf)} (h : play pf rnd p1 p2 cfg o f t = .ok (r, t')) (ids : Nat → Name) :
    ∀ g ∈ r.games, FitsGame FitsTTT (g.saved ids) := by
  obtain ⟨m, -, -, h2, h3, h4⟩ := accounted (ttt_ids pf) ho h
  intro g hg
  obtain ⟨u, u', hu⟩ := h3 g hg
  have hk : g.key < 400 := List.mem_range.1 (h2.keys.mem_iff.1 (List.mem_map.2 ⟨g, hg, rfl⟩))
  refine ⟨fun t ht => ?_, ?_⟩
  · rw [show (g.saved ids).turns = [] by rw [Rec.saved, h4 g hg]; rfl] at ht
    exact absurd ht List.not_mem_nil
  · show FitsTTT g.initial
    rw [ttt_first hu]
    refine ⟨?_, ?_, ?_⟩
    · show _ ≤ (if _ then _ else _) ∧ (if _ then _ else _) ≤ _
      split <;> decide
    · show ∀ x ∈ TTT.new.board.toList, _
      decide
    · show g.key < _
      omega

theorem fits_bg {pf : Profile} {rnd : Rat → Rat} {p1 p2 : Player Fl} {cfg : Config} {o : Orders} (ho : o.Valid) {f : Nat}
    {t t' : Tape} {r : PlayResult (BG.game pf)} (h : play pf rnd p1 p2 cfg o f t = .ok (r, t')) (ids : Nat → Name) :
    ∀ g ∈ r.games, FitsGame FitsBG (g.saved ids) := by
  obtain ⟨m, -, -, h2, h3, h4⟩ := accounted (bg_ids pf) ho h
  intro g hg
  obtain ⟨u, u', hu⟩ := h3 g hg
  have hk : g.key < 400 := List.mem_range.1 (h2.keys.mem_iff.1 (List.mem_map.2 ⟨g, hg, rfl⟩))
  refine ⟨fun t ht => ?_, ?_⟩
  · rw [show (g.saved ids).turns = [] by rw [Rec.saved, h4 g hg]; rfl] at ht
    exact absurd ht List.not_mem_nil
  · show FitsBG g.initial
    obtain ⟨d, hs, hd⟩ := bg_first hu
    obtain ⟨⟨d1, d2⟩, d3, d4⟩ := hd
    rw [hs]
    refine ⟨⟨?_, ?_, ?_⟩, ?_, ?_, ?_⟩
    · show ∀ x ∈ BG.new.board.pts.toList, _
      decide
    · show FitsU8 BG.new.board.hit
      exact ⟨by decide, by decide⟩
    · show FitsU8 BG.new.board.col
      exact ⟨by decide, by decide⟩
    · exact ⟨⟨by show 0 ≤ d.1; omega, by show d.1 ≤ 255; omega⟩, by show 0 ≤ d.2; omega, by show d.2 ≤ 255; omega⟩
    · show _ ≤ (if _ then _ else _) ∧ (if _ then _ else _) ≤ _
      split <;> decide
    · show g.key < _
      omega

theorem nodup_ids {G : Game} {A1 A2 : G.S → G.Mv → Prop} {a1 a2 : Agent} {n limit : Nat} {steps : Nat → List (Step G)}
    {r : PlayResult G} (h : Accounted A1 A2 a1 a2 n limit steps r) {ids : Nat → Name}
    (hi : ∀ i j, i < n → j < n → ids i = ids j → i = j) : ((r.games.map (Rec.saved ids)).map SavedGame.id).Nodup := by
  have h1 : (r.games.map (Rec.saved ids)).map SavedGame.id = (r.games.map Rec.key).map ids := by
    rw [List.map_map, List.map_map]; rfl
  rw [h1, (h.keys.map ids).nodup_iff]
  refine List.Nodup.map_on (fun i hi' j hj' => hi i j (List.mem_range.1 hi') (List.mem_range.1 hj')) List.nodup_range

theorem playCommand_ok {G : Game} {pf : Profile} {rnd : Rat → Rat} {sd : Serde G.S} {one two : Option Name}
    {net1 net2 : Option (Net Fl)} {out : Option (Option Dir)} {cfg : Config} {o : Orders} {f : Nat} {ids : Nat → Name} {t t' : Tape}
    {d' : Dir} (h : playCommand pf rnd sd one two net1 net2 out cfg o f ids t = .ok (d', t')) :
    ∃ a1 a2 d r, parseAgent one = .ok a1 ∧ parseAgent two = .ok a2 ∧ out = some (some d) ∧
      play (G := G) pf rnd { agent := a1, net := net1 } { agent := a2, net := net2 } cfg o f t = .ok (r, t') ∧
      d' = saveGames sd (r.games.map (Rec.saved ids)) d := by
  obtain ⟨a1, t1, h1, k1⟩ := M.bind_ok.1 h
  obtain ⟨e1, rfl⟩ := M.lift_ok.1 h1
  obtain ⟨a2, t2, h2, k2⟩ := M.bind_ok.1 k1
  obtain ⟨e2, rfl⟩ := M.lift_ok.1 h2
  obtain ⟨d1, t3, h3, k3⟩ := M.bind_ok.1 k2
  obtain ⟨e3, rfl⟩ := M.lift_ok.1 h3
  obtain ⟨d, t4, h4, k4⟩ := M.bind_ok.1 k3
  obtain ⟨e4, rfl⟩ := M.lift_ok.1 h4
  obtain ⟨r, t5, h5, k5⟩ := M.bind_ok.1 k4
  obtain ⟨-, -⟩ := M.pure_ok.1 k5
  refine ⟨a1, a2, d, r, e1, e2, ?_, h5, rfl⟩
  cases out with
  | none => cases e3
  | some d0 =>
    obtain rfl := Except.ok.inj e3
    cases d0 with
    | none => cases e4
    | some d0 => rw [Except.ok.inj e4]

theorem command_loads {G : Game} (hid : Ids G) {pf : Profile} {rnd : Rat → Rat} {sd : Serde G.S} {P : G.S → Prop} (hs : sd.Keeps P)
    {one two : Option Name} {net1 net2 : Option (Net Fl)} {d d' d'' : Dir} {cfg : Config} {o : Orders} (ho : o.Valid) {f : Nat}
    {ids : Nat → Name} {t t' : Tape}
    (hf : ∀ (p1 p2 : Player Fl) (r : PlayResult G), play pf rnd p1 p2 cfg o f t = .ok (r, t') →
      ∀ g ∈ r.games, FitsGame P (g.saved ids))
    (hi : ∀ i j, i < 400 → j < 400 → ids i = ids j → i = j) (hd : ∀ e ∈ d, ¬ jsonExt <:+ e.1)
    (h : playCommand pf rnd sd one two net1 net2 (some (some d)) cfg o f ids t = .ok (d', t')) (hp : d''.Perm d') :
    ∃ a1 a2 r l, play (G := G) pf rnd { agent := a1, net := net1 } { agent := a2, net := net2 } cfg o f t = .ok (r, t') ∧
      loadAllGames sd d'' = some l ∧ l.Perm (r.games.map (Rec.saved ids)) ∧ l.length = 400 := by
  obtain ⟨a1, a2, d0, r, -, -, h1, h2, rfl⟩ := playCommand_ok h
  obtain rfl := Option.some.inj (Option.some.inj h1)
  obtain ⟨m, -, -, h3, -⟩ := accounted hid ho h2
  obtain ⟨l, h4, h5⟩ := C72_any hs (gs := r.games.map (Rec.saved ids))
    (fun g hg => by
      obtain ⟨g', hg', rfl⟩ := List.mem_map.1 hg
      exact hf _ _ _ h2 g' hg') (nodup_ids h3 hi) hd hp
  refine ⟨a1, a2, r, l, h2, h4, h5, ?_⟩
  have h6 := h3.keys.length_eq
  rw [List.length_map, List.length_range] at h6
  rw [h5.length_eq, List.length_map, h6]

theorem command_of {G : Game} {pf : Profile} {rnd : Rat → Rat} {sd : Serde G.S} {one two : Option Name}
    {net1 net2 : Option (Net Fl)} {d : Dir} {cfg : Config} {o : Orders} {f : Nat} {ids : Nat → Name} {t t' : Tape} {a1 a2 : Agent}
    {r : PlayResult G} (h1 : parseAgent one = .ok a1) (h2 : parseAgent two = .ok a2)
    (h : play pf rnd { agent := a1, net := net1 } { agent := a2, net := net2 } cfg o f t = .ok (r, t')) :
    playCommand pf rnd sd one two net1 net2 (some (some d)) cfg o f ids t =
      .ok (saveGames sd (r.games.map (Rec.saved ids)) d, t') := by
  refine M.bind_ok.2 ⟨a1, t, M.lift_ok.2 ⟨h1, rfl⟩, M.bind_ok.2 ⟨a2, t, M.lift_ok.2 ⟨h2, rfl⟩, M.bind_ok.2 ⟨some d, t, rfl,
    M.bind_ok.2 ⟨d, t, rfl, M.bind_ok.2 ⟨r, t', h, rfl⟩⟩⟩⟩⟩

/-- C72 for the play command on TicTacToe: if the random ids are different and the output directory had no `.json` entry,
then after the command `load_all_games` on that directory, in whatever order it is listed, returns the 400 games of the
match. -/
theorem C72_tictactoe {pf : Profile} {rnd : Rat → Rat} {one two : Option Name} {net1 net2 : Option (Net Fl)}
    {d d' d'' : Dir} {cfg : Config} {o : Orders} (ho : o.Valid) {f : Nat} {ids : Nat → Name} {t t' : Tape}
    (hi : ∀ i j, i < 400 → j < 400 → ids i = ids j → i = j) (hd : ∀ e ∈ d, ¬ jsonExt <:+ e.1)
    (h : playCommand (G := TTT.game pf) pf rnd tttSerde one two net1 net2 (some (some d)) cfg o f ids t = .ok (d', t'))
    (hp : d''.Perm d') :
    ∃ a1 a2 r l, play (G := TTT.game pf) pf rnd { agent := a1, net := net1 } { agent := a2, net := net2 } cfg o f t = .ok (r, t') ∧
      loadAllGames tttSerde d'' = some l ∧ l.Perm (r.games.map (Rec.saved ids)) ∧ l.length = 400 :=
  command_loads (ttt_ids pf) tttSerde_keeps ho (fun _ _ _ h => fits_ttt ho h ids) hi hd h hp

/-- C72 for the play command on Backgammon. -/
theorem C72_backgammon {pf : Profile} {rnd : Rat → Rat} {one two : Option Name} {net1 net2 : Option (Net Fl)}
    {d d' d'' : Dir} {cfg : Config} {o : Orders} (ho : o.Valid) {f : Nat} {ids : Nat → Name} {t t' : Tape}
    (hi : ∀ i j, i < 400 → j < 400 → ids i = ids j → i = j) (hd : ∀ e ∈ d, ¬ jsonExt <:+ e.1)
    (h : playCommand (G := BG.game pf) pf rnd bgSerde one two net1 net2 (some (some d)) cfg o f ids t = .ok (d', t'))
    (hp : d''.Perm d') :
    ∃ a1 a2 r l, play (G := BG.game pf) pf rnd { agent := a1, net := net1 } { agent := a2, net := net2 } cfg o f t = .ok (r, t') ∧
      loadAllGames bgSerde d'' = some l ∧ l.Perm (r.games.map (Rec.saved ids)) ∧ l.length = 400 :=
  command_loads (bg_ids pf) bgSerde_keeps ho (fun _ _ _ h => fits_bg ho h ids) hi hd h hp

/-- C72: what the loaded games say.  For each game of the match there is one file; it names the players, the winner of
the game that was played, and the position in which it began. -/
theorem C72_content {G : Game} (hid : Ids G) {pf : Profile} {rnd : Rat → Rat} {p1 p2 : Player Fl} {cfg : Config} {o : Orders}
    (ho : o.Valid) {f : Nat} {t t' : Tape} {r : PlayResult G} (h : play pf rnd p1 p2 cfg o f t = .ok (r, t')) {ids : Nat → Name}
    {l : List (SavedGame G.S)} (hl : l.Perm (r.games.map (Rec.saved ids))) :
    ∃ m, Behind pf rnd p1 p2 cfg 400 400 o f t t' r m ∧ ∀ i < 400, ∃ g ∈ l, g.id = ids i ∧ g.player1 = p1.agent ∧
      g.player2 = p2.agent ∧ g.winner = winnerAgent p1.agent p2.agent (outcome (m.steps i)) ∧
      ∃ s, Linked G g.initial (m.steps i) s := by
  obtain ⟨m, h1, -, h2, -⟩ := accounted hid ho h
  refine ⟨m, h1, fun i hi => ?_⟩
  obtain ⟨g, hg, rfl⟩ := List.mem_map.1 (h2.keys.mem_iff.2 (List.mem_range.2 hi))
  exact ⟨g.saved ids, hl.mem_iff.2 (List.mem_map.2 ⟨g, hg, rfl⟩), rfl, (h2.players.2.2 g hg).1, (h2.players.2.2 g hg).2,
    h2.winner g hg, (h2.finished g hg).1⟩

/-- A match of random players on TicTacToe always ends, so the hypotheses can be met: the command succeeds for every
source of random numbers. -/
theorem C72_runs (pf : Profile) (rnd : Rat → Rat) (d : Dir) (ids : Nat → Name) (t : Tape) :
    ∃ d' t', playCommand (G := TTT.game pf) (Fl := demoFloats) pf rnd tttSerde (some ['R', 'a', 'n', 'd', 'o', 'm'])
      (some ['r', 'a', 'n', 'd', 'o', 'm']) none none (some (some d)) demoConfig demoOrders 9 ids t = .ok (d', t') := by
  obtain ⟨r, t', h⟩ := ttt_returns pf pf rnd (p1 := randomPlayer) (p2 := randomPlayer) (cfg := demoConfig)
    (.inl rfl) (.inl rfl) 400 400 demoOrders_valid t
  exact ⟨_, t', command_of rfl rfl h⟩

example : jsonExt <:+ (['x'] ++ jsonExt : Name) := ⟨['x'], rfl⟩

/-! ## C73: replaying a saved game -/

/-- C73 as stated, for TicTacToe: the states printed for the record of a game are the states of the game, from the initial
one on. -/
def C73_statement : Prop :=
  ∀ (pf : Profile) (rnd : Rat → Rat) (Fl : Floats) (p1 p2 : Player Fl) (cfg : Config) (n : Nat) (o : Orders) (f : Nat) (t t' : Tape)
    (r : PlayResult (TTT.game pf)) (m : Match (TTT.game pf)) (ids : Nat → Name), o.Valid →
    Behind pf rnd p1 p2 cfg n 400 o f t t' r m →
    ∀ g ∈ r.games, printedStates (g.saved ids) = g.initial :: (m.steps g.key).map Step.after

/-- Whatever is recorded, every state printed after a turn is the initial one. -/
theorem C73_constant {S : Type} (g : SavedGame S) : ∀ s ∈ printedStates g, s = g.initial := by
  intro s hs
  rcases List.mem_cons.1 hs with h | h
  · exact h
  · obtain ⟨_, -, h⟩ := List.mem_map.1 h
    exact h.symm

/-- For a game returned by `play` nothing but the initial state is printed. -/
theorem C73_only_initial {G : Game} (hid : Ids G) {pf : Profile} {rnd : Rat → Rat} {p1 p2 : Player Fl} {cfg : Config} {n limit : Nat}
    {o : Orders} (ho : o.Valid) {f : Nat} {t t' : Tape} {r : PlayResult G}
    (h : playN pf rnd p1 p2 cfg n limit o f t = .ok (r, t')) (ids : Nat → Name) :
    ∀ g ∈ r.games, printedStates (g.saved ids) = [g.initial] := by
  obtain ⟨m, -, -, -, -, h1⟩ := accounted hid ho h
  intro g hg
  rw [printedStates, Rec.saved, h1 g hg]
  rfl

/-- C73 is false: every game has a step, but only the initial state is printed. -/
theorem C73_refuted : ¬ C73_statement := by
  intro h
  obtain ⟨r, t', h1⟩ := ttt_returns .debug .debug (fun x => x) (p1 := randomPlayer) (p2 := randomPlayer) (cfg := demoConfig)
    (.inl rfl) (.inl rfl) 1 400 demoOrders_valid demoTape
  obtain ⟨m, h2, -, h3, -⟩ := accounted (ttt_ids .debug) demoOrders_valid h1
  have hlen : r.games.length = 1 := by
    have := h3.keys.length_eq
    rwa [List.length_map, List.length_range] at this
  obtain ⟨g, hg⟩ := List.exists_mem_of_length_pos (by omega : 0 < r.games.length)
  have h4 := h _ _ _ _ _ _ _ _ _ _ _ r m (fun _ => []) demoOrders_valid h2 g hg
  rw [C73_only_initial (ttt_ids .debug) demoOrders_valid h1 (fun _ => []) g hg] at h4
  have h5 := (C56_empty (ttt_ids .debug) demoOrders_valid h2 g hg).2
  have h6 := congrArg List.length h4
  simp only [List.length_cons, List.length_nil, List.length_map] at h6
  exact h5 (List.length_eq_zero_iff.1 (by omega))

/-- What holds: the first state printed is the initial one, and one state is printed for each recorded turn.  Missing
for the full statement: the states after the turns; there it is false (`C73_refuted`). -/
theorem C73_partial {S : Type} (g : SavedGame S) :
    (printedStates g).head? = some g.initial ∧ (printedStates g).length = g.turns.length + 1 := by
  simp [printedStates]

example : (printedStates demoGame).length = 2 := rfl

/-! ## C75: agents on the command line -/

/-- Letter `c` is the lower case letter `d` or its capital. -/
def LetterIs (c d : Char) : Prop := c = d ∨ c.toNat + 32 = d.toNat

/-- The name of a player on the command line. -/
inductive AgentNamed : Name → Agent → Prop
  | model : AgentNamed ['m', 'o', 'd', 'e', 'l'] .model
  | mcts : AgentNamed ['m', 'c', 't', 's'] .mcts
  | random : AgentNamed ['r', 'a', 'n', 'd', 'o', 'm'] .random

theorem toLower_eq {c d : Char} (hd : 97 ≤ d.toNat ∧ d.toNat ≤ 122) : c.toLower = d ↔ LetterIs c d := by
  unfold LetterIs Char.toLower
  split
  · next h =>
    have h1 : 65 ≤ c.toNat ∧ c.toNat ≤ 90 := ⟨h.1, h.2⟩
    rw [← Char.toNat_inj (c := c) (d := d)]
    rw [← Char.toNat_inj]
    show (c.val + ('a'.val - 'A'.val)).toNat = d.toNat ↔ _
    rw [UInt32.toNat_add]
    have h2 : ('a'.val - 'A'.val).toNat = 32 := by decide
    have h3 : c.val.toNat = c.toNat := rfl
    rw [h2, h3, Nat.mod_eq_of_lt (by omega)]
    omega
  · next h =>
    have h1 : ¬ (65 ≤ c.toNat ∧ c.toNat ≤ 90) := fun h' => h ⟨h'.1, h'.2⟩
    constructor
    · exact Or.inl
    · rintro (h2 | h2)
      · exact h2
      · omega

/-- C75: an agent is accepted exactly if it is one of the three names, letter by letter up to capitals. -/
theorem C75_agents (s : Name) (a : Agent) : parseAgent (some s) = .ok a ↔ ∃ n, AgentNamed n a ∧ List.Forall₂ LetterIs s n := by
  have key : ∀ n : Name, (∀ d ∈ n, 97 ≤ d.toNat ∧ d.toNat ≤ 122) → ∀ s : Name,
      (s.map Char.toLower = n ↔ List.Forall₂ LetterIs s n) := by
    intro n
    induction n with
    | nil => intro _ s; cases s <;> simp
    | cons d n ih =>
      intro hn s
      cases s with
      | nil => simp
      | cons c s =>
        rw [List.map_cons, List.cons_eq_cons, List.forall₂_cons, toLower_eq (hn d (by simp)),
          ih (fun e he => hn e (by simp [he])) s]
  have k1 := key ['m', 'o', 'd', 'e', 'l'] (by decide) s
  have k2 := key ['m', 'c', 't', 's'] (by decide) s
  have k3 := key ['r', 'a', 'n', 'd', 'o', 'm'] (by decide) s
  unfold parseAgent
  simp only
  constructor
  · intro h
    split at h
    · next e => obtain rfl := Except.ok.inj h; exact ⟨_, .model, k1.1 e⟩
    split at h
    · next e => obtain rfl := Except.ok.inj h; exact ⟨_, .mcts, k2.1 e⟩
    split at h
    · next e => obtain rfl := Except.ok.inj h; exact ⟨_, .random, k3.1 e⟩
    · cases h
  · rintro ⟨n, hn, hs⟩
    cases hn with
    | model => rw [k1.2 hs]; rfl
    | mcts => rw [k2.2 hs]; rfl
    | random => rw [k3.2 hs]; rfl

/-- Without an agent the command stops at once. -/
theorem C75_missing : parseAgent none = .error .explicitPanic := rfl

example : parseAgent (some ['M', 'C', 't', 's']) = .ok .mcts := by decide
example : parseAgent (some ['h', 'u', 'm', 'a', 'n']) = .error .explicitPanic := by decide

/-! ## C76: network players have a network -/

/-- C76 as stated: if the command line is accepted, each network player has a network. -/
def C76_statement : Prop :=
  ∀ (Fl : Floats) (pf : Profile) (rnd : Rat → Rat) (cfg : Config) (o : Orders) (f : Nat) (ids : Nat → Name) (t : Tape) (d : Dir)
    (one two : Option Name) (net1 net2 : Option (Net Fl)), o.Valid →
    playCommand (G := TTT.game pf) pf rnd tttSerde one two net1 net2 (some (some d)) cfg o f ids t ≠ .error .unwrapNone

/-- A network player without network: the match panics in its first round, in both games, whatever the second player
is. -/
theorem first_round_panics {G : Game} {R : G.S → Prop} (hb : Begins G R) {n : Nat} (hn : 2 ≤ n)
    (hp : ∀ i u s u', initState G n i u = .ok (s, u') → G.player s = if i < n / 2 then -1 else 1) (pf : Profile)
    (rnd : Rat → Rat) (p2 : Player Fl) (cfg : Config) (limit : Nat) {o : Orders} (ho : o.Valid) (f : Nat) (t : Tape) :
    playN (G := G) pf rnd { agent := .model, net := none } p2 cfg n limit o (f + 1) t = .error .unwrapNone := by
  obtain ⟨g, t', h1, h2, h3, -⟩ := initGames_half hb hp .model p2.agent t
  have hpos : 0 < toMove n g (-1) := by rw [h3]; omega
  obtain ⟨i, hi⟩ := List.exists_mem_of_length_pos hpos
  obtain ⟨hi1, hi2⟩ := List.mem_filter.1 hi
  obtain ⟨e, he, hpl⟩ : ∃ e, g i = some e ∧ G.player e.1 = -1 := by
    rcases hg : g i with _ | e
    · simp [hg] at hi2
    · rw [hg] at hi2; exact ⟨e, rfl, by simpa using hi2⟩
  refine M.bind_err ?_
  unfold playRun
  rw [M.bind_eq h1]
  rw [playLoop]
  have hk : i ∈ Match.keys n ({ games := g, played := [], wins1 := 0, wins2 := 0, steps := fun _ => [] } : Match G) :=
    List.mem_filter.2 ⟨hi1, by simp [he]⟩
  rw [if_neg (by
    intro h
    rw [List.isEmpty_iff] at h
    rw [h] at hk
    simp at hk)]
  refine M.bind_err ?_
  unfold playRound
  have hmem : e.1 ∈ ((o.map 0 (Match.keys n ({ games := g, played := [], wins1 := 0, wins2 := 0, steps := fun _ => [] } : Match G))).filterMap
      fun i => (g i).map Prod.fst) :=
    List.mem_filterMap.2 ⟨i, (ho.map 0 _).mem_iff.2 hk, by rw [he]; rfl⟩
  simp only [List.partition_eq_filter_filter]
  refine M.bind_err ?_
  unfold getActions
  rw [if_neg (by
    intro h
    rw [List.isEmpty_iff] at h
    have := List.mem_filter (p := fun s => decide (G.player s = -1)).2 ⟨hmem, decide_eq_true hpl⟩
    rw [h] at this
    simp at this)]
  rfl

/-- `play` itself, on TicTacToe. -/
theorem C76_panics_tictactoe (pf : Profile) (rnd : Rat → Rat) (p2 : Player Fl) (cfg : Config) {o : Orders} (ho : o.Valid)
    (f : Nat) (t : Tape) :
    play (G := TTT.game pf) pf rnd { agent := .model, net := none } p2 cfg o (f + 1) t = .error .unwrapNone :=
  first_round_panics (ttt_live_begins pf) (by omega) (fun i u s u' h => by
    rw [show s = _ from ttt_first h]
    rfl) pf rnd p2 cfg 400 ho f t

/-- `play` itself, on Backgammon. -/
theorem C76_panics_backgammon (pf : Profile) (rnd : Rat → Rat) (p2 : Player Fl) (cfg : Config) {o : Orders} (ho : o.Valid)
    (f : Nat) (t : Tape) :
    play (G := BG.game pf) pf rnd { agent := .model, net := none } p2 cfg o (f + 1) t = .error .unwrapNone :=
  first_round_panics (bg_begins pf) (by omega) (fun i u s u' h => by
    obtain ⟨d, hs, -⟩ := bg_first h
    rw [show s = _ from hs]
    rfl) pf rnd p2 cfg 400 ho f t

theorem command_panics {G : Game} {pf : Profile} {rnd : Rat → Rat} {sd : Serde G.S} {one two : Option Name}
    {net1 net2 : Option (Net Fl)} {d : Dir} {cfg : Config} {o : Orders} {f : Nat} {ids : Nat → Name} {t : Tape} {a1 a2 : Agent}
    {e : Panic} (h1 : parseAgent one = .ok a1) (h2 : parseAgent two = .ok a2)
    (h : play (G := G) pf rnd { agent := a1, net := net1 } { agent := a2, net := net2 } cfg o f t = .error e) :
    playCommand pf rnd sd one two net1 net2 (some (some d)) cfg o f ids t = .error e := by
  unfold playCommand
  rw [M.bind_eq (M.lift_ok.2 ⟨h1, rfl⟩), M.bind_eq (M.lift_ok.2 ⟨h2, rfl⟩), M.bind_eq (M.lift_ok.2 ⟨rfl, rfl⟩),
    M.bind_eq (M.lift_ok.2 ⟨rfl, rfl⟩), M.bind_err h]

/-- C76 is false: `--agent-one model` without a model path is accepted, and the match panics. -/
theorem C76_refuted : ¬ C76_statement := by
  intro h
  refine h demoFloats .debug (fun x => x) demoConfig demoOrders 1 (fun _ => []) demoTape [] (some ['m', 'o', 'd', 'e', 'l'])
    (some ['r', 'a', 'n', 'd', 'o', 'm']) none none demoOrders_valid ?_
  exact command_panics (a1 := .model) (a2 := .random) rfl rfl
    (C76_panics_tictactoe .debug _ { agent := .random, net := none } demoConfig demoOrders_valid 0 demoTape)

/-- What holds: with a network for each network player, at least one search iteration and a valid temperature (`Ready`)
the command on TicTacToe succeeds for all three kinds of agents.  Missing for the full statement: the case of a missing
path; there it is false (`C76_refuted`). -/
theorem C76_partial (pf : Profile) (rnd : Rat → Rat) {one two : Option Name} {a1 a2 : Agent} (h1 : parseAgent one = .ok a1)
    (h2 : parseAgent two = .ok a2) {net1 net2 : Option (Net Fl)} {cfg : Config} (r1 : Ready 9 true cfg ⟨a1, net1⟩)
    (r2 : Ready 9 true cfg ⟨a2, net2⟩) {o : Orders} (ho : o.Valid) (ids : Nat → Name) (d : Dir) (t : Tape) :
    ∃ d' t', playCommand (G := TTT.game pf) pf rnd tttSerde one two net1 net2 (some (some d)) cfg o 9 ids t = .ok (d', t') := by
  obtain ⟨r, t', h⟩ := ttt_returns pf pf rnd r1 r2 400 400 ho t
  exact ⟨_, t', command_of h1 h2 h⟩

example : Ready 9 true demoConfig (⟨.random, none⟩ : Player demoFloats) := .inl rfl

end DieE.Props.SG
