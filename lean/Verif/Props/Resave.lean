import Verif.Props.Saved

/-!
# C147: what can be loaded can be saved

Whatever text `load_game` accepts, the game it returns lies within the types of its fields, so that saving it again and
loading the new text gives the same game.
-/

namespace DieE.Props.Rs
open DieE DieE.Versus DieE.Text
open DieE.Train (Name)

/-- Everything that is read satisfies `P`. -/
def Sound {α : Type} (s : Serde α) (P : α → Prop) : Prop := ∀ j x, s.de j = some x → P x

theorem int_sound (lo hi : Int) : Sound (intSerde lo hi) fun n => lo ≤ n ∧ n ≤ hi := by
  intro j x h
  cases j with
  | num n =>
    simp only [intSerde] at h
    split at h
    · next hn =>
      obtain rfl := Option.some.inj h
      exact hn
    · exact absurd h (by simp)
  | _ => exact absurd h (by simp [intSerde])

theorem usize_sound : Sound usizeSerde fun n => n < 18446744073709551616 := by
  intro j x h
  cases j with
  | num n =>
    simp only [usizeSerde] at h
    split at h
    · next hn =>
      obtain rfl := Option.some.inj h
      omega
    · exact absurd h (by simp)
  | _ => exact absurd h (by simp [usizeSerde])

theorem pair_sound {α β : Type} {a : Serde α} {b : Serde β} {P : α → Prop} {Q : β → Prop} (ha : Sound a P) (hb : Sound b Q) :
    Sound (pairSerde a b) fun p => P p.1 ∧ Q p.2 := by
  intro j x h
  simp only [pairSerde] at h
  split at h
  · simp only [Option.bind_eq_bind, Option.bind_eq_some_iff] at h
    obtain ⟨u, h1, v, h2, h3⟩ := h
    obtain rfl := Option.some.inj h3
    exact ⟨ha _ _ h1, hb _ _ h2⟩
  · exact absurd h (by simp)

theorem mapM_sound {α : Type} {a : Serde α} {P : α → Prop} (ha : Sound a P) (l : List Json) :
    ∀ {x : List α}, l.mapM a.de = some x → ∀ y ∈ x, P y := by
  induction l with
  | nil =>
    intro x h
    obtain rfl := Option.some.inj h
    simp
  | cons j l ih =>
    intro x h
    simp only [List.mapM_cons, Option.bind_eq_bind, Option.bind_eq_some_iff] at h
    obtain ⟨y, h1, ys, h2, h3⟩ := h
    obtain rfl := Option.some.inj h3
    exact List.forall_mem_cons.2 ⟨ha _ _ h1, ih h2⟩

theorem vec_sound {α : Type} {a : Serde α} {P : α → Prop} (ha : Sound a P) : Sound (vecSerde a) fun l => ∀ x ∈ l, P x := by
  intro j x h
  simp only [vecSerde] at h
  split at h
  · exact mapM_sound ha _ h
  · exact absurd h (by simp)

theorem array_sound {α : Type} {a : Serde α} {P : α → Prop} (ha : Sound a P) (n : Nat) :
    Sound (arraySerde a n) fun v => ∀ x ∈ v.toList, P x := by
  intro j x h
  simp only [arraySerde] at h
  split at h
  · simp only [Option.bind_eq_bind, Option.bind_eq_some_iff] at h
    obtain ⟨l, h1, h2⟩ := h
    split at h2
    · obtain rfl := Option.some.inj h2
      exact mapM_sound ha _ h1
    · exact absurd h2 (by simp)
  · exact absurd h (by simp)

theorem opt_sound {α : Type} {a : Serde α} {P : α → Prop} (ha : Sound a P) : Sound (optSerde a) fun o => ∀ x, o = some x → P x := by
  intro j o h x hx
  subst hx
  simp only [optSerde] at h
  split at h
  · exact absurd h (by simp)
  · obtain ⟨y, h1, h2⟩ := Option.map_eq_some_iff.1 h
    obtain rfl := Option.some.inj h2
    exact ha _ _ h1

theorem u8_sound : Sound (pairSerde u8Serde u8Serde) FitsU8 := pair_sound (int_sound 0 255) (int_sound 0 255)

theorem board_sound : Sound boardSerde FitsBoard := by
  intro j x h
  simp only [boardSerde] at h
  split at h
  · simp only [Option.bind_eq_bind, Option.bind_eq_some_iff] at h
    obtain ⟨p, h1, u, h2, c, h3, h4⟩ := h
    obtain rfl := Option.some.inj h4
    exact ⟨array_sound (int_sound (-128) 127) 24 _ _ h1, u8_sound _ _ h2, u8_sound _ _ h3⟩
  · exact absurd h (by simp)

theorem bg_sound : Sound bgSerde FitsBG := by
  intro j x h
  simp only [bgSerde] at h
  split at h
  · simp only [Option.bind_eq_bind, Option.bind_eq_some_iff] at h
    obtain ⟨_, -, b, h1, _, -, r, h2, _, -, p, h3, _, -, s, -, _, -, i, h4, h5⟩ := h
    obtain rfl := Option.some.inj h5
    exact ⟨board_sound _ _ h1, u8_sound _ _ h2, int_sound (-128) 127 _ _ h3, usize_sound _ _ h4⟩
  · simp only [Option.bind_eq_bind, Option.bind_eq_some_iff] at h
    obtain ⟨b, h1, r, h2, p, h3, s, -, i, h4, h5⟩ := h
    obtain rfl := Option.some.inj h5
    exact ⟨board_sound _ _ h1, u8_sound _ _ h2, int_sound (-128) 127 _ _ h3, usize_sound _ _ h4⟩
  · exact absurd h (by simp)

theorem ttt_sound : Sound tttSerde FitsTTT := by
  intro j x h
  simp only [tttSerde] at h
  split at h
  · simp only [Option.bind_eq_bind, Option.bind_eq_some_iff] at h
    obtain ⟨_, -, p, h1, _, -, b, h2, _, -, i, h3, h4⟩ := h
    obtain rfl := Option.some.inj h4
    exact ⟨int_sound (-128) 127 _ _ h1, array_sound (int_sound (-128) 127) 9 _ _ h2, usize_sound _ _ h3⟩
  · simp only [Option.bind_eq_bind, Option.bind_eq_some_iff] at h
    obtain ⟨p, h1, b, h2, i, h3, h4⟩ := h
    obtain rfl := Option.some.inj h4
    exact ⟨int_sound (-128) 127 _ _ h1, array_sound (int_sound (-128) 127) 9 _ _ h2, usize_sound _ _ h3⟩
  · exact absurd h (by simp)

theorem turn_sound {S : Type} {s : Serde S} {P : S → Prop} (hs : Sound s P) : Sound (turnSerde s) (FitsTurn P) := by
  intro j x h
  simp only [turnSerde] at h
  split at h
  · simp only [Option.bind_eq_bind, Option.bind_eq_some_iff] at h
    obtain ⟨_, -, r, h1, _, -, a, h2, _, -, p, -, h3⟩ := h
    obtain rfl := Option.some.inj h3
    exact ⟨opt_sound u8_sound _ _ h1, vec_sound hs _ _ h2⟩
  · simp only [Option.bind_eq_bind, Option.bind_eq_some_iff] at h
    obtain ⟨r, h1, a, h2, p, -, h3⟩ := h
    obtain rfl := Option.some.inj h3
    exact ⟨opt_sound u8_sound _ _ h1, vec_sound hs _ _ h2⟩
  · exact absurd h (by simp)

theorem game_sound {S : Type} {s : Serde S} {P : S → Prop} (hs : Sound s P) : Sound (gameSerde s) (FitsGame P) := by
  intro j x h
  simp only [gameSerde] at h
  split at h
  · simp only [Option.bind_eq_bind, Option.bind_eq_some_iff] at h
    obtain ⟨_, -, i, -, _, -, p, -, _, -, q, -, _, -, t, h1, _, -, w, -, _, -, n, h2, h3⟩ := h
    obtain rfl := Option.some.inj h3
    exact ⟨vec_sound (turn_sound hs) _ _ h1, hs _ _ h2⟩
  · simp only [Option.bind_eq_bind, Option.bind_eq_some_iff] at h
    obtain ⟨i, -, p, -, q, -, t, h1, w, -, n, h2, h3⟩ := h
    obtain rfl := Option.some.inj h3
    exact ⟨vec_sound (turn_sound hs) _ _ h1, hs _ _ h2⟩
  · exact absurd h (by simp)

theorem load_sound {S : Type} {s : Serde S} {P : S → Prop} (hs : Sound s P) {t : Name} {g : SavedGame S} (h : loadText s t = some g) :
    FitsGame P g := by
  unfold loadText at h
  obtain ⟨j, -, h⟩ := Option.bind_eq_some_iff.1 h
  exact game_sound hs _ _ h

/-- C147 for TicTacToe. -/
theorem C147_tictactoe {t : Name} {g : SavedGame TTT.State} (h : loadText tttSerde t = some g) :
    FitsGame FitsTTT g ∧ loadText tttSerde (text ((gameSerde tttSerde).ser g)) = some g :=
  ⟨load_sound ttt_sound h, loadText_save tttSerde_keeps (load_sound ttt_sound h)⟩

/-- C147 for Backgammon. -/
theorem C147_backgammon {t : Name} {g : SavedGame BG.State} (h : loadText bgSerde t = some g) :
    FitsGame FitsBG g ∧ loadText bgSerde (text ((gameSerde bgSerde).ser g)) = some g :=
  ⟨load_sound bg_sound h, loadText_save bgSerde_keeps (load_sound bg_sound h)⟩

/-- C147: two texts are loaded as the same game if and only if the games are saved as the same text. -/
theorem C147_normal {t u : Name} {g g' : SavedGame BG.State} (h : loadText bgSerde t = some g) (h' : loadText bgSerde u = some g') :
    g = g' ↔ text ((gameSerde bgSerde).ser g) = text ((gameSerde bgSerde).ser g') := by
  refine ⟨fun e => by rw [e], fun e => ?_⟩
  have h1 := (C147_backgammon h).2
  rw [e, (C147_backgammon h').2] at h1
  exact (Option.some.inj h1).symm

/-- A text written by hand: arrays for structures, an object for a player, a surplus field with a float, another order. -/
def handmade : Name := "{\"winner\":{\"None\":null},\"turns\":[],\"id\":\"a\\uD83D\\uDE00\",\"note\":-1.5e3,\"player1\":\"Random\",
  \"initial_state\":[-1,[0,0,0,0,1,0,0,0,0],7],\"player2\":\"Mcts\"}".toList

/-- It is accepted. -/
example : (loadText tttSerde handmade).map (fun g => (g.initial.board.toList, g.initial.id, g.turns.length, g.id.length)) =
    some ([0, 0, 0, 0, 1, 0, 0, 0, 0], 7, 0, 2) := by decide +kernel

/-- It is not what `save_game` writes, but saving it again loses nothing. -/
example : ∃ g, loadText tttSerde handmade = some g ∧ loadText tttSerde (text ((gameSerde tttSerde).ser g)) = some g := by
  have h : (loadText tttSerde handmade).isSome = true := by decide +kernel
  obtain ⟨g, hg⟩ := Option.isSome_iff_exists.1 h
  exact ⟨g, hg, (C147_tictactoe hg).2⟩

/-- A fraction in a field with a type, a missing field and a square out of range are errors. -/
example : loadText tttSerde "[\"a\",\"Random\",\"Mcts\",[],\"None\",[-1,[0,0,0,0,1.0,0,0,0,0],7]]".toList = none ∧
    loadText tttSerde "[\"a\",\"Random\",\"Mcts\",[],\"None\",[-1,[0,0,0,0,200,0,0,0,0],7]]".toList = none ∧
    loadText tttSerde "[\"a\",\"Random\",\"Mcts\",[],\"None\"]".toList = none := by
  refine ⟨?_, ?_, ?_⟩ <;> rw [← Option.isNone_iff_eq_none] <;> decide +kernel

end DieE.Props.Rs
