import Verif.Versus.Saved
import Verif.Text.JsonFacts

/-!
# Values survive being written and read
-/

namespace DieE.Versus
open DieE.Train (Name)
open DieE.Text

/-- Values satisfying `P` are read back. -/
def Serde.Keeps {α : Type} (s : Serde α) (P : α → Prop) : Prop := ∀ x, P x → s.de (s.ser x) = some x

theorem intSerde_keeps (lo hi : Int) : (intSerde lo hi).Keeps fun n => lo ≤ n ∧ n ≤ hi := fun _ h => if_pos h

theorem usizeSerde_keeps : usizeSerde.Keeps fun n => n < 18446744073709551616 := by
  intro n h
  have : (0 : Int) ≤ (n : Int) ∧ (n : Int) < 18446744073709551616 := ⟨by omega, by omega⟩
  simp only [usizeSerde, if_pos this, Int.toNat_natCast]

theorem boolSerde_keeps : boolSerde.Keeps fun _ => True := fun _ _ => rfl

theorem strSerde_keeps : strSerde.Keeps fun _ => True := fun _ _ => rfl

theorem pairSerde_keeps {α β : Type} {a : Serde α} {b : Serde β} {P : α → Prop} {Q : β → Prop} (ha : a.Keeps P)
    (hb : b.Keeps Q) : (pairSerde a b).Keeps fun p => P p.1 ∧ Q p.2 := by
  rintro ⟨x, y⟩ ⟨h1, h2⟩
  simp [pairSerde, ha x h1, hb y h2]

theorem mapM_ser {α : Type} {a : Serde α} {P : α → Prop} (ha : a.Keeps P) (l : List α) (h : ∀ x ∈ l, P x) :
    (l.map a.ser).mapM a.de = some l := by
  induction l with
  | nil => rfl
  | cons x l ih =>
    simp only [List.map_cons, List.mapM_cons, ha x (h x (by simp)), ih fun y hy => h y (by simp [hy])]
    rfl

theorem vecSerde_keeps {α : Type} {a : Serde α} {P : α → Prop} (ha : a.Keeps P) : (vecSerde a).Keeps fun l => ∀ x ∈ l, P x :=
  fun l h => mapM_ser ha l h

theorem arraySerde_keeps {α : Type} {a : Serde α} {P : α → Prop} (ha : a.Keeps P) (n : Nat) :
    (arraySerde a n).Keeps fun v => ∀ x ∈ v.toList, P x := by
  intro v h
  simp only [arraySerde, mapM_ser ha _ h, Option.bind_eq_bind, Option.bind_some]
  rw [dif_pos (by simp)]
  congr

theorem optSerde_keeps {α : Type} {a : Serde α} {P : α → Prop} (ha : a.Keeps P) (hn : ∀ x, a.ser x ≠ .null) :
    (optSerde a).Keeps fun o => ∀ x, o = some x → P x := by
  intro o h
  cases o with
  | none => rfl
  | some x =>
    show (optSerde a).de (a.ser x) = _
    have h1 := ha x (h x rfl)
    rcases hj : a.ser x with _ | _ | _ | _ | _ | _
    · exact absurd hj (hn x)
    all_goals (rw [hj] at h1; simp only [optSerde, h1, Option.map_some])

theorem agentSerde_keeps : agentSerde.Keeps fun _ => True := by
  intro a _
  cases a <;> rfl

/-- The values of a pair of dice or counters fit into `u8`. -/
def FitsU8 (p : Int × Int) : Prop := (0 ≤ p.1 ∧ p.1 ≤ 255) ∧ (0 ≤ p.2 ∧ p.2 ≤ 255)

/-- The board fits into its type. -/
def FitsBoard (b : BG.Board) : Prop := (∀ x ∈ b.pts.toList, -128 ≤ x ∧ x ≤ 127) ∧ FitsU8 b.hit ∧ FitsU8 b.col

/-- The state fits into `struct Backgammon`. -/
def FitsBG (g : BG.State) : Prop := FitsBoard g.board ∧ FitsU8 g.roll ∧ (-128 ≤ g.player ∧ g.player ≤ 127) ∧ g.id < 18446744073709551616

/-- The state fits into `struct TicTacToe`. -/
def FitsTTT (g : TTT.State) : Prop :=
  (-128 ≤ g.player ∧ g.player ≤ 127) ∧ (∀ x ∈ g.board.toList, -128 ≤ x ∧ x ≤ 127) ∧ g.id < 18446744073709551616

/-- The rolls and states of a turn fit. -/
def FitsTurn {S : Type} (P : S → Prop) (t : SavedTurn S) : Prop := (∀ x, t.roll = some x → FitsU8 x) ∧ ∀ x ∈ t.action, P x

/-- The turns and the initial state of a game fit. -/
def FitsGame {S : Type} (P : S → Prop) (g : SavedGame S) : Prop := (∀ t ∈ g.turns, FitsTurn P t) ∧ P g.initial

theorem u8pair_keeps : (pairSerde u8Serde u8Serde).Keeps FitsU8 :=
  pairSerde_keeps (intSerde_keeps 0 255) (intSerde_keeps 0 255)

theorem boardSerde_keeps : boardSerde.Keeps FitsBoard := by
  rintro b ⟨h1, h2, h3⟩
  have e1 := arraySerde_keeps (intSerde_keeps (-128) 127) 24 b.pts h1
  simp only [boardSerde, show i8Serde = intSerde (-128) 127 from rfl, e1, u8pair_keeps _ h2, u8pair_keeps _ h3,
    Option.bind_eq_bind, Option.bind_some]

theorem bgSerde_keeps : bgSerde.Keeps FitsBG := by
  rintro g ⟨h1, h2, h3, h4⟩
  have e3 : i8Serde.de (i8Serde.ser g.player) = some g.player := intSerde_keeps (-128) 127 _ h3
  have f1 : ∀ a b c d e, field kBoard [(kBoard, a), (kRoll, b), (kPlayer, c), (kSecond, d), (kId, e)] = some a :=
    fun _ _ _ _ _ => rfl
  have f2 : ∀ a b c d e, field kRoll [(kBoard, a), (kRoll, b), (kPlayer, c), (kSecond, d), (kId, e)] = some b :=
    fun _ _ _ _ _ => rfl
  have f3 : ∀ a b c d e, field kPlayer [(kBoard, a), (kRoll, b), (kPlayer, c), (kSecond, d), (kId, e)] = some c :=
    fun _ _ _ _ _ => rfl
  have f4 : ∀ a b c d e, field kSecond [(kBoard, a), (kRoll, b), (kPlayer, c), (kSecond, d), (kId, e)] = some d :=
    fun _ _ _ _ _ => rfl
  have f5 : ∀ a b c d e, field kId [(kBoard, a), (kRoll, b), (kPlayer, c), (kSecond, d), (kId, e)] = some e :=
    fun _ _ _ _ _ => rfl
  simp (implicitDefEqProofs := false) only [bgSerde, f1, f2, f3, f4, f5, Option.bind_eq_bind, Option.bind_some, boardSerde_keeps _ h1, u8pair_keeps _ h2,
    e3, boolSerde_keeps _ trivial, usizeSerde_keeps _ h4]

theorem tttSerde_keeps : tttSerde.Keeps FitsTTT := by
  rintro g ⟨h1, h2, h3⟩
  have e1 : i8Serde.de (i8Serde.ser g.player) = some g.player := intSerde_keeps (-128) 127 _ h1
  have e2 : (arraySerde i8Serde 9).de ((arraySerde i8Serde 9).ser g.board) = some g.board :=
    arraySerde_keeps (intSerde_keeps (-128) 127) 9 g.board h2
  have f1 : ∀ a b c, field kPlayer [(kPlayer, a), (kBoard, b), (kId, c)] = some a := fun _ _ _ => rfl
  have f2 : ∀ a b c, field kBoard [(kPlayer, a), (kBoard, b), (kId, c)] = some b := fun _ _ _ => rfl
  have f3 : ∀ a b c, field kId [(kPlayer, a), (kBoard, b), (kId, c)] = some c := fun _ _ _ => rfl
  simp (implicitDefEqProofs := false) only [tttSerde, f1, f2, f3, Option.bind_eq_bind, Option.bind_some, e1, e2, usizeSerde_keeps _ h3]

theorem turnSerde_keeps {S : Type} {s : Serde S} {P : S → Prop} (hs : s.Keeps P) : (turnSerde s).Keeps (FitsTurn P) := by
  rintro g ⟨h1, h2⟩
  have e1 := optSerde_keeps u8pair_keeps (fun x => by simp [pairSerde]) g.roll h1
  have f1 : ∀ a b c, optField kRoll [(kRoll, a), (kAction, b), (kPlayer, c)] = some a := fun _ _ _ => rfl
  have f2 : ∀ a b c, field kAction [(kRoll, a), (kAction, b), (kPlayer, c)] = some b := fun _ _ _ => rfl
  have f3 : ∀ a b c, field kPlayer [(kRoll, a), (kAction, b), (kPlayer, c)] = some c := fun _ _ _ => rfl
  simp only [turnSerde, f1, f2, f3, Option.bind_eq_bind, Option.bind_some, e1, vecSerde_keeps hs _ h2,
    agentSerde_keeps _ trivial]

theorem gameSerde_keeps {S : Type} {s : Serde S} {P : S → Prop} (hs : s.Keeps P) : (gameSerde s).Keeps (FitsGame P) := by
  rintro g ⟨h1, h2⟩
  have f1 : ∀ a b c d e f, field kId [(kId, a), (kPlayer1, b), (kPlayer2, c), (kTurns, d), (kWinner, e), (kInitial, f)] = some a :=
    fun _ _ _ _ _ _ => rfl
  have f2 : ∀ a b c d e f, field kPlayer1 [(kId, a), (kPlayer1, b), (kPlayer2, c), (kTurns, d), (kWinner, e), (kInitial, f)]
    = some b := fun _ _ _ _ _ _ => rfl
  have f3 : ∀ a b c d e f, field kPlayer2 [(kId, a), (kPlayer1, b), (kPlayer2, c), (kTurns, d), (kWinner, e), (kInitial, f)]
    = some c := fun _ _ _ _ _ _ => rfl
  have f4 : ∀ a b c d e f, field kTurns [(kId, a), (kPlayer1, b), (kPlayer2, c), (kTurns, d), (kWinner, e), (kInitial, f)]
    = some d := fun _ _ _ _ _ _ => rfl
  have f5 : ∀ a b c d e f, field kWinner [(kId, a), (kPlayer1, b), (kPlayer2, c), (kTurns, d), (kWinner, e), (kInitial, f)]
    = some e := fun _ _ _ _ _ _ => rfl
  have f6 : ∀ a b c d e f, field kInitial [(kId, a), (kPlayer1, b), (kPlayer2, c), (kTurns, d), (kWinner, e), (kInitial, f)]
    = some f := fun _ _ _ _ _ _ => rfl
  simp only [gameSerde, f1, f2, f3, f4, f5, f6, Option.bind_eq_bind, Option.bind_some, strSerde_keeps _ trivial,
    agentSerde_keeps _ trivial, vecSerde_keeps (turnSerde_keeps hs) _ h1, hs _ h2]

/-- The text of a saved game is read back. -/
theorem loadText_save {S : Type} {s : Serde S} {P : S → Prop} (hs : s.Keeps P) {g : SavedGame S} (hg : FitsGame P g) :
    loadText s (text ((gameSerde s).ser g)) = some g := by
  simp only [loadText, parse_text, Option.bind_eq_bind, Option.bind_some]
  exact gameSerde_keeps hs g hg

/-! ## Directories -/

theorem loadAllGames_append {S : Type} (s : Serde S) (d1 d2 : Dir) : loadAllGames s (d1 ++ d2) = (do
    let a ← loadAllGames s d1
    let b ← loadAllGames s d2
    some (a ++ b)) := by
  induction d1 with
  | nil => simp [loadAllGames]
  | cons e d1 ih =>
    obtain ⟨n, e⟩ := e
    cases e with
    | dir => simpa only [List.cons_append, loadAllGames] using ih
    | file t =>
      simp only [List.cons_append, loadAllGames]
      split
      · rw [ih]
        cases loadText s t with
        | none => rfl
        | some g =>
          cases loadAllGames s d1 with
          | none => rfl
          | some a =>
            cases loadAllGames s d2 <;> rfl
      · exact ih

/-- The order of the entries does not matter, up to the order of the games. -/
theorem loadAllGames_perm {S : Type} (s : Serde S) {d d' : Dir} (h : d.Perm d') {l : List (SavedGame S)}
    (hl : loadAllGames s d = some l) : ∃ l', loadAllGames s d' = some l' ∧ l'.Perm l := by
  induction h generalizing l with
  | nil => exact ⟨l, hl, .refl _⟩
  | cons x hp ih =>
    rw [← List.singleton_append, loadAllGames_append] at hl
    rename_i a b
    rw [← List.singleton_append (l := b), loadAllGames_append]
    simp only [Option.bind_eq_bind, Option.bind_eq_some_iff] at hl ⊢
    obtain ⟨u, h1, v, h2, h3⟩ := hl
    obtain rfl := Option.some.inj h3
    obtain ⟨v', h4, h5⟩ := ih h2
    exact ⟨u ++ v', ⟨u, h1, v', h4, rfl⟩, h5.append_left u⟩
  | swap x y c =>
    rw [show y :: x :: c = [y] ++ ([x] ++ c) from rfl, loadAllGames_append, loadAllGames_append] at hl
    rw [show x :: y :: c = [x] ++ ([y] ++ c) from rfl, loadAllGames_append, loadAllGames_append]
    simp only [Option.bind_eq_bind, Option.bind_eq_some_iff] at hl ⊢
    obtain ⟨u, h1, w, ⟨v, h2, z, h3, h4⟩, h5⟩ := hl
    obtain rfl := Option.some.inj h4
    obtain rfl := Option.some.inj h5
    refine ⟨v ++ (u ++ z), ⟨v, h2, u ++ z, ⟨u, h1, z, h3, rfl⟩, rfl⟩, ?_⟩
    rw [← List.append_assoc, ← List.append_assoc]
    exact List.perm_append_comm.append_right z
  | trans _ _ ih1 ih2 =>
    obtain ⟨l1, h1, h2⟩ := ih1 hl
    obtain ⟨l2, h3, h4⟩ := ih2 h1
    exact ⟨l2, h3, h4.trans h2⟩

theorem loadAllGames_other {S : Type} (s : Serde S) {d : Dir} (h : ∀ e ∈ d, jsonExt.isSuffixOf e.1 = false) :
    loadAllGames s d = some [] := by
  induction d with
  | nil => rfl
  | cons e d ih =>
    have h1 := ih fun e he => h e (by simp [he])
    obtain ⟨n, e⟩ := e
    have h2 : jsonExt.isSuffixOf n = false := h (n, e) (by simp)
    cases e with
    | dir => rw [loadAllGames, h1]
    | file t => rw [loadAllGames, h2]; simp [h1]

theorem saveGames_new {S : Type} (s : Serde S) (gs : List (SavedGame S)) (d : Dir)
    (h : ∀ e ∈ d, ∀ g ∈ gs, e.1 ≠ g.id ++ jsonExt) (hn : (gs.map SavedGame.id).Nodup) :
    saveGames s gs d = d ++ gs.map fun g => (g.id ++ jsonExt, .file (text ((gameSerde s).ser g))) := by
  induction gs generalizing d with
  | nil => simp [saveGames]
  | cons g gs ih =>
    rw [List.map_cons, List.nodup_cons] at hn
    have h1 : saveGame s g d = d ++ [(g.id ++ jsonExt, .file (text ((gameSerde s).ser g)))] := by
      unfold saveGame writeFile
      rw [List.filter_eq_self.2]
      intro e he
      simpa using h e he g (by simp)
    rw [saveGames, ih, h1, List.append_assoc, List.map_cons, List.singleton_append]
    · intro e he g' hg'
      rw [h1, List.mem_append, List.mem_singleton] at he
      rcases he with he | rfl
      · exact h e he g' (by simp [hg'])
      · intro e
        exact hn.1 (List.mem_map.2 ⟨g', hg', (List.append_cancel_right e).symm⟩)
    · exact hn.2

theorem loadAllGames_saved {S : Type} {s : Serde S} {P : S → Prop} (hs : s.Keeps P) (gs : List (SavedGame S))
    (hg : ∀ g ∈ gs, FitsGame P g) :
    loadAllGames s (gs.map fun g => (g.id ++ jsonExt, .file (text ((gameSerde s).ser g)))) = some gs := by
  induction gs with
  | nil => rfl
  | cons g gs ih =>
    rw [List.map_cons, loadAllGames, if_pos (by simp)]
    simp only [loadText_save hs (hg g (by simp)), ih fun g' h => hg g' (by simp [h]), Option.bind_eq_bind, Option.bind_some]

end DieE.Versus
