import Verif.Props.Rules

/-!
# C70: what `is_valid` accepts

`is_valid` (backgammon_logic.rs:433-452) adds up `i8` values, casting the `u8` counts of the bar and of the collected
checkers to `i8`.  In a release build it accepts a board exactly if both numbers of checkers are 15 modulo 256, in a
debug build it is exact as long as the `u8` counts are at most 127.

`Machine b` says that the numbers are values of the Rust types.
-/

namespace DieE.Props
open DieE DieE.BG DieE.Spec

/-- The numbers of the board are values of `[i8; 24]`, `(u8, u8)`, `(u8, u8)`. -/
structure Machine (b : Board) : Prop where
  pts : ∀ i : Nat, i < 24 → -128 ≤ b.pt i ∧ b.pt i ≤ 127
  hit : (0 ≤ b.hit.1 ∧ b.hit.1 ≤ 255) ∧ 0 ≤ b.hit.2 ∧ b.hit.2 ≤ 255
  col : (0 ≤ b.col.1 ∧ b.col.1 ≤ 255) ∧ 0 ≤ b.col.2 ∧ b.col.2 ≤ 255

/-- Both players own 15 checkers. -/
def Fifteen (b : Board) : Prop := ∀ s, (view b).total s = 15

/-- C70 as stated. -/
def C70_statement (pf : Profile) : Prop := ∀ g : State, Machine g.board → (isValid pf g = .ok () ↔ Fifteen g.board)

theorem res_bind' {α β : Type} {x : Res α} {f : α → Res β} {b : β} :
    (x >>= f) = .ok b ↔ ∃ a, x = .ok a ∧ f a = .ok b := by
  cases x with
  | error e => exact ⟨fun h => (by cases h), fun ⟨_, h, _⟩ => (by cases h)⟩
  | ok a => exact ⟨fun h => ⟨a, rfl, h⟩, fun ⟨_, h, k⟩ => by cases h; exact k⟩

theorem i8_release (x : Int) : i8 .release x = .ok (asI8 x) := by
  unfold i8 asI8
  split
  · congr 1; omega
  · rfl

theorem i8_debug {x y : Int} : i8 .debug x = .ok y ↔ (-128 ≤ x ∧ x ≤ 127) ∧ y = x := by
  unfold i8
  split
  · constructor
    · intro h; exact ⟨by assumption, (Except.ok.inj h).symm⟩
    · rintro ⟨_, rfl⟩; rfl
  · constructor
    · intro h; cases h
    · rintro ⟨h, _⟩; contradiction

theorem isValidCount_release (b : Board) (l : List Nat) (t1 t2 : Int) :
    ∃ u1 u2, isValidCount .release b l (t1, t2) = .ok (u1, u2) ∧
      u1 % 256 = (t1 + (l.map fun (i : Nat) => ((view b).men .neg i : Int)).sum) % 256 ∧
      u2 % 256 = (t2 + (l.map fun (i : Nat) => ((view b).men .pos i : Int)).sum) % 256 := by
  induction l generalizing t1 t2 with
  | nil => exact ⟨t1, t2, rfl, by simp, by simp⟩
  | cons i l ih =>
    simp only [List.map_cons, List.sum_cons]
    unfold isValidCount
    simp only [men_neg, men_pos] at *
    split
    · rw [i8_release, bind_ok]
      obtain ⟨u1, u2, e, h1, h2⟩ := ih (asI8 (t1 - b.pt i)) t2
      refine ⟨u1, u2, e, ?_, ?_⟩
      · rw [h1]; unfold asI8; omega
      · rw [h2]; omega
    · split
      · rw [i8_release, bind_ok]
        obtain ⟨u1, u2, e, h1, h2⟩ := ih t1 (asI8 (t2 + b.pt i))
        refine ⟨u1, u2, e, ?_, ?_⟩
        · rw [h1]; omega
        · rw [h2]; unfold asI8; omega
      · obtain ⟨u1, u2, e, h1, h2⟩ := ih t1 t2
        refine ⟨u1, u2, e, ?_, ?_⟩
        · rw [h1]; omega
        · rw [h2]; omega

theorem isValidCount_debug (b : Board) (l : List Nat) (t1 t2 : Int) {u : Int × Int}
    (h : isValidCount .debug b l (t1, t2) = .ok u) :
    u.1 = t1 + (l.map fun (i : Nat) => ((view b).men .neg i : Int)).sum ∧
      u.2 = t2 + (l.map fun (i : Nat) => ((view b).men .pos i : Int)).sum := by
  induction l generalizing t1 t2 with
  | nil => cases h; simp
  | cons i l ih =>
    simp only [List.map_cons, List.sum_cons]
    unfold isValidCount at h
    simp only [men_neg, men_pos] at *
    split at h
    · obtain ⟨t, ht, h⟩ := res_bind'.1 h
      obtain ⟨_, rfl⟩ := i8_debug.1 ht
      obtain ⟨h1, h2⟩ := ih _ _ h
      constructor <;> omega
    · split at h
      · obtain ⟨t, ht, h⟩ := res_bind'.1 h
        obtain ⟨_, rfl⟩ := i8_debug.1 ht
        obtain ⟨h1, h2⟩ := ih _ _ h
        constructor <;> omega
      · obtain ⟨h1, h2⟩ := ih _ _ h
        constructor <;> omega

/-- A release build accepts a board exactly if both numbers of checkers are 15 modulo 256. -/
theorem C70_release (g : State) (hm : Machine g.board) :
    isValid .release g = .ok () ↔ ∀ s, (view g.board).total s % 256 = 15 := by
  obtain ⟨u1, u2, e, h1, h2⟩ := isValidCount_release g.board (List.range 24) 0 0
  obtain ⟨-, ⟨⟨a1, a2⟩, a3, a4⟩, ⟨b1, b2⟩, b3, b4⟩ := hm
  have key : isValid .release g = assert (decide (asI8 (asI8 (u1 + asI8 g.board.hit.1) + asI8 g.board.col.1) = 15 ∧
      asI8 (asI8 (u2 + asI8 g.board.hit.2) + asI8 g.board.col.2) = 15)) := by
    unfold isValid
    rw [e]
    simp only [bind_ok, i8_release]
  have tot : (∀ s, (view g.board).total s % 256 = 15) ↔
      (view g.board).total .neg % 256 = 15 ∧ (view g.board).total .pos % 256 = 15 :=
    ⟨fun h => ⟨h _, h _⟩, fun h s => by cases s; exacts [h.1, h.2]⟩
  rw [key, tot]
  unfold Pos.total sum24
  simp only [bar_neg, bar_pos, off_neg, off_pos]
  unfold assert
  generalize (List.map (fun (i : Nat) => ((view g.board).men .neg i : Int)) (List.range 24)).sum = s1 at *
  generalize (List.map (fun (i : Nat) => ((view g.board).men .pos i : Int)) (List.range 24)).sum = s2 at *
  unfold asI8
  constructor
  · intro h
    split at h
    · simp only [decide_eq_true_eq] at *; omega
    · cases h
  · intro h
    rw [if_pos]
    simp only [decide_eq_true_eq]
    omega

/-- C70 for debug builds, if the counts of the bar and of the collected checkers are at most 127 (otherwise the casts to
`i8` change them).  For release builds, if moreover nobody owns more than 270 checkers. -/
theorem C70_partial (pf : Profile) (g : State) (hm : Machine g.board)
    (hh : g.board.hit.1 ≤ 127 ∧ g.board.hit.2 ≤ 127) (hc : g.board.col.1 ≤ 127 ∧ g.board.col.2 ≤ 127)
    (hr : pf = .release → ∀ s, (view g.board).total s ≤ 270) :
    isValid pf g = .ok () ↔ Fifteen g.board := by
  have hm' := hm
  obtain ⟨-, ⟨⟨a1, a2⟩, a3, a4⟩, ⟨b1, b2⟩, b3, b4⟩ := hm
  constructor
  · intro h
    cases pf with
    | release =>
      have r := hr rfl
      have k := (C70_release g hm').1 h
      intro s
      have := r s
      have := k s
      have : 0 ≤ (view g.board).total s := by
        unfold Pos.total sum24
        have := sum_nonneg' (l := (List.range 24).map fun (i : Nat) => ((view g.board).men s i : Int)) (by
          intro x hx; obtain ⟨j, _, rfl⟩ := List.mem_map.1 hx; omega)
        show 0 ≤ (List.map (fun (i : Nat) => ((view g.board).men s i : Int)) (List.range 24)).sum + _ + _
        omega
      omega
    | debug =>
      unfold isValid at h
      obtain ⟨u, hu, h⟩ := res_bind'.1 h
      obtain ⟨h1, h2⟩ := isValidCount_debug _ _ _ _ hu
      obtain ⟨t, ht, h⟩ := res_bind'.1 h
      obtain ⟨_, rfl⟩ := i8_debug.1 ht
      obtain ⟨t, ht, h⟩ := res_bind'.1 h
      obtain ⟨_, rfl⟩ := i8_debug.1 ht
      obtain ⟨t, ht, h⟩ := res_bind'.1 h
      obtain ⟨_, rfl⟩ := i8_debug.1 ht
      obtain ⟨t, ht, h⟩ := res_bind'.1 h
      obtain ⟨_, rfl⟩ := i8_debug.1 ht
      unfold assert at h
      split at h
      · rename_i hd
        simp only [decide_eq_true_eq] at hd
        unfold asI8 at hd
        intro s
        unfold Pos.total sum24
        cases s
        · simp only [bar_neg, off_neg]; omega
        · simp only [bar_pos, off_pos]; omega
      · cases h
  · intro h
    exact isValid_ok pf ⟨a1, a3, b1, b3, h⟩

/-- A board on which player `-1` owns 71 checkers on the points and 200 on the bar. -/
def overfull : State where
  board := { pts := #v[-71, 15, 0, 0, 0, 0, 0, 0, 0, 0, 0, 0, 0, 0, 0, 0, 0, 0, 0, 0, 0, 0, 0, 0], hit := (200, 0), col := (0, 0) }
  roll := (1, 2)
  player := -1
  second := false
  id := 0

theorem overfull_machine : Machine overfull.board := by
  refine ⟨?_, by decide, by decide⟩
  decide +kernel

/-- C70 is false for both build profiles. -/
theorem C70_refuted (pf : Profile) : ¬ C70_statement pf := by
  intro h
  have a : isValid pf overfull = .ok () := by cases pf <;> decide +kernel
  have b := (h overfull overfull_machine).1 a .neg
  exact absurd b (by decide +kernel)

/-- The hypotheses of `C70_partial` hold for the opening position and for a board that is rejected. -/
example : Machine opening.board ∧ Fifteen opening.board ∧ isValid .debug opening = .ok () :=
  ⟨⟨by decide +kernel, by decide, by decide⟩, fun s => by cases s <;> decide +kernel, by decide +kernel⟩

example : isValid .debug { opening with board := { opening.board with col := (1, 0) } } = .error .assertFailed := by
  decide +kernel

end DieE.Props
