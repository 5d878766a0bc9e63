import Verif.Backgammon.Step

/-! # The single checker moves generated for one die -/

namespace DieE.BG
open Spec
set_option linter.unusedSimpArgs false

/-- Sum of the entries `lo..hi` (proof device). -/
def sumR (b : Board) (lo hi : Nat) : Int := ((List.range' lo (hi - lo)).map fun (i : Nat) => b.pt i).sum

def lowCond (b : Board) (i : Nat) : Bool := decide (b.pt i < 0 ∧ sumR b (i + 1) 6 ≥ 0)
def highCond (b : Board) (i : Nat) : Bool := decide (b.pt i > 0 ∧ sumR b 18 i ≤ 0)

def genOff (s : Side) (b : Board) (d : Int) : List Act :=
  match s with
  | .neg => (if b.pt (d - 1) < 0 then [(d - 1, -1)] else []) ++
      (((List.range (d - 1).toNat).reverse.find? (lowCond b)).toList.map fun (i : Nat) => ((i : Int), (-1 : Int)))
  | .pos => (if b.pt (24 - d) > 0 then [(24 - d, -1)] else []) ++
      (((List.range' (24 - d).toNat (24 - (24 - d).toNat)).find? (highCond b)).toList.map
        fun (i : Nat) => ((i : Int), (-1 : Int)))

def moveAt (s : Side) (b : Board) (d : Int) (i : Nat) : List Act :=
  match s with
  | .neg => if b.pt i < 0 ∧ 0 ≤ (i : Int) - d ∧ b.pt (i - d) ≤ 1 then [((i : Int), (i : Int) - d)] else []
  | .pos => if 0 < b.pt i ∧ (i : Int) + d ≤ 23 ∧ -1 ≤ b.pt (i + d) then [((i : Int), (i : Int) + d)] else []

def genMove (s : Side) (b : Board) (d : Int) : List Act := ((List.range 24).map (moveAt s b d)).flatten

def genNormal (s : Side) (b : Board) (d : Int) : List Act :=
  (if isCollectible b s.sgn = true then genOff s b d else []) ++ genMove s b d

def genEntry (s : Side) (b : Board) (d : Int) : List Act :=
  match s with
  | .neg => if b.pt (24 - d) < 2 then [(-1, 24 - d)] else []
  | .pos => if b.pt (d - 1) > -2 then [(-1, d - 1)] else []

/-- The checker moves the code generates for die `d` (proof device; shown equal to the code's list below). -/
def gen (s : Side) (b : Board) (d : Int) : List Act :=
  if getPiecesHit b s.sgn > 0 then genEntry s b d else genNormal s b d

/-- Entries small enough for `i8` sums. -/
def Small (b : Board) : Prop := ∀ i, -15 ≤ b.pt i ∧ b.pt i ≤ 15

theorem _root_.DieE.Spec.Valid.small {b : Board} (h : Valid b) : Small b := fun i => ⟨(h.range i).1, (h.range i).2.1⟩

theorem sumI8_aux (pf : Profile) (l : List Int) (acc : Int) (h : ∀ x ∈ l, -15 ≤ x ∧ x ≤ 15)
    (h1 : acc ≤ 127 - 15 * l.length) (h2 : -128 + 15 * l.length ≤ acc) :
    l.foldlM (fun acc x => i8 pf (acc + x)) acc = (.ok (acc + l.sum) : Res Int) := by
  induction l generalizing acc with
  | nil => simp
  | cons x l ih =>
    have hx := h x (by simp)
    simp only [List.length_cons] at h1 h2
    rw [List.foldlM_cons, i8_ok (by omega), bind_ok, ih _ (fun y hy => h y (by simp [hy])) (by omega) (by omega),
      List.sum_cons]
    congr 1; omega

theorem slice_ok (b : Board) {lo hi : Nat} (h : lo ≤ hi ∧ hi ≤ 24) :
    b.slice lo hi = .ok ((List.range' lo (hi - lo)).map fun (i : Nat) => b.pt i) := by
  simp only [Board.slice, h, and_self, if_true]

theorem sliceSum_ok (pf : Profile) {b : Board} (hb : Small b) {lo hi : Nat} (h : hi ≤ lo + 6) :
    sumI8 pf ((List.range' lo (hi - lo)).map fun (i : Nat) => b.pt i) = .ok (sumR b lo hi) := by
  unfold sumI8
  rw [sumI8_aux]
  · simp [sumR]
  · intro x hx
    obtain ⟨i, _, rfl⟩ := List.mem_map.1 hx
    exact hb i
  · simp only [List.length_map, List.length_range']; omega
  · simp only [List.length_map, List.length_range']; omega

theorem collectLow_ok (pf : Profile) {b : Board} (hb : Small b) (m : Int) (l : List Nat) (hl : ∀ i ∈ l, i < 6) :
    collectLow pf b m l = .ok ((l.find? (lowCond b)).toList.map fun (i : Nat) => (m, ((i : Int), (-1 : Int)))) := by
  induction l with
  | nil => rfl
  | cons i l ih =>
    have hi := hl i (by simp)
    unfold collectLow
    rw [get_ok b (by omega), bind_ok, slice_ok b (by omega), bind_ok, sliceSum_ok pf hb (by omega), bind_ok,
      ih (fun j hj => hl j (by simp [hj]))]
    by_cases hc : b.pt i < 0 ∧ sumR b (i + 1) 6 ≥ 0
    · simp [lowCond, hc]
    · rw [if_neg hc, List.find?_cons_of_neg (by simpa [lowCond] using hc)]

theorem collectHigh_ok (pf : Profile) {b : Board} (hb : Small b) (m : Int) (l : List Nat)
    (hl : ∀ i ∈ l, 18 ≤ i ∧ i < 24) :
    collectHigh pf b m l = .ok ((l.find? (highCond b)).toList.map fun (i : Nat) => (m, ((i : Int), (-1 : Int)))) := by
  induction l with
  | nil => rfl
  | cons i l ih =>
    have hi := hl i (by simp)
    unfold collectHigh
    rw [get_ok b (by omega), bind_ok, slice_ok b (by omega), bind_ok, sliceSum_ok pf hb (by omega), bind_ok,
      ih (fun j hj => hl j (by simp [hj]))]
    by_cases hc : b.pt i > 0 ∧ sumR b 18 i ≤ 0
    · simp [highCond, hc]
    · rw [if_neg hc, List.find?_cons_of_neg (by simpa [highCond] using hc)]

theorem collectMoves1_ok (pf : Profile) {b : Board} (hb : Small b) {d : Int} (hd : 1 ≤ d ∧ d ≤ 6) :
    collectMoves1 pf b d = .ok ((genOff .neg b d).map fun a => (d, a)) := by
  unfold collectMoves1
  simp only [asI8_id (x := d) (by omega), i8_ok (pf := pf) (x := d - 1) (by omega), bind_ok]
  rw [get_ok b (by omega), bind_ok, collectLow_ok pf hb]
  · simp only [bind_ok, pure_ok, genOff, List.map_append]
    split <;> simp
  · intro i hi
    have := List.mem_range.1 (List.mem_reverse.1 hi)
    omega

theorem collectMoves2_ok (pf : Profile) {b : Board} (hb : Small b) {d : Int} (hd : 1 ≤ d ∧ d ≤ 6) :
    collectMoves2 pf b d = .ok ((genOff .pos b d).map fun a => (d, a)) := by
  unfold collectMoves2
  simp only [asI8_id (x := d) (by omega), i8_ok (pf := pf) (x := 24 - d) (by omega), bind_ok]
  rw [get_ok b (by omega), bind_ok, collectHigh_ok pf hb]
  · simp only [bind_ok, pure_ok, genOff, List.map_append]
    split <;> simp
  · intro i hi
    have := List.mem_range'_1.1 hi
    omega

theorem normalAt_neg (pf : Profile) (b : Board) {d : Int} (hd : 1 ≤ d ∧ d ≤ 6) {i : Nat} (hi : i < 24) :
    normalAt pf b (-1) d i = .ok ((moveAt .neg b d i).map fun a => (d, a)) := by
  unfold normalAt
  simp only [true_and, moveAt]
  by_cases h1 : b.pt i ≤ -1
  · rw [if_pos h1, i8_ok (by omega)]
    simp only [bind_ok]
    by_cases h2 : (i : Int) - d ≥ 0
    · rw [if_pos h2, get_ok b (by omega), bind_ok]
      by_cases h3 : b.pt (i - d) ≤ 1
      · rw [if_pos h3, if_pos ⟨by omega, h2, h3⟩]; rfl
      · rw [if_neg h3, if_neg (fun h => h3 h.2.2)]; rfl
    · rw [if_neg h2, if_neg (fun h => h2 h.2.1)]; rfl
  · rw [if_neg h1, if_neg (by omega : ¬ ((-1 : Int) = 1 ∧ b.pt i ≥ -1)), if_neg (by omega)]; rfl

theorem normalAt_pos (pf : Profile) (b : Board) {d : Int} (hd : 1 ≤ d ∧ d ≤ 6) {i : Nat} (hi : i < 24) :
    normalAt pf b 1 d i = .ok ((moveAt .pos b d i).map fun a => (d, a)) := by
  unfold normalAt
  simp only [true_and, moveAt]
  rw [if_neg (by omega)]
  by_cases h1 : b.pt i ≥ 1
  · rw [if_pos h1, i8_ok (by omega)]
    simp only [bind_ok]
    by_cases h2 : (i : Int) + d ≤ 23
    · rw [if_pos h2, get_ok b (by omega), bind_ok]
      by_cases h3 : b.pt (i + d) ≥ -1
      · rw [if_pos h3, if_pos ⟨by omega, h2, h3⟩]; rfl
      · rw [if_neg h3, if_neg (fun h => h3 h.2.2)]; rfl
    · rw [if_neg h2, if_neg (fun h => h2 h.2.1)]; rfl
  · rw [if_neg h1, if_neg (by omega)]; rfl

theorem normalAt_ok (pf : Profile) (s : Side) (b : Board) {d : Int} (hd : 1 ≤ d ∧ d ≤ 6) {i : Nat} (hi : i < 24) :
    normalAt pf b s.sgn d i = .ok ((moveAt s b d i).map fun a => (d, a)) := by
  cases s
  · exact normalAt_neg pf b hd hi
  · exact normalAt_pos pf b hd hi

theorem entryFor_ok (pf : Profile) (s : Side) (b : Board) {d : Int} (hd : 1 ≤ d ∧ d ≤ 6) :
    entryFor pf b s.sgn d = .ok ((genEntry s b d).map fun a => (d, a)) := by
  unfold entryFor
  rw [asI8_id (by omega)]
  cases s
  · simp only [sgn_neg, if_true, genEntry]
    rw [i8_ok (by omega), bind_ok, get_ok b (by omega), bind_ok]
    split <;> rfl
  · simp only [sgn_pos, if_true, genEntry]
    rw [if_neg (by omega), i8_ok (by omega), bind_ok, get_ok b (by omega), bind_ok]
    split <;> rfl

/-- Dice between 1 and 6. -/
def DiceOK (moves : List Int) : Prop := ∀ d ∈ moves, 1 ≤ d ∧ d ≤ 6

theorem entryActions_ok (pf : Profile) (s : Side) (b : Board) {moves : List Int} (hm : DiceOK moves) :
    entryActions pf moves b s.sgn = .ok ((moves.map fun d => (genEntry s b d).map fun a => (d, a)).flatten) := by
  unfold entryActions
  rw [mapM_ok _ (fun d => (genEntry s b d).map fun a => (d, a)) moves (fun d hd => entryFor_ok pf s b (hm d hd))]
  rfl

/-- All generated pairs (die, normal move), in the order of the code. -/
def normalList (s : Side) (b : Board) (moves : List Int) : List DieAct :=
  (moves.map fun d => (if isCollectible b s.sgn = true then genOff s b d else []).map fun a => (d, a)).flatten ++
  (moves.map fun d => (genMove s b d).map fun a => (d, a)).flatten

def entryList (s : Side) (b : Board) (moves : List Int) : List DieAct :=
  (moves.map fun d => (genEntry s b d).map fun a => (d, a)).flatten

def genList (s : Side) (b : Board) (moves : List Int) : List DieAct :=
  if getPiecesHit b s.sgn > 0 then entryList s b moves else normalList s b moves

theorem flatten_map_nil {α β : Type} (l : List α) : (l.map fun _ => ([] : List β)).flatten = [] := by
  induction l with
  | nil => rfl
  | cons a l ih => simp [ih]

theorem normalActions_ok (pf : Profile) (s : Side) {b : Board} (hb : Small b) {moves : List Int} (hm : DiceOK moves) :
    normalActions pf moves b s.sgn = .ok (normalList s b moves) := by
  have hn : (moves.mapM fun r => do
      let l ← (List.range 24).mapM (normalAt pf b s.sgn (asI8 r))
      pure l.flatten : Res (List (List DieAct))) = .ok (moves.map fun d => (genMove s b d).map fun a => (d, a)) := by
    apply mapM_ok
    intro d hd
    rw [asI8_id (by have := hm d hd; omega),
      mapM_ok _ (fun i => (moveAt s b d i).map fun a => (d, a)) _
        (fun i hi => normalAt_ok pf s b (hm d hd) (List.mem_range.1 hi))]
    simp only [bind_ok, pure_ok, genMove, List.map_flatten, List.map_map]
    rfl
  have hc : ∃ C, collectActions pf moves b s.sgn = .ok C ∧ C.flatten = (moves.map fun d =>
      (if isCollectible b s.sgn = true then genOff s b d else []).map fun a => (d, a)).flatten := by
    unfold collectActions
    by_cases h : isCollectible b s.sgn = true
    · refine ⟨_, ?_, rfl⟩
      simp only [h, and_true, if_true]
      cases s
      · simp only [sgn_neg, if_true]
        exact mapM_ok _ _ _ (fun d hd => collectMoves1_ok pf hb (hm d hd))
      · simp only [sgn_pos, if_true]
        rw [if_neg (by omega)]
        exact mapM_ok _ _ _ (fun d hd => collectMoves2_ok pf hb (hm d hd))
    · refine ⟨[], by simp [h], ?_⟩
      simp only [h, if_false, List.map_nil, flatten_map_nil, List.flatten_nil, Bool.false_eq_true]
  obtain ⟨C, hC, e⟩ := hc
  unfold normalActions
  rw [hC, bind_ok, hn, bind_ok, e]
  rfl

theorem mem_genList (s : Side) (b : Board) (moves : List Int) (x : DieAct) :
    x ∈ genList s b moves ↔ x.1 ∈ moves ∧ x.2 ∈ gen s b x.1 := by
  obtain ⟨m, a⟩ := x
  unfold genList gen entryList normalList genNormal
  split
  · simp only [List.mem_flatten, List.mem_map]
    constructor
    · rintro ⟨l, ⟨d, hd, rfl⟩, hl⟩
      obtain ⟨a', ha', e⟩ := List.mem_map.1 hl
      cases e
      exact ⟨hd, ha'⟩
    · rintro ⟨h1, h2⟩
      exact ⟨_, ⟨m, h1, rfl⟩, List.mem_map.2 ⟨a, h2, rfl⟩⟩
  · simp only [List.mem_append, List.mem_flatten, List.mem_map]
    constructor
    · rintro (⟨l, ⟨d, hd, rfl⟩, hl⟩ | ⟨l, ⟨d, hd, rfl⟩, hl⟩)
      · obtain ⟨a', ha', e⟩ := List.mem_map.1 hl
        cases e
        exact ⟨hd, Or.inl ha'⟩
      · obtain ⟨a', ha', e⟩ := List.mem_map.1 hl
        cases e
        exact ⟨hd, Or.inr ha'⟩
    · rintro ⟨h1, h | h⟩
      · exact Or.inl ⟨_, ⟨m, h1, rfl⟩, List.mem_map.2 ⟨a, h, rfl⟩⟩
      · exact Or.inr ⟨_, ⟨m, h1, rfl⟩, List.mem_map.2 ⟨a, h, rfl⟩⟩

/-! ### sorting and de-duplication keep the elements -/

theorem mem_insertAct (x y : DieAct) (l : List DieAct) : y ∈ insertAct x l ↔ y = x ∨ y ∈ l := by
  induction l with
  | nil => simp [insertAct]
  | cons z l ih =>
    unfold insertAct
    split
    · simp
    · simp only [List.mem_cons, ih]
      constructor
      · rintro (h | h | h) <;> simp [h]
      · rintro (h | h | h) <;> simp [h]

theorem mem_sortActs (y : DieAct) (l : List DieAct) : y ∈ sortActs l ↔ y ∈ l := by
  induction l with
  | nil => simp [sortActs]
  | cons x l ih => simp [sortActs, mem_insertAct, ih]

theorem mem_dedupActs (y : DieAct) (l : List DieAct) : y ∈ dedupActs l ↔ y ∈ l := by
  induction l with
  | nil => simp [dedupActs]
  | cons x l ih =>
    cases l with
    | nil => simp [dedupActs]
    | cons z l =>
      unfold dedupActs
      split
      · next h => subst h; rw [ih]; simp
      · simp only [List.mem_cons] at ih ⊢
        rw [ih]

/-! ### membership in `gen` -/

theorem isCollectible_iff (s : Side) {b : Board} (hb : Valid b) :
    isCollectible b s.sgn = true ↔ (view b).allHome s := by
  have h1 := hb.hit1
  have h2 := hb.hit2
  unfold isCollectible Pos.allHome
  cases s
  · simp only [sgn_neg, if_true, bar_neg, men_neg, pip_neg, onBoard]
    by_cases h : b.hit.1 = 0
    · simp only [h, ne_eq, not_true, if_false, List.all_eq_true, Int.toNat_zero, true_and]
      constructor
      · intro H i hi h6
        have := H i.toNat (List.mem_range'_1.2 (by omega))
        rw [Int.toNat_of_nonneg hi.1] at this
        simp only [Bool.not_eq_true', decide_eq_false_iff_not] at this
        omega
      · intro H i hi
        have := List.mem_range'_1.1 hi
        have := H i (by omega) (by omega)
        simp only [Bool.not_eq_true', decide_eq_false_iff_not]
        omega
    · simp only [h, ne_eq, not_false_eq_true, if_true, Bool.false_eq_true, false_iff]
      intro H; omega
  · simp only [sgn_pos, if_true, bar_pos, men_pos, pip_pos, onBoard]
    rw [if_neg (by omega)]
    by_cases h : b.hit.2 = 0
    · simp only [h, ne_eq, not_true, if_false, List.all_eq_true, Int.toNat_zero, true_and]
      constructor
      · intro H i hi h6
        have := H i.toNat (List.mem_range'_1.2 (by omega))
        rw [Int.toNat_of_nonneg hi.1] at this
        simp only [Bool.not_eq_true', decide_eq_false_iff_not] at this
        omega
      · intro H i hi
        have := List.mem_range'_1.1 hi
        have := H i (by omega) (by omega)
        simp only [Bool.not_eq_true', decide_eq_false_iff_not]
        omega
    · simp only [h, ne_eq, not_false_eq_true, if_true, Bool.false_eq_true, false_iff]
      intro H; omega

theorem find_rev_range (p : Nat → Bool) (n g : Nat) :
    (List.range n).reverse.find? p = some g ↔ g < n ∧ p g = true ∧ ∀ i, g < i → i < n → p i = false := by
  induction n with
  | zero => simp
  | succ n ih =>
    rw [List.range_succ, List.reverse_append, List.reverse_cons, List.reverse_nil, List.nil_append, List.cons_append,
      List.nil_append]
    cases hp : p n with
    | true =>
      rw [List.find?_cons_of_pos hp]
      constructor
      · intro h
        cases h
        exact ⟨by omega, hp, fun i h1 h2 => by omega⟩
      · rintro ⟨h1, h2, h3⟩
        by_cases e : g = n
        · rw [e]
        · have := h3 n (by omega) (by omega)
          rw [hp] at this; cases this
    | false =>
      rw [List.find?_cons_of_neg (by simp [hp]), ih]
      constructor
      · rintro ⟨h1, h2, h3⟩
        refine ⟨by omega, h2, fun i hi1 hi2 => ?_⟩
        by_cases e : i = n
        · rw [e, hp]
        · exact h3 i hi1 (by omega)
      · rintro ⟨h1, h2, h3⟩
        have : g ≠ n := by rintro rfl; rw [hp] at h2; cases h2
        exact ⟨by omega, h2, fun i hi1 hi2 => h3 i hi1 (by omega)⟩

theorem mem_genOff_neg {b : Board} {d : Int} (hd : 1 ≤ d ∧ d ≤ 6) (a : Act) : a ∈ genOff .neg b d ↔
    a.2 = -1 ∧ ((a.1 = d - 1 ∧ b.pt a.1 < 0) ∨
      (0 ≤ a.1 ∧ a.1 < d - 1 ∧ b.pt a.1 < 0 ∧ sumR b (a.1.toNat + 1) 6 ≥ 0 ∧
        ∀ i : Nat, a.1 < i → (i : Int) < d - 1 → lowCond b i = false)) := by
  obtain ⟨f, t⟩ := a
  simp only [genOff, List.mem_append, List.mem_map, Option.mem_toList, find_rev_range]
  constructor
  · rintro (h | ⟨i, ⟨h1, h2, h3⟩, e⟩)
    · split at h
      · next hp =>
        simp only [List.mem_singleton, Prod.mk.injEq] at h
        obtain ⟨rfl, rfl⟩ := h
        exact ⟨rfl, Or.inl ⟨rfl, hp⟩⟩
      · simp at h
    · cases e
      simp only [lowCond, decide_eq_true_eq] at h2
      exact ⟨rfl, Or.inr ⟨by omega, by omega, h2.1, by simpa using h2.2, fun i h4 h5 => h3 i (by omega) (by omega)⟩⟩
  · rintro ⟨rfl, ⟨rfl, h⟩ | ⟨h1, h2, h3, h4, h5⟩⟩
    · left; simp [h]
    · right
      refine ⟨f.toNat, ⟨by omega, ?_, fun i h6 h7 => h5 i (by omega) (by omega)⟩, ?_⟩
      · simp only [lowCond, decide_eq_true_eq, Int.toNat_of_nonneg h1]; exact ⟨h3, h4⟩
      · rw [Int.toNat_of_nonneg h1]

theorem mem_genOff_pos {b : Board} {d : Int} (hd : 1 ≤ d ∧ d ≤ 6) (a : Act) : a ∈ genOff .pos b d ↔
    a.2 = -1 ∧ ((a.1 = 24 - d ∧ b.pt a.1 > 0) ∨
      (24 - d ≤ a.1 ∧ a.1 < 24 ∧ b.pt a.1 > 0 ∧ sumR b 18 a.1.toNat ≤ 0 ∧
        ∀ i : Nat, 24 - d ≤ i → (i : Int) < a.1 → highCond b i = false)) := by
  obtain ⟨f, t⟩ := a
  simp only [genOff, List.mem_append, List.mem_map, Option.mem_toList, List.find?_range'_eq_some]
  constructor
  · rintro (h | ⟨i, ⟨h1, h2, h3⟩, e⟩)
    · split at h
      · next hp =>
        simp only [List.mem_singleton, Prod.mk.injEq] at h
        obtain ⟨rfl, rfl⟩ := h
        exact ⟨rfl, Or.inl ⟨rfl, hp⟩⟩
      · simp at h
    · cases e
      simp only [highCond, decide_eq_true_eq] at h1
      have := List.mem_range'_1.1 h2
      refine ⟨rfl, Or.inr ⟨by omega, by omega, h1.1, by simpa using h1.2, fun i h4 h5 => ?_⟩⟩
      simpa using h3 i (by omega) (by omega)
  · rintro ⟨rfl, ⟨rfl, h⟩ | ⟨h1, h2, h3, h4, h5⟩⟩
    · left; simp [h]
    · right
      refine ⟨f.toNat, ⟨?_, List.mem_range'_1.2 (by omega), fun i h6 h7 => ?_⟩, ?_⟩
      · simp only [highCond, decide_eq_true_eq, Int.toNat_of_nonneg (by omega : 0 ≤ f)]; exact ⟨h3, h4⟩
      · simpa using h5 i (by omega) (by omega)
      · rw [Int.toNat_of_nonneg (by omega)]

theorem mem_genMove (s : Side) (b : Board) (d : Int) (a : Act) : a ∈ genMove s b d ↔
    onBoard a.1 ∧ 0 < (view b).men s a.1 ∧ onBoard a.1 ∧ a.2 = a.1 + s.sgn * d ∧
      (match s with | .neg => 0 ≤ a.2 | .pos => a.2 < 24) ∧ (view b).men s.opp a.2 ≤ 1 := by
  obtain ⟨f, t⟩ := a
  simp only [genMove, List.mem_flatten, List.mem_map, List.mem_range, onBoard]
  constructor
  · rintro ⟨l, ⟨i, hi, rfl⟩, hl⟩
    cases s
    · simp only [moveAt] at hl
      split at hl
      · next h =>
        simp only [List.mem_singleton, Prod.mk.injEq] at hl
        obtain ⟨rfl, rfl⟩ := hl
        simp only [men_neg, opp_neg, men_pos, sgn_neg]
        omega
      · simp at hl
    · simp only [moveAt] at hl
      split at hl
      · next h =>
        simp only [List.mem_singleton, Prod.mk.injEq] at hl
        obtain ⟨rfl, rfl⟩ := hl
        simp only [men_neg, opp_pos, men_pos, sgn_pos]
        omega
      · simp at hl
  · rintro ⟨h1, h2, -, h4, h5, h6⟩
    refine ⟨_, ⟨f.toNat, by omega, rfl⟩, ?_⟩
    cases s
    · simp only [men_neg, opp_neg, men_pos, sgn_neg] at *
      obtain rfl : t = f - d := by omega
      simp only [moveAt, Int.toNat_of_nonneg h1.1]
      rw [if_pos (by omega)]; simp
    · simp only [men_neg, opp_pos, men_pos, sgn_pos] at *
      obtain rfl : t = f + d := by omega
      simp only [moveAt, Int.toNat_of_nonneg h1.1]
      rw [if_pos (by omega)]; simp

/-! ### sums of entries of one sign -/

theorem sumR_nonneg {b : Board} {lo hi : Nat} (h : ∀ i : Nat, lo ≤ i → i < hi → 0 ≤ b.pt i) : 0 ≤ sumR b lo hi := by
  apply sum_nonneg'
  intro x hx
  obtain ⟨i, hi', rfl⟩ := List.mem_map.1 hx
  have := List.mem_range'_1.1 hi'
  exact h i (by omega) (by omega)

theorem sum_neg_list (l : List Nat) (f : Nat → Int) : (l.map fun i => - f i).sum = - (l.map f).sum := by
  induction l with
  | nil => rfl
  | cons a l ih => simp only [List.map_cons, List.sum_cons, ih]; omega

theorem sumR_nonpos {b : Board} {lo hi : Nat} (h : ∀ i : Nat, lo ≤ i → i < hi → b.pt i ≤ 0) : sumR b lo hi ≤ 0 := by
  have : 0 ≤ ((List.range' lo (hi - lo)).map fun (i : Nat) => - b.pt i).sum := by
    apply sum_nonneg'
    intro x hx
    obtain ⟨i, hi', rfl⟩ := List.mem_map.1 hx
    have := List.mem_range'_1.1 hi'
    have := h i (by omega) (by omega)
    omega
  rw [sum_neg_list] at this
  unfold sumR; omega

theorem sumR_pos_zero {b : Board} {lo hi : Nat} (h : ∀ i : Nat, lo ≤ i → i < hi → 0 ≤ b.pt i) (hs : sumR b lo hi ≤ 0)
    {i : Nat} (h1 : lo ≤ i) (h2 : i < hi) : b.pt i ≤ 0 := by
  have := le_sum' (l := (List.range' lo (hi - lo)).map fun (i : Nat) => b.pt i) (a := b.pt i) (by
    intro x hx
    obtain ⟨i, hi', rfl⟩ := List.mem_map.1 hx
    have := List.mem_range'_1.1 hi'
    exact h i (by omega) (by omega)) (List.mem_map.2 ⟨i, List.mem_range'_1.2 (by omega), rfl⟩)
  unfold sumR at hs; omega

theorem sumR_neg_zero {b : Board} {lo hi : Nat} (h : ∀ i : Nat, lo ≤ i → i < hi → b.pt i ≤ 0) (hs : 0 ≤ sumR b lo hi)
    {i : Nat} (h1 : lo ≤ i) (h2 : i < hi) : 0 ≤ b.pt i := by
  have := le_sum' (l := (List.range' lo (hi - lo)).map fun (i : Nat) => - b.pt i) (a := - b.pt i) (by
    intro x hx
    obtain ⟨i, hi', rfl⟩ := List.mem_map.1 hx
    have := List.mem_range'_1.1 hi'
    have := h i (by omega) (by omega)
    omega) (List.mem_map.2 ⟨i, List.mem_range'_1.2 (by omega), rfl⟩)
  rw [sum_neg_list] at this
  unfold sumR at hs; omega

/-! ### soundness and completeness of the generated single moves -/

theorem hit_eq_bar (s : Side) {b : Board} (hb : Valid b) : getPiecesHit b s.sgn = ((view b).bar s : Int) := by
  have := hb.hit1
  have := hb.hit2
  cases s
  · simp only [getPiecesHit, sgn_neg, if_true, bar_neg]; omega
  · show b.hit.2 = _
    rw [bar_pos]; omega

theorem move_legal {s : Side} {b : Board} {d : Int} (hd : 1 ≤ d) {a : Act} (hbar : (view b).bar s = 0)
    (h : a ∈ genMove s b d) : LegalStep s (view b) d a := by
  rw [mem_genMove] at h
  obtain ⟨h1, h2, -, h4, h5, h6⟩ := h
  have ht : onBoard a.2 := by
    unfold onBoard at *
    cases s <;> simp only [sgn_neg, sgn_pos] at h4 h5 <;> omega
  have hf1 : a.1 ≠ -1 := by have := h1.1; omega
  have ht1 : a.2 ≠ -1 := by have := ht.1; omega
  refine ⟨?_, ?_, ?_, ?_, ?_, ?_⟩
  · rw [SourceRule, if_neg hf1]; exact ⟨h1, h2⟩
  · intro h; omega
  · intro _; exact ⟨ht, h6⟩
  · rw [DieRule, if_neg ht1, if_neg hf1]
    cases s <;> simp only [sgn_neg, sgn_pos, pip_neg, pip_pos] at * <;> omega
  · intro h; exact absurd h ht1
  · intro h; exact absurd h ht1

theorem entry_legal {s : Side} {b : Board} {d : Int} (hd : 1 ≤ d ∧ d ≤ 6) {a : Act} (hbar : 0 < (view b).bar s) :
    a ∈ genEntry s b d ↔ LegalStep s (view b) d a := by
  have key : a ∈ genEntry s b d ↔
      a.1 = -1 ∧ onBoard a.2 ∧ 25 - pip s a.2 = d ∧ (view b).men s.opp a.2 ≤ 1 := by
    obtain ⟨f, t⟩ := a
    unfold genEntry onBoard
    cases s <;> simp only [pip_neg, pip_pos, opp_neg, opp_pos, men_neg, men_pos]
    · constructor
      · intro h
        split at h
        · simp only [List.mem_singleton, Prod.mk.injEq] at h
          obtain ⟨rfl, rfl⟩ := h
          omega
        · simp at h
      · rintro ⟨rfl, h2, h3, h4⟩
        obtain rfl : t = 24 - d := by omega
        rw [if_pos (by omega)]; simp
    · constructor
      · intro h
        split at h
        · simp only [List.mem_singleton, Prod.mk.injEq] at h
          obtain ⟨rfl, rfl⟩ := h
          omega
        · simp at h
      · rintro ⟨rfl, h2, h3, h4⟩
        obtain rfl : t = d - 1 := by omega
        rw [if_pos (by omega)]; simp
  rw [key]
  constructor
  · rintro ⟨h1, h2, h3, h4⟩
    have ht1 : a.2 ≠ -1 := by have := h2.1; omega
    refine ⟨?_, ?_, ?_, ?_, ?_, ?_⟩
    · rw [SourceRule, if_pos h1]; exact ⟨ht1, hbar⟩
    · intro _; exact h1
    · intro _; exact ⟨h2, h4⟩
    · rw [DieRule, if_neg ht1, if_pos h1]; exact h3
    · intro h; exact absurd h ht1
    · intro h; exact absurd h ht1
  · rintro ⟨h1, h2, h3, h4, h5, h6⟩
    have e := h2 hbar
    have ht1 : a.2 ≠ -1 := by
      rw [SourceRule, if_pos e] at h1; exact h1.1
    rw [DieRule, if_neg ht1, if_pos e] at h4
    exact ⟨e, (h3 ht1).1, h4, (h3 ht1).2⟩

theorem off_almost {s : Side} {b : Board} {d : Int} (hd : 1 ≤ d ∧ d ≤ 6) {a : Act} (hh : (view b).allHome s)
    (h : a ∈ genOff s b d) : AlmostLegalStep s (view b) d a := by
  have key : a.2 = -1 ∧ onBoard a.1 ∧ 0 < (view b).men s a.1 ∧ pip s a.1 ≤ d := by
    unfold onBoard
    cases s
    · rw [mem_genOff_neg hd] at h
      simp only [men_neg, pip_neg]
      obtain ⟨h0, ⟨h1, h2⟩ | ⟨h1, h2, h3, -⟩⟩ := h <;> exact ⟨h0, by omega, by omega, by omega⟩
    · rw [mem_genOff_pos hd] at h
      simp only [men_pos, pip_pos]
      obtain ⟨h0, ⟨h1, h2⟩ | ⟨h1, h2, h3, -⟩⟩ := h <;> exact ⟨h0, by omega, by omega, by omega⟩
  obtain ⟨h1, h2, h3, h4⟩ := key
  have hf1 : a.1 ≠ -1 := by have := h2.1; omega
  refine ⟨?_, ?_, ?_, ?_, ?_⟩
  · rw [SourceRule, if_neg hf1]; exact ⟨h2, h3⟩
  · intro h; have := hh.1; omega
  · intro h; exact absurd h1 h
  · rw [DieRule, if_pos h1]; exact h4
  · intro _; exact hh

theorem off_rear {s : Side} {b : Board} {d : Int} (hd : 1 ≤ d ∧ d ≤ 6) {a : Act} (hh : (view b).allHome s)
    (hf : (view b).homeFree s) (h : a ∈ genOff s b d) : RearRule s (view b) d a := by
  intro _ hlt i hi hlt2
  unfold onBoard at hi
  have hfi := hf i hi
  have hfree := hf
  have hhome := hh.2 i hi
  unfold Pos.homeFree onBoard at hfree
  cases s
  · rw [mem_genOff_neg hd] at h
    simp only [men_neg, pip_neg, opp_neg, men_pos] at *
    obtain ⟨h0, ⟨h1, h2⟩ | ⟨h1, h2, h3, h4, -⟩⟩ := h
    · omega
    · by_cases h6 : i < 6
      · have := sumR_neg_zero (b := b) (lo := a.1.toNat + 1) (hi := 6)
          (fun j hj1 hj2 => by have := hfree j (by omega) (by omega); omega) h4 (i := i.toNat) (by omega) (by omega)
        rw [Int.toNat_of_nonneg hi.1] at this
        omega
      · exact hhome (by omega)
  · rw [mem_genOff_pos hd] at h
    simp only [men_neg, pip_pos, opp_pos, men_pos] at *
    obtain ⟨h0, ⟨h1, h2⟩ | ⟨h1, h2, h3, h4, -⟩⟩ := h
    · omega
    · by_cases h6 : 18 ≤ i
      · have := sumR_pos_zero (b := b) (lo := 18) (hi := a.1.toNat)
          (fun j hj1 hj2 => by have := hfree j (by omega) (by omega); omega) h4 (i := i.toNat) (by omega) (by omega)
        rw [Int.toNat_of_nonneg hi.1] at this
        omega
      · exact hhome (by omega)

theorem off_complete {s : Side} {b : Board} {d : Int} (hd : 1 ≤ d ∧ d ≤ 6) {a : Act}
    (h : LegalStep s (view b) d a) (ho : a.2 = -1) : a ∈ genOff s b d := by
  obtain ⟨h1, h2, h3, h4, h5, h6⟩ := h
  have hh := h5 ho
  have hrear := h6 ho
  rw [DieRule, if_pos ho] at h4
  have hf1 : a.1 ≠ -1 := by
    intro e; rw [SourceRule, if_pos e] at h1; exact h1.1 ho
  rw [SourceRule, if_neg hf1] at h1
  unfold onBoard at *
  cases s
  · rw [mem_genOff_neg hd]
    simp only [men_neg, pip_neg] at *
    refine ⟨ho, ?_⟩
    by_cases he : a.1 = d - 1
    · left; omega
    · right
      refine ⟨by omega, by omega, by omega, sumR_nonneg (fun i hi1 hi2 => ?_), fun i hi1 hi2 => ?_⟩
      · have := hrear (by omega) i (by omega) (by omega); omega
      · have := hrear (by omega) i (by omega) (by omega)
        simp only [lowCond, decide_eq_false_iff_not]; omega
  · rw [mem_genOff_pos hd]
    simp only [men_pos, pip_pos] at *
    refine ⟨ho, ?_⟩
    by_cases he : a.1 = 24 - d
    · left; omega
    · right
      refine ⟨by omega, by omega, by omega, sumR_nonpos (fun i hi1 hi2 => ?_), fun i hi1 hi2 => ?_⟩
      · have := hrear (by omega) i (by omega) (by omega); omega
      · have := hrear (by omega) i (by omega) (by omega)
        simp only [highCond, decide_eq_false_iff_not]; omega

theorem _root_.DieE.Spec.LegalStep.almost {s : Side} {P : Pos} {d : Int} {a : Act} (h : LegalStep s P d a) : AlmostLegalStep s P d a :=
  ⟨h.source, h.barFirst, h.openPoint, h.dieUse, h.home⟩

/-- Every generated move satisfies all rules except possibly the rearmost-checker rule. -/
theorem gen_almost {s : Side} {b : Board} (hb : Valid b) {d : Int} (hd : 1 ≤ d ∧ d ≤ 6) {a : Act}
    (h : a ∈ gen s b d) : AlmostLegalStep s (view b) d a := by
  unfold gen at h
  rw [hit_eq_bar s hb] at h
  split at h
  · exact ((entry_legal hd (by omega)).1 h).almost
  · unfold genNormal at h
    rcases List.mem_append.1 h with h | h
    · split at h
      · next hc => exact off_almost hd ((isCollectible_iff s hb).1 hc) h
      · simp at h
    · exact (move_legal hd.1 (by omega) h).almost

/-- With no opposing checker in the mover's home board the generated moves are legal. -/
theorem gen_legal {s : Side} {b : Board} (hb : Valid b) {d : Int} (hd : 1 ≤ d ∧ d ≤ 6) {a : Act}
    (hf : (view b).homeFree s) (h : a ∈ gen s b d) : LegalStep s (view b) d a := by
  unfold gen at h
  rw [hit_eq_bar s hb] at h
  split at h
  · exact (entry_legal hd (by omega)).1 h
  · unfold genNormal at h
    rcases List.mem_append.1 h with h | h
    · split at h
      · next hc =>
        have hh := (isCollectible_iff s hb).1 hc
        obtain ⟨h1, h2, h3, h4, h5⟩ := off_almost hd hh h
        exact ⟨h1, h2, h3, h4, h5, off_rear hd hh hf h⟩
      · simp at h
    · exact move_legal hd.1 (by omega) h

/-- Every legal move is generated. -/
theorem gen_complete {s : Side} {b : Board} (hb : Valid b) {d : Int} (hd : 1 ≤ d ∧ d ≤ 6) {a : Act}
    (h : LegalStep s (view b) d a) : a ∈ gen s b d := by
  unfold gen
  rw [hit_eq_bar s hb]
  split
  · exact (entry_legal hd (by omega)).2 h
  · next hbar =>
    unfold genNormal
    rw [List.mem_append]
    by_cases ho : a.2 = -1
    · left
      rw [if_pos ((isCollectible_iff s hb).2 (h.home ho))]
      exact off_complete hd h ho
    · right
      rw [mem_genMove]
      have h1 := h.source
      have h4 := h.dieUse
      have hf1 : a.1 ≠ -1 := by
        intro e; rw [SourceRule, if_pos e] at h1; omega
      rw [SourceRule, if_neg hf1] at h1
      rw [DieRule, if_neg ho, if_neg hf1] at h4
      obtain ⟨h3, h3'⟩ := h.openPoint ho
      refine ⟨h1.1, h1.2, h1.1, ?_, ?_, h3'⟩
      · cases s <;> simp only [sgn_neg, sgn_pos, pip_neg, pip_pos] at * <;> omega
      · unfold onBoard at h3
        cases s <;> simp only <;> omega

end DieE.BG
