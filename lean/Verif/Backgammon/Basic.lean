import Verif.Backgammon.Spec

/-! # Basic lemmas on boards, machine integers and sums -/

namespace DieE

@[simp] theorem bind_ok {α β : Type} (a : α) (f : α → Res β) : ((Except.ok a : Res α) >>= f) = f a := rfl
@[simp] theorem bind_err {α β : Type} (e : Panic) (f : α → Res β) :
    ((Except.error e : Res α) >>= f) = Except.error e := rfl
@[simp] theorem pure_ok {α : Type} (a : α) : (pure a : Res α) = Except.ok a := rfl
@[simp] theorem map_ok {α β : Type} (a : α) (f : α → β) : f <$> (Except.ok a : Res α) = Except.ok (f a) := rfl

theorem i8_ok {pf : Profile} {x : Int} (h : -128 ≤ x ∧ x ≤ 127) : i8 pf x = .ok x := by
  simp [i8, h]

theorem u8_ok {pf : Profile} {x : Int} (h : 0 ≤ x ∧ x ≤ 255) : u8 pf x = .ok x := by
  simp [u8, h]

theorem u32_ok {pf : Profile} {x : Int} (h : 0 ≤ x ∧ x ≤ 4294967295) : u32 pf x = .ok x := by
  simp [u32, h]

theorem asI8_id {x : Int} (h : -128 ≤ x ∧ x ≤ 127) : asI8 x = x := by
  simp only [asI8]; omega

theorem asU8_id {x : Int} (h : 0 ≤ x ∧ x ≤ 255) : asU8 x = x := by
  simp only [asU8]; omega

theorem asU32_id {x : Int} (h : 0 ≤ x ∧ x ≤ 4294967295) : asU32 x = x := by
  simp only [asU32]; omega

/-- `mapM` of computations that all succeed. -/
theorem mapM_ok {α β : Type} (f : α → Res β) (g : α → β) (l : List α) (h : ∀ a ∈ l, f a = .ok (g a)) :
    l.mapM f = (.ok (l.map g) : Res (List β)) := by
  induction l with
  | nil => rfl
  | cons a l ih =>
    rw [List.mapM_cons, h a (by simp), ih (fun x hx => h x (by simp [hx]))]
    rfl

/-- If `mapM` succeeds, each element succeeded. -/
theorem mem_of_mapM_ok {α β : Type} {f : α → Res β} {l : List α} {r : List β} (h : l.mapM f = .ok r) :
    ∀ y, y ∈ r ↔ ∃ a ∈ l, f a = .ok y := by
  induction l generalizing r with
  | nil =>
    have : r = [] := by simpa using h.symm
    subst this; simp
  | cons a l ih =>
    rw [List.mapM_cons] at h
    cases ha : f a with
    | error e => rw [ha] at h; cases h
    | ok y0 =>
      rw [ha] at h
      cases hl : l.mapM f with
      | error e => rw [hl] at h; cases h
      | ok r0 =>
        rw [hl] at h
        have : r = y0 :: r0 := by simpa using h.symm
        subst this
        intro y
        simp only [List.mem_cons, ih hl, exists_eq_or_imp, ha, Except.ok.injEq]
        constructor
        · rintro (h | h)
          · exact Or.inl h.symm
          · exact Or.inr h
        · rintro (h | h)
          · exact Or.inl h.symm
          · exact Or.inr h

namespace BG
open Spec

theorem pt_eq (b : Board) (i : Int) (h0 : 0 ≤ i) (h1 : i < 24) : b.pt i = b.pts[i.toNat]'(by omega) := by
  have : i.toNat < 24 := by omega
  simp [Board.pt, h0, h1, this]

theorem pt_out (b : Board) (i : Int) (h : ¬ (0 ≤ i ∧ i < 24)) : b.pt i = 0 := by
  simp only [Board.pt, h, if_false]

theorem pt_setPt (b : Board) (i v j : Int) :
    (b.setPt i v).pt j = if i = j ∧ 0 ≤ i ∧ i < 24 then v else b.pt j := by
  by_cases hi : 0 ≤ i ∧ i < 24
  · by_cases hj : 0 ≤ j ∧ j < 24
    · have h1 : i.toNat < 24 := by omega
      have h2 : j.toNat < 24 := by omega
      simp only [Board.setPt, hi, hj, Board.pt, and_self, if_true]
      rw [Vector.getElem?_setIfInBounds]
      by_cases hij : i = j
      · subst hij; simp [h1]
      · have : i.toNat ≠ j.toNat := by omega
        simp [hij, this]
    · have : i ≠ j := by rintro rfl; exact hj hi
      rw [pt_out _ _ hj, pt_out _ _ hj]; simp [this]
  · simp only [Board.setPt, hi, and_false, if_false]

@[simp] theorem hit_setPt (b : Board) (i v : Int) : (b.setPt i v).hit = b.hit := by
  unfold Board.setPt; split <;> rfl
@[simp] theorem col_setPt (b : Board) (i v : Int) : (b.setPt i v).col = b.col := by
  unfold Board.setPt; split <;> rfl
@[simp] theorem pt_hit (b : Board) (h : Int × Int) (i : Int) : Board.pt { b with hit := h } i = b.pt i := rfl
@[simp] theorem pt_col (b : Board) (h : Int × Int) (i : Int) : Board.pt { b with col := h } i = b.pt i := rfl

/-- Boards are equal when their entries, bars and collected counts are. -/
theorem board_ext {b c : Board} (h : ∀ i, 0 ≤ i → i < 24 → b.pt i = c.pt i) (hh : b.hit = c.hit) (hc : b.col = c.col) :
    b = c := by
  obtain ⟨p, bh, bc⟩ := b
  obtain ⟨q, ch, cc⟩ := c
  simp only at hh hc
  subst hh hc
  congr 1
  apply Vector.ext
  intro i hi
  have := h i (by omega) (by omega)
  rw [pt_eq _ _ (by omega) (by omega), pt_eq _ _ (by omega) (by omega)] at this
  simpa using this

theorem get_ok (b : Board) {i : Int} (h : 0 ≤ i ∧ i < 24) : b.get i = .ok (b.pt i) := by
  simp only [Board.get, h, and_self, if_true]

theorem put_ok (b : Board) {i : Int} (v : Int) (h : 0 ≤ i ∧ i < 24) : b.put i v = .ok (b.setPt i v) := by
  simp only [Board.put, h, and_self, if_true]

theorem addPt_ok (pf : Profile) (b : Board) {i d : Int} (h : 0 ≤ i ∧ i < 24)
    (hr : -128 ≤ b.pt i + d ∧ b.pt i + d ≤ 127) : b.addPt pf i d = .ok (b.setPt i (b.pt i + d)) := by
  simp only [Board.addPt, get_ok b h, bind_ok, i8_ok hr, put_ok b _ h]

end BG

namespace Spec

/-! ### sums over the points -/

theorem sumRange_update (n : Nat) (f g : Int → Int) (k : Nat) (hk : k < n) (h : ∀ i : Nat, i ≠ k → g i = f i) :
    ((List.range n).map fun (i : Nat) => g i).sum = ((List.range n).map fun (i : Nat) => f i).sum - f k + g k := by
  induction n with
  | zero => omega
  | succ n ih =>
    simp only [List.range_succ, List.map_append, List.sum_append, List.map_cons, List.map_nil, List.sum_cons,
      List.sum_nil]
    by_cases hkn : k = n
    · subst hkn
      have : ((List.range k).map fun (i : Nat) => g i) = (List.range k).map fun (i : Nat) => f i := by
        apply List.map_congr_left
        intro i hi
        exact h i (by have := List.mem_range.1 hi; omega)
      rw [this]; omega
    · have := ih (by omega)
      have := h n (by omega)
      omega

theorem sum24_update (f g : Int → Int) (k : Int) (hk : onBoard k) (h : ∀ i, onBoard i → i ≠ k → g i = f i) :
    sum24 g = sum24 f - f k + g k := by
  obtain ⟨h0, h1⟩ := hk
  let g' : Int → Int := fun i => if onBoard i then g i else f i
  have e1 : sum24 g = sum24 g' := by
    unfold sum24
    refine congrArg List.sum (List.map_congr_left ?_)
    intro i hi
    have : onBoard (i : Int) := by have := List.mem_range.1 hi; constructor <;> omega
    simp [g', this]
  have e2 : g k = g' k := by simp [g', onBoard, h0, h1]
  rw [e1, e2]
  have := sumRange_update 24 f g' k.toNat (by omega) (by
    intro i hi
    by_cases hb : onBoard (i : Int)
    · simp only [g', hb, if_true]
      exact h i hb (by omega)
    · simp only [g', hb, if_false])
  rw [Int.toNat_of_nonneg h0] at this
  exact this

theorem sum24_congr {f g : Int → Int} (h : ∀ i, onBoard i → g i = f i) : sum24 g = sum24 f := by
  have := sum24_update f g 0 ⟨by omega, by omega⟩ (fun i hi _ => h i hi)
  rw [this, h 0 ⟨by omega, by omega⟩]; omega

theorem sum_nonneg' {l : List Int} (h : ∀ x ∈ l, 0 ≤ x) : 0 ≤ l.sum := by
  induction l with
  | nil => simp
  | cons a l ih =>
    have := h a (by simp)
    have := ih (fun x hx => h x (by simp [hx]))
    simp only [List.sum_cons]; omega

theorem le_sum' {l : List Int} (h : ∀ x ∈ l, 0 ≤ x) {a : Int} (ha : a ∈ l) : a ≤ l.sum := by
  induction l with
  | nil => simp at ha
  | cons x l ih =>
    have hx := h x (by simp)
    have hl := sum_nonneg' (fun y hy => h y (List.mem_cons_of_mem x hy))
    simp only [List.sum_cons]
    rcases List.mem_cons.1 ha with rfl | ha
    · omega
    · have := ih (fun y hy => h y (List.mem_cons_of_mem x hy)) ha
      omega

theorem sum24_nonneg {f : Int → Int} (h : ∀ i, onBoard i → 0 ≤ f i) : 0 ≤ sum24 f := by
  apply sum_nonneg'
  intro x hx
  obtain ⟨i, hi, rfl⟩ := List.mem_map.1 hx
  exact h _ (by have := List.mem_range.1 hi; constructor <;> omega)

theorem le_sum24 {f : Int → Int} (h : ∀ i, onBoard i → 0 ≤ f i) {k : Int} (hk : onBoard k) : f k ≤ sum24 f := by
  apply le_sum'
  · intro x hx
    obtain ⟨i, hi, rfl⟩ := List.mem_map.1 hx
    exact h _ (by have := List.mem_range.1 hi; constructor <;> omega)
  · obtain ⟨h0, h1⟩ := hk
    exact List.mem_map.2 ⟨k.toNat, List.mem_range.2 (by omega), by rw [Int.toNat_of_nonneg h0]⟩

/-! ### the view of a board -/

@[simp] theorem men_neg (b : BG.Board) (i : Int) : (view b).men .neg i = (-(b.pt i)).toNat := rfl
@[simp] theorem men_pos (b : BG.Board) (i : Int) : (view b).men .pos i = (b.pt i).toNat := rfl
@[simp] theorem bar_neg (b : BG.Board) : (view b).bar .neg = b.hit.1.toNat := rfl
@[simp] theorem bar_pos (b : BG.Board) : (view b).bar .pos = b.hit.2.toNat := rfl
@[simp] theorem off_neg (b : BG.Board) : (view b).off .neg = b.col.1.toNat := rfl
@[simp] theorem off_pos (b : BG.Board) : (view b).off .pos = b.col.2.toNat := rfl
@[simp] theorem opp_neg : Side.neg.opp = .pos := rfl
@[simp] theorem opp_pos : Side.pos.opp = .neg := rfl
@[simp] theorem sgn_neg : Side.neg.sgn = -1 := rfl
@[simp] theorem sgn_pos : Side.pos.sgn = 1 := rfl
@[simp] theorem pip_neg (i : Int) : pip .neg i = i + 1 := rfl
@[simp] theorem pip_pos (i : Int) : pip .pos i = 24 - i := rfl

theorem Valid.men_le {b : BG.Board} (h : Valid b) (s : Side) (i : Int) :
    ((view b).men s i : Int) + (view b).bar s + (view b).off s ≤ 15 := by
  have ht := h.total s
  unfold Pos.total at ht
  by_cases hi : onBoard i
  · have := le_sum24 (f := fun i => ((view b).men s i : Int)) (fun _ _ => by omega) hi
    omega
  · have h0 : (view b).men s i = 0 := by
      cases s <;> simp [BG.pt_out b i hi]
    have := sum24_nonneg (f := fun i => ((view b).men s i : Int)) (fun _ _ => by omega)
    omega

/-- Ranges of the entries of a valid board. -/
theorem Valid.range {b : BG.Board} (h : Valid b) (i : Int) :
    -15 ≤ b.pt i ∧ b.pt i ≤ 15 ∧ 0 ≤ b.hit.1 ∧ b.hit.1 ≤ 15 ∧ 0 ≤ b.hit.2 ∧ b.hit.2 ≤ 15 ∧
      0 ≤ b.col.1 ∧ b.col.1 ≤ 15 ∧ 0 ≤ b.col.2 ∧ b.col.2 ≤ 15 := by
  have h1 := h.men_le .neg i
  have h2 := h.men_le .pos i
  have := h.hit1; have := h.hit2; have := h.col1; have := h.col2
  simp only [men_neg, men_pos, bar_neg, bar_pos, off_neg, off_pos] at h1 h2
  omega

end Spec
end DieE
