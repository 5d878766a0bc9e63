import Verif.Backgammon.Basic
import Mathlib.Tactic.SplitIfs
import Mathlib.Tactic.Ring

/-! # The effect of a single checker move -/

namespace DieE.BG
open Spec
set_option linter.unusedSimpArgs false
set_option linter.unusedTactic false
set_option linter.unreachableTactic false

/-- Bar and collected counts changed by a step, as data. -/
def nextHit (s : Side) (b : Board) (a : Act) : Int × Int :=
  let h : Int := if a.2 ≠ -1 ∧ b.pt a.2 = -s.sgn then 1 else 0
  let e : Int := if a.2 ≠ -1 ∧ a.1 = -1 then 1 else 0
  match s with
  | .neg => (b.hit.1 - e, b.hit.2 + h)
  | .pos => (b.hit.1 + h, b.hit.2 - e)

def nextCol (s : Side) (b : Board) (a : Act) : Int × Int :=
  if a.2 = -1 then
    match s with
    | .neg => (b.col.1 + 1, b.col.2)
    | .pos => (b.col.1, b.col.2 + 1)
  else b.col

def nextPts (s : Side) (b : Board) (a : Act) : Board :=
  if a.2 = -1 then b.setPt a.1 (b.pt a.1 - s.sgn)
  else
    let v := if b.pt a.2 = -s.sgn then s.sgn else b.pt a.2 + s.sgn
    if a.1 = -1 then b.setPt a.2 v
    else (b.setPt a.2 v).setPt a.1 (b.pt a.1 - s.sgn)

/-- The board after a checker move, without machine arithmetic (proof device). -/
def next (s : Side) (b : Board) (a : Act) : Board :=
  { pts := (nextPts s b a).pts, hit := nextHit s b a, col := nextCol s b a }

theorem eq_mk {c : Board} {h k : Int × Int} (hh : c.hit = h) (hk : c.col = k) : c = { pts := c.pts, hit := h, col := k } := by
  subst hh hk; rfl

theorem sgn_cases (s : Side) : (s = .neg ∧ s.sgn = -1) ∨ (s = .pos ∧ s.sgn = 1) := by cases s <;> simp

/-- The shapes of an almost legal step. -/
theorem AlmostLegalStep_shape {s : Side} {P : Pos} {d : Int} {a : Act} (h : AlmostLegalStep s P d a) :
    (a.2 = -1 ∧ onBoard a.1 ∧ 0 < P.men s a.1 ∧ P.bar s = 0) ∨
    (a.1 = -1 ∧ onBoard a.2 ∧ 0 < P.bar s ∧ P.men s.opp a.2 ≤ 1) ∨
    (onBoard a.1 ∧ onBoard a.2 ∧ 0 < P.men s a.1 ∧ P.men s.opp a.2 ≤ 1 ∧ pip s a.1 - pip s a.2 = d ∧ P.bar s = 0) := by
  obtain ⟨h1, h2, h3, h4, h5⟩ := h
  unfold SourceRule BarRule OpenRule DieRule HomeRule onBoard at *
  by_cases ho : a.2 = -1
  · left
    have hb := (h5 ho).1
    by_cases he : a.1 = -1
    · rw [if_pos he] at h1; exact absurd ho h1.1
    · rw [if_neg he] at h1; exact ⟨ho, h1.1, h1.2, hb⟩
  · right
    by_cases he : a.1 = -1
    · left
      rw [if_pos he] at h1
      exact ⟨he, (h3 ho).1, h1.2, (h3 ho).2⟩
    · right
      rw [if_neg he] at h1
      rw [if_neg ho, if_neg he] at h4
      refine ⟨h1.1, (h3 ho).1, h1.2, (h3 ho).2, h4, ?_⟩
      rcases Nat.eq_zero_or_pos (P.bar s) with h | h
      · exact h
      · exact absurd (h2 h) he

theorem playOne_next (pf : Profile) {s : Side} {b : Board} (hb : Valid b) {d : Int} (hd : 1 ≤ d) {a : Act}
    (h : AlmostLegalStep s (view b) d a) : playOne pf s.sgn b a = .ok (next s b a) := by
  obtain ⟨f, t⟩ := a
  have r := hb.range
  rcases AlmostLegalStep_shape h with ⟨h1, h2, h3, h4⟩ | ⟨h1, h2, h3, h4⟩ | ⟨h1, h2, h3, h4, h5, h6⟩
  · -- bearing off
    obtain rfl : t = -1 := h1
    have rf := r f
    have hf : 0 ≤ f ∧ f < 24 := h2
    cases s
    · simp only [men_neg, bar_neg] at h3 h4
      simp only [sgn_neg, playOne, if_true]
      rw [addPt_ok pf b hf (by omega)]
      simp only [bind_ok, Board.incCol1, col_setPt]
      rw [u8_ok (by omega)]
      simp [next, nextPts, nextHit, nextCol, hit_setPt]
    · simp only [men_pos, bar_pos] at h3 h4
      simp only [sgn_pos, playOne, if_true]
      rw [addPt_ok pf b hf (by omega)]
      simp only [bind_ok, Board.incCol2, col_setPt]
      rw [u8_ok (by omega)]
      simp [next, nextPts, nextHit, nextCol, hit_setPt]
      rfl
  · -- entering
    obtain rfl : f = -1 := h1
    have rt := r t
    have ht : 0 ≤ t ∧ t < 24 := h2
    have ht1 : t ≠ -1 := by omega
    cases s
    · simp only [bar_neg, opp_neg, men_pos] at h3 h4
      simp only [sgn_neg, playOne, if_true, ht1, if_false, get_ok b ht, bind_ok, i8_ok (x := - -1) (by omega)]
      by_cases hq : b.pt t = 1
      · have : b.pt t = - -1 := by omega
        simp only [this, if_true, put_ok b _ ht, bind_ok, Board.addHit2, Board.addHit1, hit_setPt]
        rw [u8_ok (by omega)]
        simp only [bind_ok, pure_ok]
        rw [u8_ok (by omega)]
        simp [next, nextPts, nextHit, nextCol, ht1, hq]
        omega
      · have : ¬ b.pt t = - -1 := by omega
        simp only [this, if_false, bind_ok, addPt_ok pf b ht (d := -1) (by omega), Board.addHit1, hit_setPt]
        rw [u8_ok (by omega)]
        simp [next, nextPts, nextHit, nextCol, ht1, hq]
        omega
    · simp only [bar_pos, opp_pos, men_neg] at h3 h4
      have h1n : ¬ ((1 : Int) = -1) := by omega
      simp only [sgn_pos, playOne, if_true, ht1, if_false, get_ok b ht, bind_ok, i8_ok (x := - 1) (by omega), h1n]
      by_cases hq : b.pt t = -1
      · simp only [hq, if_true, put_ok b _ ht, bind_ok, Board.addHit2, Board.addHit1, hit_setPt]
        rw [u8_ok (by omega)]
        simp only [bind_ok, pure_ok]
        rw [u8_ok (by omega)]
        simp [next, nextPts, nextHit, nextCol, ht1, hq]
        omega
      · simp only [hq, if_false, bind_ok, addPt_ok pf b ht (d := 1) (by omega), Board.addHit2, hit_setPt]
        rw [u8_ok (by omega)]
        simp [next, nextPts, nextHit, nextCol, ht1, hq]
        omega
  · -- moving
    have rt := r t
    have rf := r f
    have ht : 0 ≤ t ∧ t < 24 := h2
    have hf : 0 ≤ f ∧ f < 24 := h1
    have ht1 : t ≠ -1 := by omega
    have hf1 : f ≠ -1 := by omega
    simp only at h3 h4 h5
    cases s
    · simp only [men_neg, opp_neg, men_pos, pip_neg, bar_neg] at h3 h4 h5 h6
      have hne : t ≠ f := by omega
      simp only [sgn_neg, playOne, if_true, ht1, hf1, if_false, get_ok b ht, bind_ok, i8_ok (x := - -1) (by omega)]
      by_cases hq : b.pt t = 1
      · have : b.pt t = - -1 := by omega
        simp only [this, if_true, put_ok b _ ht, bind_ok]
        have hp : (b.setPt t (-1)).pt f = b.pt f := by rw [pt_setPt]; simp [hne]
        rw [addPt_ok pf _ hf (by rw [hp]; omega)]
        simp only [bind_ok, Board.addHit2, hit_setPt, hp]
        rw [u8_ok (by omega)]
        simp [next, nextPts, nextHit, nextCol, ht1, hf1, hq]
      · have : ¬ b.pt t = - -1 := by omega
        simp only [this, if_false, bind_ok, addPt_ok pf b ht (d := -1) (by omega)]
        have hp : (b.setPt t (b.pt t + -1)).pt f = b.pt f := by rw [pt_setPt]; simp [hne]
        rw [addPt_ok pf _ hf (by rw [hp]; omega)]
        rw [hp]
        simp only [next, nextPts, nextHit, nextCol, sgn_neg, sgn_pos, ht1, hf1, hq, this, if_false, and_false,
          Int.sub_eq_add_neg, ne_eq, not_false_eq_true]
        refine congrArg Except.ok (eq_mk ?_ ?_) <;> simp
    · simp only [men_pos, opp_pos, men_neg, pip_pos, bar_pos] at h3 h4 h5 h6
      have hne : t ≠ f := by omega
      have h1n : ¬ ((1 : Int) = -1) := by omega
      simp only [sgn_pos, playOne, if_true, ht1, hf1, if_false, get_ok b ht, bind_ok, i8_ok (x := - 1) (by omega),
        h1n]
      by_cases hq : b.pt t = -1
      · simp only [hq, if_true, put_ok b _ ht, bind_ok]
        have hp : (b.setPt t (1)).pt f = b.pt f := by rw [pt_setPt]; simp [hne]
        rw [addPt_ok pf _ hf (by rw [hp]; omega)]
        simp only [bind_ok, Board.addHit1, hit_setPt, hp]
        rw [u8_ok (by omega)]
        simp [next, nextPts, nextHit, nextCol, ht1, hf1, hq]
        rfl
      · simp only [hq, if_false, bind_ok, addPt_ok pf b ht (d := 1) (by omega)]
        have hp : (b.setPt t (b.pt t + 1)).pt f = b.pt f := by rw [pt_setPt]; simp [hne]
        rw [addPt_ok pf _ hf (by rw [hp]; omega)]
        rw [hp]
        simp only [next, nextPts, nextHit, nextCol, sgn_neg, sgn_pos, ht1, hf1, hq, if_false, and_false,
          Int.sub_eq_add_neg, ne_eq, not_false_eq_true]
        refine congrArg Except.ok (eq_mk ?_ ?_) <;> simp

theorem pt_next (s : Side) (b : Board) (a : Act) (i : Int) : (next s b a).pt i = (nextPts s b a).pt i := rfl

/-- Entries after a step. -/
theorem pt_next_eq {s : Side} {b : Board} {P : Pos} {d : Int} {a : Act}
    (h : AlmostLegalStep s P d a) (i : Int) : (next s b a).pt i =
      if a.1 = i ∧ a.1 ≠ -1 then b.pt i - s.sgn
      else if a.2 = i ∧ a.2 ≠ -1 then (if b.pt i = -s.sgn then s.sgn else b.pt i + s.sgn)
      else b.pt i := by
  obtain ⟨f, t⟩ := a
  have sh := AlmostLegalStep_shape h
  simp only [onBoard] at sh
  rw [pt_next]
  unfold nextPts
  rcases sh with ⟨h1, h2, h3, h4⟩ | ⟨h1, h2, h3, h4⟩ | ⟨h1, h2, h3, h4, h5, h6⟩
  · subst h1
    have : f ≠ -1 := by omega
    simp only [if_true, pt_setPt, h2, and_true, this, ne_eq, not_false_eq_true, not_true, and_false, if_false]
    split
    · next e => rw [e]
    · rfl
  · subst h1
    have : t ≠ -1 := by omega
    simp only [if_true, pt_setPt, h2, and_true, this, ne_eq, not_false_eq_true, not_true, and_false, if_false]
    split
    · next e => rw [e]
    · rfl
  · have ht : t ≠ -1 := by omega
    have hf : f ≠ -1 := by omega
    simp only [if_true, pt_setPt, h1, h2, and_true, ht, hf, ne_eq, not_false_eq_true, not_true, and_false, if_false]
    split
    · next e => rw [e]
    · split
      · next e => rw [e]
      · rfl

theorem after_men_same (s : Side) (P : Pos) (a : Act) (i : Int) : (after s P a).men s i =
    P.men s i - (if a.1 = i ∧ a.1 ≠ -1 then 1 else 0) + (if a.2 = i ∧ a.2 ≠ -1 then 1 else 0) := by
  simp [after]
theorem after_men_opp (s : Side) (P : Pos) (a : Act) (i : Int) : (after s P a).men s.opp i =
    if a.2 = i ∧ a.2 ≠ -1 ∧ P.men s.opp i = 1 then 0 else P.men s.opp i := by
  cases s <;> rfl
theorem after_bar_same (s : Side) (P : Pos) (a : Act) :
    (after s P a).bar s = P.bar s - (if a.1 = -1 then 1 else 0) := by
  simp [after]
theorem after_bar_opp (s : Side) (P : Pos) (a : Act) :
    (after s P a).bar s.opp = P.bar s.opp + (if a.2 ≠ -1 ∧ P.men s.opp a.2 = 1 then 1 else 0) := by
  cases s <;> rfl
theorem after_off_same (s : Side) (P : Pos) (a : Act) :
    (after s P a).off s = P.off s + (if a.2 = -1 then 1 else 0) := by
  simp [after]
theorem after_off_opp (s : Side) (P : Pos) (a : Act) : (after s P a).off s.opp = P.off s.opp := by
  cases s <;> simp [after]

theorem side_cases (s u : Side) : u = s ∨ u = s.opp := by cases s <;> cases u <;> simp

theorem view_next {s : Side} {b : Board} (hb : Valid b) {d : Int} (hd : 1 ≤ d) {a : Act}
    (h : AlmostLegalStep s (view b) d a) : view (next s b a) = after s (view b) a := by
  have hp := pt_next_eq h (b := b)
  obtain ⟨f, t⟩ := a
  have hh1 := hb.hit1
  have hh2 := hb.hit2
  have hc1 := hb.col1
  have hc2 := hb.col2
  have sh := AlmostLegalStep_shape h
  simp only [onBoard] at sh
  simp only at hp
  clear h hb
  refine Pos.ext ?_ ?_ ?_
  · funext u i
    have hp := hp i
    have ef : f = i → b.pt f = b.pt i := by rintro rfl; rfl
    have et : t = i → b.pt t = b.pt i := by rintro rfl; rfl
    rcases side_cases s u with rfl | rfl
    · rw [after_men_same]
      cases u <;> dsimp only [view, Side.opp, Side.sgn, pip] at hp sh ⊢ <;> rw [hp] <;>
        split_ifs <;> first | contradiction | omega
    · rw [after_men_opp]
      by_cases hc : t = i ∧ t ≠ -1 ∧ (view b).men s.opp i = 1
      · rw [if_pos hc]
        cases s <;> dsimp only [view, Side.opp, Side.sgn, pip] at hp sh hc ⊢ <;> rw [hp] <;>
          split_ifs <;> first | contradiction | omega
      · rw [if_neg hc]
        cases s <;> dsimp only [view, Side.opp, Side.sgn, pip] at hp sh hc ⊢ <;> rw [hp] <;>
          split_ifs <;> first | contradiction | omega
  · funext u
    clear hp
    rcases side_cases s u with rfl | rfl
    · rw [after_bar_same]
      cases u <;> dsimp only [view, Side.opp, Side.sgn, pip, next, nextHit] at sh ⊢ <;>
        split_ifs <;> first | contradiction | omega
    · rw [after_bar_opp]
      by_cases hc : t ≠ -1 ∧ (view b).men s.opp t = 1
      · rw [if_pos hc]
        cases s <;> dsimp only [view, Side.opp, Side.sgn, pip, next, nextHit] at sh hc ⊢ <;>
          split_ifs <;> first | contradiction | omega
      · rw [if_neg hc]
        cases s <;> dsimp only [view, Side.opp, Side.sgn, pip, next, nextHit] at sh hc ⊢ <;>
          split_ifs <;> first | contradiction | omega
  · funext u
    clear hp
    rcases side_cases s u with rfl | rfl
    · rw [after_off_same]
      cases u <;> dsimp only [view, Side.opp, Side.sgn, pip, next, nextCol] at sh ⊢ <;>
        split_ifs <;> first | contradiction | rfl | omega | (simp only; omega)
    · rw [after_off_opp]
      cases s <;> dsimp only [view, Side.opp, Side.sgn, pip, next, nextCol] at sh ⊢ <;>
        split_ifs <;> first | contradiction | rfl | omega | (simp only; omega)

/-! ### Sums after a step -/

theorem sum24_add (f g : Int → Int) : sum24 (fun i => f i + g i) = sum24 f + sum24 g := by
  unfold sum24
  generalize List.range 24 = l
  induction l with
  | nil => rfl
  | cons a l ih => simp only [List.map_cons, List.sum_cons] at ih ⊢; rw [ih]; omega

theorem sum24_zero : sum24 (fun _ => 0) = 0 := by decide

theorem sum24_single (k c : Int) : sum24 (fun i => if k = i then c else 0) = if onBoard k then c else 0 := by
  split
  · next h =>
    rw [sum24_update (fun _ => 0) _ k h (fun i _ hi => if_neg (fun e => hi e.symm)), sum24_zero]
    simp
  · next h =>
    rw [sum24_congr (f := fun _ => 0), sum24_zero]
    intro i hi
    have : k ≠ i := by rintro rfl; exact h hi
    simp [this]

/-- Weighted sums of the mover's checkers. -/
theorem after_sum_same {s : Side} {P : Pos} {d : Int} {a : Act} (h : AlmostLegalStep s P d a) (w : Int → Int) :
    sum24 (fun i => ((after s P a).men s i : Int) * w i) =
      sum24 (fun i => (P.men s i : Int) * w i) - (if a.1 ≠ -1 then w a.1 else 0) + (if a.2 ≠ -1 then w a.2 else 0) := by
  obtain ⟨f, t⟩ := a
  have sh := AlmostLegalStep_shape h
  simp only at sh ⊢
  have key : (fun i => ((after s P (f, t)).men s i : Int) * w i) = fun i => (P.men s i : Int) * w i +
      ((if f = i then (if f ≠ -1 then - w f else 0) else 0) + (if t = i then (if t ≠ -1 then w t else 0) else 0)) := by
    funext i
    have e : ((after s P (f, t)).men s i : Int) =
        P.men s i + (if f = i ∧ f ≠ -1 then -1 else 0) + (if t = i ∧ t ≠ -1 then 1 else 0) := by
      rw [after_men_same]
      have ef : f = i → P.men s f = P.men s i := by rintro rfl; rfl
      simp only
      split_ifs <;> omega
    rw [e]
    have wf : f = i → w f = w i := by rintro rfl; rfl
    have wt : t = i → w t = w i := by rintro rfl; rfl
    split_ifs <;> first | contradiction | (exfalso; omega) | (try rw [wf (by assumption)]); (try rw [wt (by assumption)]); ring
  rw [key, sum24_add, sum24_add, sum24_single, sum24_single]
  simp only [onBoard] at *
  split_ifs <;> omega

/-- Weighted sums of the opponent's checkers. -/
theorem after_sum_opp {s : Side} {P : Pos} {d : Int} {a : Act} (h : AlmostLegalStep s P d a) (w : Int → Int) :
    sum24 (fun i => ((after s P a).men s.opp i : Int) * w i) =
      sum24 (fun i => (P.men s.opp i : Int) * w i) - (if a.2 ≠ -1 ∧ P.men s.opp a.2 = 1 then w a.2 else 0) := by
  obtain ⟨f, t⟩ := a
  have sh := h.openPoint
  simp only [OpenRule] at sh ⊢
  have key : (fun i => ((after s P (f, t)).men s.opp i : Int) * w i) = fun i => (P.men s.opp i : Int) * w i +
      (if t = i then (if t ≠ -1 ∧ P.men s.opp t = 1 then - w t else 0) else 0) := by
    funext i
    rw [after_men_opp]
    simp only
    by_cases ht : t = i
    · subst ht
      by_cases hc : t ≠ -1 ∧ P.men s.opp t = 1
      · rw [if_pos ⟨rfl, hc⟩, if_pos rfl, if_pos hc, hc.2]; simp
      · rw [if_neg (fun e => hc e.2), if_pos rfl, if_neg hc]; simp
    · simp [ht]
  rw [key, sum24_add, sum24_single]
  simp only [onBoard] at *
  split_ifs <;> omega

theorem after_total {s : Side} {P : Pos} {d : Int} {a : Act} (h : AlmostLegalStep s P d a) (u : Side) :
    (after s P a).total u = P.total u := by
  have sh := AlmostLegalStep_shape h
  unfold Pos.total
  simp only [onBoard] at sh
  rcases side_cases s u with rfl | rfl
  · have := after_sum_same h (fun _ => 1)
    simp only [Int.mul_one] at this
    rw [this, after_bar_same, after_off_same]
    split_ifs <;> omega
  · have := after_sum_opp h (fun _ => 1)
    simp only [Int.mul_one] at this
    rw [this, after_bar_opp, after_off_opp]
    split_ifs <;> omega

/-- A step keeps the board valid. -/
theorem valid_next {s : Side} {b : Board} (hb : Valid b) {d : Int} (hd : 1 ≤ d) {a : Act}
    (h : AlmostLegalStep s (view b) d a) : Valid (next s b a) := by
  have hv := view_next hb hd h
  have sh := AlmostLegalStep_shape h
  have h1 := hb.hit1; have h2 := hb.hit2; have h3 := hb.col1; have h4 := hb.col2
  refine ⟨?_, ?_, ?_, ?_, fun u => by rw [hv, after_total h, hb.total]⟩ <;> clear h hv <;> cases s <;>
    simp only [next, nextHit, nextCol, bar_neg, bar_pos, onBoard] at sh ⊢ <;> split_ifs <;> (try simp only) <;> omega

end DieE.BG
