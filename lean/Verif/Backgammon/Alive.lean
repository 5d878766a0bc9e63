import Verif.Backgammon.Facts2

/-!
# Some player can move

In a position without a winner in which not both players are on the bar against a closed board, one of the players has a
legal checker move with some die.
-/

namespace DieE.BG
open DieE DieE.Spec

/-- The point at a given distance from bearing off. -/
def pointAt (s : Side) (p : Int) : Int :=
  match s with
  | .neg => p - 1
  | .pos => 24 - p

theorem pip_pointAt (s : Side) (p : Int) : pip s (pointAt s p) = p := by
  cases s <;> simp only [pip, pointAt] <;> omega

theorem pip_pointAt_opp (s : Side) (p : Int) : pip s.opp (pointAt s p) = 25 - p := by
  cases s <;> simp only [pip, pointAt, Side.opp] <;> omega

theorem pointAt_onBoard {s : Side} {p : Int} (h : 1 ≤ p ∧ p ≤ 24) : onBoard (pointAt s p) := by
  cases s <;> simp only [onBoard, pointAt] <;> omega

theorem pointAt_pip (s : Side) (i : Int) : pointAt s (pip s i) = i := by
  cases s <;> simp only [pip, pointAt] <;> omega

theorem men_excl (b : Board) (s : Side) (i : Int) (h : 0 < (view b).men s i) : (view b).men s.opp i = 0 := by
  cases s <;> simp only [view, Side.opp] at h ⊢ <;> omega

/-- Six made points in the home board. -/
def Closed6 (P : Pos) (s : Side) : Prop := ∀ i, onBoard i → pip s i ≤ 6 → 2 ≤ P.men s i

theorem exists_man {P : Pos} {s : Side} (h : P.total s = 15) (hb : P.bar s = 0) (ho : P.off s < 15) : ∃ i, onBoard i ∧ 0 < P.men s i := by
  by_contra hn
  push Not at hn
  have : sum24 (fun i => P.men s i) = 0 := by
    unfold sum24
    have key : ∀ l : List Int, (∀ x ∈ l, x = 0) → l.sum = 0 := by
      intro l
      induction l with
      | nil => intro _; rfl
      | cons x l ih =>
        intro h
        rw [List.sum_cons, h x List.mem_cons_self, ih fun y hy => h y (List.mem_cons_of_mem _ hy)]
        rfl
    refine key _ fun x hx => ?_
    obtain ⟨i, hi, rfl⟩ := List.mem_map.1 hx
    have := hn i ⟨by omega, by have := List.mem_range.1 hi; omega⟩
    show ((P.men s i : Nat) : Int) = 0
    omega
  unfold Pos.total at h
  omega

/-- A step forward by one onto an own point. -/
theorem step_one {b : Board} {s : Side} {p : Int} (hp : 2 ≤ p ∧ p ≤ 24) (hbar : (view b).bar s = 0)
    (h1 : 0 < (view b).men s (pointAt s p)) (h2 : 0 < (view b).men s (pointAt s (p - 1))) :
    LegalStep s (view b) 1 (pointAt s p, pointAt s (p - 1)) := by
  have o1 := pointAt_onBoard (s := s) (p := p) ⟨by omega, hp.2⟩
  have o2 := pointAt_onBoard (s := s) (p := p - 1) ⟨by omega, by omega⟩
  have n1 : pointAt s p ≠ -1 := fun e => by have := o1.1; omega
  have n2 : pointAt s (p - 1) ≠ -1 := fun e => by have := o2.1; omega
  refine ⟨?_, ?_, ?_, ?_, ?_, ?_⟩
  · unfold SourceRule
    rw [if_neg n1]
    exact ⟨o1, h1⟩
  · intro h
    omega
  · intro _
    refine ⟨o2, ?_⟩
    show (view b).men s.opp (pointAt s (p - 1)) ≤ 1
    rw [men_excl b s _ h2]
    exact Nat.zero_le _
  · unfold DieRule
    rw [if_neg n2, if_neg n1, pip_pointAt, pip_pointAt]
    omega
  · exact fun h => absurd h n2
  · exact fun h => absurd h n2

theorem some_step {b : Board} (hv : Valid b) (hw : ∀ s, (view b).off s < 15)
    (hd : ¬ ∀ s : Side, 0 < (view b).bar s ∧ Closed6 (view b) s.opp) :
    ∃ (s : Side) (d : Int) (a : Int × Int), (1 ≤ d ∧ d ≤ 6) ∧ LegalStep s (view b) d a := by
  by_contra hn
  push Not at hn
  have hbar : ∀ s, 0 < (view b).bar s → Closed6 (view b) s.opp := by
    intro s hb i hi hp
    by_contra hlt
    have hpo : pip s.opp i = 25 - pip s i := by cases s <;> simp only [pip, Side.opp] <;> omega
    have hi1 : 1 ≤ pip s.opp i := by
      have := hi
      unfold onBoard at this
      cases s <;> simp only [pip, Side.opp] <;> omega
    have hne : i ≠ -1 := fun e => by have := hi.1; omega
    refine hn s (pip s.opp i) (-1, i) ⟨hi1, hp⟩ ⟨?_, fun _ => rfl, fun _ => ⟨hi, by show (view b).men s.opp i ≤ 1; omega⟩, ?_, fun h => absurd h hne, fun h => absurd h hne⟩
    · unfold SourceRule
      rw [if_pos rfl]
      exact ⟨hne, hb⟩
    · unfold DieRule
      rw [if_neg hne, if_pos rfl, hpo]
  -- somebody is not on the bar
  have hclosed : ∀ s, (view b).bar s = 0 → (view b).bar s.opp = 0 := by
    intro s h0
    by_contra h1
    have hc : Closed6 (view b) s := by
      have := hbar s.opp (by omega)
      cases s <;> exact this
    refine hn s 1 _ ⟨by omega, by omega⟩ (step_one (p := 6) ⟨by omega, by omega⟩ h0 ?_ ?_)
    · have := hc (pointAt s 6) (pointAt_onBoard ⟨by omega, by omega⟩) (by rw [pip_pointAt])
      omega
    · have := hc (pointAt s (6 - 1)) (pointAt_onBoard ⟨by omega, by omega⟩) (by rw [pip_pointAt]; omega)
      omega
  have h0 : (view b).bar .neg = 0 ∧ (view b).bar .pos = 0 := by
    by_cases h1 : (view b).bar .neg = 0
    · exact ⟨h1, hclosed .neg h1⟩
    · by_cases h2 : (view b).bar .pos = 0
      · exact absurd (hclosed .pos h2) h1
      · refine absurd (fun s => ?_) hd
        cases s
        · exact ⟨by omega, hbar .neg (by omega)⟩
        · exact ⟨by omega, hbar .pos (by omega)⟩
  -- a checker outside the home board, as nobody can bear off
  obtain ⟨i, hi, hm, hp⟩ : ∃ i, onBoard i ∧ 0 < (view b).men .neg i ∧ 6 < pip .neg i := by
    by_contra hn'
    push Not at hn'
    obtain ⟨i, hi, hm⟩ := exists_man (hv.total .neg) h0.1 (hw .neg)
    have hp := hn' i hi hm
    have hall : (view b).allHome .neg := by
      refine ⟨h0.1, fun j hj hj6 => ?_⟩
      by_contra hne
      have := hn' j hj (by omega)
      omega
    have hi1 : 1 ≤ pip .neg i := by
      have := hi.1
      simp only [pip]
      omega
    have hne : i ≠ -1 := fun e => by have := hi.1; omega
    refine hn .neg (pip .neg i) (i, -1) ⟨hi1, hp⟩ ⟨?_, fun h => by omega, fun h => absurd rfl h, ?_, fun _ => hall, fun _ h => absurd h (by simp)⟩
    · unfold SourceRule
      rw [if_neg hne]
      exact ⟨hi, hm⟩
    · unfold DieRule
      rw [if_pos rfl]
  have hple : pip .neg i ≤ 24 := by
    have := hi.2
    simp only [pip]
    omega
  -- it is blocked by six points of the opponent
  have hblock : ∀ d : Int, 1 ≤ d → d ≤ 6 → 2 ≤ (view b).men .pos (pointAt .neg (pip .neg i - d)) := by
    intro d hd1 hd6
    by_contra hlt
    have o2 := pointAt_onBoard (s := .neg) (p := pip .neg i - d) ⟨by omega, by omega⟩
    have n1 : i ≠ -1 := fun e => by have := hi.1; omega
    have n2 : pointAt .neg (pip .neg i - d) ≠ -1 := fun e => by have := o2.1; omega
    refine hn .neg d (i, pointAt .neg (pip .neg i - d)) ⟨hd1, hd6⟩ ⟨?_, fun h => by omega, fun _ => ⟨o2, by
      show (view b).men .pos (pointAt .neg (pip .neg i - d)) ≤ 1
      omega⟩, ?_, fun h => absurd h n2, fun h => absurd h n2⟩
    · unfold SourceRule
      rw [if_neg n1]
      exact ⟨hi, hm⟩
    · unfold DieRule
      rw [if_neg n2, if_neg n1, pip_pointAt]
      show pip .neg i - (pip .neg i - d) = d
      omega
  -- two of these are next to each other
  have e1 : ∀ d, pointAt .neg (pip .neg i - d) = pointAt .pos (25 - pip .neg i + d) := by
    intro d
    simp only [pointAt]
    omega
  refine hn .pos 1 _ ⟨by omega, by omega⟩ (step_one (s := .pos) (p := 25 - pip .neg i + 2) ⟨by omega, by omega⟩ h0.2 ?_ ?_)
  · have := hblock 2 (by omega) (by omega)
    rw [e1] at this
    omega
  · have := hblock 1 (by omega) (by omega)
    rw [e1, show 25 - pip .neg i + 1 = 25 - pip .neg i + 2 - 1 by omega] at this
    omega

end DieE.BG
