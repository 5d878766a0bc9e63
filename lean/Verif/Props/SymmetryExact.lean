import Verif.Props.Exact

/-!
# C25: where the two colours are treated differently

The checker moves that the code offers to the two colours in mirrored positions differ exactly in this: player `-1` bears
off with a larger number than needed even if the point at the distance of this number is freed (`Pos.Freed`), player `1`
does not.
-/

namespace DieE.Props.Ex
open DieE DieE.BG DieE.Spec

theorem almost_on {s : Side} {P : Pos} {d : Int} {a : Act} (h : AlmostLegalStep s P d a) :
    (a.1 = -1 ∨ onBoard a.1) ∧ (a.2 = -1 ∨ onBoard a.2) := by
  rcases AlmostLegalStep_shape h with ⟨h1, h2, -⟩ | ⟨h1, h2, -⟩ | ⟨h1, h2, -⟩
  · exact ⟨.inr h2, .inl h1⟩
  · exact ⟨.inl h1, .inr h2⟩
  · exact ⟨.inr h1, .inr h2⟩

theorem mirror_men (P : Pos) (s : Side) (i : Int) : (mirrorPos P).men s.opp (23 - i) = P.men s i := by
  show P.men s.opp.opp (23 - (23 - i)) = _
  rw [opp_opp, show 23 - (23 - i) = i by omega]

theorem almost_mirror {s : Side} {P : Pos} {d : Int} {a : Act} (h : AlmostLegalStep s P d a) :
    AlmostLegalStep s.opp (mirrorPos P) d (mirrorAct a) := by
  obtain ⟨o1, o2⟩ := almost_on h
  have e1 : (mirrorAct a).1 = -1 ↔ a.1 = -1 := by
    unfold mirrorAct onBoard at *; simp only; split <;> omega
  have e2 : (mirrorAct a).2 = -1 ↔ a.2 = -1 := by
    unfold mirrorAct onBoard at *; simp only; split <;> omega
  have f1 : a.1 ≠ -1 → (mirrorAct a).1 = 23 - a.1 := fun hc => by unfold mirrorAct; simp only [if_neg hc]
  have f2 : a.2 ≠ -1 → (mirrorAct a).2 = 23 - a.2 := fun hc => by unfold mirrorAct; simp only [if_neg hc]
  have men' := fun t i => mirror_men P t i
  have bar' : ∀ t, (mirrorPos P).bar t.opp = P.bar t := by
    intro t; show P.bar t.opp.opp = _; rw [opp_opp]
  refine ⟨?_, ?_, ?_, ?_, ?_⟩
  · have := h.source
    unfold SourceRule at *
    by_cases hc : a.1 = -1
    · rw [if_pos hc] at this
      rw [if_pos (e1.2 hc), bar']
      exact ⟨fun hn => this.1 (e2.1 hn), this.2⟩
    · rw [if_neg hc] at this
      rw [if_neg (fun hn => hc (e1.1 hn)), f1 hc, men']
      refine ⟨?_, this.2⟩
      have := this.1
      unfold onBoard at *; omega
  · intro hb
    rw [bar'] at hb
    exact e1.2 (h.barFirst hb)
  · intro hn
    have hc : a.2 ≠ -1 := fun hc => hn (e2.2 hc)
    obtain ⟨h1, h2⟩ := h.openPoint hc
    rw [f2 hc, men']
    refine ⟨?_, h2⟩
    unfold onBoard at *; omega
  · have := h.dieUse
    unfold DieRule at *
    by_cases hc : a.2 = -1
    · have ha : a.1 ≠ -1 := by
        rcases AlmostLegalStep_shape h with ⟨-, h2, -⟩ | ⟨-, h2, -⟩ | ⟨h2, -⟩
        · have := h2.1; omega
        · have := h2.1; omega
        · have := h2.1; omega
      rw [if_pos hc] at this
      rw [if_pos (e2.2 hc), f1 ha, pip_mirror]; exact this
    · rw [if_neg hc] at this
      rw [if_neg (fun hn => hc (e2.1 hn)), f2 hc, pip_mirror]
      by_cases hc1 : a.1 = -1
      · rw [if_pos hc1] at this; rw [if_pos (e1.2 hc1)]; exact this
      · rw [if_neg hc1] at this; rw [if_neg (fun hn => hc1 (e1.1 hn)), f1 hc1, pip_mirror]; exact this
  · intro hn
    exact allHome_mirror (h.home (e2.1 hn))

theorem surplus_mirror (P : Pos) (s : Side) (p : Int) : (mirrorPos P).surplus s.opp p = P.surplus s p := by
  unfold Pos.surplus
  congr 1
  refine List.map_congr_left fun k _ => ?_
  have e : pointAt s.opp ((k : Int) + 1) = 23 - pointAt s ((k : Int) + 1) := by
    cases s <;> simp only [opp_neg, opp_pos, pointAt] <;> omega
  rw [e, mirror_men, mirror_men]

theorem freed_mirror (P : Pos) (s : Side) (i : Int) : (mirrorPos P).Freed s.opp (23 - i) ↔ P.Freed s i := by
  unfold Pos.Freed
  rw [mirror_men, pip_mirror, surplus_mirror]

/-- C25, the exact difference of the colours: a checker move offered to player `-1` is offered, mirrored, to player `1` in
the mirrored position, unless it bears off with a larger number than needed while the point at the distance of this number
is freed; all checker moves of player `1` arise in this way. -/
theorem C25_steps {P : Pos} {d : Int} (hd : 1 ≤ d ∧ d ≤ 6) {a : Act} (hon : (a.1 = -1 ∨ onBoard a.1) ∧ (a.2 = -1 ∨ onBoard a.2)) :
    CodeStep .pos (mirrorPos P) d (mirrorAct a) ↔
      CodeStep .neg P d a ∧ ¬ (a.2 = -1 ∧ pip .neg a.1 < d ∧ P.Freed .neg (d - 1)) := by
  obtain ⟨o1, o2⟩ := hon
  have e2 : (mirrorAct a).2 = -1 ↔ a.2 = -1 := by
    unfold mirrorAct onBoard at *; simp only; split <;> omega
  have halm : AlmostLegalStep .pos (mirrorPos P) d (mirrorAct a) ↔ AlmostLegalStep .neg P d a := by
    refine ⟨fun h => ?_, fun h => almost_mirror h⟩
    have h := almost_mirror h
    rw [mirrorPos_mirrorPos, mirrorAct_mirrorAct o1 o2] at h
    exact h
  have key : AlmostLegalStep .neg P d a → a.2 = -1 → (mirrorAct a).1 = 23 - a.1 := by
    intro h he
    have ha : a.1 ≠ -1 := by
      rcases AlmostLegalStep_shape h with ⟨-, h2, -⟩ | ⟨-, h2, -⟩ | ⟨h2, -⟩
      · have := h2.1; omega
      · have := h2.1; omega
      · have := h2.1; omega
    unfold mirrorAct; simp only [if_neg ha]
  have fr := fun i => freed_mirror P .neg i
  have pm := fun i => pip_mirror .neg i
  simp only [opp_neg] at fr pm
  constructor
  · rintro ⟨h1, h2⟩
    have h1' := halm.1 h1
    refine ⟨⟨h1', fun he hp => ?_⟩, ?_⟩
    · obtain ⟨q1, q2⟩ := h2 (e2.2 he) (by rw [key h1' he, pm]; exact hp)
      rw [key h1' he, fr] at q1
      refine ⟨q1, fun i hi hlt hor hf => ?_⟩
      refine q2 (23 - i) (by unfold onBoard at *; omega) (by rw [key h1' he, pm, pm]; exact hlt) (.inl ?_) ((fr i).2 hf)
      rw [pm]
      rcases hor with h | ⟨h, -⟩
      · exact h
      · cases h
    · rintro ⟨he, hp, hf⟩
      obtain ⟨-, q2⟩ := h2 (e2.2 he) (by rw [key h1' he, pm]; exact hp)
      have hpip : pip .neg (d - 1) = d := by rw [pip_neg]; omega
      exact q2 (23 - (d - 1)) (by unfold onBoard; omega) (by rw [key h1' he, pm, pm, hpip]; exact hp) (.inr ⟨rfl, by rw [pm]; exact hpip⟩)
        ((fr (d - 1)).2 hf)
  · rintro ⟨⟨h1, h2⟩, hn⟩
    refine ⟨halm.2 h1, fun he hp => ?_⟩
    have he' := e2.1 he
    rw [key h1 he', pm] at hp
    obtain ⟨q1, q2⟩ := h2 he' hp
    rw [key h1 he', fr]
    refine ⟨q1, fun i hi hlt hor hf => ?_⟩
    have ei : i = 23 - (23 - i) := by omega
    rw [ei, pm, pm] at hlt
    rw [ei, fr] at hf
    rw [ei, pm] at hor
    rcases hor with h | ⟨-, h⟩
    · exact q2 (23 - i) (by unfold onBoard at *; omega) hlt (.inl h) hf
    · refine hn ⟨he', hp, ?_⟩
      rw [pip_neg] at h
      rwa [show d - 1 = 23 - i by omega]

/-- In the position of `C25_refuted` (after the 1) the point at distance 5 is freed, and only player `-1` may bear off from
point 1 with a 5. -/
example : CodeStep .neg (after .neg (view asymState.board) (2, 1)) 5 (1, -1) ∧
    ¬ CodeStep .pos (mirrorPos (after .neg (view asymState.board) (2, 1))) 5 (mirrorAct (1, -1)) := by
  have hm : (2, 1) ∈ gen .neg asymState.board 1 := by decide +kernel
  have ha := (mem_gen asymState_ok.board (by decide)).1 hm
  have hv := valid_next asymState_ok.board (by decide) ha.almost
  rw [← view_next asymState_ok.board (by decide) ha.almost]
  refine ⟨(mem_gen hv (by decide)).1 (by decide +kernel), fun h => ?_⟩
  have := ((C25_steps (by decide) ⟨.inr ⟨by decide, by decide⟩, .inl rfl⟩).1 h).2
  exact this ⟨rfl, by decide, by decide +kernel, by decide +kernel⟩

end DieE.Props.Ex
