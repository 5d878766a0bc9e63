import Verif.Backgammon.Facts

/-! # Completeness, refinement and further invariants -/

namespace DieE.BG
open Spec

theorem genPlay_max {s : Side} {dice : List Int} {b : Board} {q : Actions} (h : GenPlay s dice b q) (hb : Valid b)
    (hm : DiceOK dice) : MaxPlay (AlmostLegalStep s) (LegalStep s) s dice (view b) q := by
  induction h with
  | stop h => exact .stop (fun d hd a => gen_eq_nil (h d hd) hb (hm d hd) a)
  | step h1 h2 _ ih =>
    have hd := hm _ h1
    have ha := gen_almost hb hd h2
    have := ih (valid_next hb hd.1 ha) (hm.erase _)
    rw [view_next hb hd.1 ha] at this
    exact .step h1 ha this

theorem MaxPlay.perm {R L : Pos → Int → Act → Prop} {s : Side} {dice dice' : List Int} {P : Pos} {q : List Act}
    (h : MaxPlay R L s dice P q) (hp : dice.Perm dice') : MaxPlay R L s dice' P q := by
  induction h generalizing dice' with
  | stop h => exact .stop (fun d hd => h d (hp.mem_iff.2 hd))
  | step h1 h2 _ ih => exact .step (hp.mem_iff.1 h1) h2 (ih (hp.erase _))

theorem homeFree_after {s : Side} {P : Pos} {a : Act} (h : P.homeFree s) : (after s P a).homeFree s := by
  intro i hi hp
  rw [after_men_opp, h i hi hp]
  simp

theorem genPlay_play {s : Side} {dice : List Int} {b : Board} {q : Actions} (h : GenPlay s dice b q) (hb : Valid b)
    (hm : DiceOK dice) (hf : (view b).homeFree s) : Play s dice (view b) q := by
  unfold Play
  induction h with
  | stop h => exact .stop (fun d hd a => gen_eq_nil (h d hd) hb (hm d hd) a)
  | step h1 h2 _ ih =>
    have hd := hm _ h1
    have ha := gen_legal hb hd hf h2
    have hv := view_next hb hd.1 ha.almost
    have := ih (valid_next hb hd.1 ha.almost) (hm.erase _) (by rw [hv]; exact homeFree_after hf)
    rw [hv] at this
    exact .step h1 ha this

/-- Rule-legal plays are generated (when no opposing checker is in the mover's home board). -/
theorem play_genPlay {s : Side} {dice : List Int} {P : Pos} {q : Actions} (h : Play s dice P q) :
    ∀ b, view b = P → Valid b → DiceOK dice → P.homeFree s → GenPlay s dice b q := by
  unfold Play at h
  induction h with
  | @stop dice P h =>
    rintro b rfl hb hm hf
    refine .stop (fun d hd => ?_)
    rw [List.eq_nil_iff_forall_not_mem]
    intro a ha
    exact h d hd a (gen_legal hb (hm d hd) hf ha)
  | @step dice P d a q h1 h2 _ ih =>
    rintro b rfl hb hm hf
    have hd := hm _ h1
    exact .step h1 (gen_complete hb hd h2) (ih _ (view_next hb hd.1 h2.almost) (valid_next hb hd.1 h2.almost)
      (hm.erase _) (homeFree_after hf))

/-- Any sequence of legal steps can be continued to a generated play. -/
theorem genPlay_exists (s : Side) (n : Nat) (dice : List Int) (b : Board) (hn : dice.length = n) :
    ∃ q, GenPlay s dice b q := by
  induction n generalizing dice b with
  | zero =>
    have : dice = [] := List.length_eq_zero_iff.1 hn
    subst this
    exact ⟨[], .stop (by simp)⟩
  | succ n ih =>
    by_cases h : ∀ d ∈ dice, gen s b d = []
    · exact ⟨[], .stop h⟩
    · simp only [not_forall] at h
      obtain ⟨d, hd, hne⟩ := h
      obtain ⟨a, l, e⟩ := List.exists_cons_of_ne_nil hne
      obtain ⟨q, hq⟩ := ih (dice.erase d) (next s b a) (by rw [List.length_erase_of_mem hd]; omega)
      exact ⟨a :: q, .step hd (by rw [e]; simp) hq⟩

theorem uses_prefix_genPlay {s : Side} {dice : List Int} {P : Pos} {q : Actions} (h : Uses (LegalStep s) s dice P q) :
    ∀ b, view b = P → Valid b → DiceOK dice → ∃ q', GenPlay s dice b (q ++ q') ∧ (q.length = dice.length → q' = []) := by
  induction h with
  | @nil dice P =>
    rintro b rfl hb hm
    obtain ⟨q', h⟩ := genPlay_exists s _ dice b rfl
    refine ⟨q', h, fun hl => ?_⟩
    have : dice = [] := List.length_eq_zero_iff.1 hl.symm
    subst this
    cases h with
    | stop _ => rfl
    | step h _ _ => simp at h
  | @cons dice P d a q h1 h2 _ ih =>
    rintro b rfl hb hm
    have hd := hm _ h1
    obtain ⟨q', h, hl⟩ := ih _ (view_next hb hd.1 h2.almost) (valid_next hb hd.1 h2.almost) (hm.erase _)
    refine ⟨q', .step h1 (gen_complete hb hd h2) h, fun e => hl ?_⟩
    rw [List.length_erase_of_mem h1]
    simp only [List.length_cons] at e; omega

theorem view_inj {b c : Board} (hb : Valid b) (hc : Valid c) (h : view b = view c) : b = c := by
  have hm := congrArg Pos.men h
  have hba := congrArg Pos.bar h
  have ho := congrArg Pos.off h
  have h1 := hb.hit1; have h2 := hb.hit2; have h3 := hb.col1; have h4 := hb.col2
  have h5 := hc.hit1; have h6 := hc.hit2; have h7 := hc.col1; have h8 := hc.col2
  refine board_ext (fun i _ _ => ?_) (Prod.ext ?_ ?_) (Prod.ext ?_ ?_)
  · have e1 := congrFun (congrFun hm .neg) i
    have e2 := congrFun (congrFun hm .pos) i
    simp only [men_neg, men_pos] at e1 e2
    omega
  · have := congrFun hba .neg; simp only [bar_neg] at this; omega
  · have := congrFun hba .pos; simp only [bar_pos] at this; omega
  · have := congrFun ho .neg; simp only [off_neg] at this; omega
  · have := congrFun ho .pos; simp only [off_pos] at this; omega

/-! ### pip counts -/

theorem pips_same {s : Side} {P : Pos} {d : Int} {a : Act} (h : AlmostLegalStep s P d a) :
    P.pips s - (after s P a).pips s =
      (if a.1 = -1 then 25 else pip s a.1) - (if a.2 = -1 then 0 else pip s a.2) := by
  have sh := AlmostLegalStep_shape h
  unfold Pos.pips
  rw [after_sum_same h, after_bar_same]
  unfold onBoard at sh
  split_ifs <;> omega

theorem pips_opp {s : Side} {P : Pos} {d : Int} {a : Act} (h : AlmostLegalStep s P d a) :
    (after s P a).pips s.opp - P.pips s.opp =
      if a.2 ≠ -1 ∧ P.men s.opp a.2 = 1 then 25 - pip s.opp a.2 else 0 := by
  unfold Pos.pips
  rw [after_sum_opp h, after_bar_opp]
  split_ifs <;> omega

theorem pip_range {s : Side} {i : Int} (h : onBoard i) : 1 ≤ pip s i ∧ pip s i ≤ 24 := by
  unfold onBoard at h
  cases s <;> simp only [pip_neg, pip_pos] <;> omega

/-! ### invariants of single steps lifted to plays -/

/-- An invariant of almost legal steps holds after a whole play. -/
theorem uses_invariant {s : Side} {dice : List Int} {P : Pos} {q : Actions} {I : Pos → Prop}
    (hstep : ∀ P d a, 1 ≤ d ∧ d ≤ 6 → I P → AlmostLegalStep s P d a → I (after s P a))
    (h : Uses (AlmostLegalStep s) s dice P q) (hm : DiceOK dice) (hI : I P) : I (afterAll s P q) := by
  induction h with
  | nil => exact hI
  | cons h1 h2 _ ih => exact ih (hm.erase _) (hstep _ _ _ (hm _ h1) hI h2)

theorem applyMove_view {pf : Profile} {g g' : State} (hg : StateOK g) {ms : List Actions}
    (hms : getValidMoves pf g = .ok ms) {m : Actions} (hm : m ∈ ms) {dice : Int × Int}
    (h : applyMove pf g m dice = .ok g') : view g'.board = afterAll (mover g) (view g.board) m := by
  rw [applyMove_eq pf hg hms hm] at h
  cases h
  have := view_run (returned hg hms hm).2 hg.board (dice_ok hg)
  split <;> exact this

theorem skipTurn_board {pf : Profile} {g g' : State} (hg : StateOK g) {dice : Int × Int}
    (h : skipTurn pf g dice = .ok g') : g'.board = g.board := by
  rw [skipTurn_eq pf hg] at h
  cases h; rfl

/-- An invariant of positions preserved by almost legal steps of both players holds along histories. -/
theorem reachAny_invariant {pf : Profile} {I : Pos → Prop} (h0 : I (view initialBoard))
    (hstep : ∀ s P d a, 1 ≤ d ∧ d ≤ 6 → I P → AlmostLegalStep s P d a → I (after s P a))
    {g : State} (h : ReachAny pf g) : I (view g.board) := by
  induction h with
  | start _ => exact h0
  | @step g g' hr hs ih =>
    have hg := reachAny_ok hr
    cases hs with
    | move h1 h2 h3 h4 =>
      rw [applyMove_view hg h1 h2 h4]
      exact uses_invariant (hstep _) (genPlay_uses (returned hg h1 h2).2 hg.board (dice_ok hg)) (dice_ok hg) ih
    | skip h1 h2 => rw [skipTurn_board hg h2]; exact ih
  | roll _ _ ih => exact ih

end DieE.BG
