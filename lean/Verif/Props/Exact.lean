import Verif.Backgammon.Alive
import Verif.Props.Symmetry

/-!
# C97: move generation in all positions

The rules of `Backgammon/Spec` with the rule on the rearmost checker replaced by the one the code follows.
-/

namespace DieE.Spec
open DieE.BG (pointAt)

/-- On the points of the home board of `s` that are more than `p` pips from being borne off: the opposing checkers minus
the own ones. -/
def Pos.surplus (P : Pos) (s : Side) (p : Int) : Int :=
  ((List.range 6).map fun (k : Nat) => if p < (k : Int) + 1 then
    (P.men s.opp (pointAt s (k + 1)) : Int) - P.men s (pointAt s (k + 1)) else 0).sum

/-- A checker of `s` on the point, and behind it in the home board at least as many opposing checkers as own ones. -/
def Pos.Freed (P : Pos) (s : Side) (i : Int) : Prop := 0 < P.men s i ∧ 0 ≤ P.surplus s (pip s i)

/-- Bearing off with a larger number than needed, in the code: only from a freed point, and from the rearmost one among
those less than `d` pips away; player `1` has no such move if the point at distance `d` is freed. -/
def CodeRear (s : Side) (P : Pos) (d : Int) (a : Int × Int) : Prop :=
  a.2 = -1 → pip s a.1 < d → P.Freed s a.1 ∧
    ∀ i, onBoard i → pip s a.1 < pip s i → (pip s i < d ∨ (s = .pos ∧ pip s i = d)) → ¬ P.Freed s i

/-- A checker move that the code generates. -/
structure CodeStep (s : Side) (P : Pos) (d : Int) (a : Int × Int) : Prop where
  almost : AlmostLegalStep s P d a
  rear : CodeRear s P d a

end DieE.Spec

namespace DieE.Props.Ex
open DieE DieE.BG DieE.Spec

theorem men_diff_neg (b : Board) (i : Int) : ((view b).men .pos i : Int) - (view b).men .neg i = b.pt i := by
  rw [men_pos, men_neg]; omega

theorem men_diff_pos (b : Board) (i : Int) : ((view b).men .neg i : Int) - (view b).men .pos i = - b.pt i := by
  rw [men_pos, men_neg]; omega

theorem surplus_neg (b : Board) {i : Nat} (hi : i < 6) : (view b).surplus .neg (pip .neg i) = sumR b (i + 1) 6 := by
  unfold Pos.surplus sumR
  simp only [opp_neg, men_diff_neg, pip_neg, pointAt]
  have : i = 0 ∨ i = 1 ∨ i = 2 ∨ i = 3 ∨ i = 4 ∨ i = 5 := by omega
  rcases this with rfl | rfl | rfl | rfl | rfl | rfl <;> simp [List.range_succ, List.range'] <;> omega

theorem surplus_pos (b : Board) {i : Nat} (hi : 18 ≤ i ∧ i < 24) : (view b).surplus .pos (pip .pos i) = - sumR b 18 i := by
  unfold Pos.surplus sumR
  simp only [opp_pos, men_diff_pos, pip_pos, pointAt]
  have : i = 18 ∨ i = 19 ∨ i = 20 ∨ i = 21 ∨ i = 22 ∨ i = 23 := by omega
  rcases this with rfl | rfl | rfl | rfl | rfl | rfl <;> simp [List.range_succ, List.range'] <;> omega

theorem freed_neg (b : Board) {i : Nat} (hi : i < 6) : (view b).Freed .neg i ↔ lowCond b i = true := by
  unfold Pos.Freed lowCond
  rw [surplus_neg b hi, men_neg, decide_eq_true_eq]
  constructor <;> rintro ⟨h1, h2⟩ <;> exact ⟨by omega, by omega⟩

theorem freed_pos (b : Board) {i : Nat} (hi : 18 ≤ i ∧ i < 24) : (view b).Freed .pos i ↔ highCond b i = true := by
  unfold Pos.Freed highCond
  rw [surplus_pos b hi, men_pos, decide_eq_true_eq]
  constructor <;> rintro ⟨h1, h2⟩ <;> exact ⟨by omega, by omega⟩

/-- The bearing-off moves of the code. -/
theorem mem_genOff {s : Side} {b : Board} {d : Int} (hd : 1 ≤ d ∧ d ≤ 6) {a : Act} (hh : (view b).allHome s) :
    a ∈ genOff s b d ↔ a.2 = -1 ∧ CodeStep s (view b) d a := by
  constructor
  · intro h
    have h1 := off_almost hd hh h
    cases s
    · rw [mem_genOff_neg hd] at h
      obtain ⟨h0, h2⟩ := h
      refine ⟨h0, h1, fun _ hlt => ?_⟩
      rw [pip_neg] at hlt
      rcases h2 with ⟨h2, -⟩ | ⟨h2, h3, h4, h5, h6⟩
      · omega
      · obtain ⟨i, hi⟩ : ∃ i : Nat, a.1 = i := ⟨a.1.toNat, by omega⟩
        rw [hi] at h2 h3 h4 h5 h6 ⊢
        rw [freed_neg b (by omega)]
        refine ⟨by simp only [lowCond, decide_eq_true_eq]; exact ⟨h4, h5⟩, fun j hj hj1 hj2 => ?_⟩
        rw [pip_neg, pip_neg] at hj1
        rw [pip_neg] at hj2
        have hj3 : j + 1 < d := by
          rcases hj2 with h | ⟨h, -⟩
          · exact h
          · cases h
        obtain ⟨k, rfl⟩ : ∃ k : Nat, j = k := ⟨j.toNat, by have := hj.1; omega⟩
        rw [freed_neg b (by omega), h6 k (by omega) (by omega)]
        simp
    · rw [mem_genOff_pos hd] at h
      obtain ⟨h0, h2⟩ := h
      refine ⟨h0, h1, fun _ hlt => ?_⟩
      rw [pip_pos] at hlt
      rcases h2 with ⟨h2, -⟩ | ⟨h2, h3, h4, h5, h6⟩
      · omega
      · obtain ⟨i, hi⟩ : ∃ i : Nat, a.1 = i := ⟨a.1.toNat, by omega⟩
        rw [hi] at h2 h3 h4 h5 h6 ⊢
        rw [freed_pos b (by omega)]
        refine ⟨by simp only [highCond, decide_eq_true_eq]; exact ⟨h4, h5⟩, fun j hj hj1 hj2 => ?_⟩
        rw [pip_pos, pip_pos] at hj1
        rw [pip_pos] at hj2
        obtain ⟨k, rfl⟩ : ∃ k : Nat, j = k := ⟨j.toNat, by have := hj.1; omega⟩
        rw [freed_pos b (by omega), h6 k (by omega) (by omega)]
        simp
  · rintro ⟨h0, h1, h2⟩
    have hd' := h1.dieUse
    rw [DieRule, if_pos h0] at hd'
    have hs := h1.source
    have hf1 : a.1 ≠ -1 := by
      intro e; rw [SourceRule, if_pos e] at hs; exact hs.1 h0
    rw [SourceRule, if_neg hf1] at hs
    obtain ⟨⟨hlo, hhi⟩, hm⟩ := hs
    obtain ⟨i, hi⟩ : ∃ i : Nat, a.1 = i := ⟨a.1.toNat, by omega⟩
    cases s
    · rw [mem_genOff_neg hd]
      rw [pip_neg] at hd'
      rw [men_neg] at hm
      refine ⟨h0, ?_⟩
      by_cases he : a.1 = d - 1
      · exact .inl ⟨he, by omega⟩
      · obtain ⟨h3, h4⟩ := h2 h0 (by rw [pip_neg]; omega)
        rw [hi, freed_neg b (by omega), lowCond, decide_eq_true_eq] at h3
        refine .inr ⟨by omega, by omega, by omega, by rw [hi]; exact h3.2, fun k hk1 hk2 => ?_⟩
        have := h4 k ⟨by omega, by omega⟩ (by rw [pip_neg, pip_neg]; omega) (.inl (by rw [pip_neg]; omega))
        rw [freed_neg b (by omega)] at this
        simpa using this
    · rw [mem_genOff_pos hd]
      rw [pip_pos] at hd'
      rw [men_pos] at hm
      refine ⟨h0, ?_⟩
      by_cases he : a.1 = 24 - d
      · exact .inl ⟨he, by omega⟩
      · obtain ⟨h3, h4⟩ := h2 h0 (by rw [pip_pos]; omega)
        rw [hi, freed_pos b (by omega), highCond, decide_eq_true_eq] at h3
        refine .inr ⟨by omega, by omega, by omega, by rw [hi]; exact h3.2, fun k hk1 hk2 => ?_⟩
        have hor : pip .pos k < d ∨ (Side.pos = Side.pos ∧ pip .pos k = d) := by
          rw [pip_pos]
          by_cases h : 24 - (k : Int) < d
          · exact .inl h
          · exact .inr ⟨rfl, by omega⟩
        have := h4 k ⟨by omega, by omega⟩ (by rw [pip_pos, pip_pos]; omega) hor
        rw [freed_pos b (by omega)] at this
        simpa using this

/-- Without bearing off the code's checker moves are the legal ones. -/
theorem codeStep_move {s : Side} {P : Pos} {d : Int} {a : Act} (h : AlmostLegalStep s P d a) (h2 : a.2 ≠ -1) : LegalStep s P d a :=
  ⟨h.source, h.barFirst, h.openPoint, h.dieUse, h.home, fun e => absurd e h2⟩

theorem legal_code {s : Side} {b : Board} (hb : Valid b) {d : Int} (hd : 1 ≤ d ∧ d ≤ 6) {a : Act} (h : LegalStep s (view b) d a) :
    CodeStep s (view b) d a := by
  by_cases ho : a.2 = -1
  · have hg := gen_complete hb hd h
    have hh := h.home ho
    have hbar : (view b).bar s = 0 := hh.1
    unfold gen at hg
    rw [hit_eq_bar s hb, if_neg (by omega)] at hg
    unfold genNormal at hg
    rcases List.mem_append.1 hg with hg | hg
    · rw [if_pos ((isCollectible_iff s hb).2 hh)] at hg
      exact ((mem_genOff hd hh).1 hg).2
    · rw [mem_genMove] at hg
      obtain ⟨h1, -, -, h4, h5, -⟩ := hg
      unfold onBoard at h1
      cases s <;> simp only [sgn_neg, sgn_pos] at h4 h5 <;> omega
  · exact ⟨h.almost, fun e => absurd e ho⟩

/-- The checker moves the code generates for a die. -/
theorem mem_gen {s : Side} {b : Board} (hb : Valid b) {d : Int} (hd : 1 ≤ d ∧ d ≤ 6) {a : Act} :
    a ∈ gen s b d ↔ CodeStep s (view b) d a := by
  constructor
  · intro h
    by_cases ho : a.2 = -1
    · have hal := gen_almost hb hd h
      have hh := hal.home ho
      have hbar : (view b).bar s = 0 := hh.1
      unfold gen at h
      rw [hit_eq_bar s hb, if_neg (by omega)] at h
      unfold genNormal at h
      rcases List.mem_append.1 h with h | h
      · rw [if_pos ((isCollectible_iff s hb).2 hh)] at h
        exact ((mem_genOff hd hh).1 h).2
      · exact legal_code hb hd (move_legal hd.1 hbar h)
    · exact ⟨gen_almost hb hd h, fun e => absurd e ho⟩
  · intro h
    by_cases ho : a.2 = -1
    · have hh := h.almost.home ho
      unfold gen
      rw [hit_eq_bar s hb, if_neg (by have := hh.1; omega)]
      unfold genNormal
      rw [List.mem_append, if_pos ((isCollectible_iff s hb).2 hh)]
      exact .inl ((mem_genOff hd hh).2 ⟨ho, h⟩)
    · exact gen_complete hb hd (codeStep_move h.almost ho)

/-- A complete play of the code. -/
theorem genPlay_iff {s : Side} {dice : List Int} {b : Board} (hb : Valid b) (hm : DiceOK dice) {q : Actions} :
    GenPlay s dice b q ↔ MaxPlay (CodeStep s) (CodeStep s) s dice (view b) q := by
  constructor
  · intro h
    induction h with
    | stop h => exact .stop (fun d hd a ha => by have := (mem_gen hb (hm d hd)).2 ha; rw [h d hd] at this; cases this)
    | step h1 h2 _ ih =>
      have hd := hm _ h1
      have ha := (mem_gen hb hd).1 h2
      have := ih (valid_next hb hd.1 ha.almost) (hm.erase _)
      rw [view_next hb hd.1 ha.almost] at this
      exact .step h1 ha this
  · intro h
    generalize hP : view b = P at h
    induction h generalizing b with
    | @stop dice P h =>
      subst hP
      refine .stop (fun d hd => ?_)
      rw [List.eq_nil_iff_forall_not_mem]
      exact fun a ha => h d hd a ((mem_gen hb (hm d hd)).1 ha)
    | @step dice P d a q h1 h2 _ ih =>
      subst hP
      have hd := hm _ h1
      exact .step h1 ((mem_gen hb hd).2 h2) (ih (valid_next hb hd.1 h2.almost) (hm.erase _) (view_next hb hd.1 h2.almost))

/-- C97: in every position the boards offered are exactly the final positions of the plays that cannot be continued, with
the rule on the rearmost checker as in `CodeRear`. -/
theorem C97_refinement (pf : Profile) {g : State} (hg : StateOK g) :
    ∃ ms, getValidMoves pf g = .ok ms ∧ ∀ Q : Pos,
      (∃ m ∈ ms, ∃ b, getNextState pf g.board m g.player = .ok b ∧ view b = Q) ↔
      (∃ q, q ≠ [] ∧ MaxPlay (CodeStep (mover g)) (CodeStep (mover g)) (mover g) [g.roll.1, g.roll.2] (view g.board) q ∧
        afterAll (mover g) (view g.board) q = Q) := by
  refine ⟨_, validMoves_eq pf hg, fun Q => ?_⟩
  constructor
  · rintro ⟨m, hm, b, hb, rfl⟩
    obtain ⟨h1, h2⟩ := mem_pureMoves hm
    refine ⟨m, h1, MaxPlay.perm ((genPlay_iff hg.board (dice_ok hg)).1 h2) (allMoves_perm _), ?_⟩
    rw [mover_sgn hg, getNextState_run pf h2 hg.board (dice_ok hg), Except.ok.injEq] at hb
    rw [← hb, view_run h2 hg.board (dice_ok hg)]
  · rintro ⟨q, h1, h2, rfl⟩
    have hq := (genPlay_iff hg.board (dice_ok hg)).2 (MaxPlay.perm h2 (allMoves_perm g.roll).symm)
    obtain ⟨m, hm, e⟩ := pureMoves_complete h1 hq
    have hgm := (mem_pureMoves hm).2
    refine ⟨m, hm, run (mover g) g.board m, ?_, ?_⟩
    · rw [mover_sgn hg]; exact getNextState_run pf hgm hg.board (dice_ok hg)
    · rw [e, view_run hq hg.board (dice_ok hg)]

/-- C97: the returned moves are such plays. -/
theorem C97_returned (pf : Profile) {g : State} (hg : StateOK g) {ms : List Actions} (hms : getValidMoves pf g = .ok ms)
    {m : Actions} (hm : m ∈ ms) :
    MaxPlay (CodeStep (mover g)) (CodeStep (mover g)) (mover g) [g.roll.1, g.roll.2] (view g.board) m := by
  rw [validMoves_eq pf hg, Except.ok.injEq] at hms
  subst hms
  exact MaxPlay.perm ((genPlay_iff hg.board (dice_ok hg)).1 (mem_pureMoves hm).2) (allMoves_perm _)

/-- C97: no moves are returned exactly if the code's rules allow no checker move. -/
theorem C97_stuck (pf : Profile) {g : State} (hg : StateOK g) {ms : List Actions} (hms : getValidMoves pf g = .ok ms) :
    ms = [] ↔ ∀ d ∈ [g.roll.1, g.roll.2], ∀ a, ¬ CodeStep (mover g) (view g.board) d a := by
  rw [(C13_empty_iff_stuck_partial pf hg hms).2.2]
  have hd : ∀ d ∈ [g.roll.1, g.roll.2], 1 ≤ d ∧ d ≤ 6 := by
    intro d hd
    rcases List.mem_cons.1 hd with rfl | hd
    · exact hg.die1
    · rw [List.mem_singleton.1 hd]; exact hg.die2
  constructor
  · intro h d hdm a ha
    have := (mem_gen hg.board (hd d hdm)).2 ha
    rw [h d hdm] at this
    cases this
  · intro h d hdm
    rw [List.eq_nil_iff_forall_not_mem]
    exact fun a ha => h d hdm a ((mem_gen hg.board (hd d hdm)).1 ha)

/-- C97, the difference to the rules: every legal checker move is one of the code; a checker move of the code that is not
legal bears off with a larger number than needed past an own checker, and at least as many opposing checkers as own ones
stand on the points of the home board behind the one it leaves. -/
theorem C97_difference {s : Side} {b : Board} (hb : Valid b) {d : Int} (hd : 1 ≤ d ∧ d ≤ 6) (a : Act) :
    (LegalStep s (view b) d a → CodeStep s (view b) d a) ∧
    (CodeStep s (view b) d a → ¬ LegalStep s (view b) d a →
      a.2 = -1 ∧ pip s a.1 < d ∧ (∃ i, onBoard i ∧ pip s a.1 < pip s i ∧ pip s i ≤ 6 ∧ 0 < (view b).men s i) ∧
      0 ≤ (view b).surplus s (pip s a.1)) := by
  refine ⟨legal_code hb hd, fun h hn => ?_⟩
  by_cases ho : a.2 = -1
  · by_cases hlt : pip s a.1 < d
    · have hex : ∃ i, onBoard i ∧ pip s a.1 < pip s i ∧ 0 < (view b).men s i := by
        by_contra hc
        push Not at hc
        exact hn ⟨h.almost.source, h.almost.barFirst, h.almost.openPoint, h.almost.dieUse, h.almost.home,
          fun _ _ i hi hp => Nat.le_zero.1 (hc i hi hp)⟩
      obtain ⟨i, hi, hp, hm⟩ := hex
      refine ⟨ho, hlt, ⟨i, hi, hp, ?_, hm⟩, (h.rear ho hlt).1.2⟩
      by_contra h6
      have := (h.almost.home ho).2 i hi (by omega)
      omega
    · exact absurd ⟨h.almost.source, h.almost.barFirst, h.almost.openPoint, h.almost.dieUse, h.almost.home,
        fun _ h' => absurd h' hlt⟩ hn
  · exact absurd (codeStep_move h.almost ho) hn

/-- In the position of `C08_refuted` the code bears off from point 3 with a 5, against the rules: behind it there are
one own checker and two opposing ones. -/
example : CodeStep .neg (view rearState.board) 5 (3, -1) ∧ ¬ LegalStep .neg (view rearState.board) 5 (3, -1) ∧
    (view rearState.board).surplus .neg 4 ≥ 0 := by
  refine ⟨(mem_gen rearState_ok.board (by decide)).1 (by decide +kernel), fun h => ?_, by decide +kernel⟩
  exact absurd (h.rear rfl (by decide) 5 ⟨by decide, by decide⟩ (by decide)) (by decide)

end DieE.Props.Ex
