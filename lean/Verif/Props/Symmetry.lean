import Verif.Props.Rules

/-! # C25: colour symmetry -/

namespace DieE.Props
open DieE DieE.BG DieE.Spec

/-- The board seen from the other side: points reversed, colours swapped. -/
def mirrorBoard (b : Board) : Board where
  pts := Vector.ofFn fun (i : Fin 24) => - b.pt (23 - i.val)
  hit := (b.hit.2, b.hit.1)
  col := (b.col.2, b.col.1)

/-- The state seen from the other side. -/
def mirror (g : State) : State := { g with board := mirrorBoard g.board, player := - g.player }

/-- The mirrored checker move. -/
def mirrorAct (a : Act) : Act := (if a.1 = -1 then -1 else 23 - a.1, if a.2 = -1 then -1 else 23 - a.2)

/-- The mirrored position. -/
def mirrorPos (P : Pos) : Pos where
  men := fun s i => P.men s.opp (23 - i)
  bar := fun s => P.bar s.opp
  off := fun s => P.off s.opp

theorem opp_opp (s : Side) : s.opp.opp = s := by cases s <;> rfl

theorem pt_mirror (b : Board) (i : Int) : (mirrorBoard b).pt i = - b.pt (23 - i) := by
  by_cases h : 0 ≤ i ∧ i < 24
  · rw [pt_eq _ _ h.1 h.2]
    simp only [mirrorBoard, Vector.getElem_ofFn]
    congr 2
    omega
  · rw [pt_out _ _ h, pt_out _ _ (by omega)]; rfl

theorem view_mirror (b : Board) : view (mirrorBoard b) = mirrorPos (view b) := by
  apply Pos.ext
  · funext s i
    cases s
    · show (view (mirrorBoard b)).men .neg i = (view b).men .pos (23 - i)
      rw [men_neg, men_pos, pt_mirror, Int.neg_neg]
    · show (view (mirrorBoard b)).men .pos i = (view b).men .neg (23 - i)
      rw [men_neg, men_pos, pt_mirror]
  · funext s; cases s <;> rfl
  · funext s; cases s <;> rfl

theorem mirrorPos_mirrorPos (P : Pos) : mirrorPos (mirrorPos P) = P := by
  apply Pos.ext
  · funext s i
    show P.men s.opp.opp (23 - (23 - i)) = _
    rw [opp_opp, show 23 - (23 - i) = i by omega]
  · funext s; show P.bar s.opp.opp = _; rw [opp_opp]
  · funext s; show P.off s.opp.opp = _; rw [opp_opp]

theorem mirrorAct_mirrorAct {a : Act} (h1 : a.1 = -1 ∨ onBoard a.1) (h2 : a.2 = -1 ∨ onBoard a.2) :
    mirrorAct (mirrorAct a) = a := by
  obtain ⟨x, y⟩ := a
  unfold onBoard at *
  unfold mirrorAct
  simp only at *
  refine Prod.ext ?_ ?_ <;> simp only <;> (repeat' split) <;> omega

theorem mirrorBoard_mirrorBoard (b : Board) : mirrorBoard (mirrorBoard b) = b := by
  refine board_ext (fun i h0 h1 => ?_) (by simp only [mirrorBoard]) (by simp only [mirrorBoard])
  rw [pt_mirror, pt_mirror, show 23 - (23 - i) = i by omega, Int.neg_neg]

theorem pip_mirror (s : Side) (i : Int) : pip s.opp (23 - i) = pip s i := by
  cases s <;> simp only [opp_neg, opp_pos, pip_neg, pip_pos] <;> omega

theorem shape_on {s : Side} {P : Pos} {d : Int} {a : Act} (h : LegalStep s P d a) :
    (a.1 = -1 ∨ onBoard a.1) ∧ (a.2 = -1 ∨ onBoard a.2) := by
  rcases AlmostLegalStep_shape h.almost with ⟨h1, h2, -⟩ | ⟨h1, h2, -⟩ | ⟨h1, h2, -⟩
  · exact ⟨.inr h2, .inl h1⟩
  · exact ⟨.inl h1, .inr h2⟩
  · exact ⟨.inr h1, .inr h2⟩

theorem allHome_mirror {s : Side} {P : Pos} (h : P.allHome s) : (mirrorPos P).allHome s.opp := by
  refine ⟨?_, ?_⟩
  · show P.bar s.opp.opp = 0; rw [opp_opp]; exact h.1
  · intro i hi hp
    show P.men s.opp.opp (23 - i) = 0
    rw [opp_opp]
    refine h.2 _ ?_ ?_
    · unfold onBoard at *; omega
    · have := pip_mirror s.opp i
      rw [opp_opp] at this
      omega

theorem legal_mirror {s : Side} {P : Pos} {d : Int} {a : Act} (h : LegalStep s P d a) :
    LegalStep s.opp (mirrorPos P) d (mirrorAct a) := by
  obtain ⟨o1, o2⟩ := shape_on h
  have e1 : (mirrorAct a).1 = -1 ↔ a.1 = -1 := by
    unfold mirrorAct onBoard at *; simp only; split <;> omega
  have e2 : (mirrorAct a).2 = -1 ↔ a.2 = -1 := by
    unfold mirrorAct onBoard at *; simp only; split <;> omega
  have f1 : a.1 ≠ -1 → (mirrorAct a).1 = 23 - a.1 := fun hc => by unfold mirrorAct; simp only [if_neg hc]
  have f2 : a.2 ≠ -1 → (mirrorAct a).2 = 23 - a.2 := fun hc => by unfold mirrorAct; simp only [if_neg hc]
  have men' : ∀ t i, (mirrorPos P).men t.opp (23 - i) = P.men t i := by
    intro t i
    show P.men t.opp.opp (23 - (23 - i)) = _
    rw [opp_opp, show 23 - (23 - i) = i by omega]
  have bar' : ∀ t, (mirrorPos P).bar t.opp = P.bar t := by
    intro t; show P.bar t.opp.opp = _; rw [opp_opp]
  refine ⟨?_, ?_, ?_, ?_, ?_, ?_⟩
  · have := h.source
    unfold SourceRule at *
    by_cases hc : a.1 = -1
    · rw [if_pos hc] at this
      rw [if_pos (e1.2 hc), bar']
      exact ⟨fun hn => this.1 (e2.1 hn), this.2⟩
    · rw [if_neg hc] at this
      rw [if_neg (fun hn => hc (e1.1 hn)), f1 hc, men']
      refine ⟨?_, this.2⟩
      have := this.1
      unfold onBoard at *; omega
  · intro hb
    rw [bar'] at hb
    exact e1.2 (h.barFirst hb)
  · intro hn
    have hc : a.2 ≠ -1 := fun hc => hn (e2.2 hc)
    obtain ⟨h1, h2⟩ := h.openPoint hc
    rw [f2 hc, men']
    refine ⟨?_, h2⟩
    unfold onBoard at *; omega
  · have := h.dieUse
    unfold DieRule at *
    by_cases hc : a.2 = -1
    · have ha : a.1 ≠ -1 := by
        rcases AlmostLegalStep_shape h.almost with ⟨-, h2, -⟩ | ⟨-, h2, -⟩ | ⟨h2, -⟩
        · have := h2.1; omega
        · have := h2.1; omega
        · have := h2.1; omega
      rw [if_pos hc] at this
      rw [if_pos (e2.2 hc), f1 ha, pip_mirror]; exact this
    · rw [if_neg hc] at this
      rw [if_neg (fun hn => hc (e2.1 hn)), f2 hc, pip_mirror]
      by_cases hc1 : a.1 = -1
      · rw [if_pos hc1] at this; rw [if_pos (e1.2 hc1)]; exact this
      · rw [if_neg hc1] at this; rw [if_neg (fun hn => hc1 (e1.1 hn)), f1 hc1, pip_mirror]; exact this
  · intro hn
    exact allHome_mirror (h.home (e2.1 hn))
  · intro hn hp i hi hlt
    have hc := e2.1 hn
    have ha : a.1 ≠ -1 := by
      rcases AlmostLegalStep_shape h.almost with ⟨-, h2, -⟩ | ⟨-, h2, -⟩ | ⟨h2, -⟩
      · have := h2.1; omega
      · have := h2.1; omega
      · have := h2.1; omega
    rw [f1 ha, pip_mirror] at hp hlt
    have := h.rear hc hp (23 - i) (by unfold onBoard at *; omega)
      (by have := pip_mirror s.opp i; rw [opp_opp] at this; omega)
    show P.men s.opp.opp (23 - i) = 0
    rw [opp_opp]; exact this

theorem after_mirror {s : Side} {P : Pos} {a : Act} (o1 : a.1 = -1 ∨ onBoard a.1) (o2 : a.2 = -1 ∨ onBoard a.2) :
    after s.opp (mirrorPos P) (mirrorAct a) = mirrorPos (after s P a) := by
  have e1 : (mirrorAct a).1 = -1 ↔ a.1 = -1 := by
    unfold mirrorAct onBoard at *; simp only; split <;> omega
  have e2 : (mirrorAct a).2 = -1 ↔ a.2 = -1 := by
    unfold mirrorAct onBoard at *; simp only; split <;> omega
  have g1 : ∀ i, ((mirrorAct a).1 = i ∧ (mirrorAct a).1 ≠ -1) ↔ (a.1 = 23 - i ∧ a.1 ≠ -1) := by
    intro i; unfold mirrorAct onBoard at *; simp only; split <;> omega
  have g2 : ∀ i, ((mirrorAct a).2 = i ∧ (mirrorAct a).2 ≠ -1) ↔ (a.2 = 23 - i ∧ a.2 ≠ -1) := by
    intro i; unfold mirrorAct onBoard at *; simp only; split <;> omega
  have hto : ∀ t, a.2 ≠ -1 → (mirrorPos P).men t (mirrorAct a).2 = P.men t.opp a.2 := by
    intro t hc
    show P.men t.opp (23 - (mirrorAct a).2) = _
    unfold mirrorAct
    simp only [if_neg hc]
    rw [show 23 - (23 - a.2) = a.2 by omega]
  have hs : ∀ t : Side, t = s.opp ↔ t.opp = s := by intro t; cases t <;> cases s <;> simp
  apply Pos.ext
  · funext t i
    show (if t = s.opp then P.men s.opp.opp (23 - i) - (if (mirrorAct a).1 = i ∧ (mirrorAct a).1 ≠ -1 then 1 else 0)
        + (if (mirrorAct a).2 = i ∧ (mirrorAct a).2 ≠ -1 then 1 else 0)
      else if (mirrorAct a).2 = i ∧ (mirrorAct a).2 ≠ -1 ∧ P.men t.opp (23 - i) = 1 then 0 else P.men t.opp (23 - i)) =
      (if t.opp = s then P.men s (23 - i) - (if a.1 = 23 - i ∧ a.1 ≠ -1 then 1 else 0)
        + (if a.2 = 23 - i ∧ a.2 ≠ -1 then 1 else 0)
      else if a.2 = 23 - i ∧ a.2 ≠ -1 ∧ P.men t.opp (23 - i) = 1 then 0 else P.men t.opp (23 - i))
    have hif : ∀ {p q : Prop} [Decidable p] [Decidable q] (x y : Nat), (p ↔ q) → (if p then x else y) = if q then x else y := by
      intro p q _ _ x y h
      by_cases hq : q
      · rw [if_pos hq, if_pos (h.2 hq)]
      · rw [if_neg hq, if_neg (fun hp => hq (h.1 hp))]
    rw [opp_opp, hif 1 0 (g1 i), hif 1 0 (g2 i)]
    rw [hif (p := (mirrorAct a).2 = i ∧ (mirrorAct a).2 ≠ -1 ∧ P.men t.opp (23 - i) = 1)
      (q := a.2 = 23 - i ∧ a.2 ≠ -1 ∧ P.men t.opp (23 - i) = 1) 0 (P.men t.opp (23 - i))
      (by rw [← and_assoc, g2 i, and_assoc])]
    exact hif _ _ (hs t)
  · funext t
    show (if t = s.opp then P.bar s.opp.opp - (if (mirrorAct a).1 = -1 then 1 else 0)
      else P.bar t.opp + (if (mirrorAct a).2 ≠ -1 ∧ (mirrorPos P).men t (mirrorAct a).2 = 1 then 1 else 0)) =
      (if t.opp = s then P.bar s - (if a.1 = -1 then 1 else 0)
      else P.bar t.opp + (if a.2 ≠ -1 ∧ P.men t.opp a.2 = 1 then 1 else 0))
    rw [opp_opp]
    by_cases h : t.opp = s
    · rw [if_pos ((hs t).2 h), if_pos h]
      by_cases h1 : a.1 = -1
      · rw [if_pos h1, if_pos (e1.2 h1)]
      · rw [if_neg h1, if_neg (fun hn => h1 (e1.1 hn))]
    · rw [if_neg (fun hn => h ((hs t).1 hn)), if_neg h]
      by_cases h2 : a.2 = -1
      · rw [if_neg (fun hn => hn.1 (e2.2 h2)), if_neg (fun hn => hn.1 h2)]
      · rw [hto t h2]
        by_cases h3 : P.men t.opp a.2 = 1
        · rw [if_pos ⟨fun hn => h2 (e2.1 hn), h3⟩, if_pos ⟨h2, h3⟩]
        · rw [if_neg (fun hn => h3 hn.2), if_neg (fun hn => h3 hn.2)]
  · funext t
    show (if t = s.opp then P.off s.opp.opp + (if (mirrorAct a).2 = -1 then 1 else 0) else P.off t.opp) =
      (if t.opp = s then P.off s + (if a.2 = -1 then 1 else 0) else P.off t.opp)
    rw [opp_opp]
    by_cases h : t.opp = s
    · rw [if_pos ((hs t).2 h), if_pos h]
      by_cases h2 : a.2 = -1
      · rw [if_pos h2, if_pos (e2.2 h2)]
      · rw [if_neg h2, if_neg (fun hn => h2 (e2.1 hn))]
    · rw [if_neg (fun hn => h ((hs t).1 hn)), if_neg h]

theorem legal_mirror_iff {s : Side} {P : Pos} {d : Int} {a : Act}
    (h : LegalStep s.opp (mirrorPos P) d a) : LegalStep s P d (mirrorAct a) := by
  have := legal_mirror h
  rw [opp_opp, mirrorPos_mirrorPos] at this
  exact this

/-- The rules are colour-symmetric. -/
theorem play_mirror {s : Side} {dice : List Int} {P : Pos} {q : Actions} (h : Play s dice P q) :
    Play s.opp dice (mirrorPos P) (q.map mirrorAct) ∧
    afterAll s.opp (mirrorPos P) (q.map mirrorAct) = mirrorPos (afterAll s P q) := by
  unfold Play at *
  induction h with
  | @stop dice P h =>
    refine ⟨.stop ?_, rfl⟩
    intro d hd a ha
    exact h d hd _ (legal_mirror_iff ha)
  | @step dice P d a q h1 h2 _ ih =>
    obtain ⟨o1, o2⟩ := shape_on h2
    rw [← after_mirror o1 o2] at ih
    exact ⟨.step h1 (legal_mirror h2) ih.1, ih.2⟩

theorem mover_mirror {g : State} (hg : StateOK g) : mover (mirror g) = (mover g).opp := by
  rcases hg.player with h | h <;> simp [mover, mirror, h]

theorem sum_reverse24 (f : Int → Int) : sum24 (fun i => f (23 - i)) = sum24 f := by
  have h : (List.range 24).map (fun (i : Nat) => f (23 - (i : Int))) = ((List.range 24).map (fun (i : Nat) => f i)).reverse := by
    apply List.ext_getElem
    · simp
    · intro i h1 h2
      simp only [List.length_map, List.length_range] at h1
      simp only [List.getElem_map, List.getElem_range, List.getElem_reverse, List.length_map, List.length_range]
      congr 1
      omega
  unfold sum24
  rw [h, List.sum_reverse]

theorem valid_mirror {b : Board} (h : Valid b) : Valid (mirrorBoard b) := by
  refine ⟨h.hit2, h.hit1, h.col2, h.col1, ?_⟩
  intro s
  have := h.total s.opp
  rw [view_mirror]
  unfold Pos.total at *
  show sum24 (fun i => ((view b).men s.opp (23 - i) : Int)) + (view b).bar s.opp + (view b).off s.opp = 15
  rw [sum_reverse24 (fun i => ((view b).men s.opp i : Int))]
  exact this

theorem mirror_ok {g : State} (hg : StateOK g) : StateOK (mirror g) := by
  refine ⟨valid_mirror hg.board, ?_, hg.die1, hg.die2⟩
  rcases hg.player with h | h
  · exact .inr (by simp [mirror, h])
  · exact .inl (by simp [mirror, h])

/-- The boards a player can move to. -/
def Offers (pf : Profile) (g : State) (b : Board) : Prop :=
  ∃ ms, getValidMoves pf g = .ok ms ∧ ∃ m ∈ ms, getNextState pf g.board m g.player = .ok b

/-- Full statement of C25: mirrored states offer mirrored boards. -/
def C25_statement (pf : Profile) : Prop :=
  ∀ g, StateOK g → ∀ b, Offers pf g b → Offers pf (mirror g) (mirrorBoard b)

/-- Witness: player `-1` on points 4 and 2, two opposing checkers on point 3, dice 5-1. -/
def asymState : State where
  board := { pts := #v[0, 0, -1, 2, -1, 0, 0, 0, 0, 0, 0, 0, 0, 0, 0, 0, 0, 0, 0, 0, 13, 0, 0, 0], hit := (0, 0), col := (13, 0) }
  roll := (5, 1)
  player := -1
  second := false
  id := 0

theorem asymState_ok : StateOK asymState := by
  refine ⟨⟨by decide, by decide, by decide, by decide, ?_⟩, by decide, by decide, by decide⟩
  intro s; cases s <;> decide +kernel

theorem asym_moves (pf : Profile) : getValidMoves pf asymState = .ok [[(2, 1), (1, -1)], [(2, 1), (4, -1)]] := by
  cases pf <;> decide +kernel

theorem asym_mirror_moves (pf : Profile) : getValidMoves pf (mirror asymState) = .ok [[(21, 22), (19, -1)]] := by
  cases pf <;> decide +kernel

/-- C25 is false: the position above lets `-1` bear off its forward checker with the 5, its mirror image does not. -/
theorem C25_refuted (pf : Profile) : ¬ C25_statement pf := by
  intro h
  have h1 : Offers pf asymState { pts := #v[0, 0, 0, 2, -1, 0, 0, 0, 0, 0, 0, 0, 0, 0, 0, 0, 0, 0, 0, 0, 13, 0, 0, 0], hit := (0, 0), col := (14, 0) } :=
    ⟨_, asym_moves pf, [(2, 1), (1, -1)], by simp, by cases pf <;> decide +kernel⟩
  obtain ⟨ms, hms, m, hm, hb⟩ := h asymState asymState_ok _ h1
  rw [asym_mirror_moves pf, Except.ok.injEq] at hms
  subst hms
  simp only [List.mem_singleton] at hm
  subst hm
  revert hb
  cases pf <;> decide +kernel

theorem offers_iff (pf : Profile) {g : State} (hg : StateOK g) (hf : (view g.board).homeFree (mover g)) (b : Board) :
    Offers pf g b ↔ Valid b ∧ ∃ q, q ≠ [] ∧ Play (mover g) [g.roll.1, g.roll.2] (view g.board) q ∧
      afterAll (mover g) (view g.board) q = view b := by
  obtain ⟨ms, hms, key⟩ := C15_refinement pf hg hf
  have run_valid : ∀ m ∈ ms, ∀ c, getNextState pf g.board m g.player = .ok c → Valid c := by
    intro m hm c hc
    have hgm := (returned hg hms hm).2
    rw [mover_sgn hg, getNextState_run pf hgm hg.board (dice_ok hg), Except.ok.injEq] at hc
    have := (GenPlay.foldlM pf hgm hg.board (dice_ok hg)).2
    rw [hc] at this
    exact this
  constructor
  · rintro ⟨ms', h1, m, hm, hb⟩
    rw [hms, Except.ok.injEq] at h1
    subst h1
    exact ⟨run_valid m hm b hb, (key (view b)).1 ⟨m, hm, b, hb, rfl⟩⟩
  · rintro ⟨hv, hq⟩
    obtain ⟨m, hm, c, hc, e⟩ := (key (view b)).2 hq
    have := view_inj (run_valid m hm c hc) hv e
    subst this
    exact ⟨ms, hms, m, hm, hc⟩

theorem homeFree_mirror {P : Pos} {s : Side} (h : P.homeFree s) : (mirrorPos P).homeFree s.opp := by
  intro i hi hp
  show P.men s.opp.opp.opp (23 - i) = 0
  rw [opp_opp]
  refine h _ ?_ ?_
  · unfold onBoard at *; omega
  · have := pip_mirror s.opp i
    rw [opp_opp] at this
    omega

/-- C25 (partial): mirrored states offer exactly the mirrored boards when no opposing checker is in the mover's home
board. Missing: the other positions, where the two colours are treated differently (`C25_refuted`). -/
theorem C25_colour_symmetry_partial (pf : Profile) {g : State} (hg : StateOK g)
    (hf : (view g.board).homeFree (mover g)) (b : Board) :
    Offers pf g b ↔ Offers pf (mirror g) (mirrorBoard b) := by
  have hf' : (view (mirror g).board).homeFree (mover (mirror g)) := by
    rw [mover_mirror hg]
    show (view (mirrorBoard g.board)).homeFree _
    rw [view_mirror]
    exact homeFree_mirror hf
  rw [offers_iff pf hg hf, offers_iff pf (mirror_ok hg) hf', mover_mirror hg]
  show _ ↔ Valid (mirrorBoard b) ∧ ∃ q, q ≠ [] ∧ Play (mover g).opp [g.roll.1, g.roll.2] (view (mirrorBoard g.board)) q ∧
    afterAll (mover g).opp (view (mirrorBoard g.board)) q = view (mirrorBoard b)
  rw [view_mirror, view_mirror]
  constructor
  · rintro ⟨hv, q, h1, h2, h3⟩
    obtain ⟨h4, h5⟩ := play_mirror h2
    refine ⟨valid_mirror hv, q.map mirrorAct, by simpa using h1, h4, ?_⟩
    rw [h5, h3]
  · rintro ⟨hv, q, h1, h2, h3⟩
    obtain ⟨h4, h5⟩ := play_mirror h2
    rw [opp_opp, mirrorPos_mirrorPos] at h4 h5
    refine ⟨?_, q.map mirrorAct, by simpa using h1, h4, ?_⟩
    · have := valid_mirror hv
      rw [mirrorBoard_mirrorBoard] at this
      exact this
    · rw [h5, h3, mirrorPos_mirrorPos]

/-- C25: the winner is mirrored in every state. -/
theorem C25_winner {g : State} (hg : StateOK g) (hn : ¬ (g.board.col.1 = 15 ∧ g.board.col.2 = 15)) :
    checkWinner (mirror g) = (checkWinner g).map (- ·) := by
  unfold checkWinner checkWinWithoutPlayer mirror mirrorBoard
  simp only
  have := hg.board.col1
  split <;> split <;> simp_all

example : StateOK bearState ∧ (view bearState.board).homeFree (mover bearState) ∧
    Offers .debug bearState { pts := #v[-15, 0, 0, 0, 0, 0, 0, 0, 0, 0, 0, 0, 0, 0, 0, 0, 0, 0, 0, 0, 0, 0, 0, 0], hit := (0, 0), col := (0, 15) } :=
  ⟨bearState_ok, bearState_free, _, bearState_moves .debug, [(20, -1), (19, -1)], by simp, by decide +kernel⟩

end DieE.Props
