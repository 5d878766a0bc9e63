import Verif.Props.Rules

/-!
# C119: the two half-turns of a double

A double is played in two half-turns of at most two checker moves each.  Together they are exactly the plays with four equal dice,
and none of them wastes a die.
-/

namespace DieE.Props.Db
open DieE DieE.BG DieE.Spec DieE.Props

/-! ## The statement -/

/-- `q` uses as many of the dice as possible. -/
def Longest (s : Side) (dice : List Int) (P : Pos) (q : List (Int × Int)) : Prop :=
  ∀ q', Uses (LegalStep s) s dice P q' → q'.length ≤ q.length

/-- The positions after a turn with a double: a first move is chosen among those offered, then a second one; a player without a
move passes. -/
inductive Turn (pf : Profile) (g : State) : Pos → Prop
  | two {ms m dice g1 ms' m' dice' g2} : getValidMoves pf g = .ok ms → m ∈ ms → applyMove pf g m dice = .ok g1 →
      getValidMoves pf g1 = .ok ms' → m' ∈ ms' → applyMove pf g1 m' dice' = .ok g2 → Turn pf g (view g2.board)
  | one {ms m dice g1 dice' g2} : getValidMoves pf g = .ok ms → m ∈ ms → applyMove pf g m dice = .ok g1 →
      getValidMoves pf g1 = .ok [] → skipTurn pf g1 dice' = .ok g2 → Turn pf g (view g2.board)
  | none {dice g1} : getValidMoves pf g = .ok [] → skipTurn pf g dice = .ok g1 → Turn pf g (view g1.board)

/-! ## Moves with the same die do not disturb each other -/

variable {s : Side} {P : Pos} {d : Int} {a b : Int × Int}

theorem pip_le {i : Int} (h : onBoard i) : 1 ≤ pip s i ∧ pip s i ≤ 24 := by
  unfold onBoard at h
  cases s <;> simp only [pip] <;> omega

theorem pip_inj {i j : Int} (h : pip s i = pip s j) : i = j := by
  cases s <;> simp only [pip] at h <;> omega

theorem onBoard_ne {i : Int} (h : onBoard i) : i ≠ -1 := by unfold onBoard at h; omega

/-- Different moves with the same die start from different points, none of them the bar. -/
theorem sources (ha : LegalStep s P d a) (hb : LegalStep s P d b) (hne : a ≠ b) :
    P.bar s = 0 ∧ a.1 ≠ -1 ∧ b.1 ≠ -1 ∧ a.1 ≠ b.1 := by
  have key : ∀ {a b : Int × Int}, LegalStep s P d a → LegalStep s P d b → a.1 = b.1 → a = b := by
    intro a b ha hb h
    refine Prod.ext h ?_
    have d1 := ha.dieUse
    have d2 := hb.dieUse
    have s1 := ha.source
    have o1 := ha.openPoint
    have o2 := hb.openPoint
    unfold DieRule at d1 d2
    unfold SourceRule at s1
    unfold OpenRule at o1 o2
    have s2 := hb.source
    unfold SourceRule at s2
    rw [← h] at d2 s2
    by_cases e : a.1 = -1
    · simp only [if_pos e] at d1 d2 s1 s2
      simp only [if_neg s1.1, if_neg s2.1] at d1 d2
      exact pip_inj (s := s) (by omega)
    · simp only [if_neg e] at d1 d2 s1 s2
      have := pip_le (s := s) s1.1
      by_cases e1 : a.2 = -1 <;> by_cases e2 : b.2 = -1
      · rw [e1, e2]
      · simp only [if_pos e1, if_neg e2] at d1 d2
        have := pip_le (s := s) (o2 e2).1
        omega
      · simp only [if_neg e1, if_pos e2] at d1 d2
        have := pip_le (s := s) (o1 e1).1
        omega
      · simp only [if_neg e1, if_neg e2] at d1 d2
        exact pip_inj (s := s) (by omega)
  have h1 : a.1 ≠ b.1 := fun h => hne (key ha hb h)
  have h0 : P.bar s = 0 := by
    by_contra h
    have h := Nat.pos_of_ne_zero h
    exact h1 ((ha.barFirst h).trans (hb.barFirst h).symm)
  refine ⟨h0, fun h => ?_, fun h => ?_, h1⟩
  · have := ha.source
    unfold SourceRule at this
    rw [if_pos h] at this
    omega
  · have := hb.source
    unfold SourceRule at this
    rw [if_pos h] at this
    omega

/-- The distance of the destination is smaller than that of the source. -/
theorem forward (hd : 1 ≤ d) (ha : LegalStep s P d a) (h1 : a.1 ≠ -1) (h2 : a.2 ≠ -1) : pip s a.2 < pip s a.1 := by
  have := ha.dieUse
  unfold DieRule at this
  rw [if_neg h2, if_neg h1] at this
  omega

theorem source_pos (ha : LegalStep s P d a) (h1 : a.1 ≠ -1) : onBoard a.1 ∧ 0 < P.men s a.1 := by
  have := ha.source
  unfold SourceRule at this
  rwa [if_neg h1] at this

/-- The destinations differ, too. -/
theorem targets (ha : LegalStep s P d a) (hb : LegalStep s P d b) (h1 : a.1 ≠ -1) (h2 : b.1 ≠ -1) (hne : a.1 ≠ b.1) (h3 : a.2 ≠ -1) :
    a.2 ≠ b.2 := by
  intro h
  have d1 := ha.dieUse
  have d2 := hb.dieUse
  unfold DieRule at d1 d2
  rw [if_neg h3, if_neg h1] at d1
  rw [if_neg (h ▸ h3), if_neg h2, ← h] at d2
  exact hne (pip_inj (s := s) (by omega))

/-- A legal move stays legal after another one with the same die. -/
theorem stays (hd : 1 ≤ d) (ha : LegalStep s P d a) (hb : LegalStep s P d b) (hne : a ≠ b) : LegalStep s (after s P a) d b := by
  obtain ⟨h0, h1, h2, h3⟩ := sources ha hb hne
  obtain ⟨hs, hm⟩ := source_pos hb h2
  have bar : (after s P a).bar s = 0 := by
    show (if s = s then _ else _) = 0
    rw [if_pos rfl, h0, Nat.zero_sub]
  have men : ∀ i, (after s P a).men s i = P.men s i - (if a.1 = i ∧ a.1 ≠ -1 then 1 else 0) + (if a.2 = i ∧ a.2 ≠ -1 then 1 else 0) :=
    fun i => if_pos rfl
  have ne : s.opp ≠ s := by cases s <;> decide
  refine ⟨?_, fun h => absurd h (by rw [bar]; exact lt_irrefl _), fun h => ⟨(hb.openPoint h).1, ?_⟩, hb.dieUse, fun h => ⟨bar, fun i hi hp => ?_⟩,
    fun h hlt i hi hp => ?_⟩
  · unfold SourceRule
    rw [if_neg h2]
    refine ⟨hs, ?_⟩
    rw [men, if_neg (by rintro ⟨h, -⟩; exact h3 h)]
    omega
  · have h4 := (hb.openPoint h).2
    show (if s.opp = s then _ else if a.2 = b.2 ∧ a.2 ≠ -1 ∧ P.men s.opp b.2 = 1 then 0 else P.men s.opp b.2) ≤ 1
    rw [if_neg ne]
    split <;> omega
  · have h5 := (hb.home h).2
    rw [men, h5 i hi hp, Nat.zero_sub, Nat.zero_add, if_neg]
    rintro ⟨rfl, h6⟩
    have := forward hd ha h1 h6
    have := h5 a.1 (source_pos ha h1).1 (by omega)
    have := (source_pos ha h1).2
    omega
  · have h5 := hb.rear h hlt
    rw [men, h5 i hi hp, Nat.zero_sub, Nat.zero_add, if_neg]
    rintro ⟨rfl, h6⟩
    have := forward hd ha h1 h6
    have := h5 a.1 (source_pos ha h1).1 (by omega)
    have := (source_pos ha h1).2
    omega

/-- The order of two moves with the same die does not matter. -/
theorem commute (ha : LegalStep s P d a) (hb : LegalStep s P d b) (hne : a ≠ b) : after s (after s P a) b = after s (after s P b) a := by
  obtain ⟨h0, h1, h2, h3⟩ := sources ha hb hne
  have ma := (source_pos ha h1).2
  have mb := (source_pos hb h2).2
  have ht : a.2 ≠ -1 → a.2 ≠ b.2 := targets ha hb h1 h2 h3
  refine Pos.ext ?_ ?_ ?_
  · funext t i
    simp only [after]
    by_cases e : t = s
    · simp only [if_pos e, if_true]
      by_cases e1 : a.1 = i <;> by_cases e2 : b.1 = i
      · exact absurd (e1.trans e2.symm) h3
      · subst e1
        simp only [h1, h2, e2, ne_eq, not_false_eq_true, and_self, and_true, false_and, if_true, if_false]
        omega
      · subst e2
        simp only [h1, h2, e1, ne_eq, not_false_eq_true, and_self, and_true, false_and, if_true, if_false]
        omega
      · simp only [e1, e2, false_and, if_false]
        omega
    · simp only [if_neg e]
      by_cases e1 : a.2 = i <;> by_cases e2 : b.2 = i
      · by_cases e3 : a.2 = -1
        · have e4 : b.2 = -1 := e2.trans (e1.symm.trans e3)
          simp only [e3, e4, ne_eq, not_true_eq_false, false_and, and_false, if_false]
        · exact absurd (e1.trans e2.symm) (ht e3)
      · simp only [e2, false_and, if_false]
      · simp only [e1, false_and, if_false]
      · simp only [e1, e2, false_and, if_false]
  · funext t
    simp only [after]
    by_cases e : t = s
    · simp only [if_pos e, if_true]
      omega
    · simp only [if_neg e]
      by_cases e1 : a.2 = -1 <;> by_cases e2 : b.2 = -1
      · simp only [e1, e2]
      · simp [e1, e2]
      · simp [e1, e2]
      · have := ht e1
        simp only [e1, e2, this, Ne.symm this, ne_eq, not_false_eq_true, true_and, false_and, if_false]
        omega
  · funext t
    simp only [after]
    by_cases e : t = s
    · simp only [if_pos e, if_true]
      omega
    · simp only [if_neg e]

/-! ## Plays with equal dice -/

theorem erase_replicate (n : ℕ) (d : Int) : (List.replicate (n + 1) d).erase d = List.replicate n d := by
  rw [List.replicate_succ, List.erase_cons_head]

theorem exists_play (s : Side) (dice : List Int) (P : Pos) : ∃ q, Play s dice P q := by
  generalize hn : dice.length = n
  induction n generalizing dice P with
  | zero =>
    obtain rfl := List.length_eq_zero_iff.1 hn
    exact ⟨[], .stop fun d h => by cases h⟩
  | succ n ih =>
    by_cases h : ∃ d ∈ dice, ∃ a, LegalStep s P d a
    · obtain ⟨d, hd, a, ha⟩ := h
      obtain ⟨q, hq⟩ := ih (dice.erase d) (after s P a) (by rw [List.length_erase_of_mem hd]; omega)
      exact ⟨a :: q, .step hd ha hq⟩
    · push Not at h
      exact ⟨[], .stop h⟩

theorem play_uses {dice : List Int} {q : List (Int × Int)} (h : Play s dice P q) : Uses (LegalStep s) s dice P q := by
  induction h with
  | stop _ => exact .nil
  | step h1 h2 _ ih => exact .cons h1 h2 ih

/-- With equal dice every complete play uses as many dice as possible. -/
theorem longest (hd : 1 ≤ d) (n : ℕ) {q : List (Int × Int)} (h : Play s (List.replicate n d) P q) : Longest s (List.replicate n d) P q := by
  induction n generalizing P q with
  | zero =>
    intro q' h'
    cases h' with
    | nil => exact Nat.zero_le _
    | cons h1 _ _ => cases h1
  | succ n ih =>
    intro q' h'
    cases h' with
    | nil => exact Nat.zero_le _
    | @cons _ _ d1 b q2 h1 h2 h3 =>
      obtain rfl := List.eq_of_mem_replicate h1
      rw [erase_replicate] at h3
      cases h with
      | stop h => exact absurd h2 (h _ h1 _)
      | @step _ _ d2 a q1 g1 g2 g3 =>
        obtain rfl := List.eq_of_mem_replicate g1
        rw [erase_replicate] at g3
        simp only [List.length_cons]
        by_cases e : a = b
        · subst e
          have := ih g3 q2 h3
          omega
        · cases n with
          | zero =>
            cases h3 with
            | nil => simp
            | cons h _ _ => cases h
          | succ n =>
            obtain ⟨r, hr⟩ := exists_play s (List.replicate n d2) (after s (after s P a) b)
            have mem : d2 ∈ List.replicate (n + 1) d2 := by simp
            have p1 : Uses (LegalStep s) s (List.replicate (n + 1) d2) (after s P a) (b :: r) :=
              .cons mem (stays hd g2 h2 e) (by rw [erase_replicate]; exact play_uses hr)
            have p2 : Play s (List.replicate (n + 1) d2) (after s P b) (a :: r) :=
              .step mem (stays hd h2 g2 (Ne.symm e)) (by rw [erase_replicate, ← commute g2 h2 e]; exact hr)
            have l1 := ih g3 _ p1
            have l2 := ih p2 _ h3
            simp only [List.length_cons] at l1 l2
            omega

/-- All complete plays with equal dice have the same number of moves. -/
theorem same_length (hd : 1 ≤ d) (n : ℕ) {q q' : List (Int × Int)} (h : Play s (List.replicate n d) P q) (h' : Play s (List.replicate n d) P q') :
    q.length = q'.length :=
  le_antisymm (longest hd n h' _ (play_uses h)) (longest hd n h _ (play_uses h'))

theorem split_plays (n m : ℕ) {q1 q2 : List (Int × Int)} (h1 : Play s (List.replicate n d) P q1)
    (h2 : Play s (List.replicate m d) (afterAll s P q1) q2) (hm : n = 0 ∨ m ≠ 0) : Play s (List.replicate (n + m) d) P (q1 ++ q2) := by
  induction n generalizing P q1 with
  | zero =>
    cases h1 with
    | stop _ => rw [Nat.zero_add]; exact h2
    | step h _ _ => cases h
  | succ n ih =>
    have hm : m ≠ 0 := hm.resolve_left (Nat.succ_ne_zero n)
    have mem : d ∈ List.replicate (n + 1 + m) d := by simp
    cases h1 with
    | stop h =>
      have hs : ∀ a, ¬ LegalStep s P d a := h d (by simp)
      cases h2 with
      | stop _ => exact .stop fun d' hd' a => by rw [List.eq_of_mem_replicate hd']; exact hs a
      | step h3 h4 _ => rw [List.eq_of_mem_replicate h3] at h4; exact absurd h4 (hs _)
    | @step _ _ d1 a q1 g1 g2 g3 =>
      obtain rfl := List.eq_of_mem_replicate g1
      rw [erase_replicate] at g3
      refine .step mem g2 ?_
      rw [show n + 1 + m = (n + m) + 1 by omega, erase_replicate]
      exact ih g3 h2 (.inr hm)

theorem join_plays (n m : ℕ) {q : List (Int × Int)} (h : Play s (List.replicate (n + m) d) P q) (hm : m ≠ 0) : ∃ q1 q2, q = q1 ++ q2 ∧
    Play s (List.replicate n d) P q1 ∧ Play s (List.replicate m d) (afterAll s P q1) q2 := by
  induction n generalizing P q with
  | zero => exact ⟨[], q, rfl, MaxPlay.stop (fun d h => by cases h), by rw [Nat.zero_add] at h; exact h⟩
  | succ n ih =>
    cases h with
    | stop h =>
      have hs : ∀ a, ¬ LegalStep s P d a := h d (by simp)
      exact ⟨[], [], rfl, .stop fun d' hd' a => by rw [List.eq_of_mem_replicate hd']; exact hs a,
        .stop fun d' hd' a => by rw [List.eq_of_mem_replicate hd']; exact hs a⟩
    | @step _ _ d1 a q g1 g2 g3 =>
      obtain rfl := List.eq_of_mem_replicate g1
      rw [show n + 1 + m = (n + m) + 1 by omega, erase_replicate] at g3
      obtain ⟨q1, q2, rfl, h1, h2⟩ := ih g3
      exact ⟨a :: q1, q2, rfl, .step (by simp) g2 (by rw [erase_replicate]; exact h1), h2⟩

/-! ## The program -/

theorem homeFree_afterAll {q : List (Int × Int)} (h : P.homeFree s) : (afterAll s P q).homeFree s := by
  induction q generalizing P with
  | nil => exact h
  | cons a q ih => exact ih (homeFree_after h)

variable {pf : Profile} {g g1 : State}

/-- A half-turn by the rules: the offered moves are the complete plays with two dice. -/
theorem half (hg : StateOK g) (hf : (view g.board).homeFree (mover g)) (hroll : g.roll = (d, d)) : ∃ ms, getValidMoves pf g = .ok ms ∧
    (∀ m ∈ ms, Play (mover g) (List.replicate 2 d) (view g.board) m ∧ view (run (mover g) g.board m) = afterAll (mover g) (view g.board) m ∧
      Valid (run (mover g) g.board m)) ∧
    (∀ q, q ≠ [] → Play (mover g) (List.replicate 2 d) (view g.board) q → ∃ m ∈ ms, view (run (mover g) g.board m) = afterAll (mover g) (view g.board) q) ∧
    (ms = [] ↔ Play (mover g) (List.replicate 2 d) (view g.board) []) := by
  obtain ⟨ms, hms, h⟩ := C15_refinement pf hg hf
  rw [hroll] at h
  have e : ∀ m ∈ ms, getNextState pf g.board m g.player = .ok (run (mover g) g.board m) := by
    intro m hm
    rw [mover_sgn hg]
    exact getNextState_run pf (returned hg hms hm).2 hg.board (dice_ok hg)
  have p : ∀ q, q ≠ [] → Play (mover g) (List.replicate 2 d) (view g.board) q →
      ∃ m ∈ ms, view (run (mover g) g.board m) = afterAll (mover g) (view g.board) q := by
    intro q hq hp
    obtain ⟨m, hm, b, hb, hv⟩ := (h _).2 ⟨q, hq, hp, rfl⟩
    rw [e m hm] at hb
    cases hb
    exact ⟨m, hm, hv⟩
  refine ⟨ms, hms, fun m hm => ⟨?_, view_run (returned hg hms hm).2 hg.board (dice_ok hg), ((returned hg hms hm).2.foldlM pf hg.board (dice_ok hg)).2⟩, p, ?_⟩
  · have := C15_returned_legal pf hg hf hms hm
    rwa [hroll] at this
  · constructor
    · rintro rfl
      obtain ⟨q, hq⟩ := exists_play (mover g) (List.replicate 2 d) (view g.board)
      by_cases hne : q = []
      · exact hne ▸ hq
      · obtain ⟨m, hm, -⟩ := p q hne hq
        cases hm
    · intro hs
      cases ms with
      | nil => rfl
      | cons m ms =>
        have hp := C15_returned_legal pf hg hf hms (List.mem_cons_self ..)
        have hne := (returned hg hms (List.mem_cons_self ..)).1
        rw [hroll] at hp
        cases hs with
        | stop hs =>
          cases hp with
          | stop _ => exact absurd rfl hne
          | step h1 h2 _ => exact absurd h2 (hs _ h1 _)

/-- C119: with no opposing checker in the mover's home board, the positions after a turn with a double are exactly the final
positions of the complete plays with four equal dice by the rules, and all of these use as many of the four dice as possible. -/
theorem C119_doubles (pf : Profile) {g : State} (hg : StateOK g) (hf : (view g.board).homeFree (mover g)) (hroll : g.roll = (d, d))
    (hsec : g.second = false) (Q : Pos) : Turn pf g Q ↔ ∃ q, Play (mover g) [d, d, d, d] (view g.board) q ∧
      Longest (mover g) [d, d, d, d] (view g.board) q ∧ afterAll (mover g) (view g.board) q = Q := by
  have hd : 1 ≤ d := by have := hg.die1; rw [hroll] at this; exact this.1
  have rep : [d, d, d, d] = List.replicate (2 + 2) d := rfl
  have step : ∀ {ms m dice}, getValidMoves pf g = .ok ms → m ∈ ms → applyMove pf g m dice =
      .ok { g with board := run (mover g) g.board m, second := true } := by
    intro ms m dice hms hm
    rw [applyMove_eq pf hg hms hm, if_pos ⟨by rw [hroll], hsec⟩]
  obtain ⟨ms, hms, a1, a2, a3⟩ := half (pf := pf) hg hf hroll
  have next : ∀ m ∈ ms, StateOK { g with board := run (mover g) g.board m, second := true } ∧
      (view (run (mover g) g.board m)).homeFree (mover g) :=
    fun m hm => ⟨⟨(a1 m hm).2.2, hg.player, hg.die1, hg.die2⟩, by rw [(a1 m hm).2.1]; exact homeFree_afterAll hf⟩
  constructor
  · intro h
    cases h with
    | @two ms1 m dice g1 ms' m' dice' g2 h1 h2 h3 h4 h5 h6 =>
      obtain rfl := Except.ok.inj (h1.symm.trans hms)
      obtain rfl := Except.ok.inj (h3.symm.trans (step h1 h2))
      obtain ⟨hg1, hf1⟩ := next m h2
      obtain ⟨ms2, e2, b1, -, -⟩ := half (pf := pf) hg1 hf1 hroll
      obtain rfl := Except.ok.inj (h4.symm.trans e2)
      rw [applyMove_eq pf hg1 e2 h5, if_neg (by rintro ⟨-, h⟩; cases h)] at h6
      obtain rfl := Except.ok.inj h6
      have hp : Play (mover g) [d, d, d, d] (view g.board) (m ++ m') := by
        rw [rep]
        refine split_plays 2 2 (a1 m h2).1 ?_ (.inr (by decide))
        rw [← (a1 m h2).2.1]
        exact (b1 m' h5).1
      refine ⟨m ++ m', hp, longest hd 4 hp, ?_⟩
      show (m ++ m').foldl _ _ = view (run (mover g) (run (mover g) g.board m) m')
      rw [List.foldl_append]
      refine Eq.trans ?_ (b1 m' h5).2.1.symm
      show _ = afterAll (mover g) (view (run (mover g) g.board m)) m'
      rw [(a1 m h2).2.1]
      rfl
    | @one ms1 m dice g1 dice' g2 h1 h2 h3 h4 h5 =>
      obtain rfl := Except.ok.inj (h1.symm.trans hms)
      obtain rfl := Except.ok.inj (h3.symm.trans (step h1 h2))
      obtain ⟨hg1, hf1⟩ := next m h2
      obtain ⟨ms2, e2, -, -, b3⟩ := half (pf := pf) hg1 hf1 hroll
      obtain rfl := Except.ok.inj (h4.symm.trans e2)
      have hb := (C03_skip_turn pf hg1 dice' h5).2.2.2
      have hp : Play (mover g) [d, d, d, d] (view g.board) (m ++ []) := by
        rw [rep]
        refine split_plays 2 2 (a1 m h2).1 ?_ (.inr (by decide))
        rw [← (a1 m h2).2.1]
        exact b3.1 rfl
      rw [List.append_nil] at hp
      refine ⟨m, hp, longest hd 4 hp, ?_⟩
      rw [hb]
      exact (a1 m h2).2.1.symm
    | @none dice g1 h1 h2 =>
      obtain rfl := Except.ok.inj (h1.symm.trans hms)
      have hp : Play (mover g) [d, d, d, d] (view g.board) ([] ++ []) := by
        rw [rep]
        exact split_plays 2 2 (a3.1 rfl) (a3.1 rfl) (.inr (by decide))
      refine ⟨[], hp, longest hd 4 hp, ?_⟩
      rw [(C03_skip_turn pf hg dice h2).2.2.2]
      rfl
  · rintro ⟨q, hp, -, rfl⟩
    rw [rep] at hp
    obtain ⟨q1, q2, rfl, h1, h2⟩ := join_plays 2 2 hp (by decide)
    have happ : afterAll (mover g) (view g.board) (q1 ++ q2) = afterAll (mover g) (afterAll (mover g) (view g.board) q1) q2 := List.foldl_append ..
    rw [happ]
    by_cases e1 : q1 = []
    · subst e1
      have e2 : q2 = [] := by
        cases h1 with
        | stop h =>
          cases h2 with
          | stop _ => rfl
          | step h3 h4 _ => exact absurd h4 (h _ h3 _)
      subst e2
      have hk : skipTurn pf g (1, 1) = .ok _ := skipTurn_eq pf hg (1, 1)
      have := Turn.none (hms.trans (by rw [a3.2 h1])) hk
      rwa [(C03_skip_turn pf hg (1, 1) hk).2.2.2] at this
    · obtain ⟨m, hm, hv⟩ := a2 q1 e1 h1
      obtain ⟨hg1, hf1⟩ := next m hm
      obtain ⟨ms2, e2, b1, b2, b3⟩ := half (pf := pf) hg1 hf1 hroll
      have h2' : Play (mover g) (List.replicate 2 d) (view (run (mover g) g.board m)) q2 := by rw [hv]; exact h2
      rw [← hv]
      by_cases e3 : q2 = []
      · subst e3
        have hk := skipTurn_eq pf hg1 (1, 1)
        have := Turn.one hms hm (step (dice := (1, 1)) hms hm) (e2.trans (by rw [b3.2 h2'])) hk
        rwa [(C03_skip_turn pf hg1 (1, 1) hk).2.2.2] at this
      · obtain ⟨m', hm', hv'⟩ := b2 q2 e3 h2'
        have := Turn.two hms hm (step (dice := (1, 1)) hms hm) e2 hm' (applyMove_eq pf hg1 e2 hm' (1, 1))
        rw [if_neg (by rintro ⟨-, h⟩; cases h)] at this
        have hv'' : view (run (mover g) (run (mover g) g.board m) m') = afterAll (mover g) (view (run (mover g) g.board m)) q2 := hv'
        rw [← hv'']
        exact this

/-- The restriction on the home board is needed: in `rearState` the rules allow no move with a 5, but the program offers one
(see C08). -/
theorem C119_home_needed (pf : Profile) : StateOK rearState ∧ rearState.roll = (5, 5) ∧ rearState.second = false ∧
    Turn pf rearState (view (run .neg rearState.board [(3, -1)])) ∧
    ∀ q, Play (mover rearState) [5, 5, 5, 5] (view rearState.board) q → q = [] := by
  refine ⟨rearState_ok, rfl, rfl, ?_, ?_⟩
  · have h1 := rearState_moves pf
    have h2 : applyMove pf rearState [(3, -1)] (1, 1) = .ok { rearState with board := run .neg rearState.board [(3, -1)], second := true } :=
      (applyMove_eq pf rearState_ok h1 (List.mem_singleton_self _) (1, 1)).trans (by rw [if_pos ⟨rfl, rfl⟩]; rfl)
    have h3 : getValidMoves pf { rearState with board := run .neg rearState.board [(3, -1)], second := true } = .ok [] := by
      cases pf <;> decide +kernel
    have h4 : skipTurn pf { rearState with board := run .neg rearState.board [(3, -1)], second := true } (1, 1) =
        .ok { rearState with board := run .neg rearState.board [(3, -1)], second := false, player := 1, roll := (1, 1) } := by
      cases pf <;> decide +kernel
    have t := Turn.one h1 (List.mem_singleton_self _) h2 h3 h4
    exact t
  · intro q hq
    cases hq with
    | stop _ => rfl
    | @step _ _ d a q h1 h2 _ =>
      exfalso
      have hd : d = 5 := by simpa using h1
      subst hd
      have hg := gen_complete rearState_ok.board ⟨by decide, by decide⟩ h2
      have : gen (mover rearState) rearState.board 5 = [(3, -1)] := by decide +kernel
      rw [this] at hg
      simp only [List.mem_singleton] at hg
      subst hg
      have := h2.rear rfl (by decide) 5 ⟨by decide, by decide⟩ (by decide)
      revert this
      decide

/-- Player `1` with a double in the middle of a race: the hypotheses of `C119_doubles` can be met. -/
example : ∃ g : State, StateOK g ∧ (view g.board).homeFree (mover g) ∧ g.roll = (3, 3) ∧ g.second = false :=
  ⟨{ bearState with roll := (3, 3) }, ⟨bearState_ok.board, bearState_ok.player, by decide, by decide⟩, bearState_free, rfl, rfl⟩

/-- Without equal dice complete plays may have different lengths (see C12): dice 6-5 in `shortState`. -/
example (pf : Profile) : getValidMoves pf shortState = .ok [[(7, 2), (10, 4)], [(10, 5)]] := shortState_moves pf

end DieE.Props.Db
