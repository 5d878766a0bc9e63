import Verif.Backgammon.Gen

/-! # Complete moves: action trees, extraction, removal of duplicates -/

namespace DieE.BG
open Spec

/-- The action trees without machine arithmetic (proof device). -/
def pureTrees (s : Side) : Nat → List Int → Board → List ActionNode
  | 0, _, _ => []
  | n + 1, moves, b => (dedupActs (sortActs (genList s b moves))).map fun x =>
      .node x.2 (pureTrees s n (moves.erase x.1) (next s b x.2))

/-- The board after a sequence of checker moves (proof device). -/
def run (s : Side) (b : Board) (q : Actions) : Board := q.foldl (next s) b

def pureDedup (s : Side) (b : Board) : List Actions → List Board → List Actions
  | [], _ => []
  | q :: qs, seen =>
    if run s b q ∈ seen then pureDedup s b qs seen else q :: pureDedup s b qs (run s b q :: seen)

/-- The list returned by `get_valid_moves`, without machine arithmetic (proof device). -/
def pureMoves (s : Side) (b : Board) (moves : List Int) : List Actions :=
  pureDedup s b (extractSequencesList (pureTrees s moves.length moves b)) []

theorem removeMove_ok {l : List Int} {d : Int} (h : d ∈ l) : removeMove l d = .ok (l.erase d) := by
  induction l with
  | nil => simp at h
  | cons m l ih =>
    unfold removeMove
    by_cases e : m = d
    · simp [e]
    · rcases List.mem_cons.1 h with h | h
      · exact absurd h.symm e
      · rw [if_neg e, ih h, List.erase_cons_tail (by simpa using e)]; rfl

theorem DiceOK.erase {l : List Int} (h : DiceOK l) (d : Int) : DiceOK (l.erase d) :=
  fun x hx => h x (List.mem_of_mem_erase hx)

theorem getNextState_single (pf : Profile) {s : Side} {b : Board} (hb : Valid b) {d : Int} (hd : 1 ≤ d ∧ d ≤ 6)
    {a : Act} (h : a ∈ gen s b d) : getNextState pf b [a] s.sgn = .ok (next s b a) := by
  unfold getNextState
  rw [List.foldlM_cons, playOne_next pf hb hd.1 (gen_almost hb hd h)]
  rfl

theorem actionTrees_eq (pf : Profile) (s : Side) (n : Nat) (moves : List Int) (b : Board) (hn : moves.length = n)
    (hm : DiceOK moves) (hb : Valid b) : actionTrees pf s.sgn n moves b = .ok (pureTrees s n moves b) := by
  induction n generalizing moves b with
  | zero =>
    have : moves = [] := List.length_eq_zero_iff.1 hn
    subst this
    have e : ∀ rec, entryTrees pf rec [] b s.sgn = .ok [] := fun rec => rfl
    have e' : ∀ rec, normalTrees pf rec [] b s.sgn = .ok [] := by
      intro rec
      unfold normalTrees
      rw [normalActions_ok pf s hb.small hm]; rfl
    unfold actionTrees
    split
    · exact e _
    · exact e' _
  | succ n ih =>
    have bt : ∀ acts : List DieAct, (∀ x ∈ acts, x ∈ genList s b moves) →
        buildTrees pf (actionTrees pf s.sgn n) moves b s.sgn acts = .ok (acts.map fun x =>
          .node x.2 (pureTrees s n (moves.erase x.1) (next s b x.2))) := by
      intro acts ha
      unfold buildTrees
      apply mapM_ok
      intro x hx
      obtain ⟨h1, h2⟩ := (mem_genList s b moves x).1 (ha x hx)
      have hd := hm _ h1
      unfold childrenOf
      rw [getNextState_single pf hb hd h2, bind_ok, asU8_id (by omega), removeMove_ok h1, bind_ok, ih _ _ ?_ (hm.erase _)
        (valid_next hb hd.1 (gen_almost hb hd h2))]
      · rfl
      · rw [List.length_erase_of_mem h1]; omega
    have hmem : ∀ x ∈ dedupActs (sortActs (genList s b moves)), x ∈ genList s b moves := by
      intro x hx
      exact (mem_sortActs _ _).1 ((mem_dedupActs _ _).1 hx)
    unfold actionTrees pureTrees
    unfold genList at bt hmem ⊢
    split
    · next h =>
      rw [if_pos h] at bt hmem
      unfold entryTrees
      rw [entryActions_ok pf s b hm, bind_ok]
      exact bt _ hmem
    · next h =>
      rw [if_neg h] at bt hmem
      unfold normalTrees
      rw [normalActions_ok pf s hb.small hm, bind_ok]
      exact bt _ hmem

/-- Maximal sequences of generated checker moves. -/
inductive GenPlay (s : Side) : List Int → Board → Actions → Prop
  | stop {dice b} : (∀ d ∈ dice, gen s b d = []) → GenPlay s dice b []
  | step {dice b d a q} : d ∈ dice → a ∈ gen s b d → GenPlay s (dice.erase d) (next s b a) q →
      GenPlay s dice b (a :: q)

theorem mem_extractChildren (l : List ActionNode) (cur q : Actions) :
    q ∈ extractChildren l cur ↔ ∃ nd ∈ l, q ∈ extractNode nd cur := by
  induction l with
  | nil => simp [extractChildren]
  | cons c l ih => simp [extractChildren, ih]

theorem pureTrees_nil_iff (s : Side) (n : Nat) (moves : List Int) (b : Board) (hn : moves.length = n) :
    pureTrees s n moves b = [] ↔ ∀ d ∈ moves, gen s b d = [] := by
  cases n with
  | zero =>
    have : moves = [] := List.length_eq_zero_iff.1 hn
    subst this; simp [pureTrees]
  | succ n =>
    simp only [pureTrees, List.map_eq_nil_iff]
    constructor
    · intro h d hd
      cases hg : gen s b d with
      | nil => rfl
      | cons a l =>
        have : (d, a) ∈ dedupActs (sortActs (genList s b moves)) :=
          (mem_dedupActs _ _).2 ((mem_sortActs _ _).2 ((mem_genList s b moves _).2 ⟨hd, by rw [hg]; simp⟩))
        rw [h] at this; simp at this
    · intro h
      rw [List.eq_nil_iff_forall_not_mem]
      intro x hx
      obtain ⟨h1, h2⟩ := (mem_genList s b moves x).1 ((mem_sortActs _ _).1 ((mem_dedupActs _ _).1 hx))
      rw [h _ h1] at h2; simp at h2

theorem mem_extract_pureTrees (s : Side) (n : Nat) (moves : List Int) (b : Board) (hn : moves.length = n)
    (cur q : Actions) : q ∈ extractChildren (pureTrees s n moves b) cur ↔
      ∃ q', q = cur ++ q' ∧ q' ≠ [] ∧ GenPlay s moves b q' := by
  induction n generalizing moves b cur q with
  | zero =>
    have : moves = [] := List.length_eq_zero_iff.1 hn
    subst this
    simp only [pureTrees, extractChildren, List.not_mem_nil, false_iff]
    rintro ⟨q', -, h1, h2⟩
    cases h2 with
    | stop _ => exact h1 rfl
    | step h _ _ => simp at h
  | succ n ih =>
    rw [mem_extractChildren]
    simp only [pureTrees, List.mem_map]
    constructor
    · rintro ⟨nd, ⟨x, hx, rfl⟩, hq⟩
      obtain ⟨h1, h2⟩ := (mem_genList s b moves x).1 ((mem_sortActs _ _).1 ((mem_dedupActs _ _).1 hx))
      have hl : (moves.erase x.1).length = n := by rw [List.length_erase_of_mem h1]; omega
      unfold extractNode at hq
      split at hq
      · next he =>
        rw [List.isEmpty_iff, pureTrees_nil_iff s n _ _ hl] at he
        simp only [List.mem_singleton] at hq
        exact ⟨[x.2], hq, by simp, .step h1 h2 (.stop he)⟩
      · next he =>
        rw [ih _ _ hl] at hq
        obtain ⟨q', hq', _, hp⟩ := hq
        exact ⟨x.2 :: q', by rw [hq']; simp, by simp, .step h1 h2 hp⟩
    · rintro ⟨q', rfl, hne, hp⟩
      cases hp with
      | stop _ => exact absurd rfl hne
      | @step _ _ d a q' h1 h2 hp =>
        have hl : (moves.erase d).length = n := by rw [List.length_erase_of_mem h1]; omega
        refine ⟨_, ⟨(d, a), (mem_dedupActs _ _).2 ((mem_sortActs _ _).2 ((mem_genList s b moves _).2 ⟨h1, h2⟩)), rfl⟩,
          ?_⟩
        simp only
        unfold extractNode
        by_cases hq' : q' = []
        · subst hq'
          have he : pureTrees s n (moves.erase d) (next s b a) = [] := by
            rw [pureTrees_nil_iff s n _ _ hl]
            cases hp with
            | stop h => exact h
          simp [he]
        · have he : ¬ (pureTrees s n (moves.erase d) (next s b a)).isEmpty = true := by
            rw [List.isEmpty_iff, pureTrees_nil_iff s n _ _ hl]
            intro h
            cases hp with
            | stop _ => exact hq' rfl
            | step h1 h2 _ => rw [h _ h1] at h2; simp at h2
          rw [if_neg he, ih _ _ hl]
          exact ⟨q', by simp, hq', hp⟩

theorem GenPlay.foldlM (pf : Profile) {s : Side} {dice : List Int} {b : Board} {q : Actions} (h : GenPlay s dice b q)
    (hb : Valid b) (hm : DiceOK dice) :
    q.foldlM (fun b a => getNextState pf b [a] s.sgn) b = (.ok (run s b q) : Res Board) ∧ Valid (run s b q) := by
  induction h with
  | stop _ => exact ⟨rfl, hb⟩
  | step h1 h2 _ ih =>
    have hd := hm _ h1
    obtain ⟨e, hv⟩ := ih (valid_next hb hd.1 (gen_almost hb hd h2)) (hm.erase _)
    refine ⟨?_, hv⟩
    rw [List.foldlM_cons, getNextState_single pf hb hd h2, bind_ok]
    exact e

theorem removeDuplicateLoop_eq (pf : Profile) (s : Side) (b : Board) (qs : List Actions) (seen : List Board)
    (h : ∀ q ∈ qs, q.foldlM (fun b a => getNextState pf b [a] s.sgn) b = (.ok (run s b q) : Res Board)) :
    removeDuplicateLoop pf b s.sgn qs seen = .ok (pureDedup s b qs seen) := by
  induction qs generalizing seen with
  | nil => rfl
  | cons q qs ih =>
    unfold removeDuplicateLoop pureDedup
    rw [h q (by simp), bind_ok]
    split
    · exact ih _ (fun q' hq' => h q' (by simp [hq']))
    · rw [ih _ (fun q' hq' => h q' (by simp [hq']))]; rfl

theorem mem_sequences (s : Side) (moves : List Int) (b : Board) (q : Actions) :
    q ∈ extractSequencesList (pureTrees s moves.length moves b) ↔ q ≠ [] ∧ GenPlay s moves b q := by
  unfold extractSequencesList
  rw [mem_extract_pureTrees s _ _ _ rfl]
  constructor
  · rintro ⟨q', rfl, h1, h2⟩; exact ⟨h1, h2⟩
  · rintro ⟨h1, h2⟩; exact ⟨q, rfl, h1, h2⟩

/-- On valid states `get_valid_moves` succeeds, with the same result in both build profiles. -/
theorem getValidMoves_eq (pf : Profile) (s : Side) (g : State) (hs : g.player = s.sgn) (hb : Valid g.board)
    (hr : g.roll ≠ (0, 0)) (hm : DiceOK (allMoves g.roll)) :
    getValidMoves pf g = .ok (pureMoves s g.board (allMoves g.roll)) := by
  unfold getValidMoves getActionTrees removeDuplicateStates
  rw [hs]
  simp only [assert, hr, ne_eq, not_false_eq_true, decide_true, if_true, bind_ok]
  rw [actionTrees_eq pf s _ _ _ rfl hm hb, bind_ok, removeDuplicateLoop_eq]
  · rfl
  · intro q hq
    exact (((mem_sequences s _ _ q).1 hq).2.foldlM pf hb hm).1

/-! ### removal of duplicates -/

theorem mem_pureDedup (s : Side) (b : Board) (qs : List Actions) (seen : List Board) (q : Actions)
    (h : q ∈ pureDedup s b qs seen) : q ∈ qs ∧ run s b q ∉ seen := by
  induction qs generalizing seen with
  | nil => simp [pureDedup] at h
  | cons q0 qs ih =>
    unfold pureDedup at h
    split at h
    · have := ih _ h; exact ⟨by simp [this.1], this.2⟩
    · next hn =>
      rcases List.mem_cons.1 h with rfl | h
      · exact ⟨by simp, hn⟩
      · have := ih _ h
        exact ⟨by simp [this.1], fun hc => this.2 (by simp [hc])⟩

theorem pureDedup_complete (s : Side) (b : Board) (qs : List Actions) (seen : List Board) (q : Actions)
    (h : q ∈ qs) (hs : run s b q ∉ seen) : ∃ q' ∈ pureDedup s b qs seen, run s b q' = run s b q := by
  induction qs generalizing seen with
  | nil => simp at h
  | cons q0 qs ih =>
    unfold pureDedup
    by_cases e : run s b q0 = run s b q
    · rw [if_neg (by rw [e]; exact hs)]
      exact ⟨q0, by simp, e⟩
    · have hq : q ∈ qs := by
        rcases List.mem_cons.1 h with rfl | h
        · exact absurd rfl e
        · exact h
      split
      · exact ih _ hq hs
      · obtain ⟨q', h1, h2⟩ := ih (run s b q0 :: seen) hq (by
          intro hc
          rcases List.mem_cons.1 hc with hc | hc
          · exact e hc.symm
          · exact hs hc)
        exact ⟨q', by simp [h1], h2⟩

theorem pureDedup_pairwise (s : Side) (b : Board) (qs : List Actions) (seen : List Board) :
    (pureDedup s b qs seen).Pairwise fun q q' => run s b q ≠ run s b q' := by
  induction qs generalizing seen with
  | nil => exact List.Pairwise.nil
  | cons q0 qs ih =>
    unfold pureDedup
    split
    · exact ih _
    · refine List.Pairwise.cons ?_ (ih _)
      intro q' hq' e
      exact (mem_pureDedup s b qs _ q' hq').2 (by simp [e])

theorem mem_pureMoves {s : Side} {b : Board} {moves : List Int} {q : Actions} (h : q ∈ pureMoves s b moves) :
    q ≠ [] ∧ GenPlay s moves b q :=
  (mem_sequences s moves b q).1 (mem_pureDedup s b _ _ q h).1

theorem pureMoves_complete {s : Side} {b : Board} {moves : List Int} {q : Actions} (hq : q ≠ [])
    (h : GenPlay s moves b q) : ∃ q' ∈ pureMoves s b moves, run s b q' = run s b q :=
  pureDedup_complete s b _ _ q ((mem_sequences s moves b q).2 ⟨hq, h⟩) (by simp)

/-! ### states -/

theorem mover_sgn {g : State} (h : StateOK g) : g.player = (mover g).sgn := by
  unfold mover
  rcases h.player with e | e <;> simp [e]

theorem dice_ok {g : State} (h : StateOK g) : DiceOK (allMoves g.roll) := by
  intro d hd
  have h1 := h.die1
  have h2 := h.die2
  unfold allMoves at hd
  split at hd <;> simp only [List.mem_cons, List.not_mem_nil, or_false] at hd <;> rcases hd with rfl | rfl <;> assumption

theorem roll_ne {g : State} (h : StateOK g) : g.roll ≠ (0, 0) := by
  intro e
  have := h.die1
  rw [e] at this; simp at this

theorem validMoves_eq (pf : Profile) {g : State} (h : StateOK g) :
    getValidMoves pf g = .ok (pureMoves (mover g) g.board (allMoves g.roll)) :=
  getValidMoves_eq pf (mover g) g (mover_sgn h) h.board (roll_ne h) (dice_ok h)

end DieE.BG
