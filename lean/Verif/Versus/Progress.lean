import Verif.Versus.Players

/-! # The match loop does not panic, and when it ends -/

namespace DieE.Versus
open DieE.Mcts DieE.Train DieE.Props.A DieE.Props.S

variable {G : Game} {Fl : Floats}

/-- Legal moves can be played and turns passed. -/
structure Runs (G : Game) (R : G.S → Prop) : Prop where
  apply : ∀ s ms a, R s → G.moves s = .ok ms → a ∈ ms → ∀ t, ∃ s' t', G.apply s a t = .ok (s', t')
  skip : ∀ s, R s → ∀ t, ∃ s' t', G.skip s t = .ok (s', t')

/-- A legal move, or the empty move of a player without legal moves. -/
def Legal (s : G.S) (a : G.Mv) : Prop := ∃ ms, G.moves s = .ok ms ∧ (a ∈ ms ∨ ms = [] ∧ a = G.emptyMove)

theorem playAction_ok {R : G.S → Prop} (hr : Runs G R) {a1 a2 : Agent} {limit round : Nat} {first : Bool} {a : G.Mv}
    {g s : G.S} {r : Rec G} {m : Match G} (hg : m.games (G.id g) = some (s, r)) (hR : R s) (hl : Legal s a)
    (E : List Nat) (t : Tape) : ∃ p t', playAction a1 a2 limit round first a g m E t = .ok (p, t') := by
  unfold playAction
  rw [hg]
  rw [M.bind_eq (show M.lift (match some (s, r) with
    | some e => .ok e
    | none => .error Panic.unwrapNone) t = .ok ((s, r), t) from rfl)]
  simp only
  by_cases ha : a = G.emptyMove
  · rw [if_pos ha]
    obtain ⟨s', t', h⟩ := hr.skip s hR t
    exact ⟨_, _, M.bind_ok.2 ⟨s', t', h, rfl⟩⟩
  · rw [if_neg ha]
    obtain ⟨ms, h1, h2⟩ := hl
    have hmem : a ∈ ms := by
      rcases h2 with h2 | ⟨-, h2⟩
      · exact h2
      · exact absurd h2 ha
    rw [M.bind_eq (M.lift_ok.2 ⟨h1, rfl⟩)]
    rw [M.bind_eq (M.lift_ok.2 ⟨(show assert (decide (a ∈ ms)) = .ok () by unfold assert; rw [decide_eq_true hmem]; rfl), rfl⟩)]
    obtain ⟨s', t', h⟩ := hr.apply s ms a hR h1 hmem t
    rw [M.bind_eq h]
    cases hw : G.winner s' with
    | some w =>
      simp only
      by_cases h1 : w = -1
      · rw [if_pos h1]; exact ⟨_, _, rfl⟩
      · rw [if_neg h1]
        by_cases h2 : w = - -1
        · rw [if_pos h2]; exact ⟨_, _, rfl⟩
        · rw [if_neg h2]; exact ⟨_, _, rfl⟩
    | none =>
      simp only
      by_cases h1 : round ≥ limit
      · rw [if_pos h1]
        simp only
        rw [if_neg (by decide), if_neg (by decide)]
        exact ⟨_, _, rfl⟩
      · rw [if_neg h1]
        exact ⟨_, _, rfl⟩

theorem playActions_ok {R : G.S → Prop} (hid : Ids G) (hcl : Closed G R) (hr : Runs G R) {a1 a2 : Agent}
    {n limit : Nat} {init : Nat → G.S} {k : Nat} {D : List Nat} (L : List (Bool × G.Mv × G.S)) {m : Match G} {E : List Nat}
    (h : Mid R a1 a2 Legal Legal n limit init k D L m E) (t : Tape) :
    ∃ p t', playActions a1 a2 limit (k + 1) L m E t = .ok (p, t') := by
  induction L generalizing m E t with
  | nil => exact ⟨_, _, rfl⟩
  | cons x L ih =>
    obtain ⟨first, a, g⟩ := x
    obtain ⟨h1, h2, h3⟩ := h.todo (first, a, g) (List.mem_cons_self ..)
    have hl : Legal g a := by
      cases first
      · exact h3
      · exact h3
    obtain ⟨⟨m', E'⟩, t1, h4⟩ := playAction_ok (a1 := a1) (a2 := a2) (limit := limit) (round := k + 1) (first := first)
      hr h1.entry h1.ok hl E t
    obtain ⟨p, t2, h5⟩ := ih (playAction_mid hid hcl h h4) t1
    exact ⟨p, t2, (M.bind_eq h4).trans h5⟩

theorem playRound_ok {R : G.S → Prop} (hid : Ids G) (hcl : Closed G R) (hr : Runs G R) {a1 a2 : Agent}
    {acts1 acts2 : Acts G} (hA1 : Able R acts1) (hA2 : Able R acts2) {n limit : Nat} {init : Nat → G.S}
    {k : Nat} {D : List Nat} {m : Match G} (h : Inv R a1 a2 Legal Legal n limit init k D m) {order : List Nat}
    (ho : order.Perm (m.keys n)) (t : Tape) :
    ∃ m' t' E, playRound a1 a2 acts1 acts2 limit order k m t = .ok (m', t') ∧
      Inv R a1 a2 Legal Legal n limit init (k + 1) (D ++ E) m' := by
  have hR : ∀ s ∈ pool m order, R s := fun s hs => ((h.pool ho).2 s hs).ok
  have hR1 : ∀ s ∈ (pool m order).filter (fun s => decide (G.player s = -1)), R s :=
    fun s hs => hR s (List.mem_of_mem_filter hs)
  have hR2 : ∀ s ∈ (pool m order).filter (fun s => !decide (G.player s = -1)), R s :=
    fun s hs => hR s (List.mem_of_mem_filter hs)
  obtain ⟨as1, t1, h1⟩ := hA1.total k _ t hR1
  obtain ⟨as2, t2, h2⟩ := hA2.total k _ t1 hR2
  have hmid := h.mid ho (hA1.sound _ _ _ _ _ hR1 h1) (hA2.sound _ _ _ _ _ hR2 h2)
  obtain ⟨⟨m1, E⟩, t3, h3⟩ := playActions_ok hid hcl hr _ hmid t2
  obtain ⟨m2, h4, h5⟩ := (playActions_mid hid hcl _ hmid h3).inv
  refine ⟨m2, t3, E, ?_, h5⟩
  rw [playRound_eq]
  exact (M.bind_eq h1).trans ((M.bind_eq h2).trans ((M.bind_eq h3).trans (M.lift_ok.2 ⟨h4, rfl⟩)))

/-- The loop returns, or the bound on the number of rounds is reached. -/
theorem playLoop_ok {R : G.S → Prop} (hid : Ids G) (hcl : Closed G R) (hr : Runs G R) {a1 a2 : Agent}
    {acts1 acts2 : Acts G} (hA1 : Able R acts1) (hA2 : Able R acts2) {n limit : Nat} {init : Nat → G.S}
    {order : Nat → List Nat → List Nat} (ho : ∀ k l, (order k l).Perm l) (f : Nat) {k : Nat} {D : List Nat} {m : Match G}
    (h : Inv R a1 a2 Legal Legal n limit init k D m) (t : Tape) :
    (∃ m' t', playLoop a1 a2 acts1 acts2 n limit order f k m t = .ok (m', t')) ∨
    playLoop a1 a2 acts1 acts2 n limit order f k m t = .error .fuel ∧
      ∃ D' m', Inv R a1 a2 Legal Legal n limit init (k + f) D' m' ∧ m'.keys n ≠ [] := by
  induction f generalizing k D m t with
  | zero =>
    unfold playLoop
    by_cases he : (m.keys n).isEmpty
    · rw [if_pos he]
      exact .inl ⟨_, _, rfl⟩
    · rw [if_neg he]
      exact .inr ⟨rfl, D, m, h, by rwa [List.isEmpty_iff] at he⟩
  | succ f ih =>
    unfold playLoop
    by_cases he : (m.keys n).isEmpty
    · rw [if_pos he]
      exact .inl ⟨_, _, rfl⟩
    · rw [if_neg he]
      obtain ⟨m1, t1, E, h1, h2⟩ := playRound_ok hid hcl hr hA1 hA2 h (ho k (m.keys n)) t
      rcases ih h2 t1 with ⟨m', t', h3⟩ | ⟨h3, h4⟩
      · exact .inl ⟨m', t', (M.bind_eq h1).trans h3⟩
      · refine .inr ⟨(M.bind_eq h1).trans h3, ?_⟩
        rw [show k + (f + 1) = k + 1 + f by omega]
        exact h4

/-- The initial states can be built. -/
def Begins (G : Game) (R : G.S → Prop) : Prop := ∀ n i u, ∃ s u', initState G n i u = .ok (s, u') ∧ R s

theorem initGames_ok {R : G.S → Prop} (hb : Begins G R) (a1 a2 : Agent) (n : Nat) (is : List Nat)
    (g : Nat → Option (G.S × Rec G)) (t : Tape) : ∃ g' t', initGames a1 a2 n is g t = .ok (g', t') := by
  induction is generalizing g t with
  | nil => exact ⟨g, t, rfl⟩
  | cons i is ih =>
    obtain ⟨s, t1, h1, -⟩ := hb n i t
    obtain ⟨g', t2, h2⟩ := ih (fun j => if j = i then some (s, Rec.new i a1 a2 s) else g j) t1
    exact ⟨g', t2, (M.bind_eq h1).trans h2⟩

theorem playRun_ok {R : G.S → Prop} (hid : Ids G) (hcl : Closed G R) (hr : Runs G R) (hb : Begins G R) {a1 a2 : Agent}
    {acts1 acts2 : Acts G} (hA1 : Able R acts1) (hA2 : Able R acts2) {n limit : Nat}
    {order : Nat → List Nat → List Nat} (ho : ∀ k l, (order k l).Perm l) (f : Nat) (t : Tape) :
    (∃ m t', playRun a1 a2 acts1 acts2 n limit order f t = .ok (m, t')) ∨
    playRun a1 a2 acts1 acts2 n limit order f t = .error .fuel ∧
      ∃ init D m, (∀ i, i < n → ∃ u u', initState G n i u = .ok (init i, u')) ∧
        Inv R a1 a2 Legal Legal n limit init f D m ∧ m.keys n ≠ [] := by
  obtain ⟨g, t1, h1⟩ := initGames_ok hb a1 a2 n (List.range n) (fun _ => none) t
  have hst : ∀ i u s u', initState G n i u = .ok (s, u') → R s := by
    intro i u s u' h
    obtain ⟨s', u'', h2, h3⟩ := hb n i u
    rw [h] at h2
    obtain ⟨rfl, -⟩ := Prod.mk.inj (Except.ok.inj h2)
    exact h3
  obtain ⟨init, h2, h3⟩ := initGames_inv (R := R) (A1 := Legal) (A2 := Legal) (limit := limit) hid hst h1
  rcases playLoop_ok hid hcl hr hA1 hA2 ho f h3 t1 with ⟨m', t', h4⟩ | ⟨h4, D, m, h5, h6⟩
  · exact .inl ⟨m', t', (M.bind_eq h1).trans h4⟩
  · refine .inr ⟨(M.bind_eq h1).trans h4, init, D, m, h2, ?_, h6⟩
    rwa [Nat.zero_add] at h5

/-- If no game can be unfinished after `f` rounds, the match returns. -/
theorem playRun_ends {R : G.S → Prop} (hid : Ids G) (hcl : Closed G R) (hr : Runs G R) (hb : Begins G R) {a1 a2 : Agent}
    {acts1 acts2 : Acts G} (hA1 : Able R acts1) (hA2 : Able R acts2) {n limit : Nat}
    {order : Nat → List Nat → List Nat} (ho : ∀ k l, (order k l).Perm l) (f : Nat)
    (hf : ∀ (init : Nat → G.S) m i s, (∃ u u', initState G n i u = .ok (init i, u')) →
      ¬ Live R a1 a2 Legal Legal limit init m f i s) (t : Tape) :
    ∃ m t', playRun a1 a2 acts1 acts2 n limit order f t = .ok (m, t') := by
  rcases playRun_ok hid hcl hr hb hA1 hA2 (limit := limit) (n := n) (a1 := a1) (a2 := a2) ho f t with
    h | ⟨-, init, D, m, h1, h2, h3⟩
  · exact h
  · exfalso
    obtain ⟨i, hi⟩ := List.exists_mem_of_ne_nil _ h3
    obtain ⟨s, hs⟩ := (h2.mem_keys i).1 hi
    exact hf init m i s (h1 i ((h2.part i).2 (.inr ⟨s, hs⟩))) hs

/-- An unfinished game passed in every round from the last but one round of the limit on. -/
theorem Live.passes {R : G.S → Prop} {a1 a2 : Agent} {A1 A2 : G.S → G.Mv → Prop} {limit : Nat} {init : Nat → G.S}
    {m : Match G} {k i : Nat} {s : G.S} (h : Live R a1 a2 A1 A2 limit init m k i s) (j : Nat) (hj : limit ≤ j + 1)
    {st : Step G} (hst : (m.steps i)[j]? = some st) : st.action = G.emptyMove := by
  by_contra hne
  have := (h.going j st hst hne).2
  omega

end DieE.Versus
