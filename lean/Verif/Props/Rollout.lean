import Verif.Prob
import Verif.Props.Mcts

/-! # The simulated games have no influence on the plain search (C115) -/

namespace DieE.Props.Ro
open DieE DieE.Mcts DieE.Prob DieE.Props.S
variable {G : Game} {Fl : Floats}

/-- Moves and passes draw finitely many numbers. -/
structure Shorts (G : Game) : Prop where
  apply : ∀ s a, Short (G.apply s a)
  skip : ∀ s, Short (G.skip s)

theorem simulateLoop_short (hd : Shorts G) (start : G.S) (player : Int) (n : Nat) (curr : G.S) :
    Short (simulateLoop start player n curr) := by
  induction n generalizing curr with
  | zero => exact short_pure _
  | succ n ih =>
    unfold simulateLoop
    cases G.winner start with
    | some w => exact short_pure _
    | none =>
      refine (short_lift _).bind fun ms => (short_choose ms).bind fun o => ?_
      cases o with
      | some a => exact (hd.apply curr a).bind fun s => ih s
      | none => exact (hd.skip curr).bind fun s => ih s

/-- A rollout from an undecided position is as good as no rollout. -/
theorem simulateLoop_same {R : G.S → Prop} (hs : Safe G R) (hd : Shorts G) {start : G.S} (hw : G.winner start = none)
    (player : Int) (n : Nat) {curr : G.S} (hc : R curr) : Same (simulateLoop start player n curr) (pure 0) := by
  induction n generalizing curr with
  | zero => exact (short_pure _).same
  | succ n ih =>
    unfold simulateLoop
    rw [hw]
    simp only
    obtain ⟨ms, hm⟩ := hs.moves curr hc
    have hsh : ∀ o : Option G.Mv, Short (match o with
      | some a => do
        let next ← G.apply curr a
        simulateLoop start player n next
      | none => do
        let next ← G.skip curr
        simulateLoop start player n next : M Int) := by
      intro o
      cases o with
      | some a => exact (hd.apply curr a).bind fun s => simulateLoop_short hd ..
      | none => exact (hd.skip curr).bind fun s => simulateLoop_short hd ..
    refine Same.skip (P := fun l => l = ms) (short_lift _) (fun t => ⟨ms, t, M.lift_ok.2 ⟨hm, rfl⟩, rfl⟩)
      (fun l => (short_choose l).bind hsh) ?_ (short_pure _)
    rintro l rfl
    refine Same.skip (P := fun o => ∀ a, o = some a → a ∈ l) (short_choose l) ?_ hsh ?_ (short_pure _)
    · intro t
      rcases choose_spec l t with ⟨-, h⟩ | ⟨a, t1, ha, h⟩
      · exact ⟨none, t, h, by simp⟩
      · exact ⟨some a, t1, h, by rintro b ⟨⟩; exact ha⟩
    · intro o ho
      cases o with
      | none =>
        refine Same.skip (P := R) (hd.skip curr) (fun t => ?_) (fun s => simulateLoop_short hd ..) (fun s h => ih h) (short_pure _)
        exact hs.skip curr hc t
      | some a =>
        refine Same.skip (P := R) (hd.apply curr a) (fun t => ?_) (fun s => simulateLoop_short hd ..) (fun s h => ih h) (short_pure _)
        obtain ⟨s', t', h⟩ := hs.apply curr l a hc hm (ho a rfl) t
        exact ⟨s', t', h, hs.closed curr l a s' hc hm (ho a rfl) ⟨_, _, h⟩⟩

/-- What a node is worth without a rollout: the outcome if the game is over, otherwise nothing is known. -/
def peek (G : Game) (s : G.S) (player : Int) : Int :=
  match G.winner s with
  | some w => if w = player then 1 else if w = -player then -1 else 0
  | none => 0

theorem simulate_same {R : G.S → Prop} (hs : Safe G R) (hd : Shorts G) {n : Node G Fl} (hR : R n.state) (player : Int)
    {limit : Nat} (hl : 0 < limit) : Same (simulate n player limit) (pure (peek G n.state player)) := by
  obtain ⟨l, rfl⟩ : ∃ l, limit = l + 1 := ⟨limit - 1, by omega⟩
  cases hw : G.winner n.state with
  | none =>
    rw [show peek G n.state player = 0 by unfold peek; rw [hw]]
    exact simulateLoop_same hs hd hw player _ hR
  | some w =>
    rw [show peek G n.state player = outcome w player by unfold peek; rw [hw]; rfl]
    unfold simulate simulateLoop
    rw [hw]
    exact (short_pure _).same

theorem expand_short (hd : Shorts G) (n : Node G Fl) (st : Store G Fl) : Short (expand n st) := by
  unfold expand
  split
  · exact ⟨.done (.error _), fun _ => rfl⟩
  · exact (hd.apply ..).bind fun s => (short_lift _).bind fun p => (short_lift _).bind fun _ => short_pure _

theorem iteration_short (hd : Shorts G) (player : Int) (limit root : Nat) (st : Store G Fl) :
    Short (iteration player limit root st) := by
  unfold iteration
  refine (short_lift _).bind fun i => (short_lift _).bind fun sel => ?_
  split
  · exact (short_lift _).bind fun _ => short_pure _
  · exact (expand_short hd ..).bind fun p => (short_lift _).bind fun n => (simulateLoop_short hd ..).bind fun v =>
      (short_lift _).bind fun _ => short_pure _

theorem iterate_short (hd : Shorts G) (player : Int) (limit root n : Nat) (st : Store G Fl) (tr : List Nat) :
    Short (iterate player limit root n st tr) := by
  induction n generalizing st tr with
  | zero => exact short_pure _
  | succ n ih => exact (iteration_short hd ..).bind fun p => ih ..

theorem iteration_same {R : G.S → Prop} (hs : Safe G R) (hd : Shorts G) {st : Store G Fl} (w : WellFormed st) (hR : AllR R st)
    {r : Nat} (hr : r < st.length) (player : Int) {l l' : Nat} (hl : 0 < l) (hl' : 0 < l') :
    Same (iteration player l r st) (iteration player l' r st) := by
  unfold iteration
  obtain ⟨i, n, h1, h2, h3, h4⟩ := selectLeafNode_spec w r hr
  have hsh : ∀ (limit : Nat) (p : Store G Fl × Nat), Short (do
      let new ← M.lift (getNode p.1 p.2)
      let value ← simulate new player limit
      let st ← M.lift (backpropagate p.2 (Fl.ofInt value) p.1)
      pure (st, p.2) : M (Store G Fl × Nat)) := fun limit p =>
    (short_lift _).bind fun n => (simulateLoop_short hd ..).bind fun v => (short_lift _).bind fun _ => short_pure _
  have hsh2 : ∀ (limit i : Nat) (sel : Node G Fl), Short (match G.winner sel.state with
      | some w => do
        let st ← M.lift (backpropagate i (Fl.ofInt (outcome w player)) st)
        pure (st, i)
      | none => do
        let (st, c) ← expand sel st
        let new ← M.lift (getNode st c)
        let value ← simulate new player limit
        let st ← M.lift (backpropagate c (Fl.ofInt value) st)
        pure (st, c) : M (Store G Fl × Nat)) := by
    intro limit i sel
    cases G.winner sel.state with
    | some w => exact (short_lift _).bind fun _ => short_pure _
    | none => exact (expand_short hd ..).bind fun p => hsh limit p
  refine Same.bind (P := fun j => j = i) (short_lift _).same ?_ (fun j => (short_lift _).bind fun n => hsh2 l j n)
    (fun j => (short_lift _).bind fun n => hsh2 l' j n) ?_
  · intro t a t' h
    rw [M.lift_ok, h1] at h
    exact (Except.ok.inj h.1).symm
  rintro j rfl
  refine Same.bind (P := fun m => m = n) (short_lift _).same ?_ (fun m => hsh2 l j m) (fun m => hsh2 l' j m) ?_
  · intro t a t' h
    rw [M.lift_ok, getNode_ok, h2] at h
    exact (Option.some.inj h.1).symm
  rintro m rfl
  cases hw : G.winner m.state with
  | some w => exact ((short_lift _).bind fun _ => short_pure _).same
  | none =>
    refine Same.bind (P := fun p => ∀ nn : Node G Fl, p.1[p.2]? = some nn → R nn.state) (expand_short hd m st).same ?_ (hsh l) (hsh l') ?_
    · rintro t ⟨st', c⟩ t' h nn hnn
      have hne : m.expandable ≠ [] := by
        intro h0
        unfold expand at h
        rw [h0] at h
        cases h
      obtain ⟨st1, c1, t1, h5, h6⟩ := expand_progress hs w hR h2 hne t
      rw [h] at h5
      cases h5
      exact h6 c nn hnn
    · rintro ⟨st', c⟩ hp
      refine Same.bind (P := fun nn => R nn.state) (short_lift _).same ?_ (fun nn => (simulateLoop_short hd ..).bind fun v =>
        (short_lift _).bind fun _ => short_pure _) (fun nn => (simulateLoop_short hd ..).bind fun v =>
        (short_lift _).bind fun _ => short_pure _) ?_
      · intro t nn t' h
        rw [M.lift_ok, getNode_ok] at h
        exact hp nn h.1
      · intro nn hnn
        refine Same.bind (P := fun _ => True) ((simulate_same hs hd hnn player hl).trans (simulate_same hs hd hnn player hl').symm)
          (fun _ _ _ _ => trivial) (fun v => (short_lift _).bind fun _ => short_pure _)
          (fun v => (short_lift _).bind fun _ => short_pure _) fun v _ => ((short_lift _).bind fun _ => short_pure _).same

theorem iterate_same {R : G.S → Prop} (hs : Safe G R) (hd : Shorts G) (n : Nat) {st : Store G Fl} (w : WellFormed st)
    (hR : AllR R st) {r : Nat} (hr : r < st.length) (tr : List Nat) (player : Int) {l l' : Nat} (hl : 0 < l) (hl' : 0 < l') :
    Same (iterate player l r n st tr) (iterate player l' r n st tr) := by
  induction n generalizing st tr with
  | zero => exact (short_pure _).same
  | succ n ih =>
    refine Same.bind (P := fun p => WellFormed p.1 ∧ AllR R p.1 ∧ r < p.1.length) (iteration_same hs hd w hR hr player hl hl') ?_
      (fun p => iterate_short hd ..) (fun p => iterate_short hd ..) fun p hp => ih hp.1 hp.2.1 hp.2.2 _
    rintro t ⟨st', k⟩ t' h
    obtain ⟨w', -, hlen, -⟩ := iteration_spec w hr h
    refine ⟨w', ?_, by show r < st'.length; omega⟩
    rcases iteration_progress hs w hR hr player l t with ⟨st1, k1, t1, h1, h2⟩ | ⟨h1, -⟩
    · rw [h] at h1
      cases h1
      exact h2
    · rw [h] at h1
      cases h1

theorem buildTree_same {R : G.S → Prop} (hs : Safe G R) (hd : Shorts G) {state : G.S} (hR : R state) (player : Int)
    (iterations : Nat) {l l' : Nat} (hl : 0 < l) (hl' : 0 < l') :
    Same (buildTree Fl state player iterations l) (buildTree Fl state player iterations l') := by
  unfold buildTree
  obtain ⟨ms, hm⟩ := hs.moves state hR
  refine Same.bind (P := fun p => p = ([freshNode state 0 none none (Fl.ofInt 0) ms], 0)) (short_lift _).same ?_
    (fun p => iterate_short hd ..) (fun p => iterate_short hd ..) ?_
  · intro t a t' h
    rw [M.lift_ok, addNode_ok.2 ⟨ms, hm, rfl, rfl⟩] at h
    exact (Except.ok.inj h.1).symm
  · rintro p rfl
    have hroot : WellFormed [freshNode (G := G) (Fl := Fl) state 0 none none (Fl.ofInt 0) ms] :=
      wf_root (Fl := Fl) wf_nil hm (Fl.ofInt 0)
    refine iterate_same hs hd iterations hroot ?_ (by simp) [] player hl hl'
    intro i n hi
    cases i with
    | zero => cases hi; exact hR
    | succ i => cases hi

/-- C115, any game: with rollouts of different lengths, the whole tree (with all values, visits and panics) has the same
probabilities if the random numbers are independent and identically distributed, and the same trees are possible. -/
theorem C115_trees {R : G.S → Prop} (hs : Safe G R) (hd : Shorts G) {state : G.S} (hR : R state) (player : Int)
    (iterations : Nat) {l l' : Nat} (hl : 0 < l) (hl' : 0 < l') :
    (∀ (ν : PMF ℕ) (A : Set (Res (Store G Fl × List Nat))), iid ν {t | value (buildTree Fl state player iterations l) t ∈ A} =
      iid ν {t | value (buildTree Fl state player iterations l') t ∈ A}) ∧
    ∀ t, ∃ t', value (buildTree Fl state player iterations l') t' = value (buildTree Fl state player iterations l) t :=
  ⟨(buildTree_same hs hd hR player iterations hl hl').prob, (buildTree_same hs hd hR player iterations hl hl').possible⟩

theorem mctSearch_same {R : G.S → Prop} (hs : Safe G R) (hd : Shorts G) {state : G.S} (hR : R state) (player : Int)
    (iterations : Nat) {l l' : Nat} (hl : 0 < l) (hl' : 0 < l') :
    Same (mctSearch Fl state player iterations l) (mctSearch Fl state player iterations l') := by
  unfold mctSearch
  cases G.winner state with
  | some w => exact (short_pure _).same
  | none =>
    refine Same.bind (P := fun _ => True) (buildTree_same hs hd hR player iterations hl hl') (fun _ _ _ _ => trivial)
      (fun p => short_lift _) (fun p => short_lift _) fun p _ => (short_lift _).same

theorem bg_shorts (pf : Profile) : Shorts (BG.game pf) := by
  have hr : Short BG.rollDice := short_die.bind fun a => short_die.bind fun b => short_pure _
  refine ⟨fun s a => ?_, fun s => hr.bind fun d => short_lift _⟩
  show Short (BG.applyM pf s a)
  unfold BG.applyM
  refine Short.bind ?_ fun d => short_lift _
  split
  · exact short_pure _
  · exact hr

/-- C115 for Backgammon: the move found has the same distribution whatever the length of the rollouts, as long as it is
positive. -/
theorem C115_backgammon (pf : Profile) {s : BG.State} (hs : Spec.StateOK s) (player : Int) (iterations : Nat) {l l' : Nat}
    (hl : 0 < l) (hl' : 0 < l') (ν : PMF ℕ) (A : Set (Res BG.Actions)) :
    iid ν {t | value (mctSearch (G := BG.game pf) Fl s player iterations l) t ∈ A} =
      iid ν {t | value (mctSearch (G := BG.game pf) Fl s player iterations l') t ∈ A} :=
  (mctSearch_same (bg_safe pf) (bg_shorts pf) hs player iterations hl hl').prob ν A

/-! ## Games without dice -/

/-- The result does not depend on the random numbers. -/
def Steady {α : Type} (m : M α) : Prop := ∃ r, ∀ t, value m t = r

theorem steady_pure {α : Type} (a : α) : Steady (pure a : M α) := ⟨.ok a, fun _ => rfl⟩

theorem steady_lift {α : Type} (r : Res α) : Steady (M.lift r) := ⟨r, fun t => by cases r <;> rfl⟩

theorem Steady.bind {α β : Type} {m : M α} {f : α → M β} (h : Steady m) (hf : ∀ a t t', m t = .ok (a, t') → Steady (f a)) :
    Steady (m >>= f) := by
  obtain ⟨r, hr⟩ := h
  have step : ∀ t, value (m >>= f) t = match m t with
      | .error e => .error e
      | .ok (a, t') => value (f a) t' := by
    intro t
    show (match m t with | .error e => (Except.error e : Res (β × Tape)) | .ok (a, t') => f a t').map Prod.fst = _
    cases m t <;> rfl
  cases r with
  | error e =>
    refine ⟨.error e, fun t => ?_⟩
    rw [step]
    have := hr t
    unfold value at this
    cases hm : m t with
    | error e' => rw [hm] at this; cases this; rfl
    | ok x => rw [hm] at this; cases this
  | ok a =>
    have key : ∀ t, ∃ t', m t = .ok (a, t') := by
      intro t
      have := hr t
      unfold value at this
      cases hm : m t with
      | error e' => rw [hm] at this; cases this
      | ok x => rw [hm] at this; cases this; exact ⟨x.2, rfl⟩
    obtain ⟨t0, h0⟩ := key fun _ => 0
    obtain ⟨q, hq⟩ := hf a _ _ h0
    refine ⟨q, fun t => ?_⟩
    obtain ⟨t', h'⟩ := key t
    rw [step, h']
    exact hq t'

theorem iteration_steady {R : G.S → Prop} (hs : Safe G R) (hd : Shorts G) (hp : ∀ s a, Steady (G.apply s a)) {st : Store G Fl}
    (w : WellFormed st) (hR : AllR R st) {r : Nat} (hr : r < st.length) (player : Int) {l : Nat} (hl : 0 < l) :
    Steady (iteration player l r st) := by
  unfold iteration
  refine (steady_lift _).bind fun i _ _ _ => (steady_lift _).bind fun n t t' hn => ?_
  have h2 : st[i]? = some n := getNode_ok.1 (M.lift_ok.1 hn).1
  cases hw : G.winner n.state with
  | some w => exact (steady_lift _).bind fun _ _ _ _ => steady_pure _
  | none =>
    have he : Steady (expand n st) := by
      unfold expand
      split
      · exact ⟨.error _, fun _ => rfl⟩
      · exact (hp ..).bind fun s _ _ _ => (steady_lift _).bind fun p _ _ _ => (steady_lift _).bind fun _ _ _ _ => steady_pure _
    refine he.bind ?_
    rintro ⟨st', c⟩ t1 t2 h
    refine (steady_lift _).bind fun nn t3 t4 hnn => ?_
    have hne : n.expandable ≠ [] := by
      intro h0
      unfold expand at h
      rw [h0] at h
      cases h
    obtain ⟨st1, c1, t5, h5, h6⟩ := expand_progress hs w hR h2 hne t1
    rw [h] at h5
    cases h5
    have hRn : R nn.state := h6 c nn (getNode_ok.1 (M.lift_ok.1 hnn).1)
    refine Steady.bind ⟨.ok (peek G nn.state player), fun t => ?_⟩ fun v _ _ _ =>
      (steady_lift _).bind fun _ _ _ _ => steady_pure _
    obtain ⟨t', ht⟩ := (simulate_same hs hd hRn player hl).possible t
    exact ht.symm

theorem mctSearch_steady {R : G.S → Prop} (hs : Safe G R) (hd : Shorts G) (hp : ∀ s a, Steady (G.apply s a)) {state : G.S}
    (hR : R state) (player : Int) (iterations : Nat) {l : Nat} (hl : 0 < l) : Steady (mctSearch Fl state player iterations l) := by
  have hit : ∀ (n : Nat) (st : Store G Fl) (tr : List Nat), WellFormed st → AllR R st → 0 < st.length →
      Steady (iterate player l 0 n st tr) := by
    intro n
    induction n with
    | zero => exact fun st tr _ _ _ => steady_pure _
    | succ n ih =>
      intro st tr w hRs hr
      refine (iteration_steady hs hd hp w hRs hr player hl).bind ?_
      rintro ⟨st', k⟩ t t' h
      obtain ⟨w', -, hlen, -⟩ := iteration_spec w hr h
      refine ih st' _ w' ?_ (by omega)
      rcases iteration_progress hs w hRs hr player l t with ⟨st1, k1, t1, h1, h2⟩ | ⟨h1, -⟩
      · rw [h] at h1
        cases h1
        exact h2
      · rw [h] at h1
        cases h1
  unfold mctSearch
  cases G.winner state with
  | some w => exact steady_pure _
  | none =>
    refine Steady.bind ?_ fun p _ _ _ => steady_lift _
    unfold buildTree
    refine (steady_lift _).bind ?_
    rintro ⟨st, r⟩ t t' h
    rw [M.lift_ok, addNode_ok] at h
    obtain ⟨⟨ms, hm, rfl, rfl⟩, -⟩ := h
    refine hit iterations _ [] (wf_root (Fl := Fl) wf_nil hm (Fl.ofInt 0)) ?_ (by simp)
    intro i n hi
    cases i with
    | zero => cases hi; exact hR
    | succ i => cases hi

theorem ttt_shorts (pf : Profile) : Shorts (TTT.game pf) := ⟨fun _ _ => short_lift _, fun _ => short_lift _⟩

/-- C115 for TicTacToe: the move found depends neither on the length of the rollouts, as long as it is positive, nor on
the random numbers. -/
theorem C115_tictactoe (pf : Profile) {s : TTT.State} (hs : s.player = 1 ∨ s.player = -1) (player : Int) (iterations : Nat)
    {l l' : Nat} (hl : 0 < l) (hl' : 0 < l') (t t' : Tape) :
    value (mctSearch (G := TTT.game pf) Fl s player iterations l) t =
      value (mctSearch (G := TTT.game pf) Fl s player iterations l') t' := by
  obtain ⟨r, hr⟩ := mctSearch_steady (Fl := Fl) (ttt_safe pf) (ttt_shorts pf) (fun _ _ => steady_lift _) hs player iterations hl
  obtain ⟨t'', h⟩ := (mctSearch_same (Fl := Fl) (ttt_safe pf) (ttt_shorts pf) hs player iterations hl hl').symm.possible t'
  rw [hr, ← h, hr]

/-- C115, full statement: for some position and seed, the length of the rollouts makes a difference to the move found. -/
def C115_statement : Prop :=
  ∃ (Fl : Floats) (pf : Profile) (s : TTT.State) (player : Int) (iterations l l' : Nat) (t : Tape),
    (s.player = 1 ∨ s.player = -1) ∧ 0 < l ∧ 0 < l' ∧
    value (mctSearch (G := TTT.game pf) Fl s player iterations l) t ≠
      value (mctSearch (G := TTT.game pf) Fl s player iterations l') t

/-- C115 is false. -/
theorem C115_refuted : ¬ C115_statement := fun ⟨_, pf, _, player, n, _, _, t, hs, hl, hl', h⟩ =>
  h (C115_tictactoe pf hs player n hl hl' t t)

/-- A position in which the player to move wins at the second of two free cells, or not. -/
def twoLeft : TTT.State := { player := 1, board := #v[1, 1, 0, -1, -1, 1, 0, -1, -1], id := 0 }

/-- The values of the nodes of a tree of `twoLeft`. -/
def twoValues (limit : Nat) : Option (List Int) :=
  (value (buildTree (G := TTT.game .debug) demoFloats twoLeft 1 2 limit) (fun _ => 0)).toOption.map fun r => r.1.map Node.value

/-- Without rollouts (length 0) the search differs: then a finished position is worth nothing when it is created. -/
example : twoValues 0 ≠ twoValues 1 := by decide +kernel

end DieE.Props.Ro
