import Verif.Mcts.Room
import Verif.Props.Alpha

/-!
# C125: the memory of a search is bounded by its configuration

The nodes of a search are kept until its end, and selection and `backpropagate` are recursive functions, so both the heap
and the stack grow with the tree.  The bounds below only mention the configured number of iterations, the number of
searched games and the size of the move lists.
-/

namespace DieE.Props.Mm
open DieE DieE.Mcts DieE.Props DieE.Props.S DieE.Props.A

variable {G : Game} {Fl : Floats}

/-- A node holds one entry for each legal move: the move itself or the index of the child. -/
theorem entries {st : Store G Fl} (w : WellFormed st) {i : Nat} {n : Node G Fl} (hi : st[i]? = some n) {ms : List G.Mv}
    (hm : G.moves n.state = .ok ms) : n.expandable.length + n.children.length = ms.length := by
  obtain ⟨ms', h1, h2⟩ := w.part i n hi
  rw [hm] at h1
  cases Except.ok.inj h1
  rw [← h2.length_eq, List.length_append]
  congr 1
  unfold childActions
  have : ∀ c ∈ n.children, ∃ a, ((st[c]?).bind fun m => m.action) = some a := by
    intro c hc
    obtain ⟨cn, h3, -⟩ := w.down i n c hi hc
    obtain ⟨a, -, h4, -⟩ := child_legal w hi hc h3
    exact ⟨a, by rw [h3]; exact h4⟩
  generalize n.children = l at this
  induction l with
  | nil => rfl
  | cons c l ih =>
    obtain ⟨a, ha⟩ := this c (List.mem_cons_self ..)
    rw [List.filterMap_cons, ha]
    simp only [List.length_cons]
    rw [ih fun d hd => this d (List.mem_cons_of_mem _ hd)]

/-- `D` levels of recursion suffice for the functions of the plain search on this store. -/
structure Recursion (st : Store G Fl) (D : Nat) : Prop where
  select : ∀ (i : Nat) (n : Node G Fl), st[i]? = some n → n.parent = none → selectLeaf st D i = selectLeafNode i st
  selectAlpha : ∀ (i : Nat) (n : Node G Fl), st[i]? = some n → n.parent = none → alphaLeaf st D i = alphaLeafNode i st
  back : ∀ (r : Fl.F) (k : Nat), k < st.length → backLoop r D k st = backpropagate k r st

theorem recursion {st : Store G Fl} (w : WellFormed st) {D : Nat} (hD : Shallow st D) : Recursion st D :=
  ⟨fun _ _ hi hp => selectLeafNode_depth w hD hi hp, fun _ _ hi hp => alphaLeafNode_depth w hD hi hp,
    fun r _ hk => backpropagate_depth w.upLt hD r hk⟩

/-- C125, plain search: a search with `iterations` iterations stores at most one node more than it has iterations, no node is
further from the root than that, and neither is the depth of the recursions. -/
theorem C125_plain {state : G.S} {player : Int} {iterations limit : Nat} {st : Store G Fl} {tr : List Nat} {t t' : Tape}
    (h : buildTree Fl state player iterations limit t = .ok ((st, tr), t')) :
    st.length ≤ iterations + 1 ∧ Shallow st (iterations + 1) ∧ Recursion st (iterations + 1) := by
  have h1 := buildTree_length h
  obtain ⟨v, -⟩ := buildTree_inv h
  have h2 := (Shallow.of_length v.wf.upLt).mono h1
  exact ⟨h1, h2, recursion v.wf h2⟩

/-- C125, batched search: with at most `W` legal moves in every position that can come up, a search of `n` games stores at
most `n · (1 + W · (iterations + 1))` nodes with at most `W` entries each, and no path is longer than `iterations + 2`. -/
theorem C125_batched {R : G.S → Prop} {W : Nat} (hs : Safe G R) (hW : ∀ s ms, R s → G.moves s = .ok ms → ms.length ≤ W)
    {net : Net Fl} {order : List Nat} {states : List G.S} {iterations : Nat} {st : Store G Fl} {t t' : Tape}
    (hstates : ∀ s ∈ states, R s) (ho : order.Perm (List.range states.length))
    (h : alphaMctsParallel net order states iterations ([] : Store G Fl) t = .ok (st, t')) :
    st.length ≤ states.length * (1 + W * (iterations + 1)) ∧
      (∀ (i : Nat) (n : Node G Fl), st[i]? = some n → n.expandable.length + n.children.length ≤ W) ∧
      Shallow st (iterations + 2) ∧ Recursion st (iterations + 2) := by
  obtain ⟨h1, h2, h3⟩ := alphaMctsParallel_room hs hW hstates h
  have w := (alphaMctsParallel_forest ho h).wf
  refine ⟨h3, fun i n hn => ?_, h2, recursion w h2⟩
  obtain ⟨g1, -, -, ms, g2, -⟩ := h1 i n hn
  rw [entries w hn g2]
  exact hW _ _ g1 g2

/-! ## TicTacToe -/

/-- The number of empty cells. -/
def empties (g : TTT.State) : Nat := (List.range 9).countP fun i => g.cell i = 0

theorem empties_le (g : TTT.State) : empties g ≤ 9 := by
  have := List.countP_le_length (l := List.range 9) (p := fun i => decide (g.cell i = 0))
  rwa [List.length_range] at this

theorem moves_length (g : TTT.State) : (TTT.getValidMoves g).length = empties g := by
  unfold TTT.getValidMoves empties
  rw [List.countP_eq_length_filter]

/-- A legal move fills an empty cell. -/
theorem empties_lt (pf : Profile) {g g' : TTT.State} {a : Nat} (ha : a ∈ TTT.getValidMoves g) (hg : g.player ≠ 0)
    (h : TTT.applyMove pf g a = .ok g') : empties g' < empties g := by
  obtain ⟨h9, h0⟩ := (T.mem_moves g a).1 ha
  unfold TTT.applyMove at h
  rw [dif_pos h9] at h
  obtain ⟨p, -, h⟩ := Res.bind_ok.1 h
  have := Res.pure_ok.1 h
  subst this
  have hcell : ∀ i, i < 9 → ({ g with board := g.board.set a g.player, player := p } : TTT.State).cell i =
      if i = a then g.player else g.cell i := by
    intro i hi
    unfold TTT.State.cell
    simp only [Vector.toList_set]
    rw [List.getD_eq_getElem?_getD, List.getElem?_set, List.getD_eq_getElem?_getD]
    by_cases hia : a = i
    · subst hia
      simp [hi]
    · rw [if_neg hia, if_neg (Ne.symm hia)]
  have hsub : ∀ l : List Nat, l.Nodup → (∀ i ∈ l, i < 9) →
      (l.countP fun i => decide (({ g with board := g.board.set a g.player, player := p } : TTT.State).cell i = 0)) +
        (if a ∈ l then 1 else 0) ≤ l.countP fun i => decide (g.cell i = 0) := by
    intro l hn hl
    induction l with
    | nil => simp
    | cons b l ih =>
      have hb := hl b (List.mem_cons_self ..)
      have := ih (List.nodup_cons.1 hn).2 fun i hi => hl i (List.mem_cons_of_mem _ hi)
      rw [List.countP_cons, List.countP_cons, hcell b hb]
      by_cases hba : b = a
      · subst hba
        rw [if_neg (List.nodup_cons.1 hn).1] at this
        simp [hg, h0]
        omega
      · have e : (a ∈ b :: l) ↔ a ∈ l := by
          rw [List.mem_cons]
          exact ⟨fun h => h.resolve_left (Ne.symm hba), .inr⟩
        rw [if_neg hba]
        simp only [e]
        omega
  have := hsub (List.range 9) List.nodup_range fun i hi => List.mem_range.1 hi
  rw [if_pos (List.mem_range.2 h9)] at this
  unfold empties
  omega

/-- Trees of TicTacToe positions have at most ten levels. -/
theorem ttt_shallow (pf : Profile) {st : Store (TTT.game pf) Fl} (w : WellFormed st)
    (hR : ∀ (i : Nat) (n : Node (TTT.game pf) Fl), st[i]? = some n → (n.state : TTT.State).player ≠ 0) : Shallow st 10 := by
  have key : ∀ (i d : Nat), Depth st d i → ∀ n : Node (TTT.game pf) Fl, st[i]? = some n → empties n.state + d ≤ 10 := by
    intro i d hd
    induction hd with
    | root h1 h2 =>
      intro n hn
      have := empties_le n.state
      omega
    | step h1 h2 h3 ih =>
      intro n hn
      rw [h1] at hn
      cases Option.some.inj hn
      obtain ⟨-, pn, a, h4, h5, -⟩ := w.up _ _ _ h1 h2
      obtain ⟨b, ms, -, h6, h7, u, u', h8⟩ := child_legal w h4 h5 h1
      have h6 : (Except.ok (TTT.getValidMoves pn.state) : Res (List Nat)) = .ok ms := h6
      cases Except.ok.inj h6
      have h9 := empties_lt pf h7 (hR _ _ h4) (M.lift_ok.1 (show M.lift (TTT.applyMove pf pn.state b) u = .ok (_, u') from h8)).1
      have := ih pn h4
      omega
  intro i hi
  obtain ⟨d, -, h1⟩ := depth_exists w.upLt i hi
  obtain ⟨n, hn⟩ : ∃ n, st[i]? = some n := ⟨_, List.getElem?_eq_getElem hi⟩
  have := key i d h1 n hn
  exact ⟨d, by omega, h1⟩

/-- C125, TicTacToe, plain search: the depth of the recursions does not even depend on the number of iterations. -/
theorem C125_tictactoe_plain (pf : Profile) {state : TTT.State} (hp : state.player = 1 ∨ state.player = -1) {player : Int}
    {iterations limit : Nat} {st : Store (TTT.game pf) Fl} {tr : List Nat} {t t' : Tape}
    (h : buildTree (G := TTT.game pf) Fl state player iterations limit t = .ok ((st, tr), t')) :
    st.length ≤ iterations + 1 ∧ (∀ (i : Nat) (n : Node (TTT.game pf) Fl), st[i]? = some n →
      n.expandable.length + n.children.length ≤ 9) ∧ Shallow st 10 ∧ Recursion st 10 := by
  obtain ⟨v, -, rn, h1, h2, -⟩ := buildTree_inv h
  have hall : ∀ i, i < st.length → ∀ n : Node (TTT.game pf) Fl, st[i]? = some n →
      (n.state : TTT.State).player = 1 ∨ (n.state : TTT.State).player = -1 := by
    intro i
    induction i using Nat.strong_induction_on with
    | _ i ih =>
      intro hi n hn
      cases hpar : n.parent with
      | none =>
        have h0 := v.conn i hi
        cases h0 with
        | refl =>
          rw [hn] at h1
          cases Option.some.inj h1
          rw [h2]
          exact hp
        | step h3 h4 _ =>
          rw [hn] at h3
          cases Option.some.inj h3
          rw [hpar] at h4
          cases h4
      | some p =>
        obtain ⟨h3, pn, a, h4, h5, -⟩ := v.wf.up i n p hn hpar
        obtain ⟨b, ms, -, h6, h7, h8⟩ := child_legal v.wf h4 h5 hn
        exact (ttt_safe pf).closed _ _ _ _ (ih p h3 (by omega) pn h4) h6 h7 h8
  have hs := ttt_shallow pf v.wf fun i n hn => by
    rcases hall i (List.getElem?_eq_some_iff.1 hn).1 n hn with h | h <;> rw [h] <;> decide
  refine ⟨buildTree_length h, fun i n hn => ?_, hs, recursion v.wf hs⟩
  rw [entries v.wf hn (ms := TTT.getValidMoves n.state) rfl]
  exact (moves_length n.state).le.trans (empties_le _)

theorem ttt_width (pf : Profile) : ∀ (s : (TTT.game pf).S) (ms : List (TTT.game pf).Mv),
    ((s : TTT.State).player = 1 ∨ (s : TTT.State).player = -1) → (TTT.game pf).moves s = .ok ms → ms.length ≤ 9 := by
  intro s ms _ hm
  have hm : (Except.ok (TTT.getValidMoves s) : Res (List Nat)) = .ok ms := hm
  cases Except.ok.inj hm
  exact (moves_length s).le.trans (empties_le _)

/-- C125, TicTacToe, batched search. -/
theorem C125_tictactoe (pf : Profile) {net : Net Fl} {order : List Nat} {states : List TTT.State} {iterations : Nat}
    {st : Store (TTT.game pf) Fl} {t t' : Tape} (hstates : ∀ s ∈ states, s.player = 1 ∨ s.player = -1)
    (ho : order.Perm (List.range states.length))
    (h : alphaMctsParallel (G := TTT.game pf) net order states iterations [] t = .ok (st, t')) :
    st.length ≤ states.length * (1 + 9 * (iterations + 1)) ∧ Shallow st 10 ∧ Recursion st 10 := by
  obtain ⟨h1, -⟩ := C125_batched (ttt_safe pf) (ttt_width pf) hstates ho h
  obtain ⟨h2, -⟩ := alphaMctsParallel_room (ttt_safe pf) (ttt_width pf) hstates h
  have w := (alphaMctsParallel_forest ho h).wf
  have hs := ttt_shallow pf w fun i n hn => by
    rcases (h2 i n hn).1 with h | h <;> rw [h] <;> decide
  exact ⟨h1, hs, recursion w hs⟩

/-! ## Backgammon -/

/-- There are at most 1351 plays: their codes are different and below 1351. -/
theorem plays_length (pf : Profile) {s : BG.State} {ms : List BG.Actions} (hs : Spec.StateOK s)
    (hm : BG.getValidMoves pf s = .ok ms) : ms.length ≤ 1351 := by
  have hnd := C21_nodup pf hs hm
  have hn : (ms.map fun m => (match BG.Trait.encode pf s m with | .ok n => n.toNat | .error _ => 0 : Nat)).Nodup := by
    rw [List.Nodup, List.pairwise_map]
    rw [List.Nodup, List.pairwise_map] at hnd
    refine hnd.imp_of_mem ?_
    intro a b ha hb hab he
    obtain ⟨n, h1, h2, -⟩ := C19_code_range pf hs hm ha
    obtain ⟨n', h3, h4, -⟩ := C19_code_range pf hs hm hb
    rw [h1, h3] at hab he
    exact hab (by rw [show n = n' by simp only at he; omega])
  have := T.nodup_length (n := 1351) hn (fun k hk => by
    obtain ⟨m, hm', rfl⟩ := List.mem_map.1 hk
    obtain ⟨n, h1, h2, h3, h4⟩ := C19_code_range pf hs hm hm'
    rw [h1]
    simp only
    omega)
  rwa [List.length_map] at this

theorem bg_width (pf : Profile) : ∀ (s : (BG.game pf).S) (ms : List (BG.game pf).Mv),
    Spec.StateOK (s : BG.State) → (BG.game pf).moves s = .ok ms → ms.length ≤ 1351 :=
  fun _ _ hs hm => plays_length pf hs hm

/-- C125, Backgammon, batched search. -/
theorem C125_backgammon (pf : Profile) {net : Net Fl} {order : List Nat} {states : List BG.State} {iterations : Nat}
    {st : Store (BG.game pf) Fl} {t t' : Tape} (hstates : ∀ s ∈ states, Spec.StateOK s)
    (ho : order.Perm (List.range states.length))
    (h : alphaMctsParallel (G := BG.game pf) net order states iterations [] t = .ok (st, t')) :
    st.length ≤ states.length * (1 + 1351 * (iterations + 1)) ∧
      (∀ (i : Nat) (n : Node (BG.game pf) Fl), st[i]? = some n → n.expandable.length + n.children.length ≤ 1351) ∧
      Shallow st (iterations + 2) ∧ Recursion st (iterations + 2) :=
  C125_batched (bg_safe pf) (bg_width pf) hstates ho h

/-! ## Examples -/

/-- The bound of the plain search is reached: five iterations store six nodes. -/
example : ((buildTree (G := TTT.game .debug) demoFloats TTT.new 1 5 9 demoTape).toOption.map fun r => r.1.1.length) = some 6 := by
  decide +kernel

/-- The bound of the batched search is reached in the first iteration, but for the cells that are already filled: the root,
its nine children and the eight children of one of them. -/
example : (demoRun [0] [TTT.new] 1).toOption.map (fun r => r.1.length) = some 18 := by decide +kernel

example : ∀ s ∈ demoBatch, s.player = 1 ∨ s.player = -1 := by decide

end DieE.Props.Mm
