import Verif.Mcts.Even
import Verif.Props.Blunder
import Verif.Props.Single32
import Verif.Props.FrozenDice
import Verif.Props.Length
import Verif.Props.Rules
import Verif.Props.TicTacToe

/-!
# C129: without a final position in sight the search plays the first legal move

A rollout from an unfinished position reports 0 (C115), so as long as no position of the tree is final all scores depend on
the visits only.  The children then take turns, and the move returned is determined by the order in which the moves are
generated, the order in which they are expanded and the way `max_by` treats equal elements.
-/

namespace DieE.Props.Fi
open DieE DieE.Mcts DieE.Props.S DieE.Props.Wn
variable {G : Game} {Fl : Floats} {B : Nat}

/-- C129: if all positions of the tree are unfinished, the search with `N` iterations returns the `N`-th legal move from
the end, and with at least as many iterations as legal moves the first one. -/
theorem C129 (hE : Explores Fl B) (hB : B ≤ 16777216) {state : G.S} {player : Int} {N limit : Nat} {ms : List G.Mv} {mv : G.Mv}
    {t t' : Tape} (hw : G.winner state = none) (hm : G.moves state = .ok ms) (hms : ms ≠ []) (h0 : 0 < N) (hN : N ≤ B)
    (ho : ∀ st tr t1, buildTree Fl state player N limit t = .ok ((st, tr), t1) → ∀ n ∈ st, G.winner n.state = none)
    (h : mctSearch Fl state player N limit t = .ok (mv, t')) :
    ms[ms.length - min N ms.length]? = some mv ∧ (ms.length ≤ N → ms.head? = some mv) := by
  unfold mctSearch at h
  rw [hw] at h
  obtain ⟨⟨st, tr⟩, t1, h1, h2⟩ := M.bind_ok.1 h
  rw [M.lift_ok] at h2
  have hop : Open st := fun i n hi => ho st tr t1 h1 n (List.mem_of_getElem? hi)
  have e := buildTree_even hE hB hw hN h1 hop
  obtain ⟨r, hlen, rn, hr, hs, hp⟩ := buildTree_inv h1
  have hv := root_visits r (by omega) hr
  obtain ⟨T, hT⟩ := e.turns 0 rn hr
  have hTN : T = N := by
    have := hT.visits
    rw [hp, hv, hlen] at this
    simpa using this.symm
  subst hTN
  obtain ⟨a, h3, h4⟩ := e.found hr hT (hs ▸ hm) h0 hms
  rw [h4] at h2
  cases Except.ok.inj h2.1
  refine ⟨h3, fun hle => ?_⟩
  rw [Nat.min_eq_right hle, Nat.sub_self] at h3
  rw [List.head?_eq_getElem?, h3]

/-! ## No final position within reach -/

/-- Positions reached from `s` by `n` legal moves. -/
inductive After (G : Game) (s : G.S) : Nat → G.S → Prop
  | refl : After G s 0 s
  | step {n : Nat} {s1 s2 : G.S} {a : G.Mv} {ms : List G.Mv} : After G s n s1 → G.moves s1 = .ok ms → a ∈ ms → Plays G s1 a s2 →
      After G s (n + 1) s2

/-! ## The depth of the tree -/

/-- No final position is in the tree below `s` when its moves have been tried `T` times in turn: each of the `k` moves gets
at most the `k`-th part, the first time for the move itself. -/
inductive Quiet (G : Game) : Nat → G.S → Prop
  | mk {T : Nat} {s : G.S} : G.winner s = none →
      (∀ ms a s', G.moves s = .ok ms → a ∈ ms → Plays G s a s' → G.winner s' = none) →
      (∀ ms a s', G.moves s = .ok ms → a ∈ ms → Plays G s a s' → ms.length ≤ T → Quiet G (T / ms.length - 1) s') → Quiet G T s

theorem Quiet.mono {T T' : Nat} {s : G.S} (h : Quiet G T s) (hT : T' ≤ T) : Quiet G T' s := by
  induction h generalizing T' with
  | mk h1 h2 h3 ih =>
    refine .mk h1 h2 fun ms a s' hm ha hp hl => ih ms a s' hm ha hp (Nat.le_trans hl hT) ?_
    have := Nat.div_le_div_right (c := ms.length) hT
    omega

/-- If no final position is within reach of `T + 1` moves, none is in the tree. -/
theorem Quiet.of_after {T : Nat} {s : G.S} (h : ∀ d s', d ≤ T + 1 → After G s d s' → G.winner s' = none) : Quiet G T s := by
  have shift : ∀ {s a s' ms}, G.moves s = .ok ms → a ∈ ms → Plays G s a s' → ∀ d s'', After G s' d s'' → After G s (d + 1) s'' := by
    intro s a s' ms hm ha hp d s'' h
    induction h with
    | refl => exact .step .refl hm ha hp
    | step _ h1 h2 h3 ih => exact .step ih h1 h2 h3
  induction T using Nat.strong_induction_on generalizing s with
  | _ T ih =>
    refine .mk (h 0 s (by omega) .refl) (fun ms a s' hm ha hp => h 1 s' (by omega) (.step .refl hm ha hp)) fun ms a s' hm ha hp hl => ?_
    have hpos : 0 < ms.length := List.length_pos_of_mem ha
    have hle : T / ms.length ≤ T := Nat.div_le_self _ _
    exact ih _ (by omega) fun d s'' hd hs => h (d + 1) s'' (by omega) (shift hm ha hp d s'' hs)

/-- The nodes on the path of the next iteration. -/
theorem path_quiet (hE : Explores Fl B) {st : Store G Fl} (e : Even st) {rn : Node G Fl} (hr : st[0]? = some rn) (hp : rn.parent = none)
    (hq : Quiet G rn.visits rn.state)
    (hB : ∀ (i : Nat) (n : Node G Fl), st[i]? = some n → n.visits < B) {i : Nat} (hi : selectLeafNode 0 st = .ok i) {x : Nat} (h0 : Anc st 0 x)
    (hxi : Anc st x i) {n : Node G Fl} (hx : st[x]? = some n) {T : Nat} (hT : Turns st n T) : Quiet G T n.state := by
  induction h0 generalizing n T with
  | refl =>
    rw [hr] at hx
    cases Option.some.inj hx
    have hTv := hT.visits
    rw [hp, if_pos rfl, Nat.add_zero] at hTv
    rw [← hTv]
    exact hq
  | @step x q xn g1 g2 g3 ih =>
    obtain rfl : xn = n := Option.some.inj (g1.symm.trans hx)
    obtain ⟨-, qn, a, k1, k2, -, -⟩ := e.wf.up x xn q g1 g2
    have hqi : Anc st q i := Anc.trans (.step g1 g2 .refl) hxi
    obtain ⟨a, ms', u1, u2, u3, u4⟩ := child_legal e.wf k1 k2 g1
    obtain ⟨S, hS⟩ := e.turns q qn k1
    obtain ⟨w1, w2⟩ := Even.path hE e hi k1 hqi k2 g1 hxi hS (hB q qn k1) u2
    have hTv := hT.visits
    rw [if_neg (by rw [g2]; simp)] at hTv
    cases ih hqi k1 hS with
    | mk _ _ h3 =>
      have := h3 ms' a xn.state u2 u3 u4 w1
      rwa [show S / ms'.length - 1 = T by omega] at this

theorem step_quiet (hE : Explores Fl B) {player : Int} {limit : Nat} {st st' : Store G Fl} {tr : List Nat} {k : Nat}
    {t t' : Tape} (e : Even st) {rn : Node G Fl} (hr : st[0]? = some rn) (hp : rn.parent = none)
    (hq : Quiet G tr.length rn.state) (hNB : tr.length < B)
    (hv : ∀ (i : Nat) (n : Node G Fl), st[i]? = some n → n.visits ≤ tr.length)
    (h : iteration player limit 0 st t = .ok ((st', k), t')) : Open st' := by
  obtain ⟨i, n, a, next, ms', v, h1, h2, h3, h4, h5, h6, h7, h8, h9, h10, h11⟩ := iteration_grows e.wf e.opn e.root h
  have ha : ∃ ms, G.moves n.state = .ok ms ∧ a ∈ ms := by
    refine ⟨_, e.order i n h2, List.mem_append_left _ ?_⟩
    rw [h5]
    exact List.mem_append_right _ (List.mem_singleton.2 rfl)
  obtain ⟨ns, ha1, ha2⟩ := ha
  obtain ⟨T, hT⟩ := e.turns i n h2
  have hnext : G.winner next = none := by
    cases path_quiet hE e hr hp (hq.mono (hv 0 rn hr)) (fun i n hi => Nat.lt_of_le_of_lt (hv i n hi) hNB) h1 h3 .refl h2 hT with
    | mk _ k2 _ => exact k2 ns a next ha1 ha2 h6
  intro j m hj
  by_cases hjl : j < st.length
  · obtain ⟨m0, hm0⟩ : ∃ m0, st[j]? = some m0 := ⟨_, List.getElem?_eq_getElem hjl⟩
    obtain ⟨m', q1, -, q2⟩ := (iteration_spec e.wf e.root h).2.1 j m0 hm0
    rw [hj] at q1
    cases Option.some.inj q1
    rw [q2]
    exact e.opn j m0 hm0
  · have := (List.getElem?_eq_some_iff.1 hj).1
    obtain rfl : j = st.length := by omega
    rw [h10] at hj
    cases Option.some.inj hj
    exact hnext

theorem iterate_quiet (hE : Explores Fl B) (hB : B ≤ 16777216) {player : Int} {limit : Nat} (n : Nat) {st st' : Store G Fl}
    {tr tr' : List Nat} {t t' : Tape} (e : Even st) (r : RunInv 0 st tr) {rn : Node G Fl} (hr : st[0]? = some rn) (hp : rn.parent = none)
    {N : Nat} (hN : tr.length + n ≤ N) (hNB : N ≤ B) (hq : Quiet G (N - 1) rn.state)
    (hv : ∀ (i : Nat) (n : Node G Fl), st[i]? = some n → n.visits ≤ tr.length)
    (h : iterate player limit 0 n st tr t = .ok ((st', tr'), t')) : Open st' := by
  induction n generalizing st tr t rn with
  | zero =>
    have := M.pure_ok.1 h
    simp only [Prod.mk.injEq] at this
    obtain ⟨⟨rfl, rfl⟩, -⟩ := this
    exact e.opn
  | succ n ih =>
    obtain ⟨⟨st1, k⟩, t1, h1, h2⟩ := M.bind_ok.1 h
    have ho := step_quiet (tr := tr) hE e hr hp (hq.mono (by omega)) (by omega) hv h1
    obtain ⟨e1, hv1⟩ := e.step hE hB hv (by omega) h1 ho
    obtain ⟨rn', q1, q2, q3⟩ := (iteration_spec e.wf e.root h1).2.1 0 rn hr
    have hlen : (tr ++ [k]).length = tr.length + 1 := by simp
    exact ih (tr := tr ++ [k]) e1 (r.step h1) q1 (q2.trans hp) (by omega) (q3 ▸ hq) (by rw [hlen]; exact hv1) h2

/-- C129: if the tree that `N` iterations can build has no final position, the search returns the `N`-th move from the end,
or the first one. -/
theorem C129_quiet (hE : Explores Fl B) (hB : B ≤ 16777216) {state : G.S} {player : Int} {N limit : Nat} {ms : List G.Mv} {mv : G.Mv}
    {t t' : Tape} (hm : G.moves state = .ok ms) (hms : ms ≠ []) (h0 : 0 < N) (hN : N ≤ B) (hq : Quiet G (N - 1) state)
    (h : mctSearch Fl state player N limit t = .ok (mv, t')) :
    ms[ms.length - min N ms.length]? = some mv ∧ (ms.length ≤ N → ms.head? = some mv) := by
  have hw : G.winner state = none := by cases hq; assumption
  refine C129 hE hB hw hm hms h0 hN (fun st tr t1 h1 n hn => ?_) h
  obtain ⟨i, hi⟩ := List.mem_iff_getElem?.1 hn
  obtain ⟨ms', hm', h2, r⟩ := buildTree_begin h1
  refine iterate_quiet hE hB N (Even.start hw hm') r rfl rfl (N := N) (by simp) hN hq ?_ h2 i n hi
  intro j m hj
  cases j with
  | zero => cases hj; exact Nat.le_refl _
  | succ j => cases hj

/-- C129: with `k` legal moves and `N` iterations the tree has depth at most `(N - 1) / k + 1`.  If no final position can
be reached by so many moves, the search returns the `N`-th move from the end, or the first one. -/
theorem C129_far (hE : Explores Fl B) (hB : B ≤ 16777216) {state : G.S} {player : Int} {N limit : Nat} {ms : List G.Mv} {mv : G.Mv}
    {t t' : Tape} (hm : G.moves state = .ok ms) (hms : ms ≠ []) (h0 : 0 < N) (hN : N ≤ B)
    (hfar : ∀ d s, d ≤ (N - 1) / ms.length + 1 → After G state d s → G.winner s = none)
    (h : mctSearch Fl state player N limit t = .ok (mv, t')) :
    ms[ms.length - min N ms.length]? = some mv ∧ (ms.length ≤ N → ms.head? = some mv) := by
  have shift : ∀ {s a s' ms}, G.moves s = .ok ms → a ∈ ms → Plays G s a s' → ∀ d s'', After G s' d s'' → After G s (d + 1) s'' := by
    intro s a s' ms hm ha hp d s'' h
    induction h with
    | refl => exact .step .refl hm ha hp
    | step _ h1 h2 h3 ih => exact .step ih h1 h2 h3
  refine C129_quiet hE hB hm hms h0 hN (.mk (hfar 0 state (Nat.zero_le _) .refl)
    (fun ms' a s' hm' ha hp => hfar 1 s' (Nat.le_add_left _ _) (.step .refl hm' ha hp)) fun ms' a s' hm' ha hp hl => ?_) h
  cases Except.ok.inj (hm'.symm.trans hm)
  have hpos : 0 < ms.length := List.length_pos_of_mem ha
  have : 1 ≤ (N - 1) / ms.length := (Nat.one_le_div_iff hpos).2 hl
  exact Quiet.of_after fun d s'' hd hs => hfar (d + 1) s'' (by omega) (shift hm' ha hp d s'' hs)

/-! ## Backgammon -/

open BG Spec in
/-- Positions after `d` moves of a position far from the end. -/
theorem after_far (pf : Profile) {g : BG.State} (hg : StateOK g) {d : Nat} {s : (BG.game pf).S} (h : After (BG.game pf) g d s) :
    StateOK s ∧ ∀ (n : Int) u, Gl.Far (n + d) g u → Gl.Far n s u := by
  induction h with
  | refl => exact ⟨hg, fun n u h => by simpa using h⟩
  | @step d s1 s2 a ms _ hm ha hp ih =>
    obtain ⟨h1, h2⟩ := ih
    refine ⟨(bg_safe pf).closed s1 ms a s2 h1 hm ha hp, fun n u h => ?_⟩
    refine Gl.Far.step (h2 (n + 1) u ?_) h1 (Gl.plays_step pf hm ha hp)
    rw [show n + 1 + (d : Int) = n + ((d + 1 : Nat) : Int) by push_cast; omega]
    exact h

open BG Spec in
/-- C129 for Backgammon: if both players are too far from the end (C140) to win within `(N - 1) / k + 1` half-turns, where `k`
is the number of legal moves, the search returns the `N`-th move from the end, or the first one. -/
theorem C129_backgammon (hE : Explores Fl B) (hB : B ≤ 16777216) {pf : Profile} {g : BG.State} (hg : StateOK g) {ms : List BG.Actions}
    (hm : BG.getValidMoves pf g = .ok ms) (hms : ms ≠ []) {N : Nat} (h0 : 0 < N) (hN : N ≤ B)
    (hfar : ∀ u, Gl.Far ((N - 1) / ms.length + 1 : Nat) g u) {player : Int} {limit : Nat} {mv : BG.Actions} {t t' : Tape}
    (h : mctSearch (G := BG.game pf) Fl g player N limit t = .ok (mv, t')) :
    ms[ms.length - min N ms.length]? = some mv ∧ (ms.length ≤ N → ms.head? = some mv) := by
  refine C129_far (G := BG.game pf) hE hB (state := g) hm hms h0 hN (fun d s hd hs => ?_) h
  obtain ⟨h1, h2⟩ := after_far pf hg hs
  have hd' : (d : Int) ≤ (((N - 1) / ms.length + 1 : Nat) : Int) := by exact_mod_cast hd
  refine Gl.Far.open (n := (((N - 1) / ms.length + 1 : Nat) : Int) - d) (by omega) h1 fun u => h2 _ u ?_
  rw [show (((N - 1) / ms.length + 1 : Nat) : Int) - d + d = (((N - 1) / ms.length + 1 : Nat) : Int) by omega]
  exact hfar u

open BG Spec in
theorem dedup_take (u : Side) (b : BG.Board) (l : List BG.Actions) (n : Nat) (seen : List BG.Board) :
    (pureDedup u b (l.take n) seen).length ≤ (pureDedup u b l seen).length ∧ (pureDedup u b l seen).length ≤ l.length := by
  induction l generalizing n seen with
  | nil => simp [pureDedup]
  | cons q l ih =>
    have h1 := fun seen => (ih 0 seen).2
    cases n with
    | zero =>
      simp only [List.take_zero, pureDedup]
      split
      · have := h1 seen; simp; omega
      · have := h1 (run u b q :: seen); simp; omega
    | succ n =>
      simp only [List.take_succ_cons, pureDedup]
      split
      · have := ih n seen; simp; omega
      · have := ih n (run u b q :: seen); simp; omega

open BG Spec in
/-- The check behind `opening_moves`. -/
def openingCheck (u : Side) (a b : Int) : Bool :=
  let l := extractSequencesList (pureTrees u 2 [a, b] initialBoard)
  decide (l.length ≤ 100) && decide (5 ≤ (pureDedup u initialBoard (l.take 6) []).length)

theorem opening_checked : ∀ u ∈ [Spec.Side.neg, .pos], ∀ a ∈ [(1 : Int), 2, 3, 4, 5, 6], ∀ b ∈ [(1 : Int), 2, 3, 4, 5, 6],
    b ≤ a → ¬ (a = 5 ∧ b = 5) → openingCheck u a b = true := by
  decide +kernel

open BG Spec in
/-- At the beginning every roll except the double five allows between 5 and 100 moves. -/
theorem opening_moves (pf : Profile) {g : BG.State} (hg : StateOK g) (hb : g.board = initialBoard) (h5 : g.roll ≠ (5, 5))
    {ms : List BG.Actions} (hm : BG.getValidMoves pf g = .ok ms) : 5 ≤ ms.length ∧ ms.length ≤ 100 := by
  have e : ms = pureMoves (mover g) g.board (allMoves g.roll) := Except.ok.inj (hm.symm.trans (validMoves_eq pf hg))
  have die : ∀ x : Int, 1 ≤ x ∧ x ≤ 6 → x ∈ [(1 : Int), 2, 3, 4, 5, 6] := by
    intro x hx
    simp only [List.mem_cons, List.not_mem_nil, or_false]
    omega
  have hu : mover g ∈ [Side.neg, .pos] := by cases mover g <;> simp
  have h5' : ¬ (g.roll.1 = 5 ∧ g.roll.2 = 5) := fun h => h5 (Prod.ext h.1 h.2)
  have hall : ∃ a b, allMoves g.roll = [a, b] ∧ openingCheck (mover g) a b = true := by
    unfold allMoves
    split
    · exact ⟨_, _, rfl, opening_checked _ hu _ (die _ hg.die1) _ (die _ hg.die2) (by omega) h5'⟩
    · exact ⟨_, _, rfl, opening_checked _ hu _ (die _ hg.die2) _ (die _ hg.die1) (by omega) (fun h => h5' ⟨h.2, h.1⟩)⟩
  obtain ⟨a, b, h1, h2⟩ := hall
  rw [e, h1, hb]
  unfold pureMoves
  unfold openingCheck at h2
  rw [Bool.and_eq_true, decide_eq_true_eq, decide_eq_true_eq] at h2
  have h3 := dedup_take (mover g) initialBoard (extractSequencesList (pureTrees (mover g) 2 [a, b] initialBoard)) 6 []
  show 5 ≤ (pureDedup (mover g) initialBoard (extractSequencesList (pureTrees (mover g) 2 [a, b] initialBoard)) []).length ∧ _ ≤ 100
  exact ⟨Nat.le_trans h2.2 h3.1, Nat.le_trans h3.2 h2.1⟩

/-- The check behind `opening_fives`. -/
theorem fives_checked : ∀ u ∈ [Spec.Side.neg, .pos],
    ((BG.pureMoves u BG.initialBoard [5, 5]).map fun q => decide (2 ≤ (BG.pureMoves u (BG.run u BG.initialBoard q) [5, 5]).length)) =
      [true, true, true] := by
  decide +kernel

open BG Spec in
/-- At the beginning a double five allows three moves, and after each of them at least two. -/
theorem opening_fives (pf : Profile) {g : BG.State} (hg : StateOK g) (hb : g.board = initialBoard) (h5 : g.roll = (5, 5)) (h2 : g.second = false)
    {ms : List BG.Actions} (hm : BG.getValidMoves pf g = .ok ms) :
    ms.length = 3 ∧ ∀ a ∈ ms, ∀ s', Plays (BG.game pf) g a s' → ∀ ms', BG.getValidMoves pf s' = .ok ms' → 2 ≤ ms'.length := by
  have e : ms = pureMoves (mover g) g.board (allMoves g.roll) := Except.ok.inj (hm.symm.trans (validMoves_eq pf hg))
  have e5 : allMoves g.roll = [5, 5] := by rw [h5]; rfl
  have hu : mover g ∈ [Side.neg, .pos] := by cases mover g <;> simp
  have hc := fives_checked (mover g) hu
  rw [e5, hb] at e
  rw [← e] at hc
  refine ⟨by simpa using congrArg List.length hc, fun a ha s' hp ms' hm' => ?_⟩
  have h3 : decide (2 ≤ (pureMoves (mover g) (run (mover g) initialBoard a) [5, 5]).length) = true := by
    have := List.mem_map_of_mem (f := fun q => decide (2 ≤ (pureMoves (mover g) (run (mover g) initialBoard q) [5, 5]).length)) ha
    rw [hc] at this
    simpa using this
  have hok := (bg_safe pf).closed g ms a s' hg hm ha hp
  obtain ⟨s0, h4, h5'⟩ := Fz.bg_plays hp
  rcases h5' with ⟨-, -, rfl⟩ | ⟨hne, -⟩
  · have h6 := applyMove_eq pf hg hm ha (1, 1)
    rw [h4] at h6
    have hcond : g.roll.1 = g.roll.2 ∧ g.second = false := by rw [h5]; exact ⟨rfl, h2⟩
    rw [if_pos hcond] at h6
    have h7 := Except.ok.inj h6
    have e' : ms' = pureMoves (mover s') (BG.State.board s') (allMoves (BG.State.roll s')) := Except.ok.inj (hm'.symm.trans (validMoves_eq pf hok))
    rw [e', h7]
    show 2 ≤ (pureMoves (mover g) (run (mover g) g.board a) (allMoves g.roll)).length
    rw [e5, hb]
    exact of_decide_eq_true h3
  · rw [h5] at hne
    exact absurd ⟨rfl, h2⟩ hne

open BG Spec in
/-- C129 in the opening of Backgammon, with the 100 iterations of the configuration: with every roll the move returned is the
first one of the list, whichever side is to move and whatever the random numbers are. -/
theorem C129_backgammon_opening (hE : Explores Fl B) (hB : B ≤ 16777216) (h100 : 100 ≤ B) {pf : Profile} {g : BG.State} (hg : StateOK g)
    (hb : g.board = initialBoard) (h2 : g.second = false) {ms : List BG.Actions} (hm : BG.getValidMoves pf g = .ok ms)
    {player : Int} {limit : Nat} {mv : BG.Actions} {t t' : Tape} (h : mctSearch (G := BG.game pf) Fl g player 100 limit t = .ok (mv, t')) :
    ms.head? = some mv := by
  have hq : ∀ u, Gl.quarters (view g.board) u = 34 := by
    intro u
    rw [hb]
    cases u
    · decide +kernel
    · decide +kernel
  by_cases h5 : g.roll = (5, 5)
  · obtain ⟨hlen, hmore⟩ := opening_fives pf hg hb h5 h2 hm
    refine (C129_quiet (G := BG.game pf) hE hB (state := g) hm (by rintro rfl; simp at hlen) (by decide) h100 ?_ h).2 (by show ms.length ≤ 100; omega)
    have far : ∀ d s, d ≤ 24 → After (BG.game pf) g d s → (BG.game pf).winner s = none := by
      intro d s hd hs
      obtain ⟨k1, k2⟩ := after_far pf hg hs
      refine Gl.Far.open (n := 24 - (d : Int)) (by omega) k1 fun u => k2 _ u (.inr ?_)
      have := (Gl.ahead_range u g).1
      rw [hq u]
      omega
    refine .mk (far 0 g (by omega) .refl) (fun ms' a s' hm' ha hp => far 1 s' (by omega) (.step .refl hm' ha hp)) fun ms' a s' hm' ha hp _ => ?_
    cases Except.ok.inj (hm'.symm.trans hm)
    show Quiet (BG.game pf) ((100 - 1) / List.length (α := BG.Actions) ms - 1) s'
    rw [hlen]
    refine .mk (far 1 s' (by omega) (.step .refl hm ha hp)) (fun ms' b s'' hm' hb hp' => far 2 s'' (by omega) (.step (.step .refl hm ha hp) hm' hb hp'))
      fun ms' b s'' hm' hb' hp' _ => ?_
    have hlen' := hmore a ha s' hp ms' hm'
    have : (100 - 1) / 3 - 1 = 32 := rfl
    rw [this]
    have hdiv : 32 / ms'.length ≤ 32 / 2 := Nat.div_le_div_left hlen' (by decide)
    refine Quiet.of_after fun d s3 hd hs => ?_
    have shift : ∀ d s3, After (BG.game pf) s'' d s3 → After (BG.game pf) g (d + 2) s3 := by
      intro d s3 h
      induction h with
      | refl => exact .step (.step .refl hm ha hp) hm' hb' hp'
      | step _ h1 h2 h3 ih => exact .step ih h1 h2 h3
    exact far (d + 2) s3 (by omega) (shift d s3 hs)
  · obtain ⟨hlo, hhi⟩ := opening_moves pf hg hb h5 hm
    refine (C129_backgammon hE hB hg hm (by rintro rfl; simp at hlo) (by decide) h100 (fun u => .inr ?_) h).2 hhi
    have hdiv : (100 - 1) / ms.length ≤ 99 / 5 := Nat.div_le_div_left hlo (by decide)
    rw [hq u]
    have : (99 / 5 : Nat) = 19 := rfl
    have := (Gl.ahead_range u g).1
    omega

/-! ## TicTacToe -/

/-- With less than five marks no TicTacToe game is finished. -/
theorem early {pf : Profile} {p : Int} {l : List Nat} {g : TTT.State} (h : T.Hist pf p l g) (hl : l.length ≤ 4) : TTT.checkWinner g = none := by
  obtain ⟨hp, -, h2, h3, h4, h5⟩ := T.C26_consistent pf h
  have hne : TTT.combos.findSome? (TTT.comboWinner g) = none := by
    rw [List.findSome?_eq_none_iff]
    intro c hc
    unfold TTT.comboWinner
    refine if_neg ?_
    rintro ⟨n0, n1, n2⟩
    have at' : ∀ i, g.cell i = g.cell c.1 → ∃ (k : Nat) (hk : k < l.length), l[k] = i ∧ (if k % 2 = 0 then p else -p) = g.cell c.1 := by
      intro i hi
      have hm : i ∈ l := by
        by_contra hm
        exact n0 (hi.symm.trans (h5 i hm))
      obtain ⟨k, hk, e⟩ := List.mem_iff_getElem.1 hm
      refine ⟨k, hk, e, ?_⟩
      rw [← hi, ← e, h4 k hk]
    obtain ⟨k1, b1, c1, d1⟩ := at' c.1 rfl
    obtain ⟨k2, b2, c2, d2⟩ := at' c.2.1 n1.symm
    obtain ⟨k3, b3, c3, d3⟩ := at' c.2.2 (n1.trans n2).symm
    have hd : ∀ c ∈ TTT.combos, c.1 ≠ c.2.1 ∧ c.2.1 ≠ c.2.2 ∧ c.1 ≠ c.2.2 := by decide
    obtain ⟨e1, e2, e3⟩ := hd c hc
    have f1 : k1 ≠ k2 := by rintro rfl; exact e1 (c1.symm.trans c2)
    have f2 : k2 ≠ k3 := by rintro rfl; exact e2 (c2.symm.trans c3)
    have f3 : k1 ≠ k3 := by rintro rfl; exact e3 (c1.symm.trans c3)
    have g1 : k1 % 2 = k2 % 2 := by
      rw [← d2] at d1
      split at d1 <;> split at d1 <;> omega
    have g2 : k1 % 2 = k3 % 2 := by
      rw [← d3] at d1
      split at d1 <;> split at d1 <;> omega
    omega
  unfold TTT.checkWinner
  rw [hne]
  refine if_neg fun hf => ?_
  have := (T.C28_ends pf h).2.1.2 ((T.full_iff g).1 hf)
  omega

/-- How many iterations stay within four marks, by the number of marks at the beginning. -/
def reach : Nat → Nat
  | 0 => 3609
  | 1 => 400
  | 2 => 49
  | 3 => 6
  | _ => 0

variable {pf : Profile}

/-- The nodes on the path of the next iteration have few marks. -/
theorem path_early (hE : Explores Fl B) {st : Store (TTT.game pf) Fl} (e : Even st)
    {rn : Node (TTT.game pf) Fl} (hr : st[0]? = some rn) (hp : rn.parent = none) {p : Int} {l : List Nat} (hh : T.Hist pf p l rn.state)
    (hl : l.length ≤ 3) (hv : rn.visits < reach l.length) (hB : ∀ (i : Nat) (n : Node (TTT.game pf) Fl), st[i]? = some n → n.visits < B) {i : Nat}
    (hi : selectLeafNode 0 st = .ok i) {x : Nat} (h0 : Anc st 0 x) (hxi : Anc st x i) {n : Node (TTT.game pf) Fl} (hx : st[x]? = some n) :
    ∃ l', T.Hist pf p l' n.state ∧ l'.length ≤ 3 ∧ n.visits < reach l'.length + (if n.parent = none then 0 else 1) := by
  induction h0 generalizing n with
  | refl =>
    rw [hr] at hx
    cases Option.some.inj hx
    exact ⟨l, hh, hl, by rw [if_pos hp]; exact hv⟩
  | @step x q xn g1 g2 g3 ih =>
    obtain rfl : xn = n := Option.some.inj (g1.symm.trans hx)
    obtain ⟨-, qn, a, k1, k2, -, -⟩ := e.wf.up x xn q g1 g2
    have hqi : Anc st q i := Anc.trans (.step g1 g2 .refl) hxi
    obtain ⟨l', j1, j2, j3⟩ := ih hqi k1
    obtain ⟨(a : Nat), ms, u1, u2, u3, u4⟩ := child_legal e.wf k1 k2 g1
    obtain ⟨V, hT⟩ := e.turns q qn k1
    obtain ⟨w1, w2⟩ := Even.path hE e hi k1 hqi k2 g1 hxi hT (hB q qn k1) u2
    have hms : (TTT.getValidMoves qn.state : List Nat) = ms := Except.ok.inj u2
    have hlen : ms.length = 9 - l'.length := by
      rw [← hms]
      exact (T.C28_ends pf j1).2.2.2
    have hTv := hT.visits
    have hT2 : V < reach l'.length := by omega
    rw [hlen] at w1 w2
    refine ⟨l' ++ [a], .step j1 (hms ▸ u3) (Bl.ttt_plays u4), ?_, ?_⟩
    · rw [List.length_append]
      show l'.length + 1 ≤ 3
      by_contra hc
      have : l'.length = 3 := by omega
      rw [this] at hT2 w1
      have : V < 6 := hT2
      omega
    · rw [List.length_append, g2, if_neg (by simp), w2]
      show V / (9 - l'.length) < reach (l'.length + 1) + 1
      generalize l'.length = d at *
      match d, j2 with
      | 0, _ => have : V < 3609 := hT2; show V / 9 < 401; omega
      | 1, _ => have : V < 400 := hT2; show V / 8 < 50; omega
      | 2, _ => have : V < 49 := hT2; show V / 7 < 7; omega
      | 3, _ => have : V < 6 := hT2; show V / 6 < 1; omega

/-- One iteration. -/
theorem step_early (hE : Explores Fl B) {player : Int} {limit : Nat} {st st' : Store (TTT.game pf) Fl} {tr : List Nat} {k : Nat}
    {t t' : Tape} (e : Even st) {rn : Node (TTT.game pf) Fl} (hr : st[0]? = some rn) (hp : rn.parent = none) {p : Int} {l : List Nat}
    (hh : T.Hist pf p l rn.state) (hl : l.length ≤ 3) (hN : tr.length < reach l.length) (hNB : tr.length < B)
    (hv : ∀ (i : Nat) (n : Node (TTT.game pf) Fl), st[i]? = some n → n.visits ≤ tr.length)
    (h : iteration player limit 0 st t = .ok ((st', k), t')) : Open st' := by
  obtain ⟨i, n, a, next, ms, v, h1, h2, h3, h4, h5, h6, h7, h8, h9, h10, h11⟩ := iteration_grows e.wf e.opn e.root h
  obtain ⟨l', j1, j2, j3⟩ := path_early hE e hr hp hh hl (Nat.lt_of_le_of_lt (hv 0 rn hr) hN)
    (fun i n hi => Nat.lt_of_le_of_lt (hv i n hi) hNB) h1 h3 .refl h2
  have ha : a ∈ TTT.getValidMoves n.state := by
    have ho := e.order i n h2
    have ho : (TTT.getValidMoves n.state : List Nat) = n.expandable ++ (childActions st n).reverse := Except.ok.inj ho
    rw [ho]
    refine List.mem_append_left _ ?_
    rw [h5]
    exact List.mem_append_right _ (List.mem_singleton.2 rfl)
  have hnext : TTT.checkWinner next = none := early (.step j1 ha (Bl.ttt_plays h6)) (by rw [List.length_append]; show l'.length + 1 ≤ 4; omega)
  intro j m hj
  by_cases hjl : j < st.length
  · obtain ⟨m0, hm0⟩ : ∃ m0, st[j]? = some m0 := ⟨_, List.getElem?_eq_getElem hjl⟩
    obtain ⟨m', q1, -, q2⟩ := (iteration_spec e.wf e.root h).2.1 j m0 hm0
    rw [hj] at q1
    cases Option.some.inj q1
    rw [q2]
    exact e.opn j m0 hm0
  · have := (List.getElem?_eq_some_iff.1 hj).1
    obtain rfl : j = st.length := by omega
    rw [h10] at hj
    cases Option.some.inj hj
    exact hnext

theorem iterate_early (hE : Explores Fl B) (hB : B ≤ 16777216) {player : Int} {limit : Nat} (n : Nat) {st st' : Store (TTT.game pf) Fl}
    {tr tr' : List Nat} {t t' : Tape} (e : Even st) (r : RunInv 0 st tr) {rn : Node (TTT.game pf) Fl} (hr : st[0]? = some rn) (hp : rn.parent = none)
    {p : Int} {l : List Nat} (hh : T.Hist pf p l rn.state) (hl : l.length ≤ 3) (hN : tr.length + n ≤ reach l.length) (hNB : tr.length + n ≤ B)
    (hv : ∀ (i : Nat) (n : Node (TTT.game pf) Fl), st[i]? = some n → n.visits ≤ tr.length)
    (h : iterate player limit 0 n st tr t = .ok ((st', tr'), t')) : Open st' := by
  induction n generalizing st tr t rn with
  | zero =>
    have := M.pure_ok.1 h
    simp only [Prod.mk.injEq] at this
    obtain ⟨⟨rfl, rfl⟩, -⟩ := this
    exact e.opn
  | succ n ih =>
    obtain ⟨⟨st1, k⟩, t1, h1, h2⟩ := M.bind_ok.1 h
    have ho := step_early hE e hr hp hh hl (by omega) (by omega) hv h1
    obtain ⟨e1, hv1⟩ := e.step hE hB hv (by omega) h1 ho
    obtain ⟨rn', q1, q2, q3⟩ := (iteration_spec e.wf e.root h1).2.1 0 rn hr
    have hlen : (tr ++ [k]).length = tr.length + 1 := by simp
    exact ih (tr := tr ++ [k]) e1 (r.step h1) q1 (q2.trans hp) (q3 ▸ hh) (by omega) (by omega) (by rw [hlen]; exact hv1) h2

/-- C129 for TicTacToe: from the empty board with at most 3609 iterations, from one mark with at most 400, from two marks
with at most 49 and from three marks with at most 6, the move found is the `N`-th free cell from the end, or the first one,
whatever the random numbers are. -/
theorem C129_tictactoe (hE : Explores Fl B) (hB : B ≤ 16777216) {p : Int} {l : List Nat} {g : TTT.State} (hh : T.Hist pf p l g)
    (hl : l.length ≤ 3) {N : Nat} (h0 : 0 < N) (hN : N ≤ reach l.length) (hNB : N ≤ B) {player : Int} {limit : Nat} {mv : Nat} {t t' : Tape}
    (h : mctSearch (G := TTT.game pf) Fl g player N limit t = .ok (mv, t')) :
    (TTT.getValidMoves g)[9 - l.length - min N (9 - l.length)]? = some mv ∧ (9 - l.length ≤ N → (TTT.getValidMoves g).head? = some mv) := by
  have hlen := (T.C28_ends pf hh).2.2.2
  have hne : TTT.getValidMoves g ≠ [] := by
    intro hc
    rw [hc] at hlen
    simp at hlen
    omega
  have := C129 (G := TTT.game pf) hE hB (state := g) (ms := TTT.getValidMoves g) (early hh (by omega)) rfl hne h0 hNB ?_ h
  · have this : (TTT.getValidMoves g)[(TTT.getValidMoves g).length - min N (TTT.getValidMoves g).length]? = some mv ∧
      ((TTT.getValidMoves g).length ≤ N → (TTT.getValidMoves g).head? = some mv) := this
    rw [hlen] at this
    exact this
  · intro st tr t1 h1 n hn
    obtain ⟨i, hi⟩ := List.mem_iff_getElem?.1 hn
    obtain ⟨ms, hm, h2, r⟩ := buildTree_begin h1
    refine iterate_early hE hB N (Even.start (early hh (by omega)) hm) r rfl rfl hh hl (by simpa using hN) (by simpa using hNB) ?_ h2 i n hi
    intro j m hj
    cases j with
    | zero => cases hj; exact Nat.le_refl _
    | succ j => cases hj

/-! ## The scores -/

theorem real_cmp {c : ℝ} (x y : ℝ) : (realFloats c).cmp x y = .gt ↔ y < x := by
  show (@ite Ordering (_ < _) (Classical.propDecidable _) .gt .lt) = .gt ↔ _
  split
  case isTrue h => exact ⟨fun _ => h, fun _ => rfl⟩
  case isFalse h => exact ⟨(fun h' => by cases h'), fun h' => absurd h' h⟩

theorem real_ucb {c : ℝ} (v p : Nat) : (realFloats c).ucb ((realFloats c).ofInt 0) v p = Real.sqrt (c * Real.log p / v) := by
  show ((0 : Int) : ℝ) / (v : ℝ) + Real.sqrt (c * Real.log p / (v : ℝ)) = _
  simp

/-- The exact formula of node.rs:86-97 with a positive exploration constant. -/
theorem real_explores {c : ℝ} (hc : 0 < c) (B : Nat) : Explores (realFloats c) B := by
  have hgap : ∀ v p : Nat, 0 < v → v + 1 ≤ p → Real.sqrt (c * Real.log p / (v + 1 : Nat)) < Real.sqrt (c * Real.log p / v) := by
    intro v p hv hvp
    have hv' : (0 : ℝ) < v := by exact_mod_cast hv
    have hp : (1 : ℝ) < p := by exact_mod_cast (by omega : 1 < p)
    have hx : 0 < c * Real.log p := mul_pos hc (Real.log_pos hp)
    refine Real.sqrt_lt_sqrt (by positivity) (div_lt_div_of_pos_left hx hv' ?_)
    push_cast
    linarith
  refine ⟨?_, ?_, ?_, ?_⟩
  · show ((0 : Int) : ℝ) + ((0 : Int) : ℝ) = ((0 : Int) : ℝ)
    simp
  · intro v p hv hvp _
    rw [real_ucb, real_ucb]
    exact (real_cmp _ _).2 (hgap v p hv hvp)
  · intro v p hv hvp _
    rw [real_ucb, real_ucb]
    exact fun h => lt_asymm (hgap v p hv hvp) ((real_cmp _ _).1 h)
  · intro v p _ _ _
    rw [real_ucb]
    exact fun h => lt_irrefl _ ((real_cmp _ _).1 h)

open Fp Fn in
/-- The score of a move without results in `f32`: close to the exact one. -/
theorem single_score {c : Rat} (hc : Usual c) (hc0 : 0 < c) {ln : Num → Num} (hln : LogOK ln) {n p : Nat} (hn : 0 < n) (hnp : n ≤ p) (h1 : 1 < p) (hp : p < 65536) :
    ∃ S : Rat, (single (.fin c) ln).ucb ((single (.fin c) ln).ofInt 0) n p = Num.fin S ∧
      |(S : ℝ) - Real.sqrt (c * Real.log p / n)| ≤ 1 / 2 ^ 19 * Real.sqrt (c * Real.log p / n) := by
  obtain ⟨E, e1, e2, e3, e4⟩ := exploration hc hln hn hnp hp
  have hn' : (0 : Rat) < n := by exact_mod_cast hn
  have hz : rnd f32 (0 : Rat) = 0 := by
    have := rnd_exact (K := Rat) (φ := f32) (by decide) (rep_int (n := 0) (by norm_num))
    simpa using this
  refine ⟨rnd f32 E, ?_, ?_⟩
  · show Num.add f32 (Num.div f32 (Num.round f32 ((0 : Int) : Rat)) (.fin n)) _ = _
    rw [e1, round_int (by decide)]
    have e : Num.div f32 (.fin ((0 : Int) : Rat)) (.fin n) = .fin 0 := by
      show (if (n : Rat) = 0 then _ else Num.round f32 (((0 : Int) : Rat) / n)) = _
      rw [if_neg hn'.ne', Int.cast_zero, zero_div, round_rat (by norm_num), hz]
    rw [e]
    show Num.round f32 (0 + E) = _
    rw [zero_add]
    exact round_rat (by rw [abs_of_nonneg e2]; linarith)
  · have hlow : (1 / 2 ^ 60 : ℝ) ≤ Real.sqrt (c * Real.log p / n) := by
      refine Real.le_sqrt_of_sq_le ?_
      have hcl : (1 / 2 ^ 100 : ℝ) ≤ c := by
        rcases hc.1 with h | h
        · exact absurd h hc0.ne'
        · have : (((1 / 2 ^ 100 : Rat)) : ℝ) ≤ c := by exact_mod_cast h
          push_cast at this
          exact this
      have hlog : (1 / 2 : ℝ) ≤ Real.log p := by
        have h2 : Real.log 2 ≤ Real.log p := Real.log_le_log (by norm_num) (by exact_mod_cast h1)
        have := Real.log_two_gt_d9
        linarith
      have hn1 : (n : ℝ) ≤ 2 ^ 16 := by
        have : n ≤ 65536 := by omega
        have : (n : ℝ) ≤ 65536 := by exact_mod_cast this
        linarith
      have hn0 : (0 : ℝ) < n := by exact_mod_cast hn
      rw [le_div_iff₀ hn0]
      have : (1 / 2 ^ 100 : ℝ) * (1 / 2) ≤ c * Real.log p := mul_le_mul hcl hlog (by norm_num) (le_trans (by positivity) hcl)
      refine le_trans ?_ this
      calc ((1 : ℝ) / 2 ^ 60) ^ 2 * n ≤ (1 / 2 ^ 60) ^ 2 * 2 ^ 16 := mul_le_mul_of_nonneg_left hn1 (by positivity)
        _ ≤ _ := by norm_num
    have hE : (1 / 2 ^ 61 : ℝ) ≤ E := by
      have := (abs_le.1 e4).1
      generalize Real.sqrt (c * Real.log p / n) = q at *
      norm_num at *
      linarith
    have hEr : (1 / 2 ^ 61 : Rat) ≤ E := by
      have : (((1 / 2 ^ 61 : Rat)) : ℝ) ≤ E := by push_cast; exact hE
      exact_mod_cast this
    have hr := rnd_rel (φ := f32) E (by
      rw [abs_of_nonneg e2]
      refine le_trans ?_ hEr
      show (2 : Rat) ^ ((-149 : Int) + (24 : Nat) - 1) ≤ _
      norm_num)
    rw [Rat.cast_id, abs_of_nonneg e2] at hr
    have hr' : |(E : ℝ) - (rnd f32 E : ℝ)| ≤ (E : ℝ) / 2 ^ 24 := by
      have : |(((E - rnd f32 E : Rat)) : ℝ)| ≤ ((E / 2 ^ f32.prec : Rat) : ℝ) := by
        rw [← Rat.cast_abs]
        exact_mod_cast hr
      push_cast at this
      exact this
    have b1 := abs_le.1 hr'
    have b2 := abs_le.1 e4
    have hq : 0 ≤ Real.sqrt (c * Real.log p / n) := Real.sqrt_nonneg _
    generalize Real.sqrt (c * Real.log p / n) = q at *
    rw [abs_le]
    norm_num at *
    constructor <;> linarith [b1.1, b1.2, b2.1, b2.2]

open Fp Fn in
/-- `f32` with a usual positive exploration constant. -/
theorem single_explores {c : Rat} (hc : Usual c) (hc0 : 0 < c) {ln : Num → Num} (hln : LogOK ln) : Explores (single (.fin c) ln) 65536 := by
  have hgap : ∀ v p : Nat, 0 < v → v + 1 ≤ p → p < 65536 → ∃ S S' : Rat,
      (single (.fin c) ln).ucb ((single (.fin c) ln).ofInt 0) v p = Num.fin S ∧
      (single (.fin c) ln).ucb ((single (.fin c) ln).ofInt 0) (v + 1) p = Num.fin S' ∧ S' < S := by
    intro v p hv hvp hp
    obtain ⟨S, h1, h2⟩ := single_score hc hc0 hln hv (by omega : v ≤ p) (by omega) hp
    obtain ⟨S', h3, h4⟩ := single_score hc hc0 hln (Nat.succ_pos v) hvp (by omega) hp
    refine ⟨S, S', h1, h3, ?_⟩
    have hlt : (S' : ℝ) < S := by
      have hv' : (1 : ℝ) ≤ v := by exact_mod_cast hv
      have hp1 : (1 : ℝ) < p := by exact_mod_cast (by omega : 1 < p)
      have hc' : (0 : ℝ) < c := by exact_mod_cast hc0
      have hx : 0 < (c : ℝ) * Real.log p := mul_pos hc' (Real.log_pos hp1)
      have hvb : (v : ℝ) ≤ 65535 := by exact_mod_cast (by omega : v ≤ 65535)
      rw [Real.sqrt_div hx.le] at h2 h4
      have hs : 0 < Real.sqrt (c * Real.log p) := Real.sqrt_pos.2 hx
      have ha : 0 < Real.sqrt v := Real.sqrt_pos.2 (by linarith)
      have ha2 : Real.sqrt v ^ 2 = v := Real.sq_sqrt (by linarith)
      have hb : 0 < Real.sqrt ((v + 1 : Nat) : ℝ) := Real.sqrt_pos.2 (by positivity)
      have hb2 : Real.sqrt ((v + 1 : Nat) : ℝ) ^ 2 = v + 1 := by
        rw [Real.sq_sqrt (by positivity)]
        push_cast
        rfl
      have k1 := (abs_le.1 h2).1
      have k2 := (abs_le.1 h4).2
      generalize Real.sqrt (c * Real.log p) = s at *
      generalize Real.sqrt v = a at *
      generalize Real.sqrt ((v + 1 : Nat) : ℝ) = b at *
      have hq : (1 + 1 / 2 ^ 19) * a < (1 - 1 / 2 ^ 19) * b := by
        refine lt_of_pow_lt_pow_left₀ 2 (by nlinarith) ?_
        rw [mul_pow, mul_pow, ha2, hb2]
        nlinarith
      have : (1 + 1 / 2 ^ 19) * (s / b) < (1 - 1 / 2 ^ 19) * (s / a) := by
        rw [← mul_div_assoc, ← mul_div_assoc, div_lt_div_iff₀ hb ha]
        nlinarith
      linarith
    exact_mod_cast hlt
  refine ⟨intAdd (.fin c) ln 0 0 (by decide) (by decide) (by decide), ?_, ?_, ?_⟩
  · intro v p h1 h2 h3
    obtain ⟨S, S', e1, e2, e3⟩ := hgap v p h1 h2 h3
    rw [e1, e2]
    exact compare_gt_iff_gt.2 e3
  · intro v p h1 h2 h3
    obtain ⟨S, S', e1, e2, e3⟩ := hgap v p h1 h2 h3
    rw [e1, e2]
    intro h
    exact absurd (compare_gt_iff_gt.1 h) (not_lt.2 e3.le)
  · intro v p h1 h2 h3
    generalize (single (.fin c) ln).ucb _ v p = x
    cases x with
    | fin q =>
      intro h
      exact lt_irrefl _ (compare_gt_iff_gt.1 h)
    | inf s =>
      show (if s = s then Ordering.eq else _) ≠ _
      rw [if_pos rfl]
      decide
    | nan => show Ordering.eq ≠ .gt; decide

/-! ## The quality of the moves -/

/-- `w` can force a win. -/
inductive Forces (G : Game) (w : Int) : G.S → Prop
  | won {s : G.S} : G.winner s = some w → Forces G w s
  | own {s s' : G.S} {a : G.Mv} {ms : List G.Mv} : G.winner s = none → G.player s = w → G.moves s = .ok ms → a ∈ ms → Plays G s a s' →
      Forces G w s' → Forces G w s
  | other {s : G.S} : G.winner s = none → G.player s ≠ w →
      (∀ (ms : List G.Mv) (a : G.Mv) (s' : G.S), G.moves s = .ok ms → a ∈ ms → Plays G s a s' → Forces G w s') → Forces G w s

/-- `Forces` for TicTacToe, computed. -/
def forces (w : Int) : Nat → TTT.State → Bool
  | 0, _ => false
  | f + 1, s => match TTT.checkWinner s with
    | some x => decide (x = w)
    | none =>
      if s.player = w then (TTT.getValidMoves s).any fun a => match TTT.applyMove .debug s a with
        | .ok s' => forces w f s'
        | .error _ => false
      else (TTT.getValidMoves s).all fun a => match TTT.applyMove .debug s a with
        | .ok s' => forces w f s'
        | .error _ => false

theorem forces_won {w : Int} {f : Nat} {s : TTT.State} (hc : TTT.checkWinner s = some w) : forces w (f + 1) s = true := by
  unfold forces
  rw [hc]
  exact decide_eq_true rfl

theorem forces_own {w : Int} {f : Nat} {s s' : TTT.State} {a : Nat} (hc : TTT.checkWinner s = none) (hw : s.player = w)
    (ha : a ∈ TTT.getValidMoves s) (hs : TTT.applyMove .debug s a = .ok s') (h : forces w f s' = true) : forces w (f + 1) s = true := by
  unfold forces
  rw [hc]
  dsimp only
  rw [if_pos hw]
  refine List.any_eq_true.2 ⟨a, ha, ?_⟩
  rw [hs]
  exact h

theorem forces_other {w : Int} {f : Nat} {s : TTT.State} (hc : TTT.checkWinner s = none) (hw : s.player ≠ w)
    (h : ∀ a ∈ TTT.getValidMoves s, ∃ s', TTT.applyMove .debug s a = .ok s' ∧ forces w f s' = true) : forces w (f + 1) s = true := by
  unfold forces
  rw [hc]
  dsimp only
  rw [if_neg hw]
  refine List.all_eq_true.2 fun a ha => ?_
  obtain ⟨s', h1, h2⟩ := h a ha
  rw [h1]
  exact h2

theorem hist_apply {p : Int} {l : List Nat} {g : TTT.State} (h : T.Hist pf p l g) (pf' : Profile) {a : Nat} (ha : a ∈ TTT.getValidMoves g) :
    ∃ g', TTT.applyMove pf' g a = .ok g' ∧ T.Hist pf p (l ++ [a]) g' := by
  obtain ⟨hp, h1, -⟩ := T.C26_consistent pf h
  have hpl : g.player = -1 ∨ g.player = 1 := by rw [h1]; split <;> omega
  have ha9 := ((T.mem_moves g a).1 ha).1
  exact ⟨_, T.apply_ok pf' hpl ha9, .step h ha (T.apply_ok pf hpl ha9)⟩

theorem forces_iff {w p : Int} {l : List Nat} {g : TTT.State} (h : T.Hist pf p l g) {f : Nat} (hf : 10 ≤ l.length + f) :
    forces w f g = true ↔ Forces (TTT.game pf) w g := by
  have same : ∀ {g g' : TTT.State} {l : List Nat} {a : Nat}, T.Hist pf p l g → a ∈ TTT.getValidMoves g → TTT.applyMove pf g a = .ok g' →
      TTT.applyMove .debug g a = .ok g' := by
    intro g g' l a h ha hg
    obtain ⟨hp, h1, -⟩ := T.C26_consistent pf h
    have hpl : g.player = -1 ∨ g.player = 1 := by rw [h1]; split <;> omega
    have ha9 := ((T.mem_moves g a).1 ha).1
    rw [T.apply_ok .debug hpl ha9, ← hg, T.apply_ok pf hpl ha9]
  have plays : ∀ {g g' : TTT.State} {l : List Nat} {a : Nat}, T.Hist pf p l g → a ∈ TTT.getValidMoves g → TTT.applyMove .debug g a = .ok g' →
      Plays (TTT.game pf) g a g' ∧ T.Hist pf p (l ++ [a]) g' := by
    intro g g' l a h ha hg
    obtain ⟨hp, h1, -⟩ := T.C26_consistent pf h
    have hpl : g.player = -1 ∨ g.player = 1 := by rw [h1]; split <;> omega
    have ha9 := ((T.mem_moves g a).1 ha).1
    have e : TTT.applyMove pf g a = .ok g' := by rw [← hg, T.apply_ok .debug hpl ha9, T.apply_ok pf hpl ha9]
    refine ⟨⟨fun _ => 0, fun _ => 0, ?_⟩, .step h ha e⟩
    exact (M.lift_ok (α := TTT.State)).2 ⟨e, rfl⟩
  constructor
  · intro hb
    induction f generalizing g l with
    | zero => cases hb
    | succ f ih =>
      unfold forces at hb
      cases hc : TTT.checkWinner g with
      | some x =>
        rw [hc] at hb
        have : x = w := of_decide_eq_true hb
        exact .won (this ▸ hc)
      | none =>
        rw [hc] at hb
        dsimp only at hb
        by_cases hw : g.player = w
        · rw [if_pos hw] at hb
          obtain ⟨a, ha, hb⟩ := List.any_eq_true.1 hb
          split at hb
          case h_2 => cases hb
          case h_1 s' hs' =>
            obtain ⟨h1, h2⟩ := plays h ha hs'
            exact .own hc hw rfl ha h1 (ih h2 (by rw [List.length_append]; show 10 ≤ l.length + 1 + f; omega) hb)
        · rw [if_neg hw] at hb
          refine .other hc hw fun ms a s' hm ha hs' => ?_
          have hm : (TTT.getValidMoves g : List Nat) = ms := Except.ok.inj hm
          have ha : a ∈ TTT.getValidMoves g := by rw [hm]; exact ha
          have h1 := same h ha (Bl.ttt_plays hs')
          have hb := List.all_eq_true.1 hb a ha
          rw [h1] at hb
          exact ih (plays h ha h1).2 (by rw [List.length_append]; show 10 ≤ l.length + 1 + f; omega) hb
  · intro hF
    revert l f
    suffices H : ∀ s : (TTT.game pf).S, Forces (TTT.game pf) w s → ∀ {l : List Nat}, T.Hist pf p l s → ∀ {f : Nat}, 10 ≤ l.length + f →
        forces w f s = true from fun h f => H g hF f
    intro s hF
    induction hF with
    | @won s hc =>
      intro l h f hf
      cases f with
      | zero => have := (T.C28_ends pf h).1; omega
      | succ f => exact forces_won hc
    | @own s s' a ms hc hw hm ha hs' _ ih =>
      intro l h f hf
      cases f with
      | zero => have := (T.C28_ends pf h).1; omega
      | succ f =>
        have hm : (TTT.getValidMoves s : List Nat) = ms := Except.ok.inj hm
        have ha : a ∈ TTT.getValidMoves s := by rw [hm]; exact ha
        have h1 := same h ha (Bl.ttt_plays hs')
        exact forces_own hc hw ha h1 (ih (plays h ha h1).2 (by rw [List.length_append]; show 10 ≤ l.length + 1 + f; omega))
    | @other s hc hw hall ih =>
      intro l h f hf
      cases f with
      | zero => have := (T.C28_ends pf h).1; omega
      | succ f =>
        refine forces_other hc hw fun a ha => ?_
        obtain ⟨s', h1, h2⟩ := hist_apply h .debug ha
        exact ⟨s', h1, ih _ a s' rfl ha (plays h ha h1).1 h2 (by rw [List.length_append]; show 10 ≤ l.length + 1 + f; omega)⟩

/-- The board after the corner was taken. -/
def corner : TTT.State := { player := 1, board := #v[-1, 0, 0, 0, 0, 0, 0, 0, 0], id := 0 }
/-- … and answered beside it. -/
def beside : TTT.State := { player := -1, board := #v[-1, 1, 0, 0, 0, 0, 0, 0, 0], id := 0 }
/-- … and answered in the centre. -/
def centre : TTT.State := { player := -1, board := #v[-1, 0, 0, 0, 1, 0, 0, 0, 0], id := 0 }

set_option maxRecDepth 100000 in
theorem beside_lost : forces (-1) 8 beside = true := by decide +kernel
set_option maxRecDepth 100000 in
theorem centre_held : forces (-1) 8 centre = false := by decide +kernel

theorem corner_hist (pf : Profile) : T.Hist pf (-1) [0] corner := .step .start (by decide) (by cases pf <;> rfl)
theorem beside_hist (pf : Profile) : T.Hist pf (-1) [0, 1] beside := .step (corner_hist pf) (by decide) (by cases pf <;> rfl)
theorem centre_hist (pf : Profile) : T.Hist pf (-1) [0, 4] centre := .step (corner_hist pf) (by decide) (by cases pf <;> rfl)

/-- C129: the first two moves of TicTacToe.  With 9 to 400 iterations the plain search opens in cell 0 and answers this
opening in cell 1, whatever the random numbers are.  With this answer the opponent can force a win, and with cell 4 the
opponent cannot. -/
theorem C129_opening (hE : Explores Fl B) (hB : B ≤ 16777216) (hB2 : 400 ≤ B) (pf : Profile) {N limit : Nat} (h1 : 9 ≤ N) (h2 : N ≤ 400) (t : Tape) :
    (∃ t', mctSearch (G := TTT.game pf) Fl TTT.new (-1) N limit t = .ok ((0 : Nat), t')) ∧
    (∃ t', mctSearch (G := TTT.game pf) Fl corner 1 N limit t = .ok ((1 : Nat), t')) ∧
    (TTT.applyMove pf TTT.new 0 = .ok corner ∧ TTT.applyMove pf corner 1 = .ok beside ∧ TTT.applyMove pf corner 4 = .ok centre) ∧
    Forces (TTT.game pf) (-1) beside ∧ ¬ Forces (TTT.game pf) (-1) centre := by
  refine ⟨?_, ?_, ?_, ?_, ?_⟩
  · obtain ⟨mv, t', h⟩ := C32_tictactoe (Fl := Fl) pf TTT.new (.inr rfl) (-1) N limit t
    have := (C129_tictactoe hE hB (.start) (by decide) (by omega) (by show N ≤ 3609; omega) (by omega) h).2 (by show 9 ≤ N; omega)
    have e : (TTT.getValidMoves TTT.new).head? = some 0 := by decide
    rw [e] at this
    cases Option.some.inj this
    exact ⟨t', h⟩
  · obtain ⟨mv, t', h⟩ := C32_tictactoe (Fl := Fl) pf corner (.inl rfl) 1 N limit t
    have := (C129_tictactoe hE hB (corner_hist pf) (by decide) (by omega) (by show N ≤ 400; omega) (by omega) h).2 (by show 8 ≤ N; omega)
    have e : (TTT.getValidMoves corner).head? = some 1 := by decide
    rw [e] at this
    cases Option.some.inj this
    exact ⟨t', h⟩
  · cases pf <;> exact ⟨rfl, rfl, rfl⟩
  · exact (forces_iff (beside_hist pf) (by decide)).1 beside_lost
  · intro h
    have := (forces_iff (centre_hist pf) (f := 8) (by decide)).2 h
    rw [centre_held] at this
    cases this

open Fp Fn in
/-- C129 in `f32` with the configuration of the repository (100 iterations, exploration constant 2). -/
theorem C129_single (pf : Profile) {ln : Num → Num} (hln : LogOK ln) (limit : Nat) (t : Tape) :
    (∃ t', mctSearch (G := TTT.game pf) (single (.fin 2) ln) TTT.new (-1) 100 limit t = .ok ((0 : Nat), t')) ∧
    ∃ t', mctSearch (G := TTT.game pf) (single (.fin 2) ln) corner 1 100 limit t = .ok ((1 : Nat), t') := by
  have := C129_opening (single_explores (c := 2) (by unfold Usual; norm_num) (by norm_num) hln) (by decide) (by decide) pf (N := 100) (limit := limit) (by decide)
    (by decide) t
  exact ⟨this.1, this.2.1⟩

/-- The assumptions hold for the exact formula, and four moves do not finish a game of TicTacToe: four iterations find
the fourth free cell from the end. -/
example (t : Tape) : ∃ t', mctSearch (G := TTT.game .debug) (realFloats 2) TTT.new (-1) 4 400 t = .ok ((5 : Nat), t') := by
  obtain ⟨(mv : Nat), t', h⟩ := C32_tictactoe (Fl := realFloats 2) .debug TTT.new (.inr rfl) (-1) 4 400 t
  have hist : ∀ d (s : (TTT.game .debug).S), After (TTT.game .debug) TTT.new d s → ∃ l, l.length = d ∧ T.Hist .debug (-1) l s := by
    intro d s hd
    induction hd with
    | refl => exact ⟨[], rfl, .start⟩
    | @step n s1 s2 a ms _ hm ha hp ih =>
      obtain ⟨l, h1, h2⟩ := ih
      have hm : (TTT.getValidMoves s1 : List Nat) = ms := Except.ok.inj hm
      refine ⟨(l ++ [(show Nat from a)] : List Nat), by rw [List.length_append, h1]; rfl, .step h2 ?_ (Bl.ttt_plays hp)⟩
      rw [hm]
      exact ha
  have hne : TTT.getValidMoves TTT.new ≠ [] := by decide
  have := (C129_far (G := TTT.game .debug) (real_explores (c := 2) (by norm_num) 400) (by decide) (state := TTT.new)
    (ms := TTT.getValidMoves TTT.new) rfl hne (by decide) (by decide) (fun d s hd hs => ?_) h).1
  · have e : (TTT.getValidMoves TTT.new)[5]? = some 5 := by decide
    have this : (TTT.getValidMoves TTT.new)[5]? = some mv := this
    rw [e] at this
    cases Option.some.inj this
    exact ⟨t', h⟩
  · obtain ⟨l, h1, h2⟩ := hist d s hs
    have hd : d ≤ 1 := hd
    exact early h2 (by omega)

/-- In the opening with a three and a one the exact formula plays (6, 5), (5, 2) with every random sequence with which it
returns a move (in the numbering of the code, (5, 4), (4, 1)). -/
example {limit : Nat} {mv : BG.Actions} {t t' : Tape}
    (h : mctSearch (G := BG.game .debug) (realFloats 2) { BG.new with roll := (3, 1) } (-1) 100 limit t = .ok (mv, t')) : mv = [(5, 4), (4, 1)] := by
  have hd : (BG.getValidMoves .debug { BG.new with roll := (3, 1) }).toOption.map (fun ms => (ms.length, ms.head?)) =
      some (16, some [(5, 4), (4, 1)]) := by decide +kernel
  have hg : Spec.StateOK { BG.new with roll := (3, 1) } := ⟨BG.initial_valid, .inl rfl, by decide, by decide⟩
  cases hm : BG.getValidMoves .debug { BG.new with roll := (3, 1) } with
  | error e => rw [hm] at hd; cases hd
  | ok ms =>
    rw [hm] at hd
    have hd : (ms.length, ms.head?) = (16, some [(5, 4), (4, 1)]) := Option.some.inj hd
    obtain ⟨h1, h2⟩ := Prod.mk.inj hd
    have := C129_backgammon_opening (real_explores (c := 2) (by norm_num) 100) (by decide) (by decide) hg rfl rfl hm h
    exact Option.some.inj (this.symm.trans h2)

/-- A library whose logarithm is the rounded one has the property asked for. -/
example (t : Tape) : ∃ t', mctSearch (G := TTT.game .debug) (Fp.single (.fin 2) Fn.roundedLn) corner 1 100 400 t = .ok ((1 : Nat), t') :=
  (C129_single .debug Fn.roundedLn_ok 400 t).2

end DieE.Props.Fi
