import Verif.Mcts.Search
import Verif.Props.NoPanic
import Verif.Props.TicTacToe

/-! # C31–C37: the plain tree search -/

namespace DieE.Props.S
open DieE DieE.Mcts

variable {G : Game} {Fl : Floats}

/-! ## Sample data for the examples -/

/-- A simple instance of the arithmetic (integers). -/
def demoFloats : Floats where
  F := Int
  ofInt := id
  add := (· + ·)
  inf := 1000000
  ucb := fun v n p => (10 * v + p) / (n + 1)
  alphaUcb := fun v n p q => (10 * v + q + p) / (n + 1)
  winPct := fun v n => v / n
  cmp := compare

/-- A random stream. -/
def demoTape : Tape := fun n => 7 * n + 3

/-- A TicTacToe position with two free cells, `-1` to move: `7` wins for `-1`, `8` wins for nobody yet. -/
def lateTTT : TTT.State := { player := -1, board := #v[1, -1, 1, 1, -1, -1, -1, 0, 0], id := 0 }

/-- The search from `lateTTT`: store and list of propagated nodes. -/
def lateRun : Res ((Store (TTT.game .debug) demoFloats × List Nat) × Tape) :=
  buildTree demoFloats lateTTT (-1) 5 3 demoTape

/-! ## C36 -/

/-- C36: after any number of iterations the tree is well formed, and it is one tree rooted at node 0, whose position is
the searched one. -/
theorem C36_well_formed {state : G.S} {player : Int} {iterations limit : Nat} {st : Store G Fl} {tr : List Nat}
    {t t' : Tape} (h : buildTree Fl state player iterations limit t = .ok ((st, tr), t')) :
    WellFormed st ∧ (∃ rn : Node G Fl, st[0]? = some rn ∧ rn.state = state ∧ rn.parent = none) ∧
      (∀ i, i < st.length → Anc st 0 i) ∧
      ∀ (p c : Nat) (pn cn : Node G Fl), st[p]? = some pn → c ∈ pn.children → st[c]? = some cn →
        ∃ a ms, cn.action = some a ∧ G.moves pn.state = .ok ms ∧ a ∈ ms := by
  obtain ⟨v, -, h2⟩ := buildTree_inv h
  refine ⟨v.wf, h2, v.conn, ?_⟩
  intro p c pn cn hp hc hcn
  obtain ⟨a, ms, h3, h4, h5, -⟩ := child_legal v.wf hp hc hcn
  exact ⟨a, ms, h3, h4, h5⟩

/-- The hypothesis of the theorems on `buildTree` is met: five iterations from `lateTTT` build a tree of three nodes. -/
example : lateRun.toOption.map (fun r => (r.1.1.length, r.1.2, r.1.1.map Node.visits)) =
    some (3, [1, 2, 2, 2, 2], [5, 1, 4]) := by decide +kernel

/-! ## C35 -/

open Classical in
/-- C35: backpropagation returns, and every node keeps its fields except that the nodes on the path from `k` to the
root get one more visit and the result added. -/
theorem C35_backpropagate {st : Store G Fl} (w : WellFormed st) {k : Nat} (hk : k < st.length) (result : Fl.F) :
    ∃ st', backpropagate k result st = .ok st' ∧ st'.length = st.length ∧
      ∀ (i : Nat) (n : Node G Fl), st[i]? = some n → st'[i]? = some (if Anc st i k then
        { n with visits := if n.visits < 2 ^ 24 then n.visits + 1 else n.visits, value := Fl.add n.value result } else n) := by
  obtain ⟨st', h1, h2, h3⟩ := backpropagate_spec result k st w.upLt hk
  exact ⟨st', h1, h2.length.symm, h3⟩

/-! ## C34 -/

/-- C34: the visits of each node are the number of iterations that chose a node in its subtree (saturating at `2^24`,
where an `f32` stops counting); `tr` lists the node chosen by each iteration, one per iteration. -/
theorem C34_visits {state : G.S} {player : Int} {iterations limit : Nat} {st : Store G Fl} {tr : List Nat}
    {t t' : Tape} (h : buildTree Fl state player iterations limit t = .ok ((st, tr), t')) :
    tr.length = iterations ∧ (∀ k ∈ tr, k < st.length) ∧
      ∀ (i : Nat) (n : Node G Fl), st[i]? = some n →
        n.visits = min (countOf (fun k => Anc st i k) tr) (2 ^ 24) := by
  obtain ⟨v, h1, -⟩ := buildTree_inv h
  refine ⟨h1, fun k hk => (v.mem k hk).1, ?_⟩
  intro i n hi
  have := v.visits i (List.getElem?_eq_some_iff.1 hi).1
  rw [show (2 : Nat) ^ 24 = 16777216 from rfl, ← this]
  simp [visitsAt, hi]

/-- C34: the root has as many visits as there were iterations. -/
theorem C34_root {state : G.S} {player : Int} {iterations limit : Nat} {st : Store G Fl} {tr : List Nat}
    {t t' : Tape} (h : buildTree Fl state player iterations limit t = .ok ((st, tr), t')) :
    ∃ rn : Node G Fl, st[0]? = some rn ∧ rn.visits = min iterations (2 ^ 24) := by
  obtain ⟨v, h1, rn, h2, -⟩ := buildTree_inv h
  refine ⟨rn, h2, ?_⟩
  rw [(C34_visits h).2.2 0 rn h2, countOf_all (fun k hk => (v.mem k hk).2), h1]

/-- An ancestor at or below `r` of a node other than `r` is reached through exactly one child of `r`. -/
theorem unique_child {st : Store G Fl} (w : WellFormed st) {r k : Nat} {rn : Node G Fl} (hr : st[r]? = some rn)
    (hk : k < st.length) (ha : Anc st r k) (hne : k ≠ r) :
    ∃ c ∈ rn.children, Anc st c k ∧ ∀ d ∈ rn.children, Anc st d k → d = c := by
  have ex : ∀ k, Anc st r k → k < st.length → k ≠ r → ∃ c ∈ rn.children, Anc st c k := by
    intro k ha
    induction ha with
    | refl => intro _ h; exact absurd rfl h
    | @step k p n h1 h2 h3 ih =>
      intro hk hne
      obtain ⟨hlt, pn, a, h4, h5, -⟩ := w.up k n p h1 h2
      by_cases hp : p = r
      · subst hp
        rw [hr] at h4
        injection h4 with h4
        subst h4
        exact ⟨k, h5, .refl⟩
      · obtain ⟨c, hc, hac⟩ := ih (by omega) hp
        exact ⟨c, hc, .step h1 h2 hac⟩
  obtain ⟨c, hc, hac⟩ := ex k ha hk hne
  refine ⟨c, hc, hac, ?_⟩
  -- two ancestors of one node are comparable; two children of the same node are not
  have chain : ∀ k x, Anc st x k → ∀ y, Anc st y k → Anc st x y ∨ Anc st y x := by
    intro k x hx
    induction hx with
    | refl => intro y hy; exact .inr hy
    | @step k p n h1 h2 h3 ih =>
      intro y hy
      rcases (anc_cases h1).1 hy with rfl | ⟨q, hq, hyq⟩
      · exact .inl (.step h1 h2 h3)
      · rw [h2] at hq
        injection hq with hq
        subst hq
        exact ih y hyq
  have nocomp : ∀ x y, x ∈ rn.children → y ∈ rn.children → Anc st x y → x = y := by
    intro x y hx hy ha
    obtain ⟨yn, hyn, hyp⟩ := w.down r rn y hr hy
    obtain ⟨xn, hxn, hxp⟩ := w.down r rn x hr hx
    rcases (anc_cases hyn).1 ha with h | ⟨q, hq, haq⟩
    · exact h
    · rw [hyp] at hq
      injection hq with hq
      subst hq
      have h1 := haq.le w.upLt
      have h2 := w.upLt x xn r hxn hxp
      omega
  intro d hd had
  rcases chain k c hac d had with h | h
  · exact (nocomp c d hc hd h).symm
  · exact nocomp d c hd hc h

theorem sum_indicator {l : List Nat} (hn : l.Nodup) {P : Nat → Prop} {c : Nat} (hc : c ∈ l) (h1 : P c)
    (h2 : ∀ d ∈ l, P d → d = c) : (l.map fun d => @ite _ (P d) (Classical.propDecidable _) 1 0).sum = 1 := by
  induction l with
  | nil => cases hc
  | cons a l ih =>
    rw [List.map_cons, List.sum_cons]
    rw [List.nodup_cons] at hn
    rcases List.mem_cons.1 hc with rfl | hc
    · rw [if_pos h1]
      have : (l.map fun d => @ite _ (P d) (Classical.propDecidable _) 1 0) = l.map fun _ => 0 := by
        apply List.map_congr_left
        intro d hd
        rw [if_neg]
        intro hp
        have := h2 d (List.mem_cons_of_mem _ hd) hp
        subst this
        exact hn.1 hd
      rw [this]
      simp [List.map_const']
    · have hac : ¬ P a := by
        intro hp
        have := h2 a (List.mem_cons_self ..) hp
        subst this
        exact hn.1 hc
      rw [if_neg hac, ih hn.2 hc fun d hd => h2 d (List.mem_cons_of_mem _ hd)]

theorem sum_add (l : List Nat) (f g : Nat → Nat) :
    (l.map fun d => f d + g d).sum = (l.map f).sum + (l.map g).sum := by
  induction l with
  | nil => rfl
  | cons a l ih => simp only [List.map_cons, List.sum_cons, ih]; omega

/-- C34: the visits of the root's children add up to the number of iterations (as long as `f32` can count them). -/
theorem C34_children {state : G.S} {player : Int} {iterations limit : Nat} {st : Store G Fl} {tr : List Nat}
    {t t' : Tape} (h : buildTree Fl state player iterations limit t = .ok ((st, tr), t')) (hw : G.winner state = none)
    (hi : iterations ≤ 2 ^ 24) :
    ∃ (rn : Node G Fl) (cs : List (Node G Fl)), st[0]? = some rn ∧ rn.children.mapM (fun c => st[c]?) = some cs ∧
      (cs.map Node.visits).sum = iterations := by
  obtain ⟨v, h1, rn, h2, h3, -⟩ := buildTree_inv h
  have hlt : ∀ c ∈ rn.children, c < st.length := fun c hc => v.wf.child_lt h2 hc
  -- the children as nodes
  have hcs : ∀ l : List Nat, (∀ c ∈ l, c < st.length) → ∃ cs : List (Node G Fl), l.mapM (fun c => st[c]?) = some cs ∧
      cs.map Node.visits = l.map (visitsAt st) := by
    intro l
    induction l with
    | nil => intro _; exact ⟨[], rfl, rfl⟩
    | cons c l ih =>
      intro hl
      obtain ⟨cs, h4, h5⟩ := ih fun d hd => hl d (List.mem_cons_of_mem _ hd)
      have hc := hl c (List.mem_cons_self ..)
      refine ⟨st[c] :: cs, ?_, ?_⟩
      · rw [List.mapM_cons, List.getElem?_eq_getElem hc, h4]; rfl
      · rw [List.map_cons, List.map_cons, h5]
        congr 1
        simp [visitsAt, List.getElem?_eq_getElem hc]
  obtain ⟨cs, h4, h5⟩ := hcs rn.children hlt
  refine ⟨rn, cs, h2, h4, ?_⟩
  rw [h5]
  -- visits are counts
  have hcount : ∀ c ∈ rn.children, visitsAt st c = countOf (fun k => Anc st c k) tr := by
    intro c hc
    rw [v.visits c (hlt c hc)]
    have : countOf (fun k => Anc st c k) tr ≤ tr.length := List.countP_le_length
    omega
  rw [List.map_congr_left hcount]
  have hbelow := v.below rn h2 (h3 ▸ hw)
  have key : ∀ l : List Nat, (∀ k ∈ l, k ∈ tr) →
      (rn.children.map fun c => countOf (fun k => Anc st c k) l).sum = l.length := by
    intro l
    induction l with
    | nil =>
      intro _
      have : (rn.children.map fun c => countOf (fun k => Anc st c k) ([] : List Nat)) = rn.children.map fun _ => 0 := rfl
      rw [this]
      simp [List.map_const']
    | cons k l ih =>
      intro hl
      have hk := hl k (List.mem_cons_self ..)
      obtain ⟨c, hc, hac, huniq⟩ := unique_child v.wf h2 (v.mem k hk).1 (v.mem k hk).2 (hbelow k hk)
      have hsplit : (rn.children.map fun c => countOf (fun k => Anc st c k) (k :: l)) =
          rn.children.map fun c => countOf (fun k => Anc st c k) l +
            (@ite _ (Anc st c k) (Classical.propDecidable _) 1 0) := by
        apply List.map_congr_left
        intro d _
        unfold countOf
        rw [List.countP_cons]
        by_cases hd : Anc st d k <;> simp [hd]
      rw [hsplit, sum_add, ih fun q hq => hl q (List.mem_cons_of_mem _ hq),
        sum_indicator (v.wf.nodup 0 rn h2) hc hac huniq]
      rfl
  rw [key tr fun k hk => hk, h1]

/-! ## C37 -/

/-- C37: on every well-formed store whose node `i` has children, `select_most_visits` returns the action of a child
with a maximal number of visits. -/
theorem C37_most_visited {st : Store G Fl} (w : WellFormed st) {i : Nat} {n : Node G Fl} (hi : st[i]? = some n)
    (hc : n.children ≠ []) :
    ∃ (c : Nat) (cn : Node G Fl) (a : G.Mv), c ∈ n.children ∧ st[c]? = some cn ∧ cn.action = some a ∧
      selectMostVisits i st = .ok a ∧
      ∀ (d : Nat) (dn : Node G Fl), d ∈ n.children → st[d]? = some dn → dn.visits ≤ cn.visits := by
  obtain ⟨cs, h1, h2, h3⟩ := childNodes_spec w hi
  have hne : cs ≠ [] := by
    intro h
    rw [h] at h3
    exact hc (List.length_eq_zero_iff.1 h3.symm)
  obtain ⟨m, hm, he⟩ := maxBy_mem (cmp := fun a b => .ok (compare (Node.visits a) (Node.visits b)))
    (fun a _ b _ => ⟨_, rfl⟩) hne
  obtain ⟨-, hmax⟩ := maxBy_compare Node.visits he
  obtain ⟨c, hc1, hc2⟩ := (h2 m).1 hm
  obtain ⟨a, ms, h4, -⟩ := child_legal w hi hc1 hc2
  refine ⟨c, m, a, hc1, hc2, h4, ?_, fun d dn hd hdn => hmax dn ((h2 dn).2 ⟨d, hd, hdn⟩)⟩
  unfold selectMostVisits
  rw [getNode_ok.2 hi]
  show (childNodes st n >>= _) = _
  rw [h1]
  show (maxBy _ cs >>= _) = _
  rw [he]
  show Except.ok (m.action.getD G.emptyMove) = _
  rw [h4]
  rfl

/-- The tree of the example has a root with two children; the one chosen is the winning cell 7. -/
example : (lateRun.toOption.map fun r => selectMostVisits 0 r.1.1) = some (.ok (7 : Nat)) := by decide +kernel

/-! ## C31 -/

theorem mctSearch_run {state : G.S} {player : Int} {iterations limit : Nat} {mv : G.Mv} {t t' : Tape}
    (hw : G.winner state = none) (h : mctSearch Fl state player iterations limit t = .ok (mv, t')) :
    ∃ st tr, buildTree Fl state player iterations limit t = .ok ((st, tr), t') ∧ selectMostVisits 0 st = .ok mv := by
  unfold mctSearch at h
  rw [hw] at h
  obtain ⟨⟨st, tr⟩, t1, h1, h2⟩ := M.bind_ok.1 h
  rw [M.lift_ok] at h2
  obtain ⟨h2, rfl⟩ := h2
  exact ⟨st, tr, h1, h2⟩

/-- C31: on a position without winner and with at least one iteration, a returned move is a legal move. -/
theorem C31_legal {state : G.S} {player : Int} {iterations limit : Nat} {mv : G.Mv} {t t' : Tape}
    (hw : G.winner state = none) (hi : 0 < iterations)
    (h : mctSearch Fl state player iterations limit t = .ok (mv, t')) :
    ∃ ms, G.moves state = .ok ms ∧ mv ∈ ms := by
  obtain ⟨st, tr, h1, h2⟩ := mctSearch_run hw h
  obtain ⟨v, hlen, rn, h3, h4, -⟩ := buildTree_inv h1
  -- the first chosen node lies below the root, so the root has a child
  obtain ⟨k, hk⟩ : ∃ k, k ∈ tr := by
    cases tr with
    | nil => simp at hlen; omega
    | cons k tr => exact ⟨k, List.mem_cons_self ..⟩
  obtain ⟨c, hc, -⟩ := unique_child v.wf h3 (v.mem k hk).1 (v.mem k hk).2 (v.below rn h3 (h4 ▸ hw) k hk)
  have hne : rn.children ≠ [] := by
    intro h
    rw [h] at hc
    cases hc
  obtain ⟨d, dn, a, h5, h6, h7, h8, -⟩ := C37_most_visited v.wf h3 hne
  obtain ⟨b, ms, h9, h10, h11, -⟩ := child_legal v.wf h3 h5 h6
  rw [h2] at h8
  injection h8 with h8
  subst h8
  rw [h7] at h9
  injection h9 with h9
  subst h9
  exact ⟨ms, h4 ▸ h10, h11⟩

/-- C31: with a winner, or without iterations, the answer is the empty move. -/
theorem C31_empty (state : G.S) (player : Int) (iterations limit : Nat) (t : Tape) :
    ((∃ w, G.winner state = some w) → mctSearch Fl state player iterations limit t = .ok (G.emptyMove, t)) ∧
    (G.winner state = none → (∃ ms, G.moves state = .ok ms) →
      mctSearch Fl state player 0 limit t = .ok (G.emptyMove, t)) := by
  constructor
  · rintro ⟨w, hw⟩
    unfold mctSearch
    rw [hw]
    rfl
  · rintro hw ⟨ms, hm⟩
    unfold mctSearch
    rw [hw]
    simp only
    have h1 : buildTree Fl state player 0 limit t = .ok ((_, _), t) :=
      M.bind_ok.2 ⟨(_, 0), t, M.lift_ok.2 ⟨addNode_ok.2 ⟨ms, hm, rfl, rfl⟩, rfl⟩, rfl⟩
    rw [M.bind_eq h1]
    rfl

/-- The answer of the search from `lateTTT`. -/
def lateMove : Option Nat := (mctSearch (G := TTT.game .debug) demoFloats lateTTT (-1) 5 3 demoTape).toOption.map (·.1)

example : lateMove = some 7 ∧ TTT.checkWinner lateTTT = none ∧ TTT.getValidMoves lateTTT = [7, 8] := by decide +kernel

/-! ## C32 -/

/-- Positions of TicTacToe whose player to move is ±1 (all reachable ones). -/
theorem ttt_safe (pf : Profile) : Safe (TTT.game pf) (fun s : TTT.State => s.player = 1 ∨ s.player = -1) := by
  have hap : ∀ (s : TTT.State) (a : Nat), s.player = 1 ∨ s.player = -1 → a ∈ TTT.getValidMoves s →
      ∃ s', TTT.applyMove pf s a = .ok s' ∧ (s'.player = 1 ∨ s'.player = -1) := by
    intro s a hp ha
    have ha9 : a < 9 := by
      unfold TTT.getValidMoves at ha
      exact List.mem_range.1 (List.mem_filter.1 ha).1
    unfold TTT.applyMove
    rw [dif_pos ha9]
    rcases hp with hp | hp
    · refine ⟨_, by rw [hp]; rfl, .inr rfl⟩
    · refine ⟨_, by rw [hp]; rfl, .inl rfl⟩
  constructor
  · exact fun s _ => ⟨_, rfl⟩
  · intro s ms a hp hm ha t
    have hm' : TTT.getValidMoves s = ms := by injection hm
    obtain ⟨s', h1, -⟩ := hap s a hp (hm' ▸ ha)
    exact ⟨s', t, M.lift_ok.2 ⟨h1, rfl⟩⟩
  · rintro s ms a s2 hp hm ha ⟨t, t', h⟩
    have hm' : TTT.getValidMoves s = ms := by injection hm
    obtain ⟨s', h1, h2⟩ := hap s a hp (hm' ▸ ha)
    have := (M.lift_ok.1 h).1
    rw [h1] at this
    injection this with this
    subst this
    exact h2
  · intro s hp t
    have : ∃ s', TTT.skipTurn pf s = .ok s' ∧ (s'.player = 1 ∨ s'.player = -1) := by
      unfold TTT.skipTurn
      rcases hp with hp | hp
      · exact ⟨_, by rw [hp]; rfl, .inr rfl⟩
      · exact ⟨_, by rw [hp]; rfl, .inl rfl⟩
    obtain ⟨s', h1, h2⟩ := this
    exact ⟨s', t, M.lift_ok.2 ⟨h1, rfl⟩, h2⟩

/-- Without a winner some cell is free. -/
theorem ttt_not_stuck (s : TTT.State) (h : TTT.checkWinner s = none) : TTT.getValidMoves s ≠ [] := by
  unfold TTT.checkWinner at h
  split at h
  · cases h
  · split at h
    · cases h
    · rename_i hall
      intro hnil
      apply hall
      rw [List.all_eq_true]
      intro v hv
      obtain ⟨i, hi, rfl⟩ := List.mem_iff_getElem.1 hv
      have hi9 : i < 9 := by simpa using hi
      have : i ∉ TTT.getValidMoves s := by rw [hnil]; simp
      unfold TTT.getValidMoves TTT.State.cell at this
      rw [List.mem_filter, List.mem_range] at this
      simp only [hi9, true_and, decide_eq_true_eq] at this
      rw [List.getD_eq_getElem?_getD, List.getElem?_eq_getElem hi] at this
      simpa using this

/-- A search either returns or fails at a position (below the root) with neither a winner nor a legal move. -/
theorem search_progress {R : G.S → Prop} (hs : Safe G R) {state : G.S} (hR : R state) (player : Int)
    (iterations limit : Nat) (t : Tape) :
    (∃ mv t', mctSearch Fl state player iterations limit t = .ok (mv, t')) ∨
    (mctSearch Fl state player iterations limit t = .error .explicitPanic ∧
      ∃ s, R s ∧ G.winner s = none ∧ G.moves s = .ok []) := by
  cases hw : G.winner state with
  | some w => exact .inl ⟨_, _, (C31_empty state player iterations limit t).1 ⟨w, hw⟩⟩
  | none =>
    obtain ⟨ms, hm⟩ := hs.moves state hR
    have w := wf_root (Fl := Fl) wf_nil hm (Fl.ofInt 0)
    have v : RunInv 0 ([] ++ [freshNode state ([] : Store G Fl).length none none (Fl.ofInt 0) ms]) [] := by
      refine ⟨w, by simp, by simp, ?_, ?_, by simp⟩
      · intro i hi
        have : i = 0 := by simp at hi; omega
        subst this
        simp [visitsAt, freshNode, countOf]
      · intro i hi
        have : i = 0 := by simp at hi; omega
        subst this
        exact .refl
    have hall : AllR R ([] ++ [freshNode state ([] : Store G Fl).length none none (Fl.ofInt 0) ms]) := by
      intro i n hn
      have : i = 0 := by
        have := (List.getElem?_eq_some_iff.1 hn).1
        simp at this
        omega
      subst this
      simp at hn
      subst hn
      exact hR
    have hb : buildTree Fl state player iterations limit t = iterate player limit 0 iterations
        ([] ++ [freshNode state ([] : Store G Fl).length none none (Fl.ofInt 0) ms]) [] t := by
      unfold buildTree
      rw [M.bind_eq (M.lift_ok.2 ⟨addNode_ok.2 ⟨ms, hm, rfl, rfl⟩, rfl⟩)]
      rfl
    rcases iterate_progress hs iterations v hall player limit t with ⟨st, tr, t', h1⟩ | ⟨h1, h2⟩
    · left
      have h1' : buildTree Fl state player iterations limit t = .ok ((st, tr), t') := hb.trans h1
      obtain ⟨v', -, rn, h3, -⟩ := buildTree_inv h1'
      have hsel : ∃ mv, selectMostVisits 0 st = .ok mv := by
        by_cases hc : rn.children = []
        · refine ⟨G.emptyMove, ?_⟩
          unfold selectMostVisits
          rw [getNode_ok.2 h3]
          show (childNodes st rn >>= _) = _
          unfold childNodes
          rw [hc]
          rfl
        · obtain ⟨-, -, a, -, -, -, h4, -⟩ := C37_most_visited v'.wf h3 hc
          exact ⟨a, h4⟩
      obtain ⟨mv, hmv⟩ := hsel
      refine ⟨mv, t', ?_⟩
      unfold mctSearch
      rw [hw]
      simp only
      rw [M.bind_eq h1']
      exact M.lift_ok.2 ⟨hmv, rfl⟩
    · right
      refine ⟨?_, h2⟩
      unfold mctSearch
      rw [hw]
      simp only
      exact M.bind_err (hb.trans h1)

/-- C32 for TicTacToe: the search returns a move from every position with a player to move, for every configuration. -/
theorem C32_tictactoe (pf : Profile) (s : TTT.State) (hp : s.player = 1 ∨ s.player = -1) (player : Int)
    (iterations limit : Nat) (t : Tape) :
    ∃ mv t', mctSearch (G := TTT.game pf) Fl s player iterations limit t = .ok (mv, t') := by
  rcases search_progress (Fl := Fl) (ttt_safe pf) hp player iterations limit t with h | ⟨-, s', -, h1, h2⟩
  · exact h
  · have : TTT.getValidMoves s' = [] := by injection h2
    exact absurd this (ttt_not_stuck s' h1)

/-- The invariant of Backgammon states makes the game methods safe. -/
theorem bg_safe (pf : Profile) : Safe (BG.game pf) (fun s : BG.State => Spec.StateOK s) := by
  have hdie : ∀ t : Tape, ∃ d t', M.die t = .ok (d, t') ∧ 1 ≤ d ∧ d ≤ 6 := by
    intro t
    exact ⟨_, _, rfl, by omega, by omega⟩
  have hroll : ∀ t : Tape, ∃ d t', BG.rollDice t = .ok (d, t') ∧ Spec.DiceInRange d := by
    intro t
    obtain ⟨a, t1, h1, h2, h3⟩ := hdie t
    obtain ⟨b, t2, h4, h5, h6⟩ := hdie t1
    exact ⟨(a, b), t2, M.bind_ok.2 ⟨a, t1, h1, M.bind_ok.2 ⟨b, t2, h4, rfl⟩⟩, by
      unfold Spec.DiceInRange; simp; omega⟩
  constructor
  · intro s hs
    obtain ⟨ms, h, -⟩ := C02_state_ok hs
    exact ⟨ms, h pf⟩
  · intro s ms a hs hm ha t
    obtain ⟨ms', h1, h2, -⟩ := C02_state_ok hs
    have hm' : BG.getValidMoves pf s = .ok ms := hm
    rw [h1 pf] at hm'
    injection hm' with hm'
    subst hm'
    show ∃ s' t', BG.applyM pf s a t = _
    unfold BG.applyM
    split
    · obtain ⟨g', hg'⟩ := h2 a ha (0, 0)
      exact ⟨g', t, M.bind_ok.2 ⟨(0, 0), t, rfl, M.lift_ok.2 ⟨hg' pf, rfl⟩⟩⟩
    · obtain ⟨d, t', hd, -⟩ := hroll t
      obtain ⟨g', hg'⟩ := h2 a ha d
      exact ⟨g', t', M.bind_ok.2 ⟨d, t', hd, M.lift_ok.2 ⟨hg' pf, rfl⟩⟩⟩
  · rintro s ms a s' hs hm ha ⟨t, t', h⟩
    have h : BG.applyM pf s a t = .ok (s', t') := h
    unfold BG.applyM at h
    obtain ⟨d, t1, h1, h2⟩ := M.bind_ok.1 h
    have h2 := (M.lift_ok.1 h2).1
    by_cases hc : s.roll.1 = s.roll.2 ∧ s.second = false
    · -- the dice are kept
      rw [if_pos hc] at h1
      rw [BG.applyMove_eq pf hs hm ha d] at h2
      rw [if_pos hc] at h2
      injection h2 with h2
      subst h2
      have := BG.applyMove_ok (pf := pf) (dice := (1, 1)) hs hm ha (by unfold Spec.DiceInRange; decide)
        (BG.applyMove_eq pf hs hm ha (1, 1))
      rw [if_pos hc] at this
      exact this
    · rw [if_neg hc] at h1
      obtain ⟨d', t2, hd, hr⟩ := hroll t
      rw [hd] at h1
      injection h1 with h1
      injection h1 with h1 h3
      subst h1
      exact BG.applyMove_ok hs hm ha hr h2
  · intro s hs t
    obtain ⟨d, t', hd, hr⟩ := hroll t
    have h := BG.skipTurn_eq pf hs d
    exact ⟨_, t', M.bind_ok.2 ⟨d, t', hd, M.lift_ok.2 ⟨h, rfl⟩⟩, BG.skipTurn_ok hs hr h⟩

/-- C32 for Backgammon, the part that holds: the search returns, or it panics in `expand` at a position without winner
in which the player to move cannot move.  No other panic is possible. -/
theorem C32_backgammon_partial (pf : Profile) (s : BG.State) (hs : Spec.StateOK s) (player : Int)
    (iterations limit : Nat) (t : Tape) :
    (∃ mv t', mctSearch (G := BG.game pf) Fl s player iterations limit t = .ok (mv, t')) ∨
    (mctSearch (G := BG.game pf) Fl s player iterations limit t = .error .explicitPanic ∧
      ∃ s' : BG.State, Spec.StateOK s' ∧ BG.checkWinner s' = none ∧ BG.getValidMoves pf s' = .ok []) :=
  search_progress (Fl := Fl) (bg_safe pf) hs player iterations limit t

/-- In a position without winner and without a legal move every search with at least one iteration panics. -/
theorem C32_stuck_panics {state : G.S} (hw : G.winner state = none) (hm : G.moves state = .ok []) (player : Int)
    {iterations : Nat} (hi : 0 < iterations) (limit : Nat) (t : Tape) :
    mctSearch Fl state player iterations limit t = .error .explicitPanic := by
  obtain ⟨n, rfl⟩ : ∃ n, iterations = n + 1 := ⟨iterations - 1, by omega⟩
  unfold mctSearch
  rw [hw]
  simp only
  apply M.bind_err
  unfold buildTree
  rw [M.bind_eq (M.lift_ok.2 ⟨addNode_ok.2 ⟨[], hm, rfl, rfl⟩, rfl⟩)]
  simp only [iterate]
  apply M.bind_err
  simp only [iteration]
  have h1 : selectLeafNode ([] : Store G Fl).length ([] ++ [freshNode (Fl := Fl) state ([] : Store G Fl).length none none (Fl.ofInt 0) []]) = .ok 0 := rfl
  rw [M.bind_eq (M.lift_ok.2 ⟨h1, rfl⟩)]
  have h2 : getNode ([] ++ [freshNode (Fl := Fl) state ([] : Store G Fl).length none none (Fl.ofInt 0) []]) 0 =
      .ok (freshNode state 0 none none (Fl.ofInt 0) []) := rfl
  rw [M.bind_eq (M.lift_ok.2 ⟨h2, rfl⟩)]
  show (match G.winner state with | some w => _ | none => _ : M _) t = _
  rw [hw]
  rfl

/-- A position reached from the start after one move of each side: with 1-2 the first player moves 5→4, 23→21, with
3-5 the second player hits on 21, and the first player rolls 3-3 and cannot enter. -/
def stuckState : BG.State where
  board := { pts := #v[2, 0, 0, 0, -1, -4, 0, -3, 0, 0, 0, 5, -5, 0, 0, 0, 2, 0, 4, 0, 0, 2, 0, -1],
             hit := (1, 0), col := (0, 0) }
  roll := (3, 3)
  player := -1
  second := false
  id := 0

/-- The position in between. -/
def stuckState1 : BG.State where
  board := { pts := #v[2, 0, 0, 0, -1, -4, 0, -3, 0, 0, 0, 5, -5, 0, 0, 0, 3, 0, 5, 0, 0, -1, 0, -1],
             hit := (0, 0), col := (0, 0) }
  roll := (3, 5)
  player := 1
  second := false
  id := 0

theorem stuck_reachable : Spec.ReachStop .debug stuckState := by
  have h0 : Spec.ReachStop .debug (BG.rollWith BG.new (1, 2)) := .start (by unfold Spec.DiceInRange; decide)
  have m0 : ∃ ms, BG.getValidMoves .debug (BG.rollWith BG.new (1, 2)) = .ok ms ∧ [(5, 4), (23, 21)] ∈ ms := by
    have : (BG.getValidMoves .debug (BG.rollWith BG.new (1, 2))).toOption.all
        (fun ms => decide ([((5 : Int), (4 : Int)), (23, 21)] ∈ ms)) = true := by decide +kernel
    obtain ⟨ms, hms, -⟩ := C02_no_panic .debug (BG.reach_any (BG.reachStop_reach h0))
    rw [hms .debug] at this
    exact ⟨ms, hms .debug, by simpa [Except.toOption] using this⟩
  have h1 : Spec.ReachStop .debug stuckState1 := by
    obtain ⟨ms, h2, h3⟩ := m0
    exact .step h0 (by decide +kernel) (.move (dice := (3, 5)) h2 h3 (by unfold Spec.DiceInRange; decide) (by decide +kernel))
  have m1 : ∃ ms, BG.getValidMoves .debug stuckState1 = .ok ms ∧ [(18, 21), (16, 21)] ∈ ms := by
    have : (BG.getValidMoves .debug stuckState1).toOption.all
        (fun ms => decide ([((18 : Int), (21 : Int)), (16, 21)] ∈ ms)) = true := by decide +kernel
    obtain ⟨ms, hms, -⟩ := C02_no_panic .debug (BG.reach_any (BG.reachStop_reach h1))
    rw [hms .debug] at this
    exact ⟨ms, hms .debug, by simpa [Except.toOption] using this⟩
  obtain ⟨ms, h2, h3⟩ := m1
  exact .step h1 (by decide +kernel) (.move (dice := (3, 3)) h2 h3 (by unfold Spec.DiceInRange; decide) (by decide +kernel))

/-- C32, full statement for Backgammon. -/
def C32_backgammon_statement : Prop :=
  ∀ (Fl : Floats) (s : BG.State), Spec.ReachStop .debug s → ∀ (player : Int) (iterations limit : Nat) (t : Tape),
    ∃ mv t', mctSearch (G := BG.game .debug) Fl s player iterations limit t = .ok (mv, t')

/-- C32 is false for Backgammon: after one move of each side the search can panic, with every configuration that runs at
least one iteration and every random stream. -/
theorem C32_backgammon_refuted : ¬ C32_backgammon_statement ∧
    ∀ (Fl : Floats) (player : Int) (iterations limit : Nat) (t : Tape), 0 < iterations →
      mctSearch (G := BG.game .debug) Fl stuckState player iterations limit t = .error .explicitPanic := by
  have key : ∀ (Fl : Floats) (player : Int) (iterations limit : Nat) (t : Tape), 0 < iterations →
      mctSearch (G := BG.game .debug) Fl stuckState player iterations limit t = .error .explicitPanic := by
    intro Fl player iterations limit t hi
    apply C32_stuck_panics
    · show BG.checkWinner stuckState = none
      decide +kernel
    · show BG.getValidMoves .debug stuckState = .ok []
      decide +kernel
    · exact hi
  refine ⟨fun h => ?_, key⟩
  obtain ⟨mv, t', h1⟩ := h demoFloats stuckState stuck_reachable 1 1 1 demoTape
  rw [key demoFloats 1 1 1 demoTape (by omega)] at h1
  cases h1

/-! ## C33 -/

/-- What a rollout should be: play legal moves (or pass) until there is a winner or the limit is reached; the result is
the outcome for `player`, or 0 at the limit. -/
inductive Rollout (G : Game) (player : Int) : Nat → G.S → Int → Prop
  | limit {s} : Rollout G player 0 s 0
  | over {n s w} : G.winner s = some w → Rollout G player (n + 1) s (if w = player then 1 else if w = -player then -1 else 0)
  | move {n s ms a s' v} : G.winner s = none → G.moves s = .ok ms → a ∈ ms → Plays G s a s' →
      Rollout G player n s' v → Rollout G player (n + 1) s v
  | pass {n s s' t t' v} : G.winner s = none → G.moves s = .ok [] → G.skip s t = .ok (s', t') →
      Rollout G player n s' v → Rollout G player (n + 1) s v

theorem Rollout.inv {G : Game} {player : Int} {k : Nat} {s : G.S} {v : Int} (h : Rollout G player (k + 1) s v) :
    (∃ w, G.winner s = some w ∧ v = if w = player then 1 else if w = -player then -1 else 0) ∨
    (G.winner s = none ∧ ∃ ms a s', G.moves s = .ok ms ∧ a ∈ ms ∧ Plays G s a s' ∧ Rollout G player k s' v) ∨
    (G.winner s = none ∧ G.moves s = .ok []) := by
  cases h with
  | over h => exact .inl ⟨_, h, rfl⟩
  | move h1 h2 h3 h4 h5 => exact .inr (.inl ⟨h1, _, _, _, h2, h3, h4, h5⟩)
  | pass h1 h2 _ _ => exact .inr (.inr ⟨h1, h2⟩)

/-- C33, full statement. -/
def C33_statement : Prop :=
  ∀ (G : Game) (Fl : Floats) (n : Node G Fl) (player : Int) (limit : Nat) (t t' : Tape) (v : Int),
    simulate n player limit t = .ok (v, t') → Rollout G player limit n.state v

/-- A TicTacToe position with one free cell, which completes a row for the player to move. -/
def lastCell : TTT.State := { player := 1, board := #v[1, 1, 0, -1, -1, 1, -1, 1, -1], id := 0 }

/-- The rollout of a node whose position has no winner always reports 0: its loop tests the winner of the start
position instead of the current one. -/
theorem C33_always_zero {n : Node G Fl} (hw : G.winner n.state = none) {player : Int} {limit : Nat} {t t' : Tape}
    {v : Int} (h : simulate n player limit t = .ok (v, t')) : v = 0 := by
  have key : ∀ (limit : Nat) (curr : G.S) (t : Tape), simulateLoop n.state player limit curr t = .ok (v, t') → v = 0 := by
    intro limit
    induction limit with
    | zero =>
      intro curr t h
      have := M.pure_ok.1 h
      simp only [Prod.mk.injEq] at this
      exact this.1
    | succ k ih =>
      intro curr t h
      unfold simulateLoop at h
      rw [hw] at h
      simp only at h
      obtain ⟨ms, t1, -, h⟩ := M.bind_ok.1 h
      obtain ⟨o, t2, -, h⟩ := M.bind_ok.1 h
      cases o with
      | some a =>
        obtain ⟨s', t3, -, h⟩ := M.bind_ok.1 h
        exact ih _ _ h
      | none =>
        obtain ⟨s', t3, -, h⟩ := M.bind_ok.1 h
        exact ih _ _ h
  exact key limit n.state t h

/-- C33 is false: from `lastCell` every rollout with limit 2 is won by player 1, but 0 is reported. -/
theorem C33_refuted : ¬ C33_statement := by
  intro hst
  let n : Node (TTT.game .debug) demoFloats := freshNode lastCell 0 none none (0 : Int) [(2 : Nat)]
  have hsim : ∃ t', simulate n 1 2 demoTape = .ok (0, t') := by
    have hok : ∃ v t', simulate n 1 2 demoTape = .ok (v, t') :=
      simulate_ok (ttt_safe .debug) lastCell 1 2 lastCell (.inl rfl) demoTape
    obtain ⟨v, t', h⟩ := hok
    have := C33_always_zero (n := n) (show TTT.checkWinner lastCell = none by decide +kernel) h
    subst this
    exact ⟨t', h⟩
  obtain ⟨t', hsim⟩ := hsim
  have hr := hst (TTT.game .debug) demoFloats n 1 2 demoTape t' 0 hsim
  have hms : TTT.getValidMoves lastCell = [2] := by decide +kernel
  have hw0 : TTT.checkWinner lastCell = none := by decide +kernel
  have hw0' : (TTT.game .debug).winner n.state = none := hw0
  have hm0 : (TTT.game .debug).moves n.state = .ok [(2 : Nat)] := congrArg Except.ok hms
  rcases Rollout.inv hr with ⟨w, h1, -⟩ | ⟨-, ms, a, s', h1, h2, ⟨t1, t2, h3⟩, h4⟩ | ⟨-, h1⟩
  · rw [hw0'] at h1; cases h1
  · rw [hm0] at h1
    injection h1 with h1
    subst h1
    have ha : a = (2 : Nat) := List.mem_singleton.1 h2
    subst ha
    have h3 : M.lift (TTT.applyMove .debug lastCell 2) t1 = .ok (s', t2) := h3
    have h5 := (M.lift_ok.1 h3).1
    have h6 : TTT.applyMove .debug lastCell 2 =
        .ok { player := -1, board := #v[1, 1, 1, -1, -1, 1, -1, 1, -1], id := 0 } := by decide +kernel
    have h7 : s' = ({ player := -1, board := #v[1, 1, 1, -1, -1, 1, -1, 1, -1], id := 0 } : TTT.State) := by
      have h8 := h6.symm.trans h5
      injection h8 with h8
      exact h8.symm
    have hw2 : TTT.checkWinner { player := -1, board := #v[1, 1, 1, -1, -1, 1, -1, 1, -1], id := 0 } = some 1 := by
      decide +kernel
    have hw1 : (TTT.game .debug).winner s' = some 1 := by
      rw [h7]
      exact hw2
    rcases Rollout.inv h4 with ⟨w, h8, h9⟩ | ⟨h8, -⟩ | ⟨h8, -⟩
    · rw [hw1] at h8
      injection h8 with h8
      subst h8
      simp at h9
    · rw [hw1] at h8; cases h8
    · rw [hw1] at h8; cases h8
  · rw [hm0] at h1
    injection h1 with h1
    cases h1

/-- C33, the part that holds: the result is right for nodes whose own position is decided, and for limit 0. -/
theorem C33_partial (n : Node G Fl) (player : Int) (limit : Nat) (t t' : Tape) (v : Int)
    (hn : (∃ w, G.winner n.state = some w) ∨ limit = 0) (h : simulate n player limit t = .ok (v, t')) :
    Rollout G player limit n.state v := by
  cases limit with
  | zero =>
    have := M.pure_ok.1 h
    simp only [Prod.mk.injEq] at this
    rw [this.1]
    exact .limit
  | succ k =>
    rcases hn with ⟨w, hw⟩ | h0
    · unfold simulate simulateLoop at h
      rw [hw] at h
      have := M.pure_ok.1 h
      simp only [Prod.mk.injEq] at this
      rw [this.1]
      exact .over hw
    · omega

end DieE.Props.S
