import Verif.Mcts.AlphaFacts
import Verif.Mcts.Batch

/-!
# Invariants of visits and value sums

`Q v x` is a relation between the visits and the value of a node.  It is kept by the searches if it holds for fresh
nodes and survives `backpropagate` with results satisfying `V`.
-/

namespace DieE.Mcts
variable {G : Game} {Fl : Floats}

/-- Every node satisfies `Q`. -/
def AllQ (Q : Nat → Fl.F → Prop) (st : Store G Fl) : Prop := ∀ n ∈ st, Q n.visits n.value

/-- Results satisfying `V` may be recorded. -/
def Keeps (Q : Nat → Fl.F → Prop) (V : Fl.F → Prop) : Prop := ∀ v x r, Q v x → V r → Q (vinc v) (Fl.add x r)

variable {Q : Nat → Fl.F → Prop} {V : Fl.F → Prop}

theorem AllQ.get {st : Store G Fl} (h : AllQ Q st) {i : Nat} {n : Node G Fl} (hi : st[i]? = some n) :
    Q n.visits n.value := h n (List.mem_of_getElem? hi)

theorem AllQ.set {st : Store G Fl} (h : AllQ Q st) {i : Nat} {n : Node G Fl} (hn : Q n.visits n.value) :
    AllQ Q (st.set i n) := by
  intro m hm
  rcases List.mem_or_eq_of_mem_set hm with hm | rfl
  · exact h m hm
  · exact hn

theorem AllQ.append {st : Store G Fl} (h : AllQ Q st) {n : Node G Fl} (hn : Q n.visits n.value) :
    AllQ Q (st ++ [n]) := by
  intro m hm
  rcases List.mem_append.1 hm with hm | hm
  · exact h m hm
  · rw [List.mem_singleton.1 hm]; exact hn

theorem addNode_q (h0 : Q 0 (Fl.ofInt 0)) {st st' : Store G Fl} (h : AllQ Q st) {s : G.S} {p : Option Nat}
    {a : Option G.Mv} {pol : Fl.F} {k : Nat} (e : addNode st s p a pol = .ok (st', k)) : AllQ Q st' := by
  obtain ⟨ms, -, -, rfl⟩ := addNode_ok.1 e
  exact h.append h0

theorem setNode_q {st st' : Store G Fl} (h : AllQ Q st) {n : Node G Fl} (hn : Q n.visits n.value)
    (e : setNode st n = .ok st') : AllQ Q st' := by
  unfold setNode at e
  split at e
  · cases e; exact h.set hn
  · cases e

theorem backLoop_q (hr : Keeps Q V) {r : Fl.F} (hv : V r) (f : Nat) {i : Nat} {st st' : Store G Fl} (h : AllQ Q st)
    (e : backLoop r f i st = .ok st') : AllQ Q st' := by
  induction f generalizing i st with
  | zero => cases e
  | succ f ih =>
    unfold backLoop at e
    obtain ⟨st1, h1, e⟩ := Res.bind_ok.1 e
    have hq : AllQ Q st1 := by
      unfold modifyNode at h1
      cases hi : st[i]? with
      | none => rw [hi] at h1; cases h1
      | some n =>
        rw [hi] at h1
        cases h1
        exact h.set (hr _ _ _ (h.get hi) hv)
    obtain ⟨n, -, e⟩ := Res.bind_ok.1 e
    split at e
    · exact ih hq e
    · cases e; exact hq

theorem backpropagate_q (hr : Keeps Q V) {r : Fl.F} (hv : V r) {i : Nat} {st st' : Store G Fl} (h : AllQ Q st)
    (e : backpropagate i r st = .ok st') : AllQ Q st' := backLoop_q hr hv _ h e

/-! ## The plain search -/

theorem expand_q (h0 : Q 0 (Fl.ofInt 0)) {n : Node G Fl} {st st' : Store G Fl} {c : Nat} {t t' : Tape}
    (h : AllQ Q st) (hn : Q n.visits n.value) (e : expand n st t = .ok ((st', c), t')) : AllQ Q st' := by
  obtain ⟨a, next, ms, -, -, -, -, -, rfl⟩ := expand_ok e
  exact (h.append h0).set hn

theorem outcome_range (w p : Int) : outcome w p = 1 ∨ outcome w p = -1 ∨ outcome w p = 0 := by
  unfold outcome
  split
  · simp
  · split <;> simp

theorem simulateLoop_range {start : G.S} {player : Int} (n : Nat) {curr : G.S} {t t' : Tape} {v : Int}
    (e : simulateLoop start player n curr t = .ok (v, t')) : v = 1 ∨ v = -1 ∨ v = 0 := by
  induction n generalizing curr t with
  | zero => cases M.pure_ok.1 e; simp
  | succ n ih =>
    unfold simulateLoop at e
    cases hw : G.winner start with
    | some w =>
      rw [hw] at e
      cases M.pure_ok.1 e
      exact outcome_range _ _
    | none =>
      rw [hw] at e
      obtain ⟨ms, t1, -, e⟩ := M.bind_ok.1 e
      obtain ⟨r, t2, -, e⟩ := M.bind_ok.1 e
      cases r with
      | some a =>
        obtain ⟨next, t3, -, e⟩ := M.bind_ok.1 e
        exact ih e
      | none =>
        obtain ⟨next, t3, -, e⟩ := M.bind_ok.1 e
        exact ih e

/-- The outcomes may be recorded. -/
def Outcomes (V : Fl.F → Prop) : Prop := V (Fl.ofInt 1) ∧ V (Fl.ofInt (-1)) ∧ V (Fl.ofInt 0)

theorem Outcomes.of {V : Fl.F → Prop} (h : Outcomes V) {v : Int} (hv : v = 1 ∨ v = -1 ∨ v = 0) : V (Fl.ofInt v) := by
  rcases hv with rfl | rfl | rfl
  · exact h.1
  · exact h.2.1
  · exact h.2.2

theorem iteration_q (h0 : Q 0 (Fl.ofInt 0)) (hr : Keeps Q V) (ho : Outcomes V) {player : Int} {limit root : Nat}
    {st st' : Store G Fl} {k : Nat} {t t' : Tape} (h : AllQ Q st)
    (e : iteration player limit root st t = .ok ((st', k), t')) : AllQ Q st' := by
  unfold iteration at e
  obtain ⟨i, t1, -, e⟩ := M.bind_ok.1 e
  obtain ⟨sel, t2, h2, e⟩ := M.bind_ok.1 e
  cases hw : G.winner sel.state with
  | some w =>
    rw [hw] at e
    obtain ⟨st1, t3, h3, e⟩ := M.bind_ok.1 e
    cases M.pure_ok.1 e
    exact backpropagate_q hr (ho.of (outcome_range _ _)) h (M.lift_ok.1 h3).1
  | none =>
    rw [hw] at e
    obtain ⟨⟨st1, c⟩, t3, h3, e⟩ := M.bind_ok.1 e
    obtain ⟨new, t4, -, e⟩ := M.bind_ok.1 e
    obtain ⟨v, t5, h5, e⟩ := M.bind_ok.1 e
    obtain ⟨st2, t6, h6, e⟩ := M.bind_ok.1 e
    cases M.pure_ok.1 e
    have hsel := h.get (getNode_ok.1 (M.lift_ok.1 h2).1)
    exact backpropagate_q hr (ho.of (simulateLoop_range _ h5)) (expand_q h0 h hsel h3) (M.lift_ok.1 h6).1

theorem iterate_q (h0 : Q 0 (Fl.ofInt 0)) (hr : Keeps Q V) (ho : Outcomes V) {player : Int} {limit root : Nat} (n : Nat)
    {st st' : Store G Fl} {tr tr' : List Nat} {t t' : Tape} (h : AllQ Q st)
    (e : iterate player limit root n st tr t = .ok ((st', tr'), t')) : AllQ Q st' := by
  induction n generalizing st tr t with
  | zero => cases M.pure_ok.1 e; exact h
  | succ n ih =>
    unfold iterate at e
    obtain ⟨⟨st1, k⟩, t1, h1, e⟩ := M.bind_ok.1 e
    exact ih (iteration_q h0 hr ho h h1) e

theorem buildTree_q (h0 : Q 0 (Fl.ofInt 0)) (hr : Keeps Q V) (ho : Outcomes V) {state : G.S} {player : Int}
    {iterations limit : Nat} {st : Store G Fl} {tr : List Nat} {t t' : Tape}
    (e : buildTree Fl state player iterations limit t = .ok ((st, tr), t')) : AllQ Q st := by
  unfold buildTree at e
  obtain ⟨⟨st1, root⟩, t1, h1, e⟩ := M.bind_ok.1 e
  exact iterate_q h0 hr ho _ (addNode_q h0 (by intro n hn; simp at hn) (M.lift_ok.1 h1).1) e

/-! ## The batched search -/

theorem alphaExpandLoop_q (h0 : Q 0 (Fl.ofInt 0)) {n : Node G Fl} {prior : Nat → Res Fl.F} (as : List G.Mv)
    {st st' : Store G Fl} {ch ch' : List Nat} {t t' : Tape} (h : AllQ Q st)
    (e : alphaExpandLoop n prior as st ch t = .ok ((st', ch'), t')) : AllQ Q st' := by
  induction as generalizing st ch t with
  | nil => cases M.pure_ok.1 e; exact h
  | cons a as ih =>
    unfold alphaExpandLoop at e
    obtain ⟨code, t1, -, e⟩ := M.bind_ok.1 e
    obtain ⟨value, t2, -, e⟩ := M.bind_ok.1 e
    obtain ⟨next, t3, -, e⟩ := M.bind_ok.1 e
    obtain ⟨⟨st1, c⟩, t4, h4, e⟩ := M.bind_ok.1 e
    exact ih (addNode_q h0 h (M.lift_ok.1 h4).1) e

theorem alphaExpandWith_q (h0 : Q 0 (Fl.ofInt 0)) {n n' : Node G Fl} {prior : Nat → Res Fl.F} {st st' : Store G Fl}
    {t t' : Tape} (h : AllQ Q st) (hn : Q n.visits n.value)
    (e : alphaExpandWith n prior st t = .ok ((st', n'), t')) : AllQ Q st' := by
  unfold alphaExpandWith at e
  obtain ⟨⟨st1, ch⟩, t1, h1, e⟩ := M.bind_ok.1 e
  obtain ⟨st2, t2, h2, e⟩ := M.bind_ok.1 e
  cases M.pure_ok.1 e
  exact setNode_q (alphaExpandLoop_q h0 _ h h1) (n := { n with children := n.children ++ ch, expandable := [] }) hn (M.lift_ok.1 h2).1

theorem addRoots_q (h0 : Q 0 (Fl.ofInt 0)) (ss : List G.S) {st st' : Store G Fl} (h : AllQ Q st)
    (e : addRoots ss st = .ok st') : AllQ Q st' := by
  induction ss generalizing st with
  | nil => cases e; exact h
  | cons s ss ih =>
    unfold addRoots at e
    obtain ⟨⟨st1, k⟩, h1, e⟩ := Res.bind_ok.1 e
    exact ih (addNode_q h0 h h1) e

/-- The state of a node before the first iteration. -/
def Start (v : Nat) (x : Fl.F) : Prop := v ≤ 1 ∧ x = Fl.ofInt 0

theorem expandRoots_q {probs : Tensor Fl.F} (is : List Nat) {st st' : Store G Fl} {t t' : Tape}
    (h : AllQ (Start (Fl := Fl)) st) (e : expandRoots probs is st t = .ok (st', t')) : AllQ (Start (Fl := Fl)) st' := by
  induction is generalizing st t with
  | nil => cases M.pure_ok.1 e; exact h
  | cons i is ih =>
    unfold expandRoots at e
    obtain ⟨root, t1, h1, e⟩ := M.bind_ok.1 e
    obtain ⟨row, t2, -, e⟩ := M.bind_ok.1 e
    obtain ⟨⟨st1, n1⟩, t3, h3, e⟩ := M.bind_ok.1 e
    have hn := h.get (getNode_ok.1 (M.lift_ok.1 h1).1)
    exact ih (alphaExpandWith_q ⟨by omega, rfl⟩ h (n := { root with visits := 1 }) ⟨Nat.le_refl _, hn.2⟩ h3) e

theorem parallelStart_q {net : Net Fl} {states : List G.S} {st st' : Store G Fl} {t t' : Tape}
    (e : parallelStart net states st t = .ok (st', t')) : AllQ (Start (Fl := Fl)) st' := by
  unfold parallelStart at e
  obtain ⟨u, t1, h1, e⟩ := M.bind_ok.1 e
  have hst : st = [] := by
    have h1 := (M.lift_ok.1 h1).1
    unfold assert at h1
    split at h1
    · rename_i hc; simpa using hc
    · cases h1
  subst hst
  obtain ⟨ts, t2, -, e⟩ := M.bind_ok.1 e
  obtain ⟨x, t3, -, e⟩ := M.bind_ok.1 e
  obtain ⟨pol, t4, -, e⟩ := M.bind_ok.1 e
  obtain ⟨st1, t5, h5, e⟩ := M.bind_ok.1 e
  obtain ⟨probs, t6, -, e⟩ := M.bind_ok.1 e
  exact expandRoots_q _ (addRoots_q ⟨by omega, rfl⟩ _ (by intro n hn; simp at hn) (M.lift_ok.1 h5).1) e

theorem selectGame_q (hr : Keeps Q V) (ho : Outcomes V) {g : Nat} {st : Store G Fl} {sel : List Nat} {flag : Bool}
    {r : Store G Fl × List Nat × Bool} (h : AllQ Q st) (e : selectGame g st sel flag = .ok r) : AllQ Q r.1 := by
  unfold selectGame at e
  obtain ⟨i, -, e⟩ := Res.bind_ok.1 e
  obtain ⟨node, -, e⟩ := Res.bind_ok.1 e
  split at e
  · obtain ⟨root, -, e⟩ := Res.bind_ok.1 e
    obtain ⟨st1, h1, e⟩ := Res.bind_ok.1 e
    cases e
    exact backpropagate_q hr (ho.of (outcome_range _ _)) h h1
  · split at e
    · cases e; exact h
    · cases e

theorem selectPhase_q (hr : Keeps Q V) (ho : Outcomes V) (order : List Nat) {st : Store G Fl} {sel : List Nat}
    {flag : Bool} {r : Store G Fl × List Nat × Bool} (h : AllQ Q st) (e : selectPhase order st sel flag = .ok r) :
    AllQ Q r.1 := by
  unfold selectPhase at e
  induction order generalizing st sel flag with
  | nil => cases e; exact h
  | cons g gs ih =>
    rw [List.foldlM_cons] at e
    obtain ⟨⟨st1, sel1, flag1⟩, h1, e⟩ := Res.bind_ok.1 e
    exact ih (selectGame_q hr ho h h1) e

theorem value_mem {x : Tensor Fl.F} {idx : List Nat} {v : Fl.F} (h : x.value idx = .ok v) : ∃ i, x.at' i = v := by
  unfold Tensor.value at h
  split at h
  · cases h; exact ⟨_, rfl⟩
  · cases h

theorem expandPhase_q (h0 : Q 0 (Fl.ofInt 0)) (hr : Keeps Q V) {net : Net Fl} {policy eval : Tensor Fl.F}
    (he : ∀ idx, V (eval.at' idx)) (l : List (Nat × Nat)) {st st' : Store G Fl} {t t' : Tape} (h : AllQ Q st)
    (e : expandPhase net policy eval l st t = .ok (st', t')) : AllQ Q st' := by
  induction l generalizing st t with
  | nil => cases M.pure_ok.1 e; exact h
  | cons p l ih =>
    obtain ⟨row, i⟩ := p
    unfold expandPhase at e
    obtain ⟨node, t1, h1, e⟩ := M.bind_ok.1 e
    obtain ⟨p, t2, -, e⟩ := M.bind_ok.1 e
    obtain ⟨ev, t3, h3, e⟩ := M.bind_ok.1 e
    obtain ⟨probs, t4, -, e⟩ := M.bind_ok.1 e
    obtain ⟨⟨st1, node1⟩, t5, h5, e⟩ := M.bind_ok.1 e
    obtain ⟨value, t6, h6, e⟩ := M.bind_ok.1 e
    obtain ⟨st2, t7, h7, e⟩ := M.bind_ok.1 e
    have hn := h.get (getNode_ok.1 (M.lift_ok.1 h1).1)
    have hval : V value := by
      obtain ⟨idx, hidx⟩ := value_mem (M.lift_ok.1 h6).1
      have h3 := (M.lift_ok.1 h3).1
      unfold Tensor.get at h3
      split at h3
      · split at h3
        · cases h3
          rw [← hidx]; exact he _
        · cases h3
      · cases h3
    exact ih (backpropagate_q hr hval (alphaExpandWith_q h0 h hn h5) (M.lift_ok.1 h7).1) e

theorem parallelIteration_q (h0 : Q 0 (Fl.ofInt 0)) (hr : Keeps Q V) (ho : Outcomes V) {net : Net Fl}
    (he : ∀ x row, V (net.eval x row)) {order : List Nat} {st st' : Store G Fl} {sel sel' : List Nat} {t t' : Tape}
    (h : AllQ Q st) (e : parallelIteration net order st sel t = .ok ((st', sel'), t')) : AllQ Q st' := by
  unfold parallelIteration at e
  obtain ⟨⟨st1, sel1, flag1⟩, t1, h1, e⟩ := M.bind_ok.1 e
  have hq := selectPhase_q hr ho _ h (M.lift_ok.1 h1).1
  simp only at e
  split at e
  · cases M.pure_ok.1 e; exact hq
  · obtain ⟨ts, t2, -, e⟩ := M.bind_ok.1 e
    obtain ⟨x, t3, -, e⟩ := M.bind_ok.1 e
    obtain ⟨st2, t4, h4, e⟩ := M.bind_ok.1 e
    cases M.pure_ok.1 e
    exact expandPhase_q h0 hr (fun idx => he _ _) _ hq h4

theorem parallelIterate_q (h0 : Q 0 (Fl.ofInt 0)) (hr : Keeps Q V) (ho : Outcomes V) {net : Net Fl}
    (he : ∀ x row, V (net.eval x row)) {order : List Nat} (k : Nat) {st st' : Store G Fl} {sel sel' : List Nat}
    {t t' : Tape} (h : AllQ Q st) (e : parallelIterate net order k st sel t = .ok ((st', sel'), t')) : AllQ Q st' := by
  induction k generalizing st sel t with
  | zero => cases M.pure_ok.1 e; exact h
  | succ k ih =>
    unfold parallelIterate at e
    obtain ⟨⟨st1, sel1⟩, t1, h1, e⟩ := M.bind_ok.1 e
    exact ih (parallelIteration_q h0 hr ho he h h1) e

theorem alphaMctsParallel_q (h0 : Q 0 (Fl.ofInt 0)) (h1 : Q 1 (Fl.ofInt 0)) (hr : Keeps Q V) (ho : Outcomes V)
    {net : Net Fl} (he : ∀ x row, V (net.eval x row)) {order : List Nat} {states : List G.S} {iterations : Nat}
    {st st' : Store G Fl} {t t' : Tape} (e : alphaMctsParallel net order states iterations st t = .ok (st', t')) :
    AllQ Q st' := by
  unfold alphaMctsParallel at e
  obtain ⟨st1, t1, h2, e⟩ := M.bind_ok.1 e
  obtain ⟨⟨st2, sel⟩, t2, h3, e⟩ := M.bind_ok.1 e
  cases M.pure_ok.1 e
  refine parallelIterate_q h0 hr ho he _ ?_ h3
  intro n hn
  obtain ⟨h4, h5⟩ := parallelStart_q h2 n hn
  rw [h5]
  rcases Nat.le_one_iff_eq_zero_or_eq_one.1 h4 with h | h <;> rw [h]
  · exact h0
  · exact h1

end DieE.Mcts

namespace DieE.Mcts
variable {G : Game} {Fl : Floats}

/-- What is added along the path when the leaf `kn` of a game whose root player is `p` is evaluated alone. -/
def Recorded (net : Net Fl) (p : Int) (kn : Node G Fl) (v : Fl.F) : Prop :=
  (∃ w, G.winner kn.state = some w ∧ v = Fl.ofInt (outcome w p)) ∨
    (G.winner kn.state = none ∧ ∃ x y, G.tensor kn.state = .ok x ∧ batchTensor [x] = .ok y ∧ v = net.eval y 0)

theorem alphaExpandWith_old {n n' : Node G Fl} {prior : Nat → Res Fl.F} {st st' : Store G Fl} {t t' : Tape}
    (h : alphaExpandWith n prior st t = .ok ((st', n'), t')) {i : Nat} {m : Node G Fl} (hi : st[i]? = some m)
    (hn : i = n.idx → m = n) : ∃ m', st'[i]? = some m' ∧ m'.visits = m.visits ∧ m'.value = m.value ∧
      m'.policy = m.policy := by
  obtain ⟨news, h1, h2, -, h4, -⟩ := alphaExpandWith_ok h
  have hil := (List.getElem?_eq_some_iff.1 hi).1
  rw [h2]
  by_cases hin : i = n.idx
  · refine ⟨n', by rw [hin, List.getElem?_set_self h4], ?_⟩
    rw [h1, hn hin]
    exact ⟨rfl, rfl, rfl⟩
  · refine ⟨m, ?_, rfl, rfl, rfl⟩
    rw [List.getElem?_set_ne (Ne.symm hin), List.getElem?_append_left hil]
    exact hi

open Classical in
/-- One iteration of the batched search of a single game: along the path from the selected leaf to the root one value is
recorded, elsewhere nothing changes. -/
theorem parallelIteration_one {net : Net Fl} {s : G.S} {st st' : Store G Fl} {sel sel' : List Nat} {t t' : Tape}
    (f : Forest [s] st) (hs : SelOk [s] st sel) (h : parallelIteration net [0] st sel t = .ok ((st', sel'), t')) :
    ∃ k kn v, Leaf st 0 k kn ∧ Anc st 0 k ∧ kn.children = [] ∧ Recorded net (G.player s) kn v ∧
      ∀ (i : Nat) (n : Node G Fl), st[i]? = some n → ∃ n', st'[i]? = some n' ∧
        n'.visits = (if Anc st i k then vinc n.visits else n.visits) ∧
        n'.value = (if Anc st i k then Fl.add n.value v else n.value) := by
  obtain ⟨k, kn, hl, ha, hch⟩ := f.leaf (g := 0) (by simp)
  obtain ⟨k1, kn1, hl1, -, hwin, hnone⟩ := selectGame_spec f (g := 0) (s := s) rfl sel hs.len false
  obtain ⟨rfl, rfl⟩ := hl.unique hl1
  unfold parallelIteration at h
  have hphase : selectPhase [0] st sel false = selectGame 0 st sel false := by
    unfold selectPhase
    simp only [List.foldlM_cons, List.foldlM_nil]
    cases selectGame 0 st sel false <;> rfl
  rw [hphase] at h
  cases hw : G.winner kn.state with
  | some w =>
    obtain ⟨st1, e1, e2, e3⟩ := hwin w hw
    rw [e1, M.bind_eq (M.lift_ok.2 ⟨rfl, rfl⟩)] at h
    have := M.pure_ok.1 h
    simp only [Prod.mk.injEq] at this
    obtain ⟨⟨rfl, rfl⟩, -⟩ := this
    refine ⟨k, kn, _, hl, ha, hch, .inl ⟨w, hw, rfl⟩, ?_⟩
    intro i n hi
    refine ⟨_, e3 i n hi, ?_⟩
    split <;> exact ⟨rfl, rfl⟩
  | none =>
    rw [hnone hw, M.bind_eq (M.lift_ok.2 ⟨rfl, rfl⟩)] at h
    obtain ⟨a, rfl⟩ := List.length_eq_one_iff.1 hs.len
    have hset : [a].set 0 k = [k] := rfl
    rw [hset] at h
    simp only [Bool.not_true, Bool.false_eq_true, if_false] at h
    obtain ⟨ts, t1, e1, h⟩ := M.bind_ok.1 h
    obtain ⟨x, t2, e2, h⟩ := M.bind_ok.1 h
    obtain ⟨st2, t3, e3, h⟩ := M.bind_ok.1 h
    have := M.pure_ok.1 h
    simp only [Prod.mk.injEq] at this
    obtain ⟨⟨rfl, rfl⟩, -⟩ := this
    have hg : getNode st k = .ok kn := getNode_ok.2 hl.2
    have e1 := (M.lift_ok.1 e1).1
    rw [List.mapM_cons, List.mapM_nil, hg] at e1
    obtain ⟨y, ey, e1⟩ := Res.bind_ok.1 e1
    obtain ⟨z, ez, e1⟩ := Res.bind_ok.1 e1
    cases ez
    cases e1
    have ey : G.tensor kn.state = .ok y := ey
    have hz : (List.range [k].length).zip [k] = [(0, k)] := rfl
    rw [hz] at e3
    unfold expandPhase at e3
    obtain ⟨node, t4, g1, e3⟩ := M.bind_ok.1 e3
    have g1 := (M.lift_ok.1 g1).1
    rw [hg] at g1
    cases Except.ok.inj g1
    obtain ⟨p, t5, -, e3⟩ := M.bind_ok.1 e3
    obtain ⟨ev, t6, g3, e3⟩ := M.bind_ok.1 e3
    obtain ⟨probs, t7, -, e3⟩ := M.bind_ok.1 e3
    obtain ⟨⟨st3, node1⟩, t8, g5, e3⟩ := M.bind_ok.1 e3
    obtain ⟨value, t9, g6, e3⟩ := M.bind_ok.1 e3
    obtain ⟨st4, t10, g7, e3⟩ := M.bind_ok.1 e3
    cases M.pure_ok.1 e3
    have hval : value = net.eval x 0 := by
      obtain ⟨idx, hidx⟩ := value_mem (M.lift_ok.1 g6).1
      have g3 := (M.lift_ok.1 g3).1
      unfold Tensor.get at g3
      split at g3
      · split at g3
        · cases g3
          rw [← hidx]
          rfl
        · cases g3
      · cases g3
    obtain ⟨w1, hup, hidx, hlen, -⟩ := alphaExpand_wf f.wf hl.2 rfl g5
    have g7 := (M.lift_ok.1 g7).1
    rw [hidx] at g7
    have hkl := (List.getElem?_eq_some_iff.1 hl.2).1
    obtain ⟨st5, b1, -, b3⟩ := backpropagate_spec value k st3 w1.upLt (by omega)
    rw [b1] at g7
    cases Except.ok.inj g7
    refine ⟨k, kn, value, hl, ha, hch, .inr ⟨hw, y, x, ey, (M.lift_ok.1 e2).1, hval⟩, ?_⟩
    intro i n hi
    have hki : kn.idx = k := f.wf.idx k kn hl.2
    obtain ⟨m', c1, c2, c3, -⟩ := alphaExpandWith_old g5 hi (by
      intro e
      rw [e, hki, hl.2] at hi
      exact (Option.some.inj hi).symm)
    refine ⟨_, b3 i m' c1, ?_⟩
    have : Anc st3 i k ↔ Anc st i k := anc_iff f.wf.upLt hup hkl
    by_cases hik : Anc st i k
    · rw [if_pos (this.2 hik), if_pos hik, if_pos hik]
      exact ⟨by rw [← c2]; rfl, by rw [← c3]; rfl⟩
    · rw [if_neg (fun e => hik (this.1 e)), if_neg hik, if_neg hik]
      exact ⟨c2, c3⟩

end DieE.Mcts
