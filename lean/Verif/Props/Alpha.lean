import Verif.Mcts.BatchSafe
import Verif.Mcts.ProbsFacts
import Verif.Mcts.PriorFacts
import Verif.Props.Mcts
import Verif.Props.TensorBG

/-! # C38–C44: the network-guided searches -/

namespace DieE.Props.A
open DieE DieE.Mcts DieE.Props.S

variable {G : Game} {Fl : Floats}

/-! ## Sample data -/

/-- A network for the examples: constant policy, value 0. -/
def demoNet : Net demoFloats :=
  let prior : (Nat → Int) → List Nat → Nat → Int := fun _ codes c => if c ∈ codes then 1 else 0
  let mix : Int → Int → Int := fun p n => p + n
  let noise : Nat → Nat → Int := fun r k => ((r + k) % 3 : Nat)
  { policy := fun _ _ _ => (1 : Int), eval := fun _ _ => (0 : Int), priorBatch := prior, priorTensor := prior,
    priorVec := prior, noise := noise, mixTensor := mix, mixChild := mix, alphaOk := true }

/-- A TicTacToe position with one free cell, which will be a draw. -/
def lastTTT : TTT.State := { player := 1, board := #v[1, -1, 1, 1, -1, -1, -1, 1, 0], id := 0 }

/-- The batch of the examples: a position about to end and the initial position. -/
def demoBatch : List TTT.State := [lastTTT, TTT.new]

/-- The batched search of the examples. -/
def demoRun (order : List Nat) (states : List TTT.State) (iterations : Nat) :
    Res (Store (TTT.game .debug) demoFloats × Tape) :=
  alphaMctsParallel (G := TTT.game .debug) demoNet order states iterations [] demoTape

/-! ## The two games satisfy the assumptions -/

theorem ttt_safeNet (pf : Profile) : SafeNet (TTT.game pf) (fun s : TTT.State => s.player = 1 ∨ s.player = -1) where
  toSafe := ttt_safe pf
  encode := by
    intro s ms a _ hm ha
    have hm : (Except.ok (TTT.getValidMoves s) : Res (List Nat)) = .ok ms := hm
    injection hm with hm
    subst hm
    exact ⟨TTT.encode a, rfl, (T.C29_codes s).1 a ha⟩
  tensor := ⟨[3, 3, 3], fun s _ => by
    obtain ⟨t, h1, h2, -⟩ := T.tensor_content s
    exact ⟨t, h1, h2⟩⟩
  space := show 2 ≤ 9 by decide

theorem bg_safeNet (pf : Profile) : SafeNet (BG.game pf) (fun s : BG.State => Spec.StateOK s) where
  toSafe := bg_safe pf
  encode := by
    intro s ms a hs hm ha
    obtain ⟨n, h1, h2, -⟩ := code_of_returned pf hs hm ha
    refine ⟨n, ?_, ?_⟩
    · show (do let e ← BG.Trait.encode pf s a; pure e.toNat : Res Nat) = .ok n
      rw [h1]; rfl
    · show n < 1352
      omega
  tensor := ⟨[6, 4, 6], fun s hs => by
    have hr : s.roll ≠ (0, 0) := by
      intro h
      have h1 := hs.die1
      rw [h] at h1
      simp at h1
    obtain ⟨t, h1, h2, -⟩ := (C23_content s).2 hr
    exact ⟨t, h1, h2⟩⟩
  space := show 2 ≤ 1352 by decide

theorem ttt_coded (pf : Profile) : Coded (TTT.game pf) (fun s : TTT.State => s.player = 1 ∨ s.player = -1) where
  nodup := by
    intro s ms _ hm
    have hm : (Except.ok (TTT.getValidMoves s) : Res (List Nat)) = .ok ms := hm
    injection hm with hm
    subst hm
    unfold TTT.getValidMoves
    exact List.nodup_range.filter _
  code := by
    intro s ms a _ hm ha
    have hm : (Except.ok (TTT.getValidMoves s) : Res (List Nat)) = .ok ms := hm
    injection hm with hm
    subst hm
    exact ⟨TTT.encode a, rfl, (T.C29_codes s).1 a ha,
      (T.C29_codes s).2.1 a (Nat.le_of_lt (Nat.lt_of_lt_of_le ((T.mem_moves s a).1 ha).1 (by decide)))⟩

theorem bg_moves_nodup (pf : Profile) {s : BG.State} (hs : Spec.StateOK s) {ms : List BG.Actions}
    (hm : BG.getValidMoves pf s = .ok ms) : ms.Nodup := by
  have h := C21_nodup pf hs hm
  rw [List.Nodup, List.pairwise_map] at h
  exact List.Pairwise.imp (fun hne he => hne (by rw [he])) h

theorem bg_coded (pf : Profile) : Coded (BG.game pf) (fun s : BG.State => Spec.StateOK s) where
  nodup := by
    intro s ms hs hm
    exact bg_moves_nodup pf hs hm
  code := by
    intro s ms a hs hm ha
    obtain ⟨n, h1, h2, h3⟩ := code_of_returned pf hs hm ha
    refine ⟨n, ?_, ?_, h3⟩
    · show (do let e ← BG.Trait.encode pf s a; pure e.toNat : Res Nat) = .ok n
      rw [h1]; rfl
    · show n < 1352
      omega

/-! ## C38 -/

/-- The roots are the first nodes of the store. -/
theorem getRootNodes_take {states : List G.S} {st : Store G Fl} (f : Forest states st) :
    getRootNodes st = st.take states.length := by
  unfold getRootNodes
  rw [← List.take_append_drop states.length st, List.filter_append]
  have e1 : (st.take states.length).filter (fun n => n.parent.isNone) = st.take states.length := by
    rw [List.filter_eq_self]
    intro n hn
    obtain ⟨i, hi⟩ := List.getElem?_of_mem hn
    have hil := (List.getElem?_eq_some_iff.1 hi).1
    rw [List.getElem?_take] at hi
    simp only [List.length_take] at hil
    rw [if_pos (by omega)] at hi
    rw [(f.roots i n hi).2 (by omega)]
    rfl
  have e2 : (st.drop states.length).filter (fun n => n.parent.isNone) = [] := by
    rw [List.filter_eq_nil_iff]
    intro n hn
    obtain ⟨i, hi⟩ := List.getElem?_of_mem hn
    rw [List.getElem?_drop] at hi
    intro hp
    have := (f.roots _ n hi).1 (by simpa using hp)
    omega
  rw [e1, e2, List.append_nil, List.take_append_drop]

/-- C38: after the batched search on `states` (which starts with an empty store, otherwise it panics), node `i` is the
parentless root of `states[i]`, no other node is parentless, every node lies below exactly one root, and
`get_root_nodes` returns the roots in the order of the states. -/
theorem C38_roots {net : Net Fl} {order : List Nat} {states : List G.S} {iterations : Nat} {st st' : Store G Fl}
    {t t' : Tape} (ho : order.Perm (List.range states.length))
    (h : alphaMctsParallel net order states iterations st t = .ok (st', t')) :
    (∀ (i : Nat) (s : G.S), states[i]? = some s → ∃ n : Node G Fl, st'[i]? = some n ∧ n.state = s ∧ n.parent = none) ∧
    (∀ (i : Nat) (n : Node G Fl), st'[i]? = some n → n.parent = none → i < states.length) ∧
    (∀ i, i < st'.length → ∃ r, r < states.length ∧ Anc st' r i ∧ ∀ r', r' < states.length → Anc st' r' i → r' = r) ∧
    (getRootNodes st').map Node.state = states := by
  have f := alphaMctsParallel_forest ho h
  refine ⟨?_, fun i n hi hp => (f.roots i n hi).1 hp, ?_, ?_⟩
  · intro i s hs
    obtain ⟨n, h1, h2⟩ := f.state i s hs
    exact ⟨n, h1, h2, (f.roots i n h1).2 (List.getElem?_eq_some_iff.1 hs).1⟩
  · intro i hi
    obtain ⟨r, h1, h2⟩ := f.hasRoot i hi
    exact ⟨r, h1, h2, fun r' h3 h4 => f.rootUnique h3 h1 h4 h2⟩
  · have h1 := getRootNodes_take f
    rw [h1]
    apply List.ext_getElem?
    intro i
    rw [List.getElem?_map, List.getElem?_take]
    by_cases hi : i < states.length
    · rw [if_pos hi, List.getElem?_eq_getElem hi]
      obtain ⟨n, h2, h3⟩ := f.state i _ (List.getElem?_eq_getElem hi)
      rw [h2, ← h3]
      rfl
    · rw [if_neg hi, List.getElem?_eq_none (by omega)]
      rfl

/-- The hypothesis of the theorems on the batched search is met by a run on two TicTacToe games. -/
example : (demoRun [1, 0] demoBatch 3).toOption.map (fun r => (r.1.length, (getRootNodes r.1).length)) = some (36, 2) := by
  decide +kernel

/-- C63: the batched search does not panic: not on a non-empty batch of TicTacToe positions, ... -/
theorem C63_tictactoe (pf : Profile) {net : Net Fl} (ha : net.alphaOk = true) {states : List TTT.State} (hne : states ≠ [])
    (hp : ∀ s ∈ states, s.player = 1 ∨ s.player = -1) {order : List Nat} (ho : order.Perm (List.range states.length))
    (iterations : Nat) (t : Tape) :
    ∃ st t', alphaMctsParallel (G := TTT.game pf) net order states iterations ([] : Store (TTT.game pf) Fl) t =
      .ok (st, t') := by
  obtain ⟨st, t', h, -⟩ := alphaMctsParallel_progress (Fl := Fl) (ttt_safeNet pf) ha hne hp ho iterations t
  exact ⟨st, t', h⟩

/-- ... and not on a non-empty batch of Backgammon states. -/
theorem C63_backgammon (pf : Profile) {net : Net Fl} (ha : net.alphaOk = true) {states : List BG.State} (hne : states ≠ [])
    (hp : ∀ s ∈ states, Spec.StateOK s) {order : List Nat} (ho : order.Perm (List.range states.length))
    (iterations : Nat) (t : Tape) :
    ∃ st t', alphaMctsParallel (G := BG.game pf) net order states iterations ([] : Store (BG.game pf) Fl) t =
      .ok (st, t') := by
  obtain ⟨st, t', h, -⟩ := alphaMctsParallel_progress (Fl := Fl) (bg_safeNet pf) ha hne hp ho iterations t
  exact ⟨st, t', h⟩

/-- The empty batch panics (stacking no tensors). -/
theorem C63_empty {net : Net Fl} (order : List Nat) (iterations : Nat) (t : Tape) :
    alphaMctsParallel net order ([] : List G.S) iterations ([] : Store G Fl) t = .error .tensorError := rfl

/-! ## C39 -/

/-- What the row of a node should be: if no child was visited every entry is NaN; otherwise the row is a probability
distribution, a child reached by `a` has its share of the visits of all children at the code of `a`, and codes that
belong to no legal move have probability zero. -/
structure Shares (st : Store G Fl) (n : Node G Fl) (row : Row) : Prop where
  none : (∀ c ∈ n.children, visitsAt st c = 0) → ∀ code, row code = none
  dist : (∃ c ∈ n.children, visitsAt st c ≠ 0) → IsDist G.actionSpace row
  share : (∃ c ∈ n.children, visitsAt st c ≠ 0) → ∀ (c code : Nat) (m : Node G Fl) (a : G.Mv), c ∈ n.children →
    st[c]? = some m → m.action = some a → G.encode n.state a = .ok code →
    row code = some ((m.visits : Rat) / ((n.children.map (visitsAt st)).sum : Nat))
  zero : (∃ c ∈ n.children, visitsAt st c ≠ 0) → ∀ (code : Nat) (ms : List G.Mv), G.moves n.state = .ok ms →
    (∀ a ∈ ms, G.encode n.state a ≠ .ok code) → row code = some 0

theorem shares_row {R : G.S → Prop} (hc : Coded G R) {st : Store G Fl} (w : WellFormed st) {i : Nat} {n : Node G Fl}
    (hi : st[i]? = some n) (hR : R n.state) :
    Shares st n (normalise G.actionSpace (putAll zeroRow
      ((n.children.map (childEntry n.state st)).map fun w => (w.1, some w.2)))) := by
  obtain ⟨-, h2, h3⟩ := childVisits_ok hc w hi hR
  have htot := entries_total n.state st n
  have hpos : (∃ c ∈ n.children, visitsAt st c ≠ 0) →
      ((n.children.map (childEntry n.state st)).map Prod.snd).sum ≠ 0 := by
    rintro ⟨c, hcm, hv⟩
    rw [htot]
    have := childTotal_pos (st := st) hcm (by omega)
    exact Nat.cast_ne_zero.2 (by omega)
  have hval : (∃ c ∈ n.children, visitsAt st c ≠ 0) → ∀ c, _ := fun h c =>
    normalise_put (N := G.actionSpace) h2 (fun e he => (h3 e he).1) (hpos h) c
  constructor
  · intro hz code
    refine normalise_put_zero h2 (fun e he => (h3 e he).1) ?_ code
    rw [htot]
    have : childTotal st n = 0 := by
      unfold childTotal
      refine List.sum_eq_zero ?_
      intro x hx
      obtain ⟨c, hcm, rfl⟩ := List.mem_map.1 hx
      exact hz c hcm
    rw [this]
    rfl
  · intro h
    exact isDist_share (fun e he => (h3 e he).2) (fun e he => (h3 e he).1) (hpos h) fun c _ => hval h c
  · intro h c code m a hcm hm ha he
    have hmem : childEntry n.state st c ∈ n.children.map (childEntry n.state st) := List.mem_map_of_mem hcm
    have e1 := sel_mem h2 hmem
    have e2 := childEntry_eq (s := n.state) hm ha
    have e3 : codeOf n.state a = code := by unfold codeOf; rw [he]
    rw [e2, e3] at e1
    rw [hval h code, e1, htot]
    rfl
  · intro h code ms hms hno
    rw [hval h code, sel_notMem, zero_div]
    intro hmem
    rw [List.map_map] at hmem
    obtain ⟨c, hcm, rfl⟩ := List.mem_map.1 hmem
    obtain ⟨cn, hcn, -⟩ := w.down i n c hi hcm
    obtain ⟨a, ms', g1, g2, g3, -⟩ := child_legal w hi hcm hcn
    rw [hms] at g2
    injection g2 with g2
    subst g2
    obtain ⟨code, g4, -⟩ := hc.code n.state ms a hR hms g3
    refine hno a g3 ?_
    simp only [Function.comp, childEntry_eq hcn g1, codeOf, g4]

/-- C39: `get_prob_tensor_parallel` on nodes of a search forest returns one row of visit shares per node. -/
theorem C39_rows {R : G.S → Prop} (hc : Coded G R) {st : Store G Fl} (w : WellFormed st) (hR : AllR R st)
    {nodes : List (Node G Fl)} (hn : ∀ n ∈ nodes, ∃ i : Nat, st[i]? = some n) :
    ∃ rows, getProbTensorParallel nodes st = .ok rows ∧ rows.length = nodes.length ∧
      ∀ (j : Nat) (n : Node G Fl) (row : Row), nodes[j]? = some n → rows[j]? = some row → Shares st n row := by
  have hm : nodes.mapM (fun n => childVisits n.state st n) =
      .ok (nodes.map fun n => (n.children.map (childEntry n.state st)).map fun w => (w.1, some w.2)) := by
    apply mapM_eq_map
    intro n hnm
    obtain ⟨i, hi⟩ := hn n hnm
    exact (childVisits_ok hc w hi (hR i n hi)).1
  refine ⟨(nodes.map fun n => (n.children.map (childEntry n.state st)).map fun w => (w.1, some w.2)).map
    fun ws => normalise G.actionSpace (putAll zeroRow ws), ?_, by simp, ?_⟩
  · unfold getProbTensorParallel
    rw [hm]
    simp only [bind, Except.bind]
    rw [if_pos]
    · rfl
    · intro ws hws e he
      obtain ⟨n, hnm, rfl⟩ := List.mem_map.1 hws
      obtain ⟨e', he', rfl⟩ := List.mem_map.1 he
      obtain ⟨i, hi⟩ := hn n hnm
      exact ((childVisits_ok hc w hi (hR i n hi)).2.2 e' he').1
  · intro j n row hj hrow
    rw [List.getElem?_map, List.getElem?_map, hj] at hrow
    simp only [Option.map_some, Option.some.injEq] at hrow
    subst hrow
    obtain ⟨i, hi⟩ := hn n (List.mem_of_getElem? hj)
    exact shares_row hc w hi (hR i n hi)

/-- C39: `get_prob_tensor` returns `None` for a node without children and its visit shares otherwise. -/
theorem C39_single {R : G.S → Prop} (hc : Coded G R) {st : Store G Fl} (w : WellFormed st) (hR : AllR R st)
    {i : Nat} {n : Node G Fl} (hi : st[i]? = some n) :
    (n.children = [] → getProbTensor n.state i st = .ok none) ∧
    (n.children ≠ [] → ∃ row, getProbTensor n.state i st = .ok (some row) ∧ Shares st n row) := by
  unfold getProbTensor
  rw [getNode_ok.2 hi]
  simp only [bind, Except.bind]
  constructor
  · intro h
    rw [h]
    rfl
  · intro h
    obtain ⟨h1, -, h3⟩ := childVisits_ok hc w hi (hR i n hi)
    refine ⟨_, ?_, shares_row hc w hi (hR i n hi)⟩
    rw [if_neg (by simpa using h), h1]
    simp only
    rw [if_pos]
    · rfl
    · intro e he
      obtain ⟨e', he', rfl⟩ := List.mem_map.1 he
      exact (h3 e' he').1

/-- C39 for a whole search, as used by the self-play and match code: after at least one iteration the rows of the roots
are, for each searched state with a legal move, a probability distribution which is zero outside the codes of the legal
moves; for a state without legal move the row is NaN. -/
theorem C39_search {R : G.S → Prop} (hs : SafeNet G R) (hc : Coded G R) {net : Net Fl} (ha : net.alphaOk = true)
    {states : List G.S} (hne : states ≠ []) (hstates : ∀ s ∈ states, R s) {order : List Nat}
    (ho : order.Perm (List.range states.length)) {iterations : Nat} {st : Store G Fl} {t t' : Tape}
    (h : alphaMctsParallel net order states iterations ([] : Store G Fl) t = .ok (st, t')) :
    ∃ rows, getProbTensorParallel (getRootNodes st) st = .ok rows ∧ rows.length = states.length ∧
      ∀ (j : Nat) (s : G.S) (row : Row) (ms : List G.Mv), states[j]? = some s → rows[j]? = some row →
        G.moves s = .ok ms →
        (ms = [] → ∀ code, row code = none) ∧
        (iterations ≠ 0 → ms ≠ [] → IsDist G.actionSpace row) ∧
        ∀ (code : Nat) (x : Rat), row code = some x → x ≠ 0 → ∃ a ∈ ms, G.encode s a = .ok code := by
  obtain ⟨st0, t0, h0, hR⟩ := alphaMctsParallel_progress (Fl := Fl) hs ha hne hstates ho iterations t
  rw [h] at h0
  injection h0 with h0
  simp only [Prod.mk.injEq] at h0
  obtain ⟨rfl, rfl⟩ := h0
  have f := alphaMctsParallel_forest ho h
  obtain ⟨hr1, hr2, -, hroots⟩ := C38_roots ho h
  obtain ⟨rows, h1, h2, h3⟩ := C39_rows hc f.wf hR (nodes := getRootNodes st) (by
    intro n hn
    exact List.getElem?_of_mem (List.mem_of_mem_filter hn))
  refine ⟨rows, h1, ?_, ?_⟩
  · rw [h2, ← List.length_map (f := Node.state), hroots]
  · intro j s row ms hj hrow hms
    have hjl := (List.getElem?_eq_some_iff.1 hj).1
    obtain ⟨n, ms', g1, g2, g3, g4, g5⟩ := alphaMctsParallel_visited ho h j s hj
    rw [hms] at g3
    injection g3 with g3
    subst g3
    -- the `j`-th root is node `j`
    have hnode : (getRootNodes st)[j]? = some n := by
      rw [getRootNodes_take f, List.getElem?_take, if_pos hjl]
      exact g1
    have hsh := h3 j n row hnode hrow
    refine ⟨?_, ?_, ?_⟩
    · intro hnil code
      refine hsh.none ?_ code
      intro c hcm
      obtain ⟨cn, hcn, -⟩ := f.wf.down j n c g1 hcm
      obtain ⟨a, ms', k1, k2, k3, -⟩ := child_legal f.wf g1 hcm hcn
      rw [g2, hms] at k2
      injection k2 with k2
      rw [← k2, hnil] at k3
      cases k3
    · intro hi hm
      obtain ⟨c, hc1, hc2⟩ := g5 hi hm
      exact hsh.dist ⟨c, hc1, by omega⟩
    · intro code x hx hx0
      by_cases hv : ∃ c ∈ n.children, visitsAt st c ≠ 0
      · by_cases hex : ∃ a ∈ ms, G.encode n.state a = .ok code
        · rw [g2] at hex; exact hex
        · have := hsh.zero hv code ms (by rw [g2]; exact hms) (fun a ha hc => hex ⟨a, ha, hc⟩)
          rw [hx] at this
          injection this with this
          exact absurd this hx0
      · have : ∀ c ∈ n.children, visitsAt st c = 0 := fun c hc => Classical.byContradiction fun h => hv ⟨c, hc, h⟩
        rw [hsh.none this code] at hx
        cases hx

/-- The rows of the example run, at the first nine codes. -/
example : ((demoRun [1, 0] demoBatch 3).toOption.bind fun r =>
    (getProbTensorParallel (getRootNodes r.1) r.1).toOption).map (fun rows => rows.map fun row => (List.range 9).map row) =
    some [[some 0, some 0, some 0, some 0, some 0, some 0, some 0, some 0, some 1],
      [some 0, some 0, some 0, some 0, some 0, some 0, some (1/3), some (1/3), some (1/3)]] := by
  decide +kernel

/-! ## C40 -/

/-- C40: an index drawn from the tempered row of a root decodes to a legal move of the searched state, so the
assertions after the decoding hold.  `pw` is `x ↦ x^(1/T)`, of which only `0^(1/T) = 0` is used (it holds for every
positive finite temperature); rounding is not modelled. -/
theorem C40_legal {R : G.S → Prop} (hs : SafeNet G R) (hc : Coded G R) {net : Net Fl} (ha : net.alphaOk = true)
    {states : List G.S} (hne : states ≠ []) (hstates : ∀ s ∈ states, R s) {order : List Nat}
    (ho : order.Perm (List.range states.length)) {iterations : Nat} {st : Store G Fl} {t t' : Tape}
    (h : alphaMctsParallel net order states iterations ([] : Store G Fl) t = .ok (st, t'))
    {rows : List Row} (hrows : getProbTensorParallel (getRootNodes st) st = .ok rows)
    {j : Nat} {s : G.S} {row : Row} (hj : states[j]? = some s) (hrow : rows[j]? = some row)
    {pw : Rat → Rat} (hpw : pw 0 = 0) {c : Nat} {t1 t2 : Tape}
    (hsel : weightedSelect G.actionSpace (temper pw row) t1 = .ok (c, t2)) :
    ∃ a ms, G.decode s c = .ok a ∧ G.moves s = .ok ms ∧ a ∈ ms := by
  obtain ⟨rows', h1, h2, h3⟩ := C39_search hs hc ha hne hstates ho h
  rw [hrows] at h1
  injection h1 with h1
  subst h1
  have hRs : R s := hstates s (List.mem_of_getElem? hj)
  obtain ⟨n, ms, -, -, hms, -⟩ := alphaMctsParallel_visited ho h j s hj
  obtain ⟨-, -, hcode⟩ := h3 j s row ms hj hrow hms
  obtain ⟨hcN, x, hx, hpos⟩ := weightedSelect_ok hsel
  unfold temper at hx
  cases hr : row c with
  | none => rw [hr] at hx; cases hx
  | some y =>
    rw [hr] at hx
    simp only [Option.map_some, Option.some.injEq] at hx
    have hy : y ≠ 0 := by
      intro h0
      rw [h0, hpw] at hx
      rw [← hx] at hpos
      exact absurd hpos (lt_irrefl _)
    obtain ⟨a, ha1, ha2⟩ := hcode c y hr hy
    obtain ⟨c', k1, -, k3⟩ := hc.code s ms a hRs hms ha1
    rw [ha2] at k1
    injection k1 with k1
    subst k1
    exact ⟨a, ms, k3, hms, ha1⟩

/-- C40 (the draw): after at least one iteration, and if the state has a legal move, the draw itself does not panic. -/
theorem C40_draw {R : G.S → Prop} (hs : SafeNet G R) (hc : Coded G R) {net : Net Fl} (ha : net.alphaOk = true)
    {states : List G.S} (hne : states ≠ []) (hstates : ∀ s ∈ states, R s) {order : List Nat}
    (ho : order.Perm (List.range states.length)) {iterations : Nat} (hit : iterations ≠ 0) {st : Store G Fl} {t t' : Tape}
    (h : alphaMctsParallel net order states iterations ([] : Store G Fl) t = .ok (st, t'))
    {rows : List Row} (hrows : getProbTensorParallel (getRootNodes st) st = .ok rows)
    {j : Nat} {s : G.S} {row : Row} (hj : states[j]? = some s) (hrow : rows[j]? = some row)
    {ms : List G.Mv} (hms : G.moves s = .ok ms) (hmne : ms ≠ [])
    {pw : Rat → Rat} (hpw : pw 0 = 0) (hpos : ∀ x, 0 < x → 0 < pw x) (t1 : Tape) :
    ∃ c t2, weightedSelect G.actionSpace (temper pw row) t1 = .ok (c, t2) := by
  obtain ⟨rows', h1, h2, h3⟩ := C39_search hs hc ha hne hstates ho h
  rw [hrows] at h1
  injection h1 with h1
  subst h1
  obtain ⟨-, hd, -⟩ := h3 j s row ms hj hrow hms
  obtain ⟨q, hq, hsum⟩ := hd hit hmne
  have hex : ∃ d, d < G.actionSpace ∧ 0 < q d := by
    by_contra hno
    have : ((List.range G.actionSpace).map q).sum = 0 := by
      refine List.sum_eq_zero ?_
      intro x hx
      obtain ⟨d, hd, rfl⟩ := List.mem_map.1 hx
      have hd := List.mem_range.1 hd
      exact le_antisymm (not_lt.1 fun h => hno ⟨d, hd, h⟩) (hq d hd).2
    rw [this] at hsum
    exact absurd hsum (by decide)
  obtain ⟨d, hd1, hd2⟩ := hex
  refine weightedSelect_progress (d := d) ?_ hd1 (y := pw (q d)) ?_ (hpos _ hd2) t1
  · intro c hcl
    refine ⟨pw (q c), ?_, ?_⟩
    · unfold temper; rw [(hq c hcl).1]; rfl
    · rcases lt_or_eq_of_le (hq c hcl).2 with h | h
      · exact le_of_lt (hpos _ h)
      · rw [← h, hpw]
  · unfold temper; rw [(hq d hd1).1]; rfl

/-- C40 for Backgammon. -/
theorem C40_backgammon (pf : Profile) {net : Net Fl} (ha : net.alphaOk = true)
    {states : List BG.State} (hne : states ≠ []) (hstates : ∀ s ∈ states, Spec.StateOK s) {order : List Nat}
    (ho : order.Perm (List.range states.length)) {iterations : Nat} {st : Store (BG.game pf) Fl} {t t' : Tape}
    (h : alphaMctsParallel net order states iterations ([] : Store (BG.game pf) Fl) t = .ok (st, t'))
    {rows : List Row} (hrows : getProbTensorParallel (getRootNodes st) st = .ok rows)
    {j : Nat} {s : BG.State} {row : Row} (hj : states[j]? = some s) (hrow : rows[j]? = some row)
    {pw : Rat → Rat} (hpw : pw 0 = 0) {c : Nat} {t1 t2 : Tape}
    (hsel : weightedSelect 1352 (temper pw row) t1 = .ok (c, t2)) :
    ∃ a ms, BG.Trait.decode pf s c = .ok a ∧ BG.getValidMoves pf s = .ok ms ∧ a ∈ ms :=
  C40_legal (bg_safeNet pf) (bg_coded pf) ha hne hstates ho h hrows hj hrow hpw hsel

/-- C40 for TicTacToe. -/
theorem C40_tictactoe (pf : Profile) {net : Net Fl} (ha : net.alphaOk = true)
    {states : List TTT.State} (hne : states ≠ []) (hstates : ∀ s ∈ states, s.player = 1 ∨ s.player = -1)
    {order : List Nat} (ho : order.Perm (List.range states.length)) {iterations : Nat} {st : Store (TTT.game pf) Fl}
    {t t' : Tape}
    (h : alphaMctsParallel net order states iterations ([] : Store (TTT.game pf) Fl) t = .ok (st, t'))
    {rows : List Row} (hrows : getProbTensorParallel (getRootNodes st) st = .ok rows)
    {j : Nat} {s : TTT.State} {row : Row} (hj : states[j]? = some s) (hrow : rows[j]? = some row)
    {pw : Rat → Rat} (hpw : pw 0 = 0) {c : Nat} {t1 t2 : Tape}
    (hsel : weightedSelect 9 (temper pw row) t1 = .ok (c, t2)) :
    ∃ a, TTT.decode c = .ok a ∧ a ∈ TTT.getValidMoves s := by
  obtain ⟨a, ms, h1, h2, h3⟩ := C40_legal (ttt_safeNet pf) (ttt_coded pf) ha hne hstates ho h hrows hj hrow hpw hsel
  have h2 : (Except.ok (TTT.getValidMoves s) : Res (List Nat)) = .ok ms := h2
  injection h2 with h2
  rw [h2]
  exact ⟨a, h1, h3⟩

/-- A draw from the second row of the example run (with `pw x = x²`). -/
example : ((demoRun [1, 0] demoBatch 3).toOption.bind fun r =>
    (getProbTensorParallel (getRootNodes r.1) r.1).toOption).bind (fun rows => (rows[1]?).bind fun row =>
      (weightedSelect 9 (temper (fun x => x * x) row) (fun _ => 1)).toOption.map Prod.fst) = some 7 := by
  decide +kernel

/-! ## C41 -/

/-- C41 as stated: every iteration adds one visit to every root (the roots start with one visit; visits are counted in
`f32`, which stops at `2^24`). -/
def C41_statement : Prop :=
  ∀ (G : Game) (Fl : Floats) (net : Net Fl) (order : List Nat) (states : List G.S) (iterations : Nat) (st : Store G Fl)
    (t t' : Tape), order.Perm (List.range states.length) →
    alphaMctsParallel net order states iterations ([] : Store G Fl) t = .ok (st, t') →
    ∀ r, r < states.length → visitsAt st r = min (iterations + 1) (2 ^ 24)

/-- The visits of the two roots of the example batch after the first iterations: the first game always selects its only
child, which is terminal, so its entry of `selected_nodes_idxs` keeps the initial 0 and root 0 is evaluated (and
visited) once more whenever the other game selects a node to expand. -/
theorem demo_visits : (List.range 4).map (fun k => (demoRun [0, 1] demoBatch k).toOption.map fun r =>
    (visitsAt r.1 0, visitsAt r.1 1)) = [some (1, 1), some (3, 2), some (5, 3), some (7, 4)] := by
  decide +kernel

/-- C41 is false. -/
theorem C41_refuted : ¬ C41_statement := by
  intro h
  have hd : (demoRun [0, 1] demoBatch 1).toOption.map (fun r => visitsAt r.1 0) = some 3 := by decide +kernel
  cases hr : demoRun [0, 1] demoBatch 1 with
  | error e => rw [hr] at hd; cases hd
  | ok r =>
    rw [hr] at hd
    simp only [Except.toOption, Option.map_some, Option.some.injEq] at hd
    have := h (TTT.game .debug) demoFloats demoNet [0, 1] demoBatch 1 r.1 demoTape r.2 (List.Perm.refl _) hr 0
      (by decide)
    rw [hd] at this
    exact absurd this (by decide)

theorem countOf_one {P : Nat → Prop} {l : List Nat} {r : Nat} (hr : r < l.length)
    (h : ∀ g k, l[g]? = some k → (P k ↔ g = r)) : countOf P l = 1 := by
  have e : l = (List.range l.length).map fun g => l.getD g 0 := by
    apply List.ext_getElem?
    intro i
    rw [List.getElem?_map]
    by_cases hi : i < l.length
    · rw [List.getElem?_range hi]
      simp [hi]
    · rw [List.getElem?_eq_none (by omega), List.getElem?_eq_none (by simpa using hi)]
      rfl
  unfold countOf
  rw [e, List.countP_map]
  have h1 : ∀ g ∈ List.range l.length, ((fun x => @decide (P x) (Classical.propDecidable _)) ∘ fun g => l.getD g 0) g =
      (g == r) := by
    intro g hg
    have hg := List.mem_range.1 hg
    have := h g (l.getD g 0) (by simp [hg])
    simp only [Function.comp]
    by_cases hgr : g = r
    · rw [@decide_eq_true _ (Classical.propDecidable _) (this.2 hgr), hgr]
      simp
    · rw [@decide_eq_false _ (Classical.propDecidable _) (fun hp => hgr (this.1 hp))]
      simp [hgr]
  rw [List.countP_congr (fun g hg => by rw [h1 g hg])]
  exact (List.nodup_range.count (a := r)).trans (if_pos (List.mem_range.2 hr))

/-- C41, one iteration: if the selections of all games of the batch end in finished positions, or of none, every root
gets exactly one visit. -/
theorem C41_iteration_partial {net : Net Fl} {states : List G.S} {order : List Nat} {st st' : Store G Fl}
    {sel sel' : List Nat} {t t' : Tape} (f : Forest states st) (hs : SelOk states st sel)
    (ho : order.Perm (List.range states.length))
    (h : parallelIteration net order st sel t = .ok ((st', sel'), t'))
    (hall : (∀ g, g < states.length → EndsTerminal st g) ∨ (∀ g, g < states.length → ¬ EndsTerminal st g))
    {r : Nat} (hr : r < states.length) : visitsAt st' r = vinc (visitsAt st r) := by
  obtain ⟨-, hs', -, -, -, h1, h2⟩ := parallelIteration_ok f hs (perm_range ho).1 (perm_range ho).2 h
  obtain ⟨k, kn, hl, hrk, -⟩ := f.leaf hr
  rw [h2 r r k kn hr .refl hl]
  rcases hall with hall | hall
  · obtain ⟨k', kn', hl', hw⟩ := hall r hr
    obtain ⟨rfl, rfl⟩ := hl.unique hl'
    rw [if_pos ⟨hw, hrk⟩, if_neg (fun ⟨g, hg, hn⟩ => hn (hall g hg))]
    rfl
  · have hw : G.winner kn.state = none := by
      by_contra hw
      exact hall r hr ⟨k, kn, hl, hw⟩
    rw [if_neg (fun hc => hc.1 hw), if_pos ⟨r, hr, hall r hr⟩]
    rw [countOf_one (r := r) (by rw [hs'.len]; exact hr)]
    · rfl
    · intro g k' hg
      have hgl : g < states.length := by
        rw [← hs'.len]; exact (List.getElem?_eq_some_iff.1 hg).1
      obtain ⟨kg, kng, hlg, hag, -⟩ := f.leaf hgl
      have hwg : G.winner kng.state = none := by
        by_contra hw
        exact hall g hgl ⟨kg, kng, hlg, hw⟩
      rw [h1 g kg kng hgl hlg, if_pos hwg] at hg
      injection hg with hg
      subst hg
      constructor
      · intro ha
        exact f.rootUnique hgl hr hag ha
      · rintro rfl
        exact hag

/-- C41, one iteration: the visits never shrink, and every root gets at least one visit. -/
theorem C41_atLeast_partial {net : Net Fl} {states : List G.S} {order : List Nat} {st st' : Store G Fl}
    {sel sel' : List Nat} {t t' : Tape} (f : Forest states st) (hs : SelOk states st sel)
    (ho : order.Perm (List.range states.length))
    (h : parallelIteration net order st sel t = .ok ((st', sel'), t')) {r : Nat} (hr : r < states.length) :
    vinc (visitsAt st r) ≤ visitsAt st' r := by
  obtain ⟨-, hs', -, -, -, h1, h2⟩ := parallelIteration_ok f hs (perm_range ho).1 (perm_range ho).2 h
  obtain ⟨k, kn, hl, hrk, -⟩ := f.leaf hr
  rw [h2 r r k kn hr .refl hl]
  by_cases hw : G.winner kn.state = none
  · rw [if_neg (fun hc => hc.1 hw), if_pos ⟨r, hr, fun ⟨k', kn', hl', hw'⟩ => by
      obtain ⟨rfl, rfl⟩ := hl.unique hl'
      exact hw' hw⟩]
    have h3 := h1 r k kn hr hl
    rw [if_pos hw] at h3
    have : 0 < countOf (fun k => Anc st r k) sel' := countOf_pos (List.mem_of_getElem? h3) hrk
    obtain ⟨m, hm⟩ : ∃ m, 0 + countOf (fun k => Anc st r k) sel' = m + 1 :=
      ⟨countOf (fun k => Anc st r k) sel' - 1, by omega⟩
    rw [hm]
    exact le_vincN _ _
  · rw [if_pos ⟨hw, hrk⟩]
    rw [Nat.add_comm]
    exact le_vincN _ _

theorem iterate_visits_single {net : Net Fl} {s : G.S} {order : List Nat} (ho : order.Perm (List.range [s].length))
    (k : Nat) {st st' : Store G Fl} {sel sel' : List Nat} {t t' : Tape} (f : Forest [s] st) (hs : SelOk [s] st sel)
    (h : parallelIterate net order k st sel t = .ok ((st', sel'), t')) : visitsAt st' 0 = vincN k (visitsAt st 0) := by
  induction k generalizing st sel t with
  | zero =>
    have := M.pure_ok.1 h
    simp only [Prod.mk.injEq] at this
    obtain ⟨⟨rfl, rfl⟩, -⟩ := this
    rfl
  | succ k ih =>
    unfold parallelIterate at h
    obtain ⟨⟨st1, sel1⟩, t1, h1, h2⟩ := M.bind_ok.1 h
    obtain ⟨f1, hs1, -⟩ := parallelIteration_ok f hs (perm_range ho).1 (perm_range ho).2 h1
    rw [ih f1 hs1 h2, C41_iteration_partial f hs ho h1 ?_ (show 0 < [s].length by simp)]
    · rfl
    · by_cases he : EndsTerminal st 0
      · left
        intro g hg
        obtain rfl : g = 0 := by simpa using hg
        exact he
      · right
        intro g hg
        obtain rfl : g = 0 := by simpa using hg
        exact he

/-- C41 for batches of one game.  Missing for the full statement: batches in which some, but not all, selections end in
a finished position (there the statement is false, see `C41_refuted`). -/
theorem C41_single_partial {net : Net Fl} {s : G.S} {order : List Nat} {iterations : Nat} {st : Store G Fl} {t t' : Tape}
    (ho : order.Perm (List.range [s].length))
    (h : alphaMctsParallel net order [s] iterations ([] : Store G Fl) t = .ok (st, t')) :
    visitsAt st 0 = min (iterations + 1) (2 ^ 24) := by
  unfold alphaMctsParallel at h
  obtain ⟨st1, t1, h1, h⟩ := M.bind_ok.1 h
  obtain ⟨⟨st2, sel2⟩, t2, h2, h⟩ := M.bind_ok.1 h
  have := M.pure_ok.1 h
  simp only [Prod.mk.injEq] at this
  obtain ⟨rfl, -⟩ := this
  obtain ⟨f, hv⟩ := parallelStart_ok h1
  rw [iterate_visits_single ho iterations f (selOk_replicate f) h2, hv 0 (by simp), vincN_eq _ _ (by decide),
    Nat.add_comm 1]
  rfl

/-- A batch of one game. -/
example : (demoRun [0] [TTT.new] 5).toOption.map (fun r => visitsAt r.1 0) = some 6 := by decide +kernel

/-! ## C42 -/

theorem bind_congr_at {α β : Type} {x y : M α} {f g : α → M β} {t : Tape} (h : x t = y t)
    (hf : ∀ a t', y t = .ok (a, t') → f a t' = g a t') : (x >>= f) t = (y >>= g) t := by
  show (match x t with | .error e => .error e | .ok (a, t') => f a t' : Res (β × Tape)) =
    (match y t with | .error e => .error e | .ok (a, t') => g a t' : Res (β × Tape))
  rw [h]
  cases hy : y t with
  | error e => rfl
  | ok r => exact hf r.1 r.2 hy

/-- C42: the selection phase of an iteration, and with it the whole search, does not depend on the iteration order of
the hash set of games. -/
theorem C42_selection {states : List G.S} {st : Store G Fl} (f : Forest states st) {sel : List Nat}
    (hs : sel.length = states.length) (flag : Bool) {o1 o2 : List Nat} (h1 : o1.Perm (List.range states.length))
    (h2 : o2.Perm (List.range states.length)) : selectPhase o1 st sel flag = selectPhase o2 st sel flag := by
  obtain ⟨a, b, c, h3, h4⟩ := selectPhase_spec o1 f (perm_range h1).1 (fun g hg => ((perm_range h1).2 g).1 hg) sel hs flag
  obtain ⟨a', b', c', h5, h6⟩ := selectPhase_spec o2 f (perm_range h2).1 (fun g hg => ((perm_range h2).2 g).1 hg) sel hs flag
  obtain ⟨rfl, rfl, rfl⟩ := PhaseResult.det f hs
    (fun g => by rw [(perm_range h1).2 g, (perm_range h2).2 g]) h4 h6
  rw [h3, h5]

theorem C42_iterate {net : Net Fl} {states : List G.S} {o1 o2 : List Nat} (h1 : o1.Perm (List.range states.length))
    (h2 : o2.Perm (List.range states.length)) (k : Nat) {st : Store G Fl} (f : Forest states st) {sel : List Nat}
    (hs : SelOk states st sel) (t : Tape) :
    parallelIterate net o1 k st sel t = parallelIterate net o2 k st sel t := by
  induction k generalizing st sel t with
  | zero => rfl
  | succ k ih =>
    have e : parallelIteration net o1 st sel t = parallelIteration net o2 st sel t := by
      unfold parallelIteration
      rw [C42_selection f hs.len false h1 h2]
    unfold parallelIterate
    refine bind_congr_at e ?_
    rintro ⟨st1, sel1⟩ t1 h
    obtain ⟨f1, hs1, -⟩ := parallelIteration_ok f hs (perm_range h2).1 (perm_range h2).2 h
    exact ih f1 hs1 t1

/-- C42 for the whole search: store, random numbers used and panics are the same. -/
theorem C42_search (net : Net Fl) {states : List G.S} {o1 o2 : List Nat} (h1 : o1.Perm (List.range states.length))
    (h2 : o2.Perm (List.range states.length)) (iterations : Nat) (st : Store G Fl) (t : Tape) :
    alphaMctsParallel net o1 states iterations st t = alphaMctsParallel net o2 states iterations st t := by
  unfold alphaMctsParallel
  refine bind_congr_at rfl ?_
  intro st1 t1 h
  obtain ⟨f, -⟩ := parallelStart_ok h
  exact bind_congr_at (C42_iterate h1 h2 iterations f (selOk_replicate f) t1) fun _ _ _ => rfl

/-- Two orders of the example run with two games. -/
example : [0, 1].Perm (List.range demoBatch.length) ∧ [1, 0].Perm (List.range demoBatch.length) := by decide

/-! ## C43 -/

/-- `alpha_mcts` together with its last step, `get_prob_tensor`: `None`, or the probabilities. -/
def alphaMctsProbs (net : Net Fl) (state : G.S) (iterations : Nat) : M (Option Row) := do
  match ← alphaMcts net state iterations with
  | none => pure none
  | some st => M.lift (getProbTensor state 0 st)

/-- C43 as stated, for both games. -/
def C43_statement : Prop :=
  ∀ (Fl : Floats) (net : Net Fl) (pf : Profile) (iterations : Nat) (t : Tape), net.alphaOk = true →
    (∀ s : TTT.State, s.player = 1 ∨ s.player = -1 → TTT.checkWinner s = none →
      ∃ r, alphaMctsProbs (G := TTT.game pf) net s iterations t = .ok r) ∧
    (∀ s : BG.State, Spec.StateOK s → BG.checkWinner s = none →
      ∃ r, alphaMctsProbs (G := BG.game pf) net s iterations t = .ok r)

/-- The search panics for every unfinished state with a legal move, whatever the network and the configuration: the
policy of a single state has the shape `[1, N]`, and `turn_policy_to_probs` reads it with one index. -/
theorem C43_panics {R : G.S → Prop} (hs : SafeNet G R) (net : Net Fl) {s : G.S} (hR : R s) (hw : G.winner s = none)
    {ms : List G.Mv} (hm : G.moves s = .ok ms) (hne : ms ≠ []) (iterations : Nat) (t : Tape) :
    alphaMctsProbs net s iterations t = .error .tensorError := by
  obtain ⟨sh, htensor⟩ := hs.tensor
  obtain ⟨x, hx1, hx2⟩ := htensor s hR
  obtain ⟨a, as, rfl⟩ : ∃ a as, ms = a :: as := by
    cases ms with
    | nil => exact absurd rfl hne
    | cons a as => exact ⟨a, as, rfl⟩
  obtain ⟨c, hc1, hc2⟩ := hs.encode s _ a hR hm (List.mem_cons_self ..)
  have hval : (net.policyTensor G x).value [c] = .error .tensorError := by
    unfold Tensor.value
    rw [if_neg]
    rintro ⟨-, -, h3⟩
    have h4 : Tensor.numel [G.actionSpace] = 1 := h3
    have h5 : Tensor.numel [G.actionSpace] = G.actionSpace := by simp [Tensor.numel]
    have := hs.space
    omega
  have hadd : addNode (Fl := Fl) ([] : Store G Fl) s none none (Fl.ofInt 0) =
      .ok ([{ state := s, idx := 0, parent := none, children := [], visits := 0, value := Fl.ofInt 0,
              policy := Fl.ofInt 0, action := none, expandable := a :: as }], 0) := by
    unfold addNode Node.new
    rw [hm]
    rfl
  have hprob : ∀ n : Node G Fl, n.state = s → n.expandable = a :: as →
      probsVec net (net.policyTensor G x) n = .error .tensorError := by
    intro n h1 h2
    unfold probsVec
    rw [h1, h2]
    unfold probsVecLoop
    rw [hc1]
    simp only [bind, Except.bind]
    rw [hval]
  have hmcts : alphaMcts net s iterations t = .error .tensorError := by
    unfold alphaMcts
    rw [hw]
    simp only
    refine (M.bind_eq (a := _) (t' := t) (by rw [hadd]; rfl)).trans ?_
    simp only
    refine M.bind_err ?_
    unfold applyDirichletToRoot
    refine (M.bind_eq (by unfold getNode; rfl)).trans ?_
    refine (M.bind_eq (by rw [hx1]; rfl)).trans ?_
    refine M.bind_err ?_
    rw [hprob _ rfl rfl]
    rfl
  unfold alphaMctsProbs
  exact M.bind_err hmcts

/-- C43 is false: it fails in the initial position of TicTacToe (and everywhere else, see `C43_panics`). -/
theorem C43_refuted : ¬ C43_statement := by
  intro h
  obtain ⟨r, hr⟩ := (h demoFloats demoNet .debug 0 demoTape rfl).1 TTT.new (by decide) (by decide)
  rw [C43_panics (ttt_safeNet .debug) demoNet (s := TTT.new) (by decide) (by decide)
    (ms := TTT.getValidMoves TTT.new) rfl (show TTT.getValidMoves TTT.new ≠ ([] : List Nat) by decide)] at hr
  cases hr

/-- The store of a search of a state without legal moves. -/
def Lone (s : G.S) (st : Store G Fl) : Prop :=
  ∃ n : Node G Fl, st = [n] ∧ n.state = s ∧ n.idx = 0 ∧ n.parent = none ∧ n.children = [] ∧ n.expandable = []

theorem Lone.iteration {net : Net Fl} {s : G.S} {st : Store G Fl} (h : Lone s st) (hw : G.winner s = none)
    {x : Tensor Int} {sh : List Nat} (hx : G.tensor s = .ok x) (hsh : x.shape = 1 :: sh) (t : Tape) :
    ∃ st', alphaIteration net 0 s st t = .ok (st', t) ∧ Lone s st' := by
  obtain ⟨n, rfl, h1, h2, h3, h4, h5⟩ := h
  have hprob : probsVec net (net.policyTensor G x) n =
      .ok fun c => net.priorVec (fun c => (net.policyTensor G x).at' [c]) [] c := by
    unfold probsVec
    rw [h5]
    rfl
  obtain ⟨v, hv⟩ : ∃ v, (net.evalTensor x).value [0] = .ok v := by
    unfold Tensor.value
    rw [if_pos]
    · exact ⟨_, rfl⟩
    · refine ⟨by simp [Net.evalTensor], ?_, ?_⟩
      · show Tensor.InShape [x.shape.headD 0] [0]
        rw [hsh]
        exact (by decide : Tensor.InShape [1] [0])
      · show Tensor.numel [1] = 1
        decide
  have hexp : ∀ p, alphaExpandVec n p [n] t = .ok (([n], n), t) := by
    intro p
    unfold alphaExpandVec alphaExpandWith
    rw [h5]
    refine (M.bind_eq (a := ([n], [])) (t' := t) rfl).trans ?_
    simp only
    have e : ({ n with children := n.children ++ [], expandable := [] } : Node G Fl) = n := by
      rw [List.append_nil, ← h5]
    rw [e]
    refine (M.bind_eq (a := [n]) (t' := t) ?_).trans rfl
    unfold setNode
    rw [h2]
    rfl
  have hback : ∃ st', backpropagate 0 v [n] = .ok st' ∧ Lone s st' := by
    refine ⟨[n.record v], ?_, n.record v, rfl, h1, h2, h3, h4, h5⟩
    unfold backpropagate
    show backLoop v 1 0 [n] = _
    unfold backLoop
    show (match (n.record v).parent with
      | some p => backLoop v 0 p [n.record v]
      | none => pure [n.record v]) = _
    have : (n.record v).parent = none := h3
    rw [this]
    rfl
  obtain ⟨st', hb1, hb2⟩ := hback
  refine ⟨st', ?_, hb2⟩
  unfold alphaIteration
  have hleaf : alphaLeafNode 0 ([n] : Store G Fl) = .ok 0 := by
    unfold alphaLeafNode
    show alphaLeaf [n] 1 0 = _
    unfold alphaLeaf
    show (if n.children.isEmpty then _ else _) = _
    rw [h4, ← h2]
    rfl
  refine (M.bind_eq (by rw [hleaf]; rfl)).trans ?_
  refine (M.bind_eq (a := n) (t' := t) rfl).trans ?_
  have ht : (!n.isTerminal) = true := by
    unfold Node.isTerminal
    rw [h1, hw]
    rfl
  rw [if_pos ht, h1]
  refine (M.bind_eq (by rw [hx]; rfl)).trans ?_
  refine (M.bind_eq (by rw [hprob]; rfl)).trans ?_
  refine (M.bind_eq (hexp _)).trans ?_
  simp only
  refine (M.bind_eq (by rw [hv]; rfl)).trans ?_
  rw [hb1]
  rfl

theorem Lone.iterate {net : Net Fl} {s : G.S} (k : Nat) {st : Store G Fl} (h : Lone s st) (hw : G.winner s = none)
    {x : Tensor Int} {sh : List Nat} (hx : G.tensor s = .ok x) (hsh : x.shape = 1 :: sh) (t : Tape) :
    ∃ st', alphaIterate net 0 s k st t = .ok (st', t) ∧ Lone s st' := by
  induction k generalizing st with
  | zero => exact ⟨st, rfl, h⟩
  | succ k ih =>
    obtain ⟨st1, h1, h2⟩ := h.iteration (net := net) hw hx hsh t
    obtain ⟨st2, h3, h4⟩ := ih h2
    exact ⟨st2, (M.bind_eq h1).trans h3, h4⟩

/-- C43 where it holds: a finished state gives `None`, and so does a state without legal move.  Missing: the states
with a legal move, for which the statement is false. -/
theorem C43_partial {R : G.S → Prop} (hs : SafeNet G R) (net : Net Fl) {s : G.S} (hR : R s)
    (hm : G.winner s = none → G.moves s = .ok []) (iterations : Nat) (t : Tape) :
    alphaMctsProbs net s iterations t = .ok (none, t) := by
  unfold alphaMctsProbs
  cases hw : G.winner s with
  | some w =>
    refine (M.bind_eq (a := none) (t' := t) ?_).trans rfl
    unfold alphaMcts
    rw [hw]
    rfl
  | none =>
    have hm := hm hw
    obtain ⟨sh, htensor⟩ := hs.tensor
    obtain ⟨x, hx1, hx2⟩ := htensor s hR
    let n : Node G Fl := { state := s, idx := 0, parent := none, children := [], visits := 0, value := Fl.ofInt 0,
                           policy := Fl.ofInt 0, action := none, expandable := [] }
    have hadd : addNode (Fl := Fl) ([] : Store G Fl) s none none (Fl.ofInt 0) = .ok ([n], 0) := by
      unfold addNode Node.new
      rw [hm]
      rfl
    have hroot : applyDirichletToRoot net 0 s [n] t = .ok ([n], t) := by
      unfold applyDirichletToRoot
      refine (M.bind_eq (a := n) (t' := t) rfl).trans ?_
      refine (M.bind_eq (by rw [hx1]; rfl)).trans ?_
      refine (M.bind_eq (a := fun c => net.priorVec (fun c => (net.policyTensor G x).at' [c]) [] c) (t' := t) rfl).trans ?_
      refine (M.bind_eq (a := ([n], n)) (t' := t) rfl).trans ?_
      rfl
    obtain ⟨st, h1, m, rfl, -, -, -, h2, -⟩ :=
      Lone.iterate (net := net) iterations (st := [n]) ⟨n, rfl, rfl, rfl, rfl, rfl, rfl⟩ hw hx1 hx2 t
    have hmcts : alphaMcts net s iterations t = .ok (some [m], t) := by
      unfold alphaMcts
      rw [hw]
      simp only
      refine (M.bind_eq (by rw [hadd]; rfl)).trans ?_
      simp only
      refine (M.bind_eq hroot).trans ?_
      exact (M.bind_eq h1).trans rfl
    refine (M.bind_eq hmcts).trans ?_
    have : getProbTensor s 0 [m] = .ok none := by
      unfold getProbTensor
      show (if m.children.isEmpty then _ else _) = _
      rw [h2]
      rfl
    simp only
    rw [this]
    rfl

/-- A reachable Backgammon state with neither winner nor legal move. -/
example : Spec.ReachStop .debug stuckState ∧ BG.checkWinner stuckState = none ∧
    BG.getValidMoves .debug stuckState = .ok [] := ⟨stuck_reachable, by decide, by decide +kernel⟩

/-! ## C44 -/

/-- C44: the three versions of `turn_policy_to_probs` turn a policy that is positive on the legal codes into the same
distribution, zero outside the codes and proportional to the policy on them. -/
theorem C44_priors {N : Nat} {pol : Row} {q : Nat → Rat} {codes : List Nat} (hpol : ∀ c, c < N → pol c = some (q c))
    (hn : codes.Nodup) (hN : ∀ c ∈ codes, c < N) (hne : codes ≠ []) (hq : ∀ c ∈ codes, 0 < q c) :
    IsPrior N q codes (priorBatchExact N pol codes) ∧ IsPrior N q codes (priorTensorExact N pol codes) ∧
      IsPrior N q codes (priorVecExact N pol codes) :=
  ⟨priorBatch_isPrior hpol hn hN hne hq, priorTensor_isPrior hpol hn hN hne hq, priorVec_isPrior hpol hn hN hne hq⟩

/-- The codes of the legal moves of a state, as used for a node without children, satisfy the assumptions on the codes:
they are pairwise different and below the width. -/
theorem C44_codes {R : G.S → Prop} (hc : Coded G R) {s : G.S} (hR : R s) {ms : List G.Mv} (hm : G.moves s = .ok ms)
    {n : Node G Fl} (hs : n.state = s) (he : n.expandable.Sublist ms ) :
    ∃ codes, codesOf n = .ok codes ∧ codes.Nodup ∧ (∀ c ∈ codes, c < G.actionSpace) ∧
      (codes = [] ↔ n.expandable = []) := by
  refine ⟨n.expandable.map (codeOf s), ?_, nodup_map_codeOf hc hR hm (he.nodup (hc.nodup s ms hR hm)) he.subset, ?_, by simp⟩
  · unfold codesOf
    rw [hs]
    apply mapM_eq_map
    intro a ha
    obtain ⟨c, h1, -⟩ := hc.code s ms a hR hm (he.subset ha)
    unfold codeOf
    rw [h1]
  · intro c hcm
    obtain ⟨a, ha, rfl⟩ := List.mem_map.1 hcm
    obtain ⟨c, h1, h2, -⟩ := hc.code s ms a hR hm (he.subset ha)
    unfold codeOf
    rw [h1]
    exact h2

/-- C44, mixing with noise: both mixes are of this form, over the codes (noise.rs:33) or over the children (noise.rs:19). -/
theorem C44_noise {N : Nat} {eps : Rat} (h0 : 0 ≤ eps) (h1 : eps ≤ 1) {p noise : Row} (hp : IsDist N p)
    (hn : IsDist N noise) : IsDist N fun c => mixExact eps (p c) (noise c) := mix_isDist h0 h1 hp hn

/-- The arithmetic of the search with exact priors (the comparisons are irrelevant here). -/
abbrev exactFloats : Floats where
  F := Val
  ofInt := fun n => some (n : Rat)
  add := Val.add
  inf := none
  ucb := fun _ _ _ => none
  alphaUcb := fun _ _ _ _ => none
  winPct := fun _ _ => none
  cmp := fun _ _ => .eq

/-- C44 in the batched search: if priors are computed exactly and the policy row is positive, then expanding a node
without children gives its children priors that are positive and sum to 1. -/
theorem C44_children {R : G.S → Prop} (hc : Coded G R) {net : Net exactFloats}
    (hnet : net.priorTensor = priorTensorExact G.actionSpace)
    {st st' : Store G exactFloats} (w : WellFormed st) {i : Nat} {n n' : Node G exactFloats} (hi : st[i]? = some n)
    (hch : n.children = []) (hR : R n.state) (hne : n.expandable ≠ []) {row probs : Tensor Val}
    (hrow : row.shape = [G.actionSpace]) {q : Nat → Rat} (hq : ∀ c, c < G.actionSpace → row.at' [c] = some (q c) ∧ 0 < q c)
    (hp : probsTensor net row n = .ok probs) {t t' : Tape}
    (h : alphaExpandTensor n probs st t = .ok ((st', n'), t')) :
    ∃ ps : List Rat, (n'.children.map fun c => ((st'[c]?).map Node.policy : Option Val)) = ps.map (fun x => some (some x)) ∧
      (∀ x ∈ ps, 0 < x) ∧ ps.sum = 1 := by
  obtain ⟨ms, hm, hperm⟩ := w.part i n hi
  have hidx : n.idx = i := w.idx i n hi
  have hil := (List.getElem?_eq_some_iff.1 hi).1
  have hpe : n.expandable.Perm ms := by
    have : childActions st n = [] := by unfold childActions; rw [hch]; rfl
    rw [this, List.append_nil] at hperm
    exact hperm
  have hnd : n.expandable.Nodup := hpe.nodup_iff.2 (hc.nodup _ _ hR hm)
  have hcodes : codesOf n = .ok (n.expandable.map (codeOf n.state)) := by
    unfold codesOf
    apply mapM_eq_map
    intro a ha
    obtain ⟨c, h1, -⟩ := hc.code _ ms a hR hm (hpe.subset ha)
    unfold codeOf
    rw [h1]
  have hN : ∀ c ∈ n.expandable.map (codeOf n.state), c < G.actionSpace := by
    intro c hcm
    obtain ⟨a, ha, rfl⟩ := List.mem_map.1 hcm
    obtain ⟨c, h1, h2, -⟩ := hc.code _ ms a hR hm (hpe.subset ha)
    unfold codeOf
    rw [h1]
    exact h2
  have hcn : (n.expandable.map (codeOf n.state)).Nodup := nodup_map_codeOf hc hR hm hnd hpe.subset
  generalize hcs : n.expandable.map (codeOf n.state) = codes at hcodes hN hcn
  have hcne : codes ≠ [] := by rw [← hcs]; simpa using hne
  have hprior := priorTensor_isPrior (pol := fun c => row.at' [c]) (fun c hcl => (hq c hcl).1) hcn hN hcne
    (fun c hcm => (hq c (hN c hcm)).2)
  have hprobs : probs.shape = [G.actionSpace] ∧
      ∀ c, probs.at' [c] = priorTensorExact G.actionSpace (fun c => row.at' [c]) codes c := by
    unfold probsTensor at hp
    rw [hcodes] at hp
    simp only [bind, Except.bind] at hp
    split at hp
    · injection hp with hp
      rw [← hp]
      refine ⟨hrow, fun c => ?_⟩
      show net.priorTensor _ _ _ = _
      rw [hnet]
      rfl
    · cases hp
  have hsum := ne_of_gt (sum_pos hcne fun c hcm => (hq c (hN c hcm)).2)
  refine ⟨codes.map fun c => q c / (codes.map q).sum, ?_, ?_, ?_⟩
  · obtain ⟨news, h1, -, h3, -⟩ := alphaExpandWith_ok h
    rw [h1]
    apply List.ext_getElem?
    intro j
    rw [List.map_map, List.getElem?_map, List.getElem?_map, ← hcs, List.getElem?_map, hch]
    cases hj : n.expandable[j]? with
    | none =>
      rw [List.getElem?_eq_none_iff] at hj
      rw [List.getElem?_eq_none (by simpa using hj)]
      rfl
    | some a =>
      have hjl := (List.getElem?_eq_some_iff.1 hj).1
      obtain ⟨m, code, k1, k2, k3, k4⟩ := alphaExpandWith_policy (by rw [hidx]; exact hil) h j a hj
      have hr : (List.range' st.length n.expandable.length)[j]? = some (st.length + j) := by
        rw [List.getElem?_range' hjl]
        simp
      rw [List.nil_append, hr]
      simp only [Option.map_some]
      rw [k1]
      have hcode : codeOf n.state a = code := by unfold codeOf; rw [k3]
      have hmem : code ∈ codes := by rw [← hcs, ← hcode]; exact List.mem_map_of_mem (List.mem_of_getElem? hj)
      have hpol : m.policy = some (q code / (codes.map q).sum) := by
        rw [← hprior.share code hmem, ← hprobs.2 code]
        unfold Tensor.value at k4
        split at k4
        · injection k4 with k4
          rw [← k4, hprobs.1]
          rfl
        · cases k4
      simp only [Option.map_some, Function.comp, hpol, hcode, hcs]
  · intro x hx
    obtain ⟨c, hcm, rfl⟩ := List.mem_map.1 hx
    exact div_pos (hq c (hN c hcm)).2 (sum_pos hcne fun c hcm => (hq c (hN c hcm)).2)
  · rw [sum_map_div, div_self hsum]

/-- A network for TicTacToe with exact priors. -/
def exactNet : Net exactFloats where
  policy := fun _ _ c => some (c + 1 : Nat)
  eval := fun _ _ => some 0
  priorBatch := priorBatchExact 9
  priorTensor := priorTensorExact 9
  priorVec := priorVecExact 1352
  noise := fun _ _ => some (1 / 9)
  mixTensor := mixExact (1 / 4)
  mixChild := mixExact (1 / 4)
  alphaOk := true

/-- After one iteration the last child of the root (the one selected) has eight children, whose priors are those of the
policy `c + 1` for the codes 0 to 7. -/
example : ((alphaMctsParallel (G := TTT.game .debug) exactNet [0] [TTT.new] 1 [] demoTape).toOption.map fun r =>
    (r.1.drop 10).map fun n => (n.policy : Val)) =
    some [some (1/36), some (2/36), some (3/36), some (4/36), some (5/36), some (6/36), some (7/36), some (8/36)] := by
  decide +kernel

/-- The priors of a policy `c + 1` for the codes 2 and 5 of 9. -/
example : (List.range 9).map (priorBatchExact 9 (fun c => some (c + 1 : Nat)) [5, 2]) =
    [some 0, some 0, some (1/3), some 0, some 0, some (2/3), some 0, some 0, some 0] := by decide +kernel

end DieE.Props.A
