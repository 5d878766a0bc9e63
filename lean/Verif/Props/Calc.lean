import Verif.Props.Win

/-!
# Computing a search

The plain search of a TicTacToe position does not depend on the random numbers: rollouts of undecided positions report 0
whatever they play (C33).  So it can be computed, with scores known only approximately, as long as no two compared scores
are too close to each other.  `Cell` is a node with an integer value, `calcStep` one iteration, which gives up when it is
not sure of a comparison.  `calcStep_sound` says that the search does what was computed.
-/

namespace DieE.Props.Ca
open DieE DieE.Mcts DieE.Props.Wn
variable {pf : Profile} {Fl : Floats} {B : Nat}

/-- A node of a computed tree. -/
structure Cell where
  state : TTT.State
  parent : Option Nat
  children : List Nat
  visits : Nat
  value : Int
  action : Option Nat
  expandable : List Nat
  deriving DecidableEq

/-- The node meant. -/
def Cell.up (pf : Profile) (Fl : Floats) (i : Nat) (c : Cell) : Node (TTT.game pf) Fl where
  state := c.state
  idx := i
  parent := c.parent
  children := c.children
  visits := c.visits
  value := Fl.ofInt c.value
  policy := Fl.ofInt 0
  action := c.action
  expandable := c.expandable

/-- The tree meant. -/
def up (pf : Profile) (Fl : Floats) (l : List Cell) : Store (TTT.game pf) Fl := l.mapIdx (Cell.up pf Fl)

theorem up_get (l : List Cell) (i : Nat) : (up pf Fl l)[i]? = (l[i]?).map (Cell.up pf Fl i) := List.getElem?_mapIdx ..

theorem up_length (l : List Cell) : (up pf Fl l).length = l.length := List.length_mapIdx ..

theorem up_some {l : List Cell} {i : Nat} {c : Cell} (h : l[i]? = some c) : (up pf Fl l)[i]? = some (c.up pf Fl i) := by
  rw [up_get, h]; rfl

theorem up_node {l : List Cell} {i : Nat} {c : Cell} (h : l[i]? = some c) : getNode (up pf Fl l) i = .ok (c.up pf Fl i) :=
  getNode_ok.2 (up_some h)

theorem up_set (l : List Cell) (i : Nat) (c : Cell) : (up pf Fl l).set i (c.up pf Fl i) = up pf Fl (l.set i c) := by
  refine List.ext_getElem? fun j => ?_
  rw [up_get, List.getElem?_set, List.getElem?_set]
  by_cases h : i = j
  · subst h
    rw [if_pos rfl, if_pos rfl, up_length]
    split <;> rfl
  · rw [if_neg h, if_neg h, up_get]

theorem up_append (l : List Cell) (c : Cell) : up pf Fl l ++ [c.up pf Fl l.length] = up pf Fl (l ++ [c]) := by
  refine List.ext_getElem? fun j => ?_
  rw [up_get]
  rcases Nat.lt_trichotomy j l.length with h | h | h
  · rw [List.getElem?_append_left (by rw [up_length]; exact h), List.getElem?_append_left h, up_get]
  · subst h
    rw [List.getElem?_append_right (by rw [up_length]), List.getElem?_append_right (Nat.le_refl _), up_length]
    simp
  · rw [List.getElem?_append_right (by rw [up_length]; omega), List.getElem?_append_right (by omega), up_length]
    have : j - l.length = (j - l.length - 1) + 1 := by omega
    rw [this]
    rfl

/-! ## Selection -/

/-- Whether the score of the first child is greater than that of the second, if their parent `i` has `p` visits. -/
abbrev Judge := Nat → Cell → Cell → Option Bool

/-- The best of `a`, at `k`, and the children `js` of `i`. -/
def pick (gt : Judge) (l : List Cell) (i p : Nat) : Nat → Cell → List Nat → Option Nat
  | k, _, [] => some k
  | k, a, j :: js =>
    match l[j]? with
    | none => none
    | some x =>
      if x.parent = some i then
        match gt p a x with
        | none => none
        | some true => pick gt l i p k a js
        | some false => pick gt l i p j x js
      else none

/-- `select_leaf_node` -/
def calcLeaf (gt : Judge) (l : List Cell) : Nat → Nat → Option Nat
  | 0, _ => none
  | f + 1, i =>
    match l[i]? with
    | none => none
    | some n =>
      if n.children.isEmpty || !n.expandable.isEmpty then some i
      else match n.children with
        | [] => none
        | j :: js =>
          match l[j]? with
          | none => none
          | some x =>
            if x.parent = some i then
              match pick gt l i n.visits j x js with
              | none => none
              | some k => calcLeaf gt l f k
            else none

/-- The judge knows the order of scores. -/
def Just (Fl : Floats) (gt : Judge) : Prop := ∀ (p : Nat) (a x : Cell) (b : Bool), gt p a x = some b →
  (Fl.cmp (Fl.ucb (Fl.ofInt a.value) a.visits p) (Fl.ucb (Fl.ofInt x.value) x.visits p) = .gt ↔ b = true)

/-- The step of `max_by` in `select_ucb`. -/
abbrev foldStep (st : Store (TTT.game pf) Fl) (acc x : Node (TTT.game pf) Fl) : Res (Node (TTT.game pf) Fl) := do
  let o ← (do
    let u ← acc.ucb st
    let v ← x.ucb st
    pure (Fl.cmp u v) : Res Ordering)
  pure (if o = .gt then acc else x)

theorem up_ucb {l : List Cell} {i k : Nat} {n a : Cell} (hi : l[i]? = some n) (hp : a.parent = some i) :
    (a.up pf Fl k).ucb (up pf Fl l) = .ok (Fl.ucb (Fl.ofInt a.value) a.visits n.visits) := by
  unfold Node.ucb
  rw [show (a.up pf Fl k).parent = some i from hp]
  simp only
  rw [up_node hi]
  rfl

theorem pick_sound {gt : Judge} (hj : Just Fl gt) {l : List Cell} {i : Nat} {n : Cell} (hi : l[i]? = some n) (js : List Nat)
    {k r : Nat} {a : Cell} (hk : l[k]? = some a) (hp : a.parent = some i) (h : pick gt l i n.visits k a js = some r) :
    ∃ (ns : List (Node (TTT.game pf) Fl)) (c : Cell), js.mapM (getNode (up pf Fl l)) = .ok ns ∧
      ns.foldlM (foldStep (up pf Fl l)) (a.up pf Fl k) = .ok (c.up pf Fl r) ∧ l[r]? = some c := by
  induction js generalizing k a with
  | nil =>
    cases Option.some.inj h
    exact ⟨[], a, rfl, rfl, hk⟩
  | cons j js ih =>
    unfold pick at h
    cases hx : l[j]? with
    | none => rw [hx] at h; cases h
    | some x =>
      rw [hx] at h
      simp only at h
      split at h
      case isFalse => cases h
      case isTrue hxp =>
        have hstep : foldStep (up pf Fl l) (a.up pf Fl k) (x.up pf Fl j) =
            .ok (if Fl.cmp (Fl.ucb (Fl.ofInt a.value) a.visits n.visits) (Fl.ucb (Fl.ofInt x.value) x.visits n.visits) = .gt
              then a.up pf Fl k else x.up pf Fl j) := by
          unfold foldStep
          rw [up_ucb hi hp, up_ucb hi hxp]
          rfl
        cases hg : gt n.visits a x with
        | none => rw [hg] at h; cases h
        | some b =>
          rw [hg] at h
          have hb := hj _ _ _ _ hg
          cases b with
          | true =>
            obtain ⟨ns, c, h1, h2, h3⟩ := ih hk hp h
            refine ⟨x.up pf Fl j :: ns, c, ?_, ?_, h3⟩
            · rw [List.mapM_cons, up_node hx, h1]; rfl
            · rw [List.foldlM_cons, hstep, if_pos (hb.2 rfl)]; exact h2
          | false =>
            obtain ⟨ns, c, h1, h2, h3⟩ := ih hx hxp h
            refine ⟨x.up pf Fl j :: ns, c, ?_, ?_, h3⟩
            · rw [List.mapM_cons, up_node hx, h1]; rfl
            · rw [List.foldlM_cons, hstep, if_neg (fun h => by simpa using hb.1 h)]; exact h2

theorem calcLeaf_sound {gt : Judge} (hj : Just Fl gt) {l : List Cell} (f i : Nat) {k : Nat}
    (h : calcLeaf gt l f i = some k) : selectLeaf (up pf Fl l) f i = .ok k := by
  induction f generalizing i with
  | zero => cases h
  | succ f ih =>
    unfold calcLeaf at h
    unfold selectLeaf
    cases hn : l[i]? with
    | none => rw [hn] at h; cases h
    | some n =>
      rw [hn] at h
      simp only at h
      rw [up_node hn]
      show (if (n.up pf Fl i).children.isEmpty || !(n.up pf Fl i).isFullyExpanded then _ else _) = _
      change (if (n.up pf Fl i).children.isEmpty || !(n.up pf Fl i).isFullyExpanded then _ else _) = _ at h
      split at h
      case isTrue hc =>
        rw [if_pos hc]
        cases Option.some.inj h
        rfl
      case isFalse hc =>
        rw [if_neg hc]
        cases hch : n.children with
        | nil => rw [hch] at h; cases h
        | cons j js =>
          rw [hch] at h
          simp only at h
          cases hx : l[j]? with
          | none => rw [hx] at h; cases h
          | some x =>
            rw [hx] at h
            simp only at h
            split at h
            case isFalse => cases h
            case isTrue hxp =>
              cases hp : pick gt l i n.visits j x js with
              | none => rw [hp] at h; cases h
              | some r =>
                rw [hp] at h
                obtain ⟨ns, c, h1, h2, h3⟩ := pick_sound (pf := pf) hj hn js hx hxp hp
                have hsel : selectUcb i (up pf Fl l) = .ok (c.up pf Fl r) := by
                  unfold selectUcb
                  rw [up_node hn]
                  show (childNodes (up pf Fl l) (n.up pf Fl i) >>= _) = _
                  have hcs : childNodes (up pf Fl l) (n.up pf Fl i) = .ok (x.up pf Fl j :: ns) := by
                    unfold childNodes
                    rw [show (n.up pf Fl i).children = j :: js from hch, List.mapM_cons, up_node hx, h1]
                    rfl
                  rw [hcs]
                  show (maxBy _ (x.up pf Fl j :: ns) >>= _) = _
                  have hm : maxBy (fun a b => (do
                      let u ← a.ucb (up pf Fl l)
                      let v ← b.ucb (up pf Fl l)
                      pure (Fl.cmp u v) : Res Ordering)) (x.up pf Fl j :: ns) = .ok (some (c.up pf Fl r)) := by
                    unfold maxBy
                    show (ns.foldlM (foldStep (up pf Fl l)) (x.up pf Fl j) >>= _) = _
                    rw [h2]
                    rfl
                  rw [hm]
                  rfl
                rw [hsel]
                exact ih r h

/-! ## Recording and expanding -/

/-- `backpropagate` -/
def calcBack (v : Int) : Nat → Nat → List Cell → Option (List Cell)
  | 0, _, _ => none
  | f + 1, i, l =>
    match l[i]? with
    | none => none
    | some n =>
      if n.visits < 1000 ∧ -1000 < n.value ∧ n.value < 1000 then
        match n.parent with
        | none => some (l.set i { n with visits := n.visits + 1, value := n.value + v })
        | some p => calcBack v f p (l.set i { n with visits := n.visits + 1, value := n.value + v })
      else none

theorem calcBack_sound (hB : 1000 ≤ B) (ha : IntAdd Fl B) {v : Int} (hv : v = 1 ∨ v = -1 ∨ v = 0) (f i : Nat) {l l' : List Cell}
    (h : calcBack v f i l = some l') : backLoop (Fl.ofInt v) f i (up pf Fl l) = .ok (up pf Fl l') := by
  induction f generalizing i l with
  | zero => cases h
  | succ f ih =>
    unfold calcBack at h
    unfold backLoop
    cases hn : l[i]? with
    | none => rw [hn] at h; cases h
    | some n =>
      rw [hn] at h
      simp only at h
      split at h
      case isFalse => cases h
      case isTrue hb =>
        have hil : i < l.length := (List.getElem?_eq_some_iff.1 hn).1
        have hrec : (n.up pf Fl i).record (Fl.ofInt v) = Cell.up pf Fl i { n with visits := n.visits + 1, value := n.value + v } := by
          unfold Node.record Cell.up
          simp only
          rw [ha n.value v hv (by omega) (by omega), vinc_lt (B := 16777216) (Nat.le_refl _) (by omega)]
        have hmod : modifyNode (up pf Fl l) i (Node.record (Fl.ofInt v)) =
            .ok (up pf Fl (l.set i { n with visits := n.visits + 1, value := n.value + v })) := by
          unfold modifyNode
          rw [up_some hn]
          simp only
          rw [hrec, up_set]
        rw [hmod]
        have hget : (l.set i { n with visits := n.visits + 1, value := n.value + v })[i]? =
            some { n with visits := n.visits + 1, value := n.value + v } := List.getElem?_set_self hil
        show (getNode _ i >>= _) = _
        rw [up_node hget]
        change (match n.parent with
          | some p => backLoop (Fl.ofInt v) f p (up pf Fl (l.set i { n with visits := n.visits + 1, value := n.value + v }))
          | none => pure (up pf Fl (l.set i { n with visits := n.visits + 1, value := n.value + v }))) = _
        revert h
        generalize l.set i { n with visits := n.visits + 1, value := n.value + v } = l1
        intro h
        cases hp : n.parent with
        | none =>
          rw [hp] at h
          cases Option.some.inj h
          rfl
        | some p =>
          rw [hp] at h
          exact ih p h

/-- The value recorded first for a position. -/
def calcValue (player : Int) (s : TTT.State) : Int :=
  match TTT.checkWinner s with
  | some w => outcome w player
  | none => 0

/-- A new node. -/
def newCell (s : TTT.State) (parent : Option Nat) (action : Option Nat) : Cell where
  state := s
  parent := parent
  children := []
  visits := 0
  value := 0
  action := action
  expandable := TTT.getValidMoves s

/-- One iteration. -/
def calcStep (gt : Judge) (player : Int) (l : List Cell) : Option (List Cell) :=
  match calcLeaf gt l l.length 0 with
  | none => none
  | some k =>
    match l[k]? with
    | none => none
    | some n =>
      match TTT.checkWinner n.state with
      | some w => calcBack (outcome w player) l.length k l
      | none =>
        match n.expandable.getLast? with
        | none => none
        | some a =>
          if n.state.player = 1 ∨ n.state.player = -1 then
            match TTT.applyMove .debug n.state a with
            | .error _ => none
            | .ok s =>
              calcBack (calcValue player s) (l.length + 1) l.length
                ((l ++ [newCell s (some k) (some a)]).set k
                  { n with expandable := n.expandable.dropLast, children := n.children ++ [l.length] })
          else none

theorem apply_profile (pf : Profile) {s : TTT.State} (hs : s.player = 1 ∨ s.player = -1) (a : Nat) :
    TTT.applyMove pf s a = TTT.applyMove .debug s a := by
  unfold TTT.applyMove
  rcases hs with h | h <;> simp [h, i8]

/-- A computed iteration is what the search does. -/
theorem calcStep_sound {gt : Judge} (hj : Just Fl gt) (hB : 1000 ≤ B) (ha : IntAdd Fl B) {player : Int} {l l' : List Cell}
    (h : calcStep gt player l = some l') {limit : Nat} (hl : 0 < limit) {t t' : Tape} {st' : Store (TTT.game pf) Fl} {k : Nat}
    (hi : iteration player limit 0 (up pf Fl l) t = .ok ((st', k), t')) : st' = up pf Fl l' := by
  unfold calcStep at h
  cases hk : calcLeaf gt l l.length 0 with
  | none => rw [hk] at h; cases h
  | some r =>
    rw [hk] at h
    simp only at h
    cases hn : l[r]? with
    | none => rw [hn] at h; cases h
    | some n =>
      rw [hn] at h
      simp only at h
      unfold iteration at hi
      obtain ⟨i, t1, h1, hi⟩ := M.bind_ok.1 hi
      have hsel := calcLeaf_sound (pf := pf) hj l.length 0 hk
      rw [M.lift_ok] at h1
      unfold selectLeafNode at h1
      rw [up_length, hsel] at h1
      obtain ⟨h1, rfl⟩ := h1
      cases Except.ok.inj h1
      obtain ⟨sel, t2, h2, hi⟩ := M.bind_ok.1 hi
      rw [M.lift_ok, up_node hn] at h2
      obtain ⟨h2, rfl⟩ := h2
      cases Except.ok.inj h2
      change (match TTT.checkWinner n.state with
        | some w => _
        | none => _ : M _) _ = _ at hi
      cases hw : TTT.checkWinner n.state with
      | some w =>
        rw [hw] at h hi
        simp only at h hi
        obtain ⟨st1, t3, h3, hi⟩ := M.bind_ok.1 hi
        rw [M.lift_ok] at h3
        unfold backpropagate at h3
        rw [up_length, calcBack_sound (pf := pf) hB ha (outcome_range _ _) _ _ h] at h3
        cases Except.ok.inj h3.1
        have := M.pure_ok.1 hi
        simp only [Prod.mk.injEq] at this
        exact this.1.1
      | none =>
        rw [hw] at h hi
        simp only at h hi
        cases hlast : n.expandable.getLast? with
        | none => rw [hlast] at h; cases h
        | some a =>
          rw [hlast] at h
          simp only at h
          split at h
          case isFalse => cases h
          case isTrue hpl =>
            cases hs : TTT.applyMove .debug n.state a with
            | error e => rw [hs] at h; cases h
            | ok s =>
              rw [hs] at h
              simp only at h
              obtain ⟨⟨st1, c⟩, t3, h3, hi⟩ := M.bind_ok.1 hi
              obtain ⟨a', next, ms, g1, ⟨u, u', g2⟩, g3, rfl, -, rfl⟩ := expand_ok h3
              have haa : ∀ b : Nat, n.expandable = n.expandable.dropLast ++ [b] → b = a := by
                intro b hb
                rw [hb, List.getLast?_append] at hlast
                exact Option.some.inj hlast
              cases haa a' g1
              have g2 : TTT.applyMove pf n.state a = .ok next ∧ u' = u := (M.lift_ok (α := TTT.State)).1 g2
              rw [apply_profile pf hpl, hs] at g2
              cases Except.ok.inj g2.1
              have g3 : (Except.ok (TTT.getValidMoves s) : Res (List Nat)) = .ok ms := g3
              cases Except.ok.inj g3
              have hst : ((up pf Fl l ++ [freshNode (G := TTT.game pf) (Fl := Fl) s (up pf Fl l).length (some (n.up pf Fl r).idx) (some (show (TTT.game pf).Mv from a))
                    (Fl.ofInt 0) (TTT.getValidMoves s)]).set (n.up pf Fl r).idx
                  { n.up pf Fl r with
                    expandable := (n.up pf Fl r).expandable.dropLast
                    children := (n.up pf Fl r).children ++ [(up pf Fl l).length] }) =
                  up pf Fl ((l ++ [newCell s (some r) (some a)]).set r
                  { n with expandable := n.expandable.dropLast, children := n.children ++ [l.length] }) := by
                rw [← up_set, ← up_append, up_length]
                rfl
              simp only at hi
              obtain ⟨nn, t4, h4, hi⟩ := M.bind_ok.1 hi
              obtain ⟨v, t5, h5, hi⟩ := M.bind_ok.1 hi
              obtain ⟨st2, t6, h6, hi⟩ := M.bind_ok.1 hi
              rw [hst, up_length] at h4 h6
              have hr : r < l.length := (List.getElem?_eq_some_iff.1 hn).1
              have hnew : ((l ++ [newCell s (some r) (some a)]).set r
                  { n with expandable := n.expandable.dropLast, children := n.children ++ [l.length] })[l.length]? =
                  some (newCell s (some r) (some a)) := by
                rw [List.getElem?_set_ne (by omega), List.getElem?_append_right (Nat.le_refl _)]
                simp
              rw [M.lift_ok, up_node hnew] at h4
              obtain ⟨h4, rfl⟩ := h4
              cases Except.ok.inj h4
              have hv := simulateLoop_first (G := TTT.game pf) hl h5
              have hv : v = calcValue player s := hv
              subst hv
              rw [M.lift_ok] at h6
              unfold backpropagate at h6
              have hlen : (up pf Fl ((l ++ [newCell s (some r) (some a)]).set r
                  { n with expandable := n.expandable.dropLast, children := n.children ++ [l.length] })).length = l.length + 1 := by
                rw [up_length]; simp
              rw [hlen, calcBack_sound (pf := pf) hB ha (v := calcValue player s) (firstValue_range (G := TTT.game pf) player s) _ _ h] at h6
              cases Except.ok.inj h6.1
              have := M.pure_ok.1 hi
              simp only [Prod.mk.injEq] at this
              exact this.1.1

/-! ## Runs -/

/-- `n` iterations, each tree checked with `good`. -/
def calcRun (gt : Judge) (player : Int) (good : Nat → List Cell → Bool) : Nat → Nat → List Cell → Option (List Cell)
  | 0, _, l => some l
  | n + 1, k, l =>
    match calcStep gt player l with
    | none => none
    | some l' => if good (k + 1) l' then calcRun gt player good n (k + 1) l' else none

/-- The search reaches the computed trees. -/
theorem calcRun_sound {gt : Judge} (hj : Just Fl gt) (hB : 1000 ≤ B) (ha : IntAdd Fl B) {player : Int}
    {good : Nat → List Cell → Bool} {n k : Nat} {l l' : List Cell} (h : calcRun gt player good n k l = some l')
    {limit : Nat} (hl : 0 < limit) {m : Nat} (hm : m ≤ n) {t t' : Tape} {tr tr' : List Nat} {st' : Store (TTT.game pf) Fl}
    (hi : iterate player limit 0 m (up pf Fl l) tr t = .ok ((st', tr'), t')) :
    ∃ lm, st' = up pf Fl lm ∧ (m = 0 → lm = l) ∧ (0 < m → good (k + m) lm = true) ∧ (m = n → lm = l') := by
  induction n generalizing k l m t tr with
  | zero =>
    have : m = 0 := by omega
    subst this
    have := M.pure_ok.1 hi
    simp only [Prod.mk.injEq] at this
    exact ⟨l, this.1.1, fun _ => rfl, fun h => absurd h (by omega), fun _ => Option.some.inj h⟩
  | succ n ih =>
    unfold calcRun at h
    cases hs : calcStep gt player l with
    | none => rw [hs] at h; cases h
    | some l1 =>
      rw [hs] at h
      simp only at h
      split at h
      case isFalse => cases h
      case isTrue hg =>
        cases m with
        | zero =>
          have := M.pure_ok.1 hi
          simp only [Prod.mk.injEq] at this
          exact ⟨l, this.1.1, fun _ => rfl, fun h => absurd h (by omega), fun h => by omega⟩
        | succ m =>
          obtain ⟨⟨st1, k1⟩, t1, h1, h2⟩ := M.bind_ok.1 hi
          cases calcStep_sound hj hB ha hs hl h1
          obtain ⟨lm, g1, g0, g2, g3⟩ := ih h (by omega) h2
          refine ⟨lm, g1, fun h => by omega, fun _ => ?_, fun h => g3 (by omega)⟩
          by_cases hm0 : m = 0
          · subst hm0
            exact g0 rfl ▸ hg
          · have := g2 (by omega)
            rwa [show k + (m + 1) = k + 1 + m by omega]

end DieE.Props.Ca
