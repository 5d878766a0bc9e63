import Mathlib.Data.List.Forall2
import Verif.Mcts.Model

/-!
# Positions with exchanged players

A relation between positions that exchanges the players, and the plain search on related positions.
-/

namespace DieE.Mcts
open DieE
variable {G : Game} {Fl : Floats} {α β γ δ : Type}

/-- Both panic in the same way, or both return and the values are related. -/
def RelR (P : α → β → Prop) : Res α → Res β → Prop
  | .ok a, .ok b => P a b
  | .error e, .error e' => e = e'
  | _, _ => False

/-- On each tape, both panic in the same way, or both return, have read the same numbers and the values are related. -/
def RelM (P : α → β → Prop) (m : M α) (m' : M β) : Prop :=
  ∀ t, RelR (fun x y => P x.1 y.1 ∧ x.2 = y.2) (m t) (m' t)

theorem RelR.bind {P : α → β → Prop} {Q : γ → δ → Prop} {x : Res α} {y : Res β} {f : α → Res γ} {g : β → Res δ} (h : RelR P x y)
    (hf : ∀ a b, P a b → RelR Q (f a) (g b)) : RelR Q (x >>= f) (y >>= g) := by
  match x, y, h with
  | .ok a, .ok b, h => exact hf a b h
  | .error _, .error _, h => exact h

theorem RelM.bind {P : α → β → Prop} {Q : γ → δ → Prop} {x : M α} {y : M β} {f : α → M γ} {g : β → M δ} (h : RelM P x y)
    (hf : ∀ a b, P a b → RelM Q (f a) (g b)) : RelM Q (x >>= f) (y >>= g) := by
  intro t
  have h := h t
  show RelR _ (match x t with
    | .error e => .error e
    | .ok (a, t') => f a t' : Res (γ × Tape)) (match y t with
    | .error e => .error e
    | .ok (a, t') => g a t' : Res (δ × Tape))
  match x t, y t, h with
  | .ok (a, t1), .ok (b, t2), ⟨h1, h2⟩ =>
    obtain rfl : t1 = t2 := h2
    exact hf a b h1 t1
  | .error _, .error _, h => exact h

theorem relM_pure {P : α → β → Prop} {a : α} {b : β} (h : P a b) : RelM P (pure a) (pure b) := fun _ => ⟨h, rfl⟩

theorem relM_lift {P : α → β → Prop} {x : Res α} {y : Res β} (h : RelR P x y) : RelM P (M.lift x) (M.lift y) := by
  intro t
  match x, y, h with
  | .ok a, .ok b, h => exact ⟨h, rfl⟩
  | .error _, .error _, h => exact h

theorem relR_eq (x : Res α) : RelR Eq x x := by
  cases x <;> rfl

theorem relM_eq (x : M α) : RelM Eq x x := by
  intro t
  cases x t with
  | error e => exact rfl
  | ok a => exact ⟨rfl, rfl⟩

theorem relR_of_eq {x y : Res α} (h : RelR Eq x y) : x = y := by
  match x, y, h with
  | .ok a, .ok b, h => exact congrArg _ h
  | .error _, .error _, h => exact congrArg _ h

theorem relM_of_eq {x y : M α} (h : RelM Eq x y) : x = y := by
  funext t
  refine relR_of_eq ?_
  have h := h t
  match x t, y t, h with
  | .ok (a, t1), .ok (b, t2), ⟨h1, h2⟩ => exact Prod.ext h1 h2
  | .error _, .error _, h => exact h

/-- A relation between positions that differ in who is who. -/
structure Twins (G : Game) where
  /-- the relation -/
  R : G.S → G.S → Prop
  moves : ∀ {s s'}, R s s' → G.moves s' = G.moves s
  apply : ∀ {s s'}, R s s' → ∀ a, RelM R (G.apply s a) (G.apply s' a)
  skip : ∀ {s s'}, R s s' → RelM R (G.skip s) (G.skip s')
  winner : ∀ {s s'}, R s s' → G.winner s' = (G.winner s).map (- ·)
  player : ∀ {s s'}, R s s' → (G.player s = -1 ∧ G.player s' = 1) ∨ (G.player s = 1 ∧ G.player s' = -1)

variable (W : Twins G)

/-- Nodes that differ in the position only. -/
def NodeTwins (n n' : Node G Fl) : Prop :=
  W.R n.state n'.state ∧ n'.idx = n.idx ∧ n'.parent = n.parent ∧ n'.children = n.children ∧ n'.visits = n.visits ∧ n'.value = n.value ∧
    n'.policy = n.policy ∧ n'.action = n.action ∧ n'.expandable = n.expandable

/-- Trees that differ in the positions only. -/
def TreeTwins (st st' : Store G Fl) : Prop := List.Forall₂ (NodeTwins W) st st'

variable {W}

theorem TreeTwins.get {st st' : Store G Fl} (h : TreeTwins W st st') (i : Nat) :
    (st[i]? = none ∧ st'[i]? = none) ∨ ∃ n n', st[i]? = some n ∧ st'[i]? = some n' ∧ NodeTwins W n n' := by
  induction h generalizing i with
  | nil => exact .inl ⟨rfl, rfl⟩
  | cons h _ ih =>
    cases i with
    | zero => exact .inr ⟨_, _, rfl, rfl, h⟩
    | succ i => exact ih i

theorem TreeTwins.getNode {st st' : Store G Fl} (h : TreeTwins W st st') (i : Nat) :
    RelR (NodeTwins W) (getNode st i) (getNode st' i) := by
  unfold Mcts.getNode
  rcases h.get i with ⟨h1, h2⟩ | ⟨n, n', h1, h2, h3⟩
  · rw [h1, h2]
    rfl
  · rw [h1, h2]
    exact h3

theorem TreeTwins.set {st st' : Store G Fl} (h : TreeTwins W st st') (i : Nat) {n n' : Node G Fl} (hn : NodeTwins W n n') :
    TreeTwins W (st.set i n) (st'.set i n') := by
  induction h generalizing i with
  | nil => exact .nil
  | cons h h' ih =>
    cases i with
    | zero => exact .cons hn h'
    | succ i => exact .cons h (ih i)

theorem TreeTwins.append {st st' : Store G Fl} (h : TreeTwins W st st') {n n' : Node G Fl} (hn : NodeTwins W n n') :
    TreeTwins W (st ++ [n]) (st' ++ [n']) := by
  induction h with
  | nil => exact .cons hn .nil
  | cons h _ ih => exact .cons h ih

theorem TreeTwins.length {st st' : Store G Fl} (h : TreeTwins W st st') : st'.length = st.length := (List.Forall₂.length_eq h).symm

theorem new_twins {s s' : G.S} (h : W.R s s') (idx : Nat) (parent : Option Nat) (action : Option G.Mv) (policy : Fl.F) :
    RelR (NodeTwins W) (Node.new s idx parent action policy) (Node.new s' idx parent action policy) := by
  unfold Node.new
  rw [W.moves h]
  refine (relR_eq _).bind ?_
  rintro ms _ rfl
  exact ⟨h, rfl, rfl, rfl, rfl, rfl, rfl, rfl, rfl⟩

/-- A tree and an index. -/
def PairTwins (W : Twins G) (x y : Store G Fl × Nat) : Prop := TreeTwins W x.1 y.1 ∧ y.2 = x.2

theorem addNode_twins {st st' : Store G Fl} (h : TreeTwins W st st') {s s' : G.S} (hs : W.R s s') (parent : Option Nat)
    (action : Option G.Mv) (policy : Fl.F) : RelR (PairTwins W) (addNode st s parent action policy) (addNode st' s' parent action policy) := by
  unfold addNode
  rw [h.length]
  refine (new_twins hs ..).bind fun n n' hn => ?_
  exact ⟨h.append hn, rfl⟩

theorem setNode_twins {st st' : Store G Fl} (h : TreeTwins W st st') {n n' : Node G Fl} (hn : NodeTwins W n n') :
    RelR (TreeTwins W) (setNode st n) (setNode st' n') := by
  unfold setNode
  rw [h.length, hn.2.1]
  split
  · exact h.set _ hn
  · rfl

theorem ucb_twins {st st' : Store G Fl} (h : TreeTwins W st st') {n n' : Node G Fl} (hn : NodeTwins W n n') : n'.ucb st' = n.ucb st := by
  obtain ⟨-, -, h3, -, h5, h6, -⟩ := hn
  unfold Node.ucb
  rw [h3, h5, h6]
  cases n.parent with
  | none => rfl
  | some p =>
    refine (relR_of_eq ?_).symm
    refine (h.getNode p).bind fun a b hab => ?_
    rw [hab.2.2.2.2.1]
    exact relR_eq _

theorem children_twins {st st' : Store G Fl} (h : TreeTwins W st st') (l : List Nat) :
    RelR (List.Forall₂ (NodeTwins W)) (l.mapM (getNode st)) (l.mapM (getNode st')) := by
  induction l with
  | nil => exact .nil
  | cons i l ih =>
    rw [List.mapM_cons, List.mapM_cons]
    refine (h.getNode i).bind fun a b hab => ih.bind fun as bs h' => ?_
    exact .cons hab h'

theorem foldlM_twins {P : α → β → Prop} {f : α → α → Res Ordering} {g : β → β → Res Ordering}
    (hfg : ∀ a b, P a b → ∀ a' b', P a' b' → g b b' = f a a') {l : List α} {l' : List β} (h : List.Forall₂ P l l') {a : α} {b : β}
    (hab : P a b) : RelR P (l.foldlM (fun acc x => do
      let o ← f acc x
      pure (if o = .gt then acc else x)) a) (l'.foldlM (fun acc x => do
      let o ← g acc x
      pure (if o = .gt then acc else x)) b) := by
  induction h generalizing a b with
  | nil => exact hab
  | cons h _ ih =>
    rw [List.foldlM_cons, List.foldlM_cons]
    refine RelR.bind (P := P) ?_ fun a b hab => ih hab
    rw [hfg _ _ hab _ _ h]
    refine (relR_eq _).bind ?_
    rintro o _ rfl
    show P (ite _ _ _) (ite _ _ _)
    split
    · exact hab
    · exact h

/-- Both nothing, or both something and related. -/
def OptTwins (P : α → β → Prop) : Option α → Option β → Prop
  | some a, some b => P a b
  | none, none => True
  | _, _ => False

theorem maxBy_twins {P : α → β → Prop} {f : α → α → Res Ordering} {g : β → β → Res Ordering}
    (hfg : ∀ a b, P a b → ∀ a' b', P a' b' → g b b' = f a a') {l : List α} {l' : List β} (h : List.Forall₂ P l l') :
    RelR (OptTwins P) (maxBy f l) (maxBy g l') := by
  cases h with
  | nil => exact trivial
  | cons h h' =>
    unfold maxBy
    exact (foldlM_twins hfg h' h).bind fun _ _ hab => hab

theorem selectUcb_twins {st st' : Store G Fl} (h : TreeTwins W st st') (i : Nat) : RelR (NodeTwins W) (selectUcb i st) (selectUcb i st') := by
  unfold selectUcb childNodes
  refine (h.getNode i).bind fun n n' hn => ?_
  rw [hn.2.2.2.1]
  refine (children_twins h _).bind fun l l' hl => ?_
  refine (maxBy_twins (P := NodeTwins W) (fun a b hab a' b' hab' => ?_) hl).bind fun a b hab => ?_
  · rw [ucb_twins h hab, ucb_twins h hab']
  · match a, b, hab with
    | some a, some b, hab => exact hab
    | none, none, _ => rfl

theorem selectMostVisits_twins {st st' : Store G Fl} (h : TreeTwins W st st') (i : Nat) :
    RelR Eq (selectMostVisits i st) (selectMostVisits i st') := by
  unfold selectMostVisits childNodes
  refine (h.getNode i).bind fun n n' hn => ?_
  rw [hn.2.2.2.1]
  refine (children_twins h _).bind fun l l' hl => ?_
  refine (maxBy_twins (P := NodeTwins W) (fun a b hab a' b' hab' => ?_) hl).bind fun a b hab => ?_
  · rw [hab.2.2.2.2.1, hab'.2.2.2.2.1]
  · match a, b, hab with
    | some a, some b, hab =>
      show a.action.getD _ = b.action.getD _
      rw [hab.2.2.2.2.2.2.2.1]
    | none, none, _ => rfl

theorem selectLeaf_twins {st st' : Store G Fl} (h : TreeTwins W st st') (f i : Nat) : RelR Eq (selectLeaf st f i) (selectLeaf st' f i) := by
  induction f generalizing i with
  | zero => rfl
  | succ f ih =>
    unfold selectLeaf
    refine (h.getNode i).bind fun n n' hn => ?_
    unfold Node.isFullyExpanded
    rw [hn.2.2.2.1, hn.2.2.2.2.2.2.2.2, hn.2.1]
    split
    · exact relR_eq _
    · refine (selectUcb_twins h i).bind fun c c' hc => ?_
      rw [hc.2.1]
      exact ih _

theorem record_twins (r : Fl.F) {n n' : Node G Fl} (h : NodeTwins W n n') : NodeTwins W (n.record r) (n'.record r) := by
  obtain ⟨h1, h2, h3, h4, h5, h6, h7, h8, h9⟩ := h
  unfold Node.record
  refine ⟨h1, h2, h3, h4, ?_, ?_, h7, h8, h9⟩
  · show vinc _ = vinc _
    rw [h5]
  · show Fl.add _ _ = Fl.add _ _
    rw [h6]

theorem backLoop_twins (r : Fl.F) {st st' : Store G Fl} (h : TreeTwins W st st') (f i : Nat) :
    RelR (TreeTwins W) (backLoop r f i st) (backLoop r f i st') := by
  induction f generalizing i st st' with
  | zero => rfl
  | succ f ih =>
    unfold backLoop
    refine RelR.bind (P := TreeTwins W) ?_ fun st st' h => (h.getNode i).bind fun n n' hn => ?_
    · unfold modifyNode
      rcases h.get i with ⟨h1, h2⟩ | ⟨n, n', h1, h2, h3⟩
      · rw [h1, h2]
        rfl
      · rw [h1, h2]
        exact h.set i (record_twins r h3)
    · rw [hn.2.2.1]
      cases n.parent with
      | none => exact h
      | some p => exact ih h p

theorem backpropagate_twins (r : Fl.F) {st st' : Store G Fl} (h : TreeTwins W st st') (i : Nat) :
    RelR (TreeTwins W) (backpropagate i r st) (backpropagate i r st') := by
  unfold backpropagate
  rw [h.length]
  exact backLoop_twins r h _ _

theorem expand_twins {st st' : Store G Fl} (h : TreeTwins W st st') {n n' : Node G Fl} (hn : NodeTwins W n n') :
    RelM (PairTwins W) (expand n st) (expand n' st') := by
  obtain ⟨h1, h2, h3, h4, h5, h6, h7, h8, h9⟩ := hn
  unfold expand
  rw [h9]
  cases n.expandable.getLast? with
  | none => exact fun _ => rfl
  | some a =>
    refine (W.apply h1 a).bind fun s s' hs => ?_
    rw [h2]
    refine (relM_lift (addNode_twins h hs ..)).bind fun x y hxy => ?_
    obtain ⟨st1, _⟩ := x
    obtain ⟨st1', c⟩ := y
    obtain ⟨hxy, rfl⟩ := hxy
    refine (relM_lift (setNode_twins hxy ?_)).bind fun _ _ h => relM_pure ⟨h, rfl⟩
    refine ⟨h1, rfl, h3, ?_, h5, h6, h7, h8, ?_⟩
    · show n'.children ++ _ = n.children ++ _
      rw [h4]
    · rfl

theorem outcome_neg (w p : Int) : outcome (-w) (-p) = outcome w p := by
  unfold outcome
  simp only [Int.neg_inj]

theorem simulateLoop_twins {s s' : G.S} (h : W.R s s') (p : Int) (f : Nat) {c c' : G.S} (hc : W.R c c') :
    RelM Eq (simulateLoop s p f c) (simulateLoop s' (-p) f c') := by
  induction f generalizing c c' with
  | zero => exact relM_pure rfl
  | succ f ih =>
    unfold simulateLoop
    rw [W.winner h]
    cases G.winner s with
    | some w =>
      show RelM Eq (pure (outcome w p)) (pure (outcome (-w) (-p)))
      rw [outcome_neg]
      exact relM_pure rfl
    | none =>
      rw [W.moves hc]
      refine (relM_eq _).bind ?_
      rintro ms _ rfl
      refine (relM_eq _).bind ?_
      rintro a _ rfl
      cases a with
      | some a => exact (W.apply hc a).bind fun _ _ h => ih h
      | none => exact (W.skip hc).bind fun _ _ h => ih h

theorem iteration_twins (p : Int) (limit root : Nat) {st st' : Store G Fl} (h : TreeTwins W st st') :
    RelM (PairTwins W) (iteration p limit root st) (iteration (-p) limit root st') := by
  unfold iteration selectLeafNode
  rw [h.length]
  refine (relM_lift (selectLeaf_twins h _ _)).bind ?_
  rintro i _ rfl
  refine (relM_lift (h.getNode i)).bind fun n n' hn => ?_
  rw [W.winner hn.1]
  cases G.winner n.state with
  | some w =>
    show RelM _ _ (M.lift (backpropagate i (Fl.ofInt (outcome (-w) (-p))) st') >>= _)
    rw [outcome_neg]
    exact (relM_lift (backpropagate_twins _ h i)).bind fun _ _ h => relM_pure ⟨h, rfl⟩
  | none =>
    refine (expand_twins h hn).bind fun x y hxy => ?_
    obtain ⟨st1, _⟩ := x
    obtain ⟨st1', c⟩ := y
    obtain ⟨hxy, rfl⟩ := hxy
    refine (relM_lift (hxy.getNode c)).bind fun m m' hm => ?_
    refine (simulateLoop_twins hm.1 p limit hm.1).bind ?_
    rintro v _ rfl
    exact (relM_lift (backpropagate_twins _ hxy c)).bind fun _ _ h => relM_pure ⟨h, rfl⟩

theorem iterate_twins (p : Int) (limit root k : Nat) {st st' : Store G Fl} (h : TreeTwins W st st') (tr : List Nat) :
    RelM (fun x y => TreeTwins W x.1 y.1) (iterate p limit root k st tr) (iterate (-p) limit root k st' tr) := by
  induction k generalizing st st' tr with
  | zero => exact relM_pure h
  | succ k ih =>
    unfold iterate
    refine (iteration_twins p limit root h).bind fun x y hxy => ?_
    obtain ⟨st1, _⟩ := x
    obtain ⟨st1', c⟩ := y
    obtain ⟨hxy, rfl⟩ := hxy
    exact ih hxy _

/-- The plain search chooses the same move when the players are exchanged. -/
theorem mctSearch_twins (Fl : Floats) {s s' : G.S} (h : W.R s s') (p : Int) (iterations limit : Nat) :
    mctSearch Fl s' (-p) iterations limit = mctSearch Fl s p iterations limit := by
  refine (relM_of_eq ?_).symm
  unfold mctSearch buildTree
  rw [W.winner h]
  cases G.winner s with
  | some w => exact relM_pure rfl
  | none =>
    refine RelM.bind (P := fun x y => TreeTwins W x.1 y.1) ?_ fun x y hxy => ?_
    · refine (relM_lift (addNode_twins .nil h ..)).bind fun x y hxy => ?_
      obtain ⟨st1, _⟩ := x
      obtain ⟨st1', c⟩ := y
      obtain ⟨hxy, rfl⟩ := hxy
      exact iterate_twins p limit c iterations hxy []
    · exact relM_lift (selectMostVisits_twins hxy 0)

end DieE.Mcts
