import Verif.Mcts.Model

/-!
# What a search tree should look like

Definitions used in the statements about the searches.  They mention the data (`Node`, `Store`) and the rules of the
game, not the functions that build the tree.
-/

namespace DieE.Mcts
variable {G : Game} {Fl : Floats}

/-- `s'` is a result of playing `a` in `s`. -/
def Plays (G : Game) (s : G.S) (a : G.Mv) (s' : G.S) : Prop := ∃ t t', G.apply s a t = .ok (s', t')

/-- The actions leading to the children of a node. -/
def childActions (st : Store G Fl) (n : Node G Fl) : List G.Mv :=
  n.children.filterMap fun c => (st[c]?).bind fun m => m.action

/-- A well-formed forest: the node at position `i` has index `i`; roots have no action; a node with a parent is listed
by the parent, was created after it, carries the action that led to it and the position this action leads to; listed
children exist, point back and are listed once; every legal move of a node is either still to be expanded or the action
of exactly one child. -/
structure WellFormed (st : Store G Fl) : Prop where
  idx : ∀ (i : Nat) (n : Node G Fl), st[i]? = some n → n.idx = i
  root : ∀ (i : Nat) (n : Node G Fl), st[i]? = some n → n.parent = none → n.action = none
  up : ∀ (i : Nat) (n : Node G Fl) (p : Nat), st[i]? = some n → n.parent = some p → p < i ∧ ∃ (pn : Node G Fl) (a : G.Mv), st[p]? = some pn ∧ i ∈ pn.children ∧
    n.action = some a ∧ Plays G pn.state a n.state
  down : ∀ (i : Nat) (n : Node G Fl) (c : Nat), st[i]? = some n → c ∈ n.children → ∃ cn : Node G Fl, st[c]? = some cn ∧ cn.parent = some i
  nodup : ∀ (i : Nat) (n : Node G Fl), st[i]? = some n → n.children.Nodup
  part : ∀ (i : Nat) (n : Node G Fl), st[i]? = some n → ∃ ms, G.moves n.state = .ok ms ∧ (n.expandable ++ childActions st n).Perm ms

/-- `i` is on the path from node `k` to its root: `i` is `k` or an ancestor of `k`. -/
inductive Anc (st : Store G Fl) (i : Nat) : Nat → Prop
  | refl : Anc st i i
  | step {k p : Nat} {n : Node G Fl} : st[k]? = some n → n.parent = some p → Anc st i p → Anc st i k

/-- Number of elements satisfying a property. -/
noncomputable def countOf {α : Type} (P : α → Prop) (l : List α) : Nat :=
  l.countP fun x => @decide (P x) (Classical.propDecidable _)

end DieE.Mcts
