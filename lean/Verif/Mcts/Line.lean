import Verif.Mcts.Path

/-! # Nodes reached by the same moves -/

namespace DieE.Mcts
variable {G : Game} {Fl : Floats}

/-- Node `i` is reached from node `r` by the moves `l`. -/
inductive Line (st : Store G Fl) (r : Nat) : Nat → List G.Mv → Prop
  | nil : Line st r r []
  | snoc {k p : Nat} {n : Node G Fl} {l : List G.Mv} {a : G.Mv} : Line st r p l → st[k]? = some n → n.parent = some p →
      n.action = some a → Line st r k (l ++ [a])

/-- Two children of a node with the same action are the same. -/
theorem same_child {st : Store G Fl} (w : WellFormed st) {i c d : Nat} {n cn dn : Node G Fl} {a : G.Mv} {ms : List G.Mv}
    (hi : st[i]? = some n) (hm : G.moves n.state = .ok ms) (hnd : ms.Nodup) (hc : st[c]? = some cn) (hd : st[d]? = some dn)
    (hcp : cn.parent = some i) (hdp : dn.parent = some i) (hca : cn.action = some a) (hda : dn.action = some a) : c = d := by
  obtain ⟨ms', h1, h2⟩ := w.part i n hi
  rw [hm] at h1
  cases Except.ok.inj h1
  have h3 : (childActions st n).Nodup := (List.nodup_append.1 (h2.nodup_iff.2 hnd)).2.1
  unfold childActions at h3
  rw [List.Nodup, List.pairwise_filterMap] at h3
  have mem : ∀ (k : Nat) (kn : Node G Fl), st[k]? = some kn → kn.parent = some i → k ∈ n.children := by
    intro k kn hk hp
    obtain ⟨-, pn, -, g1, g2, -, -⟩ := w.up k kn i hk hp
    rw [hi] at g1
    cases Option.some.inj g1
    exact g2
  have two : ∀ l : List Nat, l.Pairwise (fun x y => ∀ b : G.Mv, (st[x]?.bind fun m => m.action) = some b →
      ∀ b' : G.Mv, (st[y]?.bind fun m => m.action) = some b' → b ≠ b') → c ∈ l → d ∈ l → c = d := by
    intro l hl h1 h2
    have ec : (st[c]?.bind fun m => m.action) = some a := by rw [hc]; exact hca
    have ed : (st[d]?.bind fun m => m.action) = some a := by rw [hd]; exact hda
    induction hl with
    | nil => cases h1
    | cons hx _ ih =>
      rcases List.mem_cons.1 h1 with e1 | e1 <;> rcases List.mem_cons.1 h2 with e2 | e2
      · rw [e1, e2]
      · subst e1
        exact absurd rfl (hx d e2 a ec a ed)
      · subst e2
        exact absurd rfl (hx c e1 a ed a ec)
      · exact ih e1 e2
  exact two _ h3 (mem c cn hc hcp) (mem d dn hd hdp)

theorem Line.exists {st : Store G Fl} {r i : Nat} {l : List G.Mv} (h : Line st r i l) {rn : Node G Fl} (hr : st[r]? = some rn) :
    ∃ n, st[i]? = some n := by
  cases h with
  | nil => exact ⟨rn, hr⟩
  | snoc _ h => exact ⟨_, h⟩

/-- In a tree of a game which lists every move once, a sequence of moves leads to one node only. -/
theorem Line.unique {st : Store G Fl} (w : WellFormed st) {R : G.S → Prop}
    (hR : ∀ (i : Nat) (n : Node G Fl), st[i]? = some n → R n.state)
    (hnd : ∀ (s : G.S) (ms : List G.Mv), R s → G.moves s = .ok ms → ms.Nodup) {r i j : Nat} {l : List G.Mv}
    (h1 : Line st r i l) (h2 : Line st r j l) : i = j := by
  have key : ∀ (i : Nat) (l : List G.Mv), Line st r i l → ∀ j : Nat, Line st r j l → i = j := by
    intro i l h1
    induction h1 with
    | nil =>
      intro j h2
      generalize hl : ([] : List G.Mv) = l at h2
      cases h2 with
      | nil => rfl
      | snoc => simp at hl
    | @snoc k p n l a g1 g2 g3 g4 ih =>
      intro j h2
      generalize hl : l ++ [a] = l' at h2
      cases h2 with
      | nil => simp at hl
      | @snoc _ q m l2 b f1 f2 f3 f4 =>
        obtain ⟨e1, e2⟩ := List.append_inj' hl rfl
        subst e1
        cases e2
        cases ih q f1
        obtain ⟨-, pn, -, k1, -, -, -⟩ := w.up k n p g2 g3
        obtain ⟨ms, m1, -⟩ := w.part p pn k1
        exact same_child w k1 m1 (hnd _ _ (hR p pn k1) m1) g2 f2 g3 f3 g4 f4
  exact key i l h1 j h2

/-- If the roots satisfy a property that moves keep, all nodes do. -/
theorem wf_all {st : Store G Fl} (w : WellFormed st) {R : G.S → Prop}
    (closed : ∀ s ms a s', R s → G.moves s = .ok ms → a ∈ ms → Plays G s a s' → R s')
    (roots : ∀ (i : Nat) (n : Node G Fl), st[i]? = some n → n.parent = none → R n.state)
    (i : Nat) (n : Node G Fl) (hi : st[i]? = some n) : R n.state := by
  induction i using Nat.strongRecOn generalizing n with
  | ind i ih =>
    cases hp : n.parent with
    | none => exact roots i n hi hp
    | some p =>
      obtain ⟨hlt, pn, -, k1, k2, -, -⟩ := w.up i n p hi hp
      obtain ⟨a, ms, -, e1, e2, e3⟩ := child_legal w k1 k2 hi
      exact closed _ _ _ _ (ih p hlt pn k1) e1 e2 e3

end DieE.Mcts
