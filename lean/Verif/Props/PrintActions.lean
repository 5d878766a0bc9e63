import Verif.Props.Print

/-!
# C117: the printed tree of actions shows the tree of actions
-/

namespace DieE.Props.Pn
open DieE DieE.Text DieE.BG DieE.Props.Pr
open DieE.Train (Name digits)

/-! ## The statement -/

mutual
/-- The nodes of a tree of actions with their levels, each before its children. -/
def outline (d : Nat) : ActionNode → List (Nat × Act)
  | .node v cs => (d, v) :: outlines (d + 1) cs
/-- The same for a list of trees. -/
def outlines (d : Nat) : List ActionNode → List (Nat × Act)
  | [] => []
  | c :: cs => outline d c ++ outlines d cs
end

/-- The lines show the tree of actions. -/
structure ShowsActions (lines : List Name) (t : ActionNode) : Prop where
  /-- levels and values -/
  nodes : lines.map readArm = (outline 0 t).map fun x => (x.1, debugAct x.2)
  /-- the strokes lead to the next sibling of the node or of its ancestor -/
  strokes : ∀ (before : List Name) (l : Name) (after : List Name), lines = before ++ l :: after → ∀ e, e ≤ (readArm l).1 →
    (strokeDown l e ↔ Continues e (after.map fun l => (readArm l).1))

/-! ## The lines -/

mutual
/-- For each line, which ancestors are last children, and the value. -/
def stopsOf (bl : List Bool) (last : Bool) : ActionNode → List (List Bool × Bool × Act)
  | .node v cs => (bl, last, v) :: stopsOfs (bl ++ [last]) cs
/-- The same for a list of trees. -/
def stopsOfs (bl : List Bool) : List ActionNode → List (List Bool × Bool × Act)
  | [] => []
  | c :: cs => stopsOf bl cs.isEmpty c ++ stopsOfs bl cs
end

/-- The prefix of a line. -/
def indentOf (bl : List Bool) : Name := bl.flatMap fun b => if b then lit "    " else lit "│   "

/-- A line. -/
def armLine (x : List Bool × Bool × Act) : Name :=
  indentOf x.1 ++ (if x.2.1 then lit "└── " else lit "├── ") ++ debugAct x.2.2

mutual
theorem formatTree_lines (bl : List Bool) (last : Bool) : ∀ t : ActionNode,
    formatTree (indentOf bl) last t = (stopsOf bl last t).flatMap fun x => armLine x ++ ['\n']
  | .node v cs => by
    have h := formatTrees_lines (bl ++ [last]) cs
    have h2 : indentOf (bl ++ [last]) = indentOf bl ++ if last then lit "    " else lit "│   " := by simp [indentOf]
    rw [h2] at h
    rw [formatTree, stopsOf, List.flatMap_cons, h]
    rfl
theorem formatTrees_lines (bl : List Bool) : ∀ cs : List ActionNode,
    formatTrees (indentOf bl) cs = (stopsOfs bl cs).flatMap fun x => armLine x ++ ['\n']
  | [] => rfl
  | c :: cs => by
    rw [formatTrees, stopsOfs, List.flatMap_append, formatTree_lines bl cs.isEmpty c, formatTrees_lines bl cs]
end

theorem debugAct_chars {a : Act} {c : Char} (h : c ∈ debugAct a) : c = '-' ∨ c.isDigit = true ∨ c ∈ ['(', ')', ',', ' '] := by
  have e1 : lit "(" = ['('] := by decide
  have e2 : lit ", " = [',', ' '] := by decide
  have e3 : lit ")" = [')'] := by decide
  simp only [debugAct, e1, e2, e3, List.mem_append] at h
  rcases h with (((h | h) | h) | h) | h
  · exact .inr (.inr (by simp at h; simp [h]))
  · rcases writeInt_chars h with h | h
    · exact .inl h
    · exact .inr (.inl h)
  · exact .inr (.inr (by simp at h; rcases h with h | h <;> simp [h]))
  · rcases writeInt_chars h with h | h
    · exact .inl h
    · exact .inr (.inl h)
  · exact .inr (.inr (by simp at h; simp [h]))

theorem indentOf_length (bl : List Bool) : (indentOf bl).length = 4 * bl.length := by
  induction bl with
  | nil => rfl
  | cons b bl ih =>
    have : indentOf (b :: bl) = (if b then lit "    " else lit "│   ") ++ indentOf bl := by simp [indentOf]
    rw [this, List.length_append, ih, List.length_cons]
    have : (if b then lit "    " else lit "│   ").length = 4 := by cases b <;> decide
    omega

theorem indentOf_chars {bl : List Bool} {c : Char} (h : c ∈ indentOf bl) : c = ' ' ∨ c = '│' := by
  obtain ⟨b, -, h⟩ := List.mem_flatMap.1 h
  have e1 : lit "    " = [' ', ' ', ' ', ' '] := by decide
  have e2 : lit "│   " = ['│', ' ', ' ', ' '] := by decide
  cases b
  · rw [if_neg (by decide), e2] at h
    simp at h
    exact h.symm
  · rw [if_pos rfl, e1] at h
    simp at h
    exact .inl h

theorem armLine_plain (x : List Bool × Bool × Act) : '\n' ∉ armLine x := by
  have ha : ∀ last : Bool, '\n' ∉ (if last = true then lit "└── " else lit "├── ") := by decide
  obtain ⟨bl, last, v⟩ := x
  intro h
  rcases List.mem_append.1 h with h | h
  · rcases List.mem_append.1 h with h | h
    · rcases indentOf_chars h with h | h <;> revert h <;> decide
    · exact absurd h (ha last)
  · rcases debugAct_chars h with h | h | h <;> revert h <;> decide

theorem armLine_arm (x : List Bool × Bool × Act) : arm (armLine x) = 4 * x.1.length := by
  obtain ⟨bl, last, v⟩ := x
  unfold arm armLine
  simp only [List.append_assoc]
  have hp : ∀ c ∈ indentOf bl, (decide (c ≠ '└' ∧ c ≠ '├')) = true := by
    intro c hc
    rcases indentOf_chars hc with rfl | rfl <;> decide
  rw [List.takeWhile_append_of_pos hp, List.length_append, indentOf_length]
  have : ∀ r : Name, ((if last = true then lit "└── " else lit "├── ") ++ r).takeWhile (fun c => decide (c ≠ '└' ∧ c ≠ '├')) = [] := by
    intro r
    have e1 : lit "└── " = ['└', '─', '─', ' '] := by decide
    have e2 : lit "├── " = ['├', '─', '─', ' '] := by decide
    cases last
    · rw [if_neg (by decide), e2, List.cons_append, List.takeWhile_cons_of_neg (by decide)]
    · rw [if_pos rfl, e1, List.cons_append, List.takeWhile_cons_of_neg (by decide)]
  rw [this]
  rfl

theorem readArm_line (x : List Bool × Bool × Act) : readArm (armLine x) = (x.1.length, debugAct x.2.2) := by
  unfold readArm
  rw [armLine_arm]
  refine Prod.ext (by simp) ?_
  obtain ⟨bl, last, v⟩ := x
  have h : (indentOf bl ++ (if last = true then lit "└── " else lit "├── ")).length = 4 * bl.length + 4 := by
    rw [List.length_append, indentOf_length]
    have : (if last = true then lit "└── " else lit "├── ").length = 4 := by cases last <;> decide
    omega
  show List.drop (4 * bl.length + 4) (indentOf bl ++ (if last = true then lit "└── " else lit "├── ") ++ debugAct v) = debugAct v
  rw [← h, List.drop_left]

theorem indentOf_get {bl : List Bool} {e : Nat} (h : e < bl.length) (r : Name) :
    (indentOf bl ++ r)[4 * e]? = some (if bl[e] then ' ' else '│') := by
  induction bl generalizing e with
  | nil => exact absurd h (Nat.not_lt_zero _)
  | cons b bl ih =>
    have e0 : indentOf (b :: bl) = (if b then lit "    " else lit "│   ") ++ indentOf bl := by simp [indentOf]
    have e1 : lit "    " = [' ', ' ', ' ', ' '] := by decide
    have e2 : lit "│   " = ['│', ' ', ' ', ' '] := by decide
    have e3 : (if b then lit "    " else lit "│   ").length = 4 := by cases b <;> decide
    cases e with
    | zero => cases b <;> simp [e0, e1, e2]
    | succ e =>
      rw [e0, List.append_assoc, List.getElem?_append_right (by omega), e3, show 4 * (e + 1) - 4 = 4 * e by omega,
        ih (by simpa using h)]
      rfl

theorem stroke_line (x : List Bool × Bool × Act) {e : Nat} (h : e ≤ x.1.length) :
    strokeDown (armLine x) e ↔ (x.1 ++ [x.2.1])[e]? = some false := by
  obtain ⟨bl, last, v⟩ := x
  simp only at h
  unfold strokeDown armLine
  simp only [List.append_assoc]
  rcases Nat.lt_or_eq_of_le h with h | h
  · rw [indentOf_get h, List.getElem?_append_left h, List.getElem?_eq_getElem h]
    cases bl[e] <;> decide
  · subst h
    have e1 : lit "└── " = ['└', '─', '─', ' '] := by decide
    have e2 : lit "├── " = ['├', '─', '─', ' '] := by decide
    rw [← indentOf_length, List.getElem?_append_right (Nat.le_refl _), Nat.sub_self, List.getElem?_append_right (Nat.le_refl _), Nat.sub_self]
    cases last
    · rw [if_neg (by decide), e2]; simp
    · rw [if_pos rfl, e1]; simp

/-! ## The strokes -/

theorem continues_app {e : Nat} {A K : List Nat} (h : ∀ y ∈ A, e < y) : Continues e (A ++ K) ↔ Continues e K := by
  induction A with
  | nil => rfl
  | cons y A ih =>
    have hy := h y (by simp)
    rw [List.cons_append, Continues, ih fun z hz => h z (by simp [hz])]
    constructor
    · rintro (h | h)
      · omega
      · exact h.2
    · exact fun h => .inr ⟨hy, h⟩

/-- The level of a line. -/
def lev (x : List Bool × Bool × Act) : Nat := x.1.length

mutual
theorem stopsOf_lev (bl : List Bool) (last : Bool) : ∀ (t : ActionNode), ∀ x ∈ stopsOf bl last t, bl.length ≤ lev x
  | .node v cs => by
    intro x hx
    rw [stopsOf] at hx
    rcases List.mem_cons.1 hx with rfl | hx
    · exact Nat.le_refl _
    · have := stopsOfs_lev (bl ++ [last]) cs x hx
      simp at this
      omega
theorem stopsOfs_lev (bl : List Bool) : ∀ (cs : List ActionNode), ∀ x ∈ stopsOfs bl cs, bl.length ≤ lev x
  | [] => by intro x hx; cases hx
  | c :: cs => by
    intro x hx
    rw [stopsOfs] at hx
    rcases List.mem_append.1 hx with hx | hx
    · exact stopsOf_lev bl _ c x hx
    · exact stopsOfs_lev bl cs x hx
end

mutual
theorem stopsOf_outline (bl : List Bool) (last : Bool) : ∀ (t : ActionNode),
    (stopsOf bl last t).map (fun x => (lev x, x.2.2)) = outline bl.length t
  | .node v cs => by
    rw [stopsOf, outline, List.map_cons, stopsOfs_outline (bl ++ [last]) cs, List.length_append]
    rfl
theorem stopsOfs_outline (bl : List Bool) : ∀ (cs : List ActionNode),
    (stopsOfs bl cs).map (fun x => (lev x, x.2.2)) = outlines bl.length cs
  | [] => rfl
  | c :: cs => by rw [stopsOfs, outlines, List.map_append, stopsOf_outline bl _ c, stopsOfs_outline bl cs]
end

theorem stopsOfs_head (bl : List Bool) (c : ActionNode) (cs : List ActionNode) :
    ∃ r, (stopsOfs bl (c :: cs)).map lev = bl.length :: r := by
  cases c with
  | node v ds => exact ⟨_, by rw [stopsOfs, stopsOf, List.cons_append, List.map_cons]; rfl⟩

mutual
theorem stopsOf_strokes (bl : List Bool) (last : Bool) : ∀ (t : ActionNode) (K : List Nat),
    (∀ e, e ≤ bl.length → ((bl ++ [last])[e]? = some false ↔ Continues e K)) → (∀ e, bl.length < e → ¬ Continues e K) →
    ∀ a x b, stopsOf bl last t = a ++ x :: b → ∀ e, e ≤ lev x → ((x.1 ++ [x.2.1])[e]? = some false ↔ Continues e (b.map lev ++ K))
  | .node v cs => by
    intro K h1 h2 a x b h e he
    rw [stopsOf] at h
    have hl : ∀ x ∈ stopsOfs (bl ++ [last]) cs, bl.length < lev x := by
      intro x hx
      have := stopsOfs_lev (bl ++ [last]) cs x hx
      simp at this
      omega
    cases a with
    | nil =>
      obtain ⟨rfl, rfl⟩ := List.cons.inj h
      rw [continues_app]
      · exact h1 e he
      · intro y hy
        obtain ⟨z, hz, rfl⟩ := List.mem_map.1 hy
        have := hl z hz
        have : e ≤ bl.length := he
        omega
    | cons y a =>
      obtain ⟨-, h⟩ := List.cons.inj h
      refine stopsOfs_strokes (bl ++ [last]) cs K ?_ ?_ a x b h e he
      · intro e he
        exact h1 e (by simp at he; omega)
      · intro e he
        exact h2 e (by simp at he; omega)
theorem stopsOfs_strokes (bl : List Bool) : ∀ (cs : List ActionNode) (K : List Nat),
    (∀ e, e < bl.length → (bl[e]? = some false ↔ Continues e K)) → (∀ e, bl.length ≤ e → ¬ Continues e K) →
    ∀ a x b, stopsOfs bl cs = a ++ x :: b → ∀ e, e ≤ lev x → ((x.1 ++ [x.2.1])[e]? = some false ↔ Continues e (b.map lev ++ K))
  | [] => by intro K _ _ a x b h; simp [stopsOfs] at h
  | c :: cs => by
    intro K h1 h2 a x b h e he
    rw [stopsOfs] at h
    rcases List.append_eq_append_iff.1 h with ⟨d, h3, h4⟩ | ⟨d, h3, h4⟩
    · exact stopsOfs_strokes bl cs K h1 h2 d x b h4 e he
    · cases d with
      | nil => exact stopsOfs_strokes bl cs K h1 h2 [] x b (by simpa using h4.symm) e he
      | cons y d =>
        obtain ⟨rfl, rfl⟩ := List.cons.inj h4
        rw [show (d.append (stopsOfs bl cs)) = d ++ stopsOfs bl cs from rfl, List.map_append, List.append_assoc]
        refine stopsOf_strokes bl cs.isEmpty c _ ?_ ?_ a x d h3 e he
        · intro e he
          rcases Nat.lt_or_eq_of_le he with he | rfl
          · rw [List.getElem?_append_left he, continues_app]
            · exact h1 e he
            · intro y hy
              obtain ⟨z, hz, rfl⟩ := List.mem_map.1 hy
              have := stopsOfs_lev bl cs z hz
              omega
          · cases cs with
            | nil => simpa [stopsOfs] using h2 _ (Nat.le_refl _)
            | cons c' cs =>
              obtain ⟨r, hr⟩ := stopsOfs_head bl c' cs
              rw [hr]
              simp [Continues]
        · intro e he
          cases cs with
          | nil => exact h2 e (by omega)
          | cons c' cs =>
            obtain ⟨r, hr⟩ := stopsOfs_head bl c' cs
            rw [hr, List.cons_append, Continues]
            omega
end

/-- C117: the lines printed for a tree of actions show its nodes with their levels, and the strokes lead to the siblings. -/
theorem C117_actions (t : ActionNode) : ShowsActions (textLines (displayTree t)) t := by
  have h : textLines (displayTree t) = (stopsOf [] true t).map armLine := by
    unfold displayTree
    rw [show ([] : Name) = indentOf [] from rfl, formatTree_lines, textLines_flat]
    intro x _
    exact armLine_plain x
  rw [h]
  refine ⟨?_, ?_⟩
  · have := stopsOf_outline [] true t
    rw [show (0 : Nat) = ([] : List Bool).length from rfl, ← this, List.map_map, List.map_map]
    exact List.map_congr_left fun x _ => readArm_line x
  · intro before l after hs e he
    obtain ⟨l1, l2, h1, h2, h3⟩ := List.map_eq_append_iff.1 hs
    obtain ⟨y, l3, h4, h5, h6⟩ := List.map_eq_cons_iff.1 h3
    subst h4 h5 h2 h6
    rw [readArm_line] at he
    rw [stroke_line y he, stopsOf_strokes [] true t [] ?_ ?_ _ _ _ h1 e he, List.append_nil, List.map_map]
    · rw [show l3.map ((fun l => (readArm l).1) ∘ armLine) = l3.map lev from
        List.map_congr_left fun x _ => by simp [readArm_line, lev]]
    · intro e he
      obtain rfl : e = 0 := by simpa using he
      simp [Continues]
    · intro e _ h
      exact h

/-! ## The text determines the tree -/

/-- The list is empty or begins on a level below `d`. -/
def Ends (d : Nat) (K : List (Nat × Act)) : Prop := ∀ x r, K = x :: r → x.1 < d

theorem outline_head (d : Nat) (t : ActionNode) : ∃ v r, outline d t = (d, v) :: r := by
  cases t with
  | node v cs => exact ⟨v, _, by rw [outline]⟩

mutual
theorem outline_inj (d : Nat) : ∀ (t t' : ActionNode) (K K' : List (Nat × Act)), Ends (d + 1) K → Ends (d + 1) K' →
    outline d t ++ K = outline d t' ++ K' → t = t' ∧ K = K'
  | .node v cs, .node v' cs', K, K', hK, hK', h => by
    rw [outline, outline, List.cons_append, List.cons_append] at h
    obtain ⟨h1, h2⟩ := List.cons.inj h
    obtain ⟨h3, h4⟩ := outlines_inj (d + 1) cs cs' K K' hK hK' h2
    exact ⟨by rw [(Prod.mk.inj h1).2, h3], h4⟩
theorem outlines_inj (d : Nat) : ∀ (cs cs' : List ActionNode) (K K' : List (Nat × Act)), Ends d K → Ends d K' →
    outlines d cs ++ K = outlines d cs' ++ K' → cs = cs' ∧ K = K'
  | [], [], K, K', _, _, h => ⟨rfl, h⟩
  | [], c' :: cs', K, K', hK, _, h => by
    obtain ⟨v, r, e⟩ := outline_head d c'
    rw [outlines, outlines, e] at h
    exact absurd (hK _ _ h) (by simp)
  | c :: cs, [], K, K', _, hK', h => by
    obtain ⟨v, r, e⟩ := outline_head d c
    rw [outlines, outlines, e] at h
    exact absurd (hK' _ _ h.symm) (by simp)
  | c :: cs, c' :: cs', K, K', hK, hK', h => by
    have ends : ∀ (cs : List ActionNode) (K : List (Nat × Act)), Ends d K → Ends (d + 1) (outlines d cs ++ K) := by
      intro cs K hK
      cases cs with
      | nil => exact fun x r h => Nat.lt_succ_of_lt (hK x r h)
      | cons c cs =>
        obtain ⟨v, r, e⟩ := outline_head d c
        intro x s h
        rw [outlines, e] at h
        rw [← (List.cons.inj h).1]
        exact Nat.lt_succ_self d
    rw [outlines, outlines, List.append_assoc, List.append_assoc] at h
    obtain ⟨h1, h2⟩ := outline_inj d c c' _ _ (ends cs K hK) (ends cs' K' hK') h
    obtain ⟨h3, h4⟩ := outlines_inj d cs cs' K K' hK hK' h2
    exact ⟨by rw [h1, h3], h4⟩
end

theorem debugAct_inj {a b : Act} (h : debugAct a = debugAct b) : a = b := by
  unfold debugAct at h
  have h1 := List.append_cancel_right h
  simp only [List.append_assoc] at h1
  have h2 := List.append_cancel_left h1
  simp only [← List.append_assoc] at h2
  obtain ⟨h3, h4⟩ := pair_inj h2
  exact Prod.ext h3 h4

/-- C117: lines that show two trees of actions show the same tree. -/
theorem C117_actions_injective {lines : List Name} {t t' : ActionNode} (h : ShowsActions lines t) (h' : ShowsActions lines t') : t = t' := by
  have e := h.nodes.symm.trans h'.nodes
  have e2 : outline 0 t = outline 0 t' := by
    refine List.map_injective_iff.2 ?_ e
    intro x y hxy
    obtain ⟨h1, h2⟩ := Prod.mk.inj hxy
    exact Prod.ext h1 (debugAct_inj h2)
  have hn : Ends 1 [] := fun x r h => by cases h
  exact (outline_inj 0 t t' [] [] hn hn (by rw [List.append_nil, List.append_nil, e2])).1

/-- A tree with two children, the first of which has a child. -/
def sampleTree : ActionNode := .node (12, 14) [.node (0, 2) [.node (-1, 23) []], .node (5, -1) []]

example : displayTree sampleTree = lit "└── (12, 14)\n    ├── (0, 2)\n    │   └── (-1, 23)\n    └── (5, -1)\n" := by decide +kernel

example : outline 0 sampleTree = [(0, 12, 14), (1, 0, 2), (2, -1, 23), (1, 5, -1)] := by decide +kernel

end DieE.Props.Pn
