import Verif.Mcts.Print
import Verif.Mcts.Path
import Verif.Mcts.Search
import Verif.Text.TreeSpec
import Verif.Props.Pretty
import Mathlib.Data.List.Nodup

/-!
# C117: the printed search tree shows the search tree
-/

namespace DieE.Props.Pn
open DieE DieE.Text DieE.Mcts DieE.Props.Pr
open DieE.Train (Name digits)
variable {G : Game} {Fl : Floats}

/-! ## The statement -/

/-- Node `k` is `d` steps below node `i`, following the parents. -/
inductive Below (st : Store G Fl) (i : Nat) : Nat → Nat → Prop
  | refl : Below st i 0 i
  | step {d k p : Nat} {n : Node G Fl} : st[k]? = some n → n.parent = some p → Below st i d p → Below st i (d + 1) k

/-- No text of the formats contains a line break or a tab. -/
structure Clean (fm : Formats G Fl) : Prop where
  action : ∀ a, '\n' ∉ fm.action a ∧ '\t' ∉ fm.action a
  two : ∀ a, '\n' ∉ fm.two a ∧ '\t' ∉ fm.two a
  three : ∀ a, '\n' ∉ fm.three a ∧ '\t' ∉ fm.three a
  five : ∀ a, '\n' ∉ fm.five a ∧ '\t' ∉ fm.five a

/-- The rows show the part of the tree below `r` down to `depth`. -/
structure ShowsTree (fm : Formats G Fl) (st : Store G Fl) (r depth : Nat) (rows : List TreeRow) : Prop where
  /-- the nodes shown, and their levels -/
  nodes : ∀ e k, (∃ x ∈ rows, x.level = e ∧ x.number = k) ↔ e ≤ depth ∧ Below st r e k
  /-- every node once -/
  once : (rows.map TreeRow.number).Nodup
  /-- the parents can be read off -/
  parents : ∀ (before : List TreeRow) (x : TreeRow) (after : List TreeRow), rows = before ++ x :: after → x.number ≠ r →
    ∃ (p : TreeRow) (n : Node G Fl), Under before p x ∧ st[x.number]? = some n ∧ n.parent = some p.number
  /-- the order of siblings is that of the list of children -/
  order : ∀ (i : Nat) (n : Node G Fl) (c c' : Nat), st[i]? = some n → [c, c'].Sublist n.children → c ≠ r → c ∈ rows.map TreeRow.number →
    [c, c'].Sublist (rows.map TreeRow.number)
  /-- the columns -/
  columns : ∀ x ∈ rows, ∃ (n : Node G Fl) (u : Fl.F), st[x.number]? = some n ∧ n.ucb st = .ok u ∧
    x.columns = [[], lit "Visits: " ++ digits n.visits ++ lit ".00 ", lit "Value: " ++ fm.two n.value ++ lit " ",
      lit "UCB: " ++ fm.five u ++ lit " ", lit "Win_Pct: " ++ fm.three (Fl.winPct n.value n.visits)]

/-! ## The walk -/

/-- The children of node `i`. -/
def kids (st : Store G Fl) (i : Nat) : List Nat := ((st[i]?).map Node.children).getD []

theorem kids_eq {st : Store G Fl} {i : Nat} {n : Node G Fl} (h : st[i]? = some n) : kids st i = n.children := by
  unfold kids; rw [h]; rfl

/-- Levels and numbers in the order of the lines. -/
def walk (st : Store G Fl) : Nat → Nat → Nat → List (Nat × Nat)
  | 0, _, _ => []
  | f + 1, cur, i => (cur, i) :: (kids st i).flatMap (walk st f (cur + 1))

theorem Below.down {st : Store G Fl} (w : WellFormed st) {i c d k : Nat} {n : Node G Fl} (hi : st[i]? = some n)
    (hc : c ∈ n.children) (h : Below st c d k) : Below st i (d + 1) k := by
  induction h with
  | refl =>
    obtain ⟨cn, h1, h2⟩ := w.down _ _ _ hi hc
    exact .step h1 h2 .refl
  | step h1 h2 _ ih => exact .step h1 h2 ih

theorem Below.up {st : Store G Fl} (w : WellFormed st) {i d k : Nat} (h : Below st i d k) : ∀ d', d = d' + 1 →
    ∃ n, st[i]? = some n ∧ ∃ c ∈ n.children, Below st c d' k := by
  induction h with
  | refl => intro d' h; omega
  | @step d k p n h1 h2 h3 ih =>
    intro d' hd
    obtain rfl : d = d' := by omega
    cases d with
    | zero =>
      cases h3
      obtain ⟨-, pn, a, h4, h5, -⟩ := w.up _ _ _ h1 h2
      exact ⟨pn, h4, k, h5, .refl⟩
    | succ d =>
      obtain ⟨m, h4, c, h5, h6⟩ := ih d rfl
      exact ⟨m, h4, c, h5, .step h1 h2 h6⟩

theorem Below.anc {st : Store G Fl} {i d k : Nat} (h : Below st i d k) : Anc st i k := by
  induction h with
  | refl => exact .refl
  | step h1 h2 _ ih => exact .step h1 h2 ih

theorem mem_walk {st : Store G Fl} (w : WellFormed st) {e k : Nat} : ∀ (f cur i : Nat), i < st.length →
    ((e, k) ∈ walk st f cur i ↔ ∃ d, e = cur + d ∧ d < f ∧ Below st i d k)
  | 0, cur, i, _ => by simp [walk]
  | f + 1, cur, i, hi => by
    obtain ⟨n, hn⟩ : ∃ n, st[i]? = some n := ⟨_, List.getElem?_eq_getElem hi⟩
    simp only [walk, kids_eq hn, List.mem_cons, Prod.mk.injEq, List.mem_flatMap]
    have hl : ∀ c ∈ n.children, c < st.length := by
      intro c hc
      obtain ⟨cn, h1, -⟩ := w.down _ _ _ hn hc
      exact (List.getElem?_eq_some_iff.1 h1).1
    constructor
    · rintro (⟨rfl, rfl⟩ | ⟨c, hc, h⟩)
      · exact ⟨0, rfl, by omega, .refl⟩
      · obtain ⟨d, h1, h2, h3⟩ := (mem_walk w f (cur + 1) c (hl c hc)).1 h
        exact ⟨d + 1, by omega, by omega, h3.down w hn hc⟩
    · rintro ⟨d, h1, h2, h3⟩
      cases d with
      | zero => cases h3; exact .inl ⟨h1, rfl⟩
      | succ d =>
        obtain ⟨m, h4, c, h5, h6⟩ := h3.up w d rfl
        obtain rfl : n = m := Option.some.inj (hn.symm.trans h4)
        exact .inr ⟨c, h5, (mem_walk w f (cur + 1) c (hl c h5)).2 ⟨d, by omega, by omega, h6⟩⟩

theorem walk_below {st : Store G Fl} (w : WellFormed st) {f cur i : Nat} (hi : i < st.length) {x : Nat × Nat}
    (h : x ∈ walk st f cur i) : cur ≤ x.1 ∧ Anc st i x.2 := by
  obtain ⟨d, h1, -, h3⟩ := (mem_walk w f cur i hi).1 h
  exact ⟨by omega, h3.anc⟩

theorem kid_lt {st : Store G Fl} (w : WellFormed st) {i c : Nat} {n : Node G Fl} (hi : st[i]? = some n) (hc : c ∈ n.children) :
    c < st.length ∧ i < c := by
  obtain ⟨cn, h1, h2⟩ := w.down _ _ _ hi hc
  exact ⟨(List.getElem?_eq_some_iff.1 h1).1, (w.up _ _ _ h1 h2).1⟩

theorem uplt {st : Store G Fl} (w : WellFormed st) : UpLt st := fun _ _ _ h1 h2 => (w.up _ _ _ h1 h2).1

theorem walk_nodup {st : Store G Fl} (w : WellFormed st) : ∀ (f cur i : Nat), i < st.length → ((walk st f cur i).map Prod.snd).Nodup
  | 0, cur, i, _ => by simp [walk]
  | f + 1, cur, i, hi => by
    obtain ⟨n, hn⟩ : ∃ n, st[i]? = some n := ⟨_, List.getElem?_eq_getElem hi⟩
    simp only [walk, kids_eq hn, List.map_cons, List.nodup_cons, List.map_flatMap]
    have key : ∀ c ∈ n.children, ∀ k ∈ (walk st f (cur + 1) c).map Prod.snd, Anc st c k := by
      intro c hc k hk
      obtain ⟨x, h1, rfl⟩ := List.mem_map.1 hk
      exact (walk_below w (kid_lt w hn hc).1 h1).2
    refine ⟨fun h => ?_, ?_⟩
    · obtain ⟨c, hc, h1⟩ := List.mem_flatMap.1 h
      have := (key c hc _ h1).le (uplt w)
      have := (kid_lt w hn hc).2
      omega
    · rw [List.nodup_flatMap]
      refine ⟨fun c hc => walk_nodup w f _ c (kid_lt w hn hc).1, ?_⟩
      have hnd := w.nodup _ _ hn
      refine (List.Pairwise.and_mem.1 hnd).imp ?_
      rintro a b ⟨ha, hb, hab⟩ k hk1 hk2
      exact hab (anc_sibling w hn ha hb (key a ha k hk1) (key b hb k hk2))

theorem flatMap_split {α β : Type} {f : α → List β} {b1 b2 : List β} {x : β} : ∀ {l : List α}, l.flatMap f = b1 ++ x :: b2 →
    ∃ l1 a l2 a1 a2, l = l1 ++ a :: l2 ∧ f a = a1 ++ x :: a2 ∧ b1 = l1.flatMap f ++ a1 := by
  intro l
  induction l generalizing b1 with
  | nil => intro h; simp at h
  | cons a l ih =>
    intro h
    rw [List.flatMap_cons] at h
    rcases List.append_eq_append_iff.1 h with ⟨c, h1, h2⟩ | ⟨c, h1, h2⟩
    · obtain ⟨l1, a', l2, a1, a2, h3, h4, h5⟩ := ih h2
      exact ⟨a :: l1, a', l2, a1, a2, by rw [h3]; rfl, h4, by rw [h1, h5, List.flatMap_cons, List.append_assoc]⟩
    · cases c with
      | nil =>
        obtain ⟨l1, a', l2, a1, a2, h3, h4, h5⟩ := ih (b1 := []) (by simpa using h2.symm)
        refine ⟨a :: l1, a', l2, a1, a2, by rw [h3]; rfl, h4, ?_⟩
        rw [List.flatMap_cons, List.append_assoc, ← h5, List.append_nil]
        simpa using h1.symm
      | cons y c =>
        obtain ⟨rfl, -⟩ := List.cons.inj h2
        exact ⟨[], a, l, b1, c, rfl, h1, rfl⟩

/-- The parent of a line is the last one before it on the level above. -/
theorem walk_parent {st : Store G Fl} (w : WellFormed st) : ∀ (f cur i : Nat), i < st.length → ∀ before x after,
    walk st f cur i = before ++ x :: after → (before = [] ∧ x = (cur, i)) ∨
      ∃ a p b n, before = a ++ p :: b ∧ x.1 = p.1 + 1 ∧ (∀ y ∈ b, x.1 ≤ y.1) ∧ st[x.2]? = some n ∧ n.parent = some p.2
  | 0, cur, i, _ => by intro before x after h; simp [walk] at h
  | f + 1, cur, i, hi => by
    intro before x after h
    obtain ⟨n, hn⟩ : ∃ n, st[i]? = some n := ⟨_, List.getElem?_eq_getElem hi⟩
    simp only [walk, kids_eq hn] at h
    cases before with
    | nil => exact .inl ⟨rfl, (List.cons.inj h).1.symm⟩
    | cons y before =>
      obtain ⟨rfl, h'⟩ := List.cons.inj h
      obtain ⟨l1, c, l2, a1, a2, h1, h2, h3⟩ := flatMap_split h'
      have hc : c ∈ n.children := by rw [h1]; simp
      right
      rcases walk_parent w f (cur + 1) c (kid_lt w hn hc).1 _ _ _ h2 with ⟨rfl, rfl⟩ | ⟨a, p, b, m, g1, g2, g3, g4, g5⟩
      · obtain ⟨cn, e1, e2⟩ := w.down _ _ _ hn hc
        refine ⟨[], (cur, i), before, cn, rfl, rfl, ?_, e1, e2⟩
        intro z hz
        rw [h3, List.append_nil] at hz
        obtain ⟨c', hc', hz⟩ := List.mem_flatMap.1 hz
        exact (walk_below w (kid_lt w hn (by rw [h1]; simp [hc'])).1 hz).1
      · refine ⟨(cur, i) :: (l1.flatMap (walk st f (cur + 1)) ++ a), p, b, m, ?_, g2, g3, g4, g5⟩
        rw [h3, g1]; simp

theorem sublist_flatMap {α β : Type} {f : α → List β} {a b : α} {x y : β} (hx : x ∈ f a) (hy : y ∈ f b) : ∀ {l : List α},
    [a, b].Sublist l → [x, y].Sublist (l.flatMap f) := by
  intro l h
  obtain ⟨l1, l2, rfl, h1, h2⟩ := List.append_sublist_iff.1 (show ([a] ++ [b]).Sublist l from h)
  rw [List.flatMap_append]
  refine List.Sublist.append (l₁ := [x]) (r₁ := [y]) ?_ ?_
  · exact List.singleton_sublist.2 (List.mem_flatMap.2 ⟨a, List.singleton_sublist.1 h1, hx⟩)
  · exact List.singleton_sublist.2 (List.mem_flatMap.2 ⟨b, List.singleton_sublist.1 h2, hy⟩)

theorem walk_order {st : Store G Fl} (w : WellFormed st) {j c c' : Nat} {m : Node G Fl} (hj : st[j]? = some m)
    (hs : [c, c'].Sublist m.children) : ∀ (f cur i : Nat), i < st.length → Anc st i j →
    c ∈ (walk st f cur i).map Prod.snd → [c, c'].Sublist ((walk st f cur i).map Prod.snd)
  | 0, cur, i, _, _ => by intro h; simp [walk] at h
  | f + 1, cur, i, hi, ha => by
    intro h
    obtain ⟨n, hn⟩ : ∃ n, st[i]? = some n := ⟨_, List.getElem?_eq_getElem hi⟩
    have hcm : c ∈ m.children := hs.subset (by simp)
    have hcm' : c' ∈ m.children := hs.subset (by simp)
    simp only [walk, kids_eq hn, List.map_cons, List.map_flatMap] at h ⊢
    have hne : c ≠ i := by
      rintro rfl
      have := ha.le (uplt w)
      have := (kid_lt w hj hcm).2
      omega
    refine List.Sublist.cons _ ?_
    rcases List.mem_cons.1 h with h | h
    · exact absurd h hne
    obtain ⟨d, hd, h1⟩ := List.mem_flatMap.1 h
    cases f with
    | zero => simp [walk] at h1
    | succ f =>
      by_cases hij : i = j
      · subst hij
        obtain rfl : n = m := Option.some.inj (hn.symm.trans hj)
        exact sublist_flatMap (by simp [walk]) (by simp [walk]) hs
      · -- the child towards `j`
        obtain ⟨x, hx, rfl⟩ := List.mem_map.1 h1
        have hdx := (walk_below w (kid_lt w hn hd).1 hx).2
        obtain ⟨cn, e1, e2⟩ := w.down _ _ _ hj hcm
        have hdj : Anc st d j := by
          rcases (anc_cases e1).1 hdx with e | ⟨p, e3, e4⟩
          · subst e
            obtain ⟨dn, e5, e6⟩ := w.down _ _ _ hn hd
            obtain rfl : cn = dn := Option.some.inj (e1.symm.trans e5)
            exact absurd (Option.some.inj (e6.symm.trans e2)) hij
          · rw [e2] at e3
            cases e3
            exact e4
        have hr := walk_order w hj hs (f + 1) (cur + 1) d (kid_lt w hn hd).1 hdj h1
        refine hr.trans ?_
        obtain ⟨l1, l2, e⟩ := List.append_of_mem hd
        rw [e, List.flatMap_append, List.flatMap_cons]
        exact (List.sublist_append_left _ _).trans (List.sublist_append_right _ _)

/-! ## The lines -/

/-- The line of node `k` on level `e`. -/
def lineOf (fm : Formats G Fl) (st : Store G Fl) (x : Nat × Nat) : Name :=
  match st[x.2]? with
  | none => []
  | some n => match n.ucb st with
    | .error _ => []
    | .ok u => treeLine fm x.1 x.2 n u

theorem pretty_lines (fm : Formats G Fl) {st : Store G Fl} (w : WellFormed st) : ∀ (f cur i : Nat), i < st.length →
    prettyFrom fm st f cur i = .ok ((walk st f cur i).flatMap fun x => lineOf fm st x ++ ['\n'])
  | 0, cur, i, _ => rfl
  | f + 1, cur, i, hi => by
    obtain ⟨n, hn⟩ : ∃ n, st[i]? = some n := ⟨_, List.getElem?_eq_getElem hi⟩
    obtain ⟨u, hu⟩ := ucb_ok w hn
    have hk : n.children.mapM (prettyFrom fm st f (cur + 1)) =
        .ok (n.children.map fun c => (walk st f (cur + 1) c).flatMap fun x => lineOf fm st x ++ ['\n']) :=
      Pr.mapM_ok fun c hc => pretty_lines fm w f (cur + 1) c (kid_lt w hn hc).1
    have hl : lineOf fm st (cur, i) = treeLine fm cur i n u := by simp only [lineOf, hn, hu]
    rw [prettyFrom]
    simp only [getNode, hn, hu, hk, bind, Except.bind, pure, Except.pure, walk, kids_eq hn, List.flatMap_cons, hl]
    congr 2
    rw [List.flatMap_assoc, List.flatMap_def]

theorem digits_not {n : Nat} {c : Char} (h : c.isDigit = false) : c ∉ digits n := by
  intro hm
  rw [digits_isDigit hm] at h
  cases h

theorem textLines_flat {α : Type} {g : α → Name} : ∀ {l : List α}, (∀ x ∈ l, '\n' ∉ g x) →
    textLines (l.flatMap fun x => g x ++ ['\n']) = l.map g := by
  intro l
  unfold textLines
  induction l with
  | nil => intro _; rfl
  | cons a l ih =>
    intro h
    rw [List.flatMap_cons, split_sep (h a (by simp)), List.map_cons, ← ih (fun x hx => h x (by simp [hx])),
      List.dropLast_cons_of_ne_nil]
    intro e
    cases hr : (l.flatMap fun x => g x ++ ['\n']) with
    | nil => rw [hr] at e; simp [split] at e
    | cons y ys =>
      rw [hr, split] at e
      split at e
      · cases e
      · split at e <;> cases e

theorem leading_line (k : Nat) (r : Name) : leading (List.replicate k ' ' ++ '[' :: r) = k := by
  unfold leading
  induction k with
  | zero => rfl
  | succ k ih => rw [List.replicate_succ, List.cons_append, List.takeWhile_cons_of_pos (by decide), List.length_cons, ih]

theorem bracket_line (k i : Nat) (r : Name) : bracket (List.replicate k ' ' ++ '[' :: (digits i ++ ']' :: r)) = i := by
  have h : (List.replicate k ' ' ++ '[' :: (digits i ++ ']' :: r)).dropWhile (· ≠ '[') = '[' :: (digits i ++ ']' :: r) := by
    induction k with
    | zero => rfl
    | succ k ih => rw [List.replicate_succ, List.cons_append, List.dropWhile_cons_of_pos (by decide), ih]
  unfold bracket
  rw [h, List.drop_one, List.tail_cons, List.takeWhile_append_of_pos (fun c hc => digits_isDigit hc),
    List.takeWhile_cons_of_neg (by decide), List.append_nil, digits, Nat.ofDigitChars_toDigits] <;> decide

/-- A line taken apart at the tabs. -/
theorem line_eq (fm : Formats G Fl) (cur i : Nat) (n : Node G Fl) (u : Fl.F) : treeLine fm cur i n u =
    (List.replicate (2 * cur) ' ' ++ '[' :: (digits i ++ ']' :: (lit " Action: " ++ fm.action n.action ++ lit " "))) ++ ['\t'] ++
    ([] ++ ['\t'] ++ ((lit "Visits: " ++ digits n.visits ++ lit ".00 ") ++ ['\t'] ++ ((lit "Value: " ++ fm.two n.value ++ lit " ") ++
      ['\t'] ++ ((lit "UCB: " ++ fm.five u ++ lit " ") ++ ['\t'] ++ (lit "Win_Pct: " ++ fm.three (Fl.winPct n.value n.visits)))))) := by
  have e1 : lit "] Action: " = ']' :: lit " Action: " := by decide
  have e2 : lit " \t\tVisits: " = lit " " ++ ['\t'] ++ ['\t'] ++ lit "Visits: " := by decide
  have e3 : lit " \tValue: " = lit " " ++ ['\t'] ++ lit "Value: " := by decide
  have e4 : lit " \tUCB: " = lit " " ++ ['\t'] ++ lit "UCB: " := by decide
  have e5 : lit " \tWin_Pct: " = lit " " ++ ['\t'] ++ lit "Win_Pct: " := by decide
  have e6 : lit ".00 " = lit ".00" ++ lit " " := by decide
  have e7 : lit "[" = ['['] := by decide
  simp only [treeLine, twoNat, Node.winPct, e1, e2, e3, e4, e5, e6, e7, List.append_assoc, List.cons_append, List.nil_append]

theorem line_clean {fm : Formats G Fl} (hf : Clean fm) (cur i : Nat) (n : Node G Fl) (u : Fl.F) : '\n' ∉ treeLine fm cur i n u := by
  have hd : ∀ k, '\n' ∉ digits k := fun k => digits_not (by decide)
  simp only [treeLine, twoNat, List.mem_append, not_or, List.mem_replicate]
  exact ⟨⟨⟨⟨⟨⟨⟨⟨⟨⟨⟨⟨fun h => absurd h.2 (by decide), by decide⟩, hd _⟩, by decide⟩, (hf.action _).1⟩, by decide⟩, hd _, by decide⟩, by decide⟩, (hf.two _).1⟩, by decide⟩,
    (hf.five _).1⟩, by decide⟩, (hf.three _).1⟩

theorem line_row {fm : Formats G Fl} (hf : Clean fm) (cur i : Nat) (n : Node G Fl) (u : Fl.F) :
    leading (treeLine fm cur i n u) / 2 = cur ∧ bracket (treeLine fm cur i n u) = i ∧ (split '\t' (treeLine fm cur i n u)).drop 1 =
      [[], lit "Visits: " ++ digits n.visits ++ lit ".00 ", lit "Value: " ++ fm.two n.value ++ lit " ",
      lit "UCB: " ++ fm.five u ++ lit " ", lit "Win_Pct: " ++ fm.three (Fl.winPct n.value n.visits)] := by
  have hd : ∀ k, '\t' ∉ digits k := fun k => digits_not (by decide)
  refine ⟨?_, ?_, ?_⟩
  · rw [line_eq]
    simp only [List.append_assoc, List.cons_append]
    rw [leading_line]; omega
  · rw [line_eq]
    simp only [List.append_assoc, List.cons_append]
    rw [bracket_line]
  · rw [line_eq, split_sep, split_sep, split_sep, split_sep, split_sep, split_none]
    · rfl
    all_goals simp only [List.mem_append, List.mem_cons, not_or, List.mem_replicate, List.not_mem_nil, not_false_eq_true]
    · exact ⟨by decide, (hf.three _).2⟩
    · exact ⟨⟨by decide, (hf.five _).2⟩, by decide⟩
    · exact ⟨⟨by decide, (hf.two _).2⟩, by decide⟩
    · exact ⟨⟨by decide, hd _⟩, by decide⟩
    · exact ⟨fun h => absurd h.2 (by decide), by decide, hd _, by decide, ⟨by decide, (hf.action _).2⟩, by decide⟩

/-- C117: printing the tree below a node does not panic, and the text shows the tree. -/
theorem C117_tree {fm : Formats G Fl} (hf : Clean fm) {st : Store G Fl} (w : WellFormed st) {r : Nat} (hr : r < st.length) (depth : Nat) :
    ∃ txt, prettyPrint fm st r depth = .ok txt ∧ ShowsTree fm st r depth (readRows txt) := by
  refine ⟨_, pretty_lines fm w (depth + 1) 0 r hr, ?_⟩
  have hin : ∀ x ∈ walk st (depth + 1) 0 r, ∃ n u, st[x.2]? = some n ∧ n.ucb st = .ok u ∧ lineOf fm st x = treeLine fm x.1 x.2 n u := by
    rintro ⟨e, k⟩ hx
    have hk : ∃ n, st[k]? = some n := by
      obtain ⟨d, -, -, h⟩ := (mem_walk w _ _ _ hr).1 hx
      cases h with
      | refl => exact ⟨_, List.getElem?_eq_getElem hr⟩
      | step h1 _ _ => exact ⟨_, h1⟩
    obtain ⟨n, hn⟩ := hk
    obtain ⟨u, hu⟩ := ucb_ok w hn
    exact ⟨n, u, hn, hu, by simp only [lineOf, hn, hu]⟩
  have hrows : readRows ((walk st (depth + 1) 0 r).flatMap fun x => lineOf fm st x ++ ['\n']) =
      (walk st (depth + 1) 0 r).map fun x => (⟨x.1, x.2, (split '\t' (lineOf fm st x)).drop 1⟩ : TreeRow) := by
    unfold readRows
    rw [textLines_flat, List.map_map]
    · refine List.map_congr_left fun x hx => ?_
      obtain ⟨n, u, -, -, h⟩ := hin x hx
      obtain ⟨h1, h2, -⟩ := line_row hf x.1 x.2 n u
      simp only [Function.comp, h, h1, h2]
    · intro x hx
      obtain ⟨n, u, -, -, h⟩ := hin x hx
      rw [h]
      exact line_clean hf x.1 x.2 n u
  rw [hrows]
  have hnum : ((walk st (depth + 1) 0 r).map fun x => (⟨x.1, x.2, (split '\t' (lineOf fm st x)).drop 1⟩ : TreeRow)).map TreeRow.number =
      (walk st (depth + 1) 0 r).map Prod.snd := by rw [List.map_map]; rfl
  refine ⟨?_, ?_, ?_, ?_, ?_⟩
  · intro e k
    have h := mem_walk (e := e) (k := k) w (depth + 1) 0 r hr
    constructor
    · rintro ⟨x, hx, rfl, rfl⟩
      obtain ⟨y, hy, rfl⟩ := List.mem_map.1 hx
      obtain ⟨d, h1, h2, h3⟩ := (mem_walk w _ _ _ hr).1 hy
      rw [Nat.zero_add] at h1
      subst h1
      exact ⟨Nat.lt_succ_iff.1 h2, h3⟩
    · rintro ⟨h1, h2⟩
      exact ⟨_, List.mem_map.2 ⟨(e, k), h.2 ⟨e, by omega, by omega, h2⟩, rfl⟩, rfl, rfl⟩
  · rw [hnum]
    exact walk_nodup w _ _ _ hr
  · intro before x after h hne
    obtain ⟨l1, l2, h1, h2, h3⟩ := List.map_eq_append_iff.1 h
    obtain ⟨y, l3, h4, h5, h6⟩ := List.map_eq_cons_iff.1 h3
    subst h4 h5 h2
    rcases walk_parent w _ _ _ hr _ _ _ h1 with ⟨-, rfl⟩ | ⟨a, p, b, n, g1, g2, g3, g4, g5⟩
    · exact absurd rfl hne
    · refine ⟨_, n, ⟨_, _, by rw [g1, List.map_append, List.map_cons], g2, ?_⟩, g4, g5⟩
      intro z hz
      obtain ⟨y, hy, rfl⟩ := List.mem_map.1 hz
      exact g3 y hy
  · intro i n c c' hi hs hne hc
    rw [hnum] at hc ⊢
    by_cases ha : Anc st r i
    · exact walk_order w hi hs _ _ _ hr ha hc
    · obtain ⟨x, hx, rfl⟩ := List.mem_map.1 hc
      have h1 := (walk_below w hr hx).2
      obtain ⟨cn, e1, e2⟩ := w.down _ _ _ hi (hs.subset (by simp) : x.2 ∈ n.children)
      rcases (anc_cases e1).1 h1 with e | ⟨p, e3, e4⟩
      · exact absurd e.symm hne
      · rw [e2] at e3
        cases e3
        exact absurd e4 ha
  · intro x hx
    obtain ⟨y, hy, rfl⟩ := List.mem_map.1 hx
    obtain ⟨n, u, h1, h2, h⟩ := hin y hy
    refine ⟨n, u, h1, h2, ?_⟩
    rw [h]
    exact (line_row hf ..).2.2

end DieE.Props.Pn
