import Verif.Mcts.Win

/-! # The path of an iteration through the tree -/

namespace DieE.Mcts
variable {G : Game} {Fl : Floats}

/-- Ancestors of the same node are ancestors of each other. -/
theorem anc_total {st : Store G Fl} {a b i : Nat} (h1 : Anc st a i) (h2 : Anc st b i) : Anc st a b ∨ Anc st b a := by
  induction h1 with
  | refl => exact .inr h2
  | @step k p n g1 g2 g3 ih =>
    rcases (anc_cases g1).1 h2 with h | ⟨q, hq, h⟩
    · subst h
      exact .inl (.step g1 g2 g3)
    · rw [g2] at hq
      cases Option.some.inj hq
      exact ih h

/-- A path goes through one child of a node only. -/
theorem anc_sibling {st : Store G Fl} (w : WellFormed st) {x a b i : Nat} {n : Node G Fl} (hx : st[x]? = some n)
    (ha : a ∈ n.children) (hb : b ∈ n.children) (h1 : Anc st a i) (h2 : Anc st b i) : a = b := by
  have one : ∀ a b : Nat, a ∈ n.children → b ∈ n.children → Anc st a b → a = b := by
    intro a b ha hb h
    obtain ⟨bn, hb1, hb2⟩ := w.down x n b hx hb
    obtain ⟨an, ha1, ha2⟩ := w.down x n a hx ha
    rcases (anc_cases hb1).1 h with h | ⟨q, hq, h⟩
    · exact h
    · rw [hb2] at hq
      cases Option.some.inj hq
      have := h.le w.upLt
      have := (w.up a an x ha1 ha2).1
      omega
  rcases anc_total h1 h2 with h | h
  · exact one a b ha hb h
  · exact (one b a hb ha h).symm

theorem selectLeaf_path {st : Store G Fl} (w : WellFormed st) (f j : Nat) (hj : j < st.length) (hf : st.length ≤ f + j)
    {i : Nat} (h : selectLeaf st f j = .ok i) {x : Nat} {n : Node G Fl} (hx : st[x]? = some n) (h1 : Anc st j x)
    (h2 : Anc st x i) (hc : n.children ≠ []) (he : n.expandable = []) :
    ∃ (c : Nat) (m : Node G Fl), selectUcb x st = .ok m ∧ c ∈ n.children ∧ st[c]? = some m ∧ Anc st c i := by
  induction f generalizing j with
  | zero => omega
  | succ f ih =>
    obtain ⟨jn, hjn⟩ : ∃ n, st[j]? = some n := ⟨_, List.getElem?_eq_getElem hj⟩
    have hstep : selectLeaf st (f + 1) j = (if jn.children.isEmpty || !jn.isFullyExpanded then pure jn.idx
        else do
          let c ← selectUcb j st
          selectLeaf st f c.idx) := by
      show (getNode st j >>= _) = _
      rw [getNode_ok.2 hjn]
      rfl
    rw [hstep] at h
    by_cases hl : (jn.children.isEmpty || !jn.isFullyExpanded) = true
    · rw [if_pos hl] at h
      cases Except.ok.inj h
      rw [w.idx j jn hjn] at h2
      have := h1.le w.upLt
      have := h2.le w.upLt
      have : x = j := by omega
      subst this
      rw [hx] at hjn
      cases Option.some.inj hjn
      exfalso
      rw [Bool.or_eq_true, List.isEmpty_iff] at hl
      rcases hl with hl | hl
      · exact hc hl
      · simp [Node.isFullyExpanded, he] at hl
    · rw [if_neg hl] at h
      have hch : jn.children ≠ [] := by
        intro h; simp [h] at hl
      obtain ⟨c, m, g1, g2, g3⟩ := selectUcb_spec w hjn hch
      rw [g1] at h
      change selectLeaf st f m.idx = .ok i at h
      rw [w.idx c m g3] at h
      obtain ⟨cn, g4, g5⟩ := w.down j jn c hjn g2
      have hjc : j < c := (w.up c cn j g4 g5).1
      have hcl := (List.getElem?_eq_some_iff.1 g3).1
      obtain ⟨k, kn, g6, g7, g8, -⟩ := selectLeaf_spec w f c hcl (by omega)
      rw [g6] at h
      cases Except.ok.inj h
      by_cases hxj : x = j
      · subst hxj
        rw [hx] at hjn
        cases Option.some.inj hjn
        exact ⟨c, m, g1, g2, g3, g8⟩
      · obtain ⟨d, d1, d2⟩ := h1.through w hjn hxj
        cases anc_sibling w hjn d1 g2 (d2.trans h2) g8
        exact ih c hcl (by omega) g6 d2

/-- Positions that can come up from `s` on: every move is legal and made in a position that is not final. -/
inductive Reaches (G : Game) (s : G.S) : G.S → Prop
  | refl : Reaches G s s
  | step {s1 s2 : G.S} {a : G.Mv} {ms : List G.Mv} : Reaches G s s1 → G.winner s1 = none → G.moves s1 = .ok ms → a ∈ ms →
      Plays G s1 a s2 → Reaches G s s2

theorem Reaches.keep {s s' : G.S} (h : Reaches G s s') (P : G.S → Prop) (hs : P s)
    (hstep : ∀ (s1 s2 : G.S) (a : G.Mv) (ms : List G.Mv), G.winner s1 = none → G.moves s1 = .ok ms → a ∈ ms →
      Plays G s1 a s2 → P s1 → P s2) : P s' := by
  induction h with
  | refl => exact hs
  | step _ h1 h2 h3 h4 ih => exact hstep _ _ _ _ h1 h2 h3 h4 ih

theorem anc_reaches {st : Store G Fl} (w : WellFormed st)
    (term : ∀ (i : Nat) (n : Node G Fl), st[i]? = some n → G.winner n.state ≠ none → n.children = [])
    {j i : Nat} {m n : Node G Fl} (hj : st[j]? = some m) (hi : st[i]? = some n) (h : Anc st j i) :
    Reaches G m.state n.state := by
  induction h generalizing n with
  | refl =>
    rw [hj] at hi
    cases Option.some.inj hi
    exact .refl
  | @step k p kn g1 g2 g3 ih =>
    rw [g1] at hi
    cases Option.some.inj hi
    obtain ⟨-, pn, -, k1, k2, -, -⟩ := w.up k kn p g1 g2
    obtain ⟨a, ms, -, e1, e2, e3⟩ := child_legal w k1 k2 g1
    refine .step (ih k1) ?_ e1 e2 e3
    cases hw : G.winner pn.state with
    | none => rfl
    | some w =>
      rw [term p pn k1 (by rw [hw]; simp)] at k2
      cases k2

open Classical in
/-- One iteration in short: along the path to a node that can come up from every position on the path, that node's first
value is recorded; nodes with all their children keep them. -/
theorem iteration_digest {player : Int} {limit : Nat} {st st' : Store G Fl} {k : Nat} {t t' : Tape} (w : WellFormed st)
    (term : ∀ (i : Nat) (n : Node G Fl), st[i]? = some n → G.winner n.state ≠ none → n.children = [])
    (hl : 0 < limit) (h0 : 0 < st.length) (h : iteration player limit 0 st t = .ok ((st', k), t')) :
    ∃ (i : Nat) (s : G.S), selectLeafNode 0 st = .ok i ∧
      (∀ (j : Nat) (m : Node G Fl), st[j]? = some m → Anc st j i → Reaches G m.state s) ∧
      ∀ (j : Nat) (m : Node G Fl), st[j]? = some m → ∃ m' : Node G Fl, st'[j]? = some m' ∧ m'.parent = m.parent ∧
        m'.state = m.state ∧ m'.action = m.action ∧ (m.children ≠ [] → m.expandable = [] → m'.children = m.children ∧ m'.expandable = []) ∧
        m'.visits = (if Anc st j i then vinc m.visits else m.visits) ∧
        m'.value = (if Anc st j i then Fl.add m.value (Fl.ofInt (firstValue G player s)) else m.value) := by
  have w' := (iteration_spec w h0 h).1
  obtain ⟨i, n, h1, h2, h3, h4⟩ := iteration_detail w hl h0 h
  obtain ⟨i', n', e1, e2, -, e4⟩ := selectLeafNode_spec w 0 h0
  rw [h1] at e1
  cases Except.ok.inj e1
  rw [h2] at e2
  cases Option.some.inj e2
  rcases h4 with ⟨wn, hw, -, hrec⟩ | ⟨hw, f, f1, -, -, -, -, hlen', hnew, hrec⟩
  · refine ⟨i, n.state, h1, fun j m hj ha => anc_reaches w term hj h2 ha, fun j m hj => ⟨_, hrec j m hj, ?_⟩⟩
    have hv : firstValue G player n.state = outcome wn player := by
      unfold firstValue
      rw [hw]
    rw [hv]
    by_cases ha : Anc st j i
    · simp only [if_pos ha]
      exact ⟨rfl, rfl, rfl, fun _ h => ⟨rfl, h⟩, rfl, rfl⟩
    · simp only [if_neg ha]
      exact ⟨trivial, trivial, trivial, fun _ h => ⟨trivial, h⟩, trivial, trivial⟩
  · refine ⟨i, f.state, h1, ?_, fun j m hj => ⟨_, hrec j m hj, ?_⟩⟩
    · intro j m hj ha
      have hp := hrec i n h2
      rw [if_pos .refl, if_pos rfl] at hp
      obtain ⟨a, ms, -, g1, g2, g3⟩ := child_legal w' hp (show st.length ∈ _ from by
        show st.length ∈ n.children ++ [st.length]
        simp) hnew
      exact .step (anc_reaches w term hj h2 ha) hw g1 g2 g3
    · by_cases ha : Anc st j i
      · simp only [if_pos ha]
        by_cases hji : j = i
        · subst hji
          rw [if_pos rfl]
          rw [h2] at hj
          cases Option.some.inj hj
          refine ⟨rfl, rfl, rfl, fun h1 h2 => ?_, rfl, rfl⟩
          rcases e4 with h | h
          · exact absurd h h1
          · exact absurd h2 h
        · rw [if_neg hji]
          exact ⟨rfl, rfl, rfl, fun _ h => ⟨rfl, h⟩, rfl, rfl⟩
      · simp only [if_neg ha]
        exact ⟨trivial, trivial, trivial, fun _ h => ⟨trivial, h⟩, trivial, trivial⟩

end DieE.Mcts
