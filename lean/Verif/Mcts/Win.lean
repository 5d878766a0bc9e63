import Verif.Mcts.Select
import Verif.Mcts.Values
import Verif.Mcts.BatchVisits

/-! # Immediate wins in the plain search -/

namespace DieE.Mcts
variable {G : Game} {Fl : Floats}

/-- What a rollout from a new node reports, if its limit is not 0: the outcome if the position is final, else 0. -/
def firstValue (G : Game) (player : Int) (s : G.S) : Int :=
  match G.winner s with
  | some w => outcome w player
  | none => 0

theorem simulateLoop_first {start : G.S} {player : Int} {limit : Nat} (hl : 0 < limit) {curr : G.S} {t t' : Tape} {v : Int}
    (h : simulateLoop start player limit curr t = .ok (v, t')) : v = firstValue G player start := by
  unfold firstValue
  cases hw : G.winner start with
  | some w =>
    obtain ⟨k, rfl⟩ : ∃ k, limit = k + 1 := ⟨limit - 1, by omega⟩
    unfold simulateLoop at h
    rw [hw] at h
    cases M.pure_ok.1 h
    rfl
  | none =>
    clear hl
    induction limit generalizing curr t with
    | zero => cases M.pure_ok.1 h; rfl
    | succ k ih =>
      unfold simulateLoop at h
      rw [hw] at h
      simp only at h
      obtain ⟨ms, t1, -, h⟩ := M.bind_ok.1 h
      obtain ⟨o, t2, -, h⟩ := M.bind_ok.1 h
      cases o with
      | some a =>
        obtain ⟨s', t3, -, h⟩ := M.bind_ok.1 h
        exact ih h
      | none =>
        obtain ⟨s', t3, -, h⟩ := M.bind_ok.1 h
        exact ih h

/-- The selected node after a child was added to it. -/
def Node.grown (n : Node G Fl) (c : Nat) : Node G Fl :=
  { n with expandable := n.expandable.dropLast, children := n.children ++ [c] }

open Classical in
/-- One iteration in full: a final leaf `i` gets its outcome recorded along its path; to a leaf `i` which is not final
a child is added, and its first value is recorded along its path. -/
theorem iteration_detail {player : Int} {limit r : Nat} {st st' : Store G Fl} {k : Nat} {t t' : Tape} (w : WellFormed st)
    (hl : 0 < limit) (hr : r < st.length) (h : iteration player limit r st t = .ok ((st', k), t')) :
    ∃ (i : Nat) (n : Node G Fl), selectLeafNode r st = .ok i ∧ st[i]? = some n ∧ Anc st r i ∧
      ((∃ wn, G.winner n.state = some wn ∧ st'.length = st.length ∧
          ∀ (j : Nat) (m : Node G Fl), st[j]? = some m →
            st'[j]? = some (if Anc st j i then m.record (Fl.ofInt (outcome wn player)) else m)) ∨
        (G.winner n.state = none ∧ ∃ f : Node G Fl, f.parent = some i ∧ f.visits = 0 ∧ f.value = Fl.ofInt 0 ∧
          f.children = [] ∧ n.expandable ≠ [] ∧ st'.length = st.length + 1 ∧
          st'[st.length]? = some (f.record (Fl.ofInt (firstValue G player f.state))) ∧
          ∀ (j : Nat) (m : Node G Fl), st[j]? = some m →
            st'[j]? = some (if Anc st j i then (if j = i then m.grown st.length else m).record
              (Fl.ofInt (firstValue G player f.state)) else m))) := by
  unfold iteration at h
  obtain ⟨i, t1, h1, h⟩ := M.bind_ok.1 h
  rw [M.lift_ok] at h1
  obtain ⟨i', n, h2, h3, h4, h5⟩ := selectLeafNode_spec w r hr
  rw [h2] at h1
  obtain ⟨h1, rfl⟩ := h1
  injection h1 with h1
  subst h1
  obtain ⟨sel, t2, h6, h⟩ := M.bind_ok.1 h
  rw [M.lift_ok, getNode_ok, h3] at h6
  obtain ⟨h6, rfl⟩ := h6
  injection h6 with h6
  subst h6
  have hil : i' < st.length := (List.getElem?_eq_some_iff.1 h3).1
  refine ⟨i', n, h2, h3, h4, ?_⟩
  cases hw : G.winner n.state with
  | some wn =>
    rw [hw] at h
    simp only at h
    obtain ⟨st1, t3, h7, h⟩ := M.bind_ok.1 h
    rw [M.lift_ok] at h7
    have h8 := M.pure_ok.1 h
    simp only [Prod.mk.injEq] at h8
    obtain ⟨⟨rfl, rfl⟩, -⟩ := h8
    obtain ⟨st2, h9, h10, h11⟩ := backpropagate_spec (Fl.ofInt (outcome wn player)) k st w.upLt hil
    rw [h9] at h7
    have h7 := h7.1
    injection h7 with h7
    subst h7
    exact .inl ⟨wn, rfl, h10.length.symm, h11⟩
  | none =>
    rw [hw] at h
    simp only at h
    obtain ⟨⟨st1, c⟩, t3, h7, ha⟩ := M.bind_ok.1 h
    simp only at ha
    have w1 := expand_wf w h3 h7
    obtain ⟨-, hlen1, -, hup1, -⟩ := expand_frame w h3 h7
    obtain ⟨a, next, ms, g1, g2, g3, rfl, -, rfl⟩ := expand_ok h7
    have hidx : i' = n.idx := (w.idx i' n h3).symm
    subst hidx
    obtain ⟨nn, t4, h8, hb⟩ := M.bind_ok.1 ha
    obtain ⟨v, t5, h9, hc⟩ := M.bind_ok.1 hb
    obtain ⟨st2, t6, h10, hd⟩ := M.bind_ok.1 hc
    rw [M.lift_ok] at h10
    have h11 := M.pure_ok.1 hd
    simp only [Prod.mk.injEq] at h11
    obtain ⟨⟨rfl, rfl⟩, -⟩ := h11
    have hf : ((st ++ [freshNode (Fl := Fl) next st.length (some n.idx) (some a) (Fl.ofInt 0) ms]).set n.idx
        { n with expandable := n.expandable.dropLast, children := n.children ++ [st.length] })[st.length]? =
        some (freshNode next st.length (some n.idx) (some a) (Fl.ofInt 0) ms) := by
      rw [List.getElem?_set_ne (by omega), List.getElem?_append_right (by omega)]
      simp
    rw [M.lift_ok, getNode_ok, hf] at h8
    obtain ⟨h8, rfl⟩ := h8
    injection h8 with h8
    subst h8
    have hv := simulateLoop_first hl h9
    change v = firstValue G player next at hv
    subst hv
    obtain ⟨st2', h12, h13, h14⟩ := backpropagate_spec (Fl.ofInt (firstValue G player next)) st.length _ w1.upLt
      (by rw [hlen1]; omega)
    rw [h12] at h10
    have h10 := h10.1
    injection h10 with h10
    subst h10
    have hlen2 := h13.length
    refine .inr ⟨rfl, freshNode next st.length (some n.idx) (some a) (Fl.ofInt 0) ms, rfl, rfl, rfl, rfl, ?_, ?_, ?_, ?_⟩
    · intro h0; rw [h0] at g1; simp at g1
    · rw [← hlen2, hlen1]
    · rw [h14 _ _ hf, if_pos .refl]
      rfl
    · intro j m hj
      have hjl : j < st.length := (List.getElem?_eq_some_iff.1 hj).1
      have hanc : Anc ((st ++ [freshNode (Fl := Fl) next st.length (some n.idx) (some a) (Fl.ofInt 0) ms]).set n.idx
          { n with expandable := n.expandable.dropLast, children := n.children ++ [st.length] }) j st.length ↔
          Anc st j n.idx := by
        rw [anc_cases hf]
        constructor
        · rintro (h | ⟨p, hp, h⟩)
          · omega
          · cases Option.some.inj hp
            exact (anc_iff w.upLt hup1 hil).1 h
        · intro h
          exact .inr ⟨n.idx, rfl, (anc_iff w.upLt hup1 hil).2 h⟩
      by_cases hji : j = n.idx
      · subst hji
        rw [h3] at hj
        cases Option.some.inj hj
        rw [h14 n.idx _ (List.getElem?_set_self (by simp only [List.length_append]; omega))]
        congr 1
        by_cases ha : Anc st n.idx n.idx
        · rw [if_pos ha, if_pos (hanc.2 ha), if_pos rfl]; rfl
        · exact absurd .refl ha
      · rw [h14 j m (by rw [List.getElem?_set_ne (Ne.symm hji), List.getElem?_append_left hjl, hj])]
        congr 1
        by_cases ha : Anc st j n.idx
        · rw [if_pos ha, if_pos (hanc.2 ha), if_neg hji]; rfl
        · rw [if_neg ha, if_neg (fun h => ha (hanc.1 h))]

/-! ## Children of the root -/

theorem child_anc_root {st : Store G Fl} (w : WellFormed st) {j : Nat} {m : Node G Fl} (hj : st[j]? = some m)
    (hp : m.parent = some 0) : ¬ Anc st j 0 := by
  intro h
  have := h.le w.upLt
  have := w.upLt j m 0 hj hp
  omega

theorem sibling_unique {st : Store G Fl} (w : WellFormed st) {j c i : Nat} {m d : Node G Fl} (hj : st[j]? = some m)
    (hjp : m.parent = some 0) (hc : st[c]? = some d) (hcp : d.parent = some 0) (h1 : Anc st j i) (h2 : Anc st c i) :
    j = c := by
  induction h1 with
  | refl =>
    rcases (anc_cases hj).1 h2 with h | ⟨p, hp, h⟩
    · exact h.symm
    · rw [hjp] at hp
      cases Option.some.inj hp
      exact absurd h (child_anc_root w hc hcp)
  | @step k p n g1 g2 g3 ih =>
    rcases (anc_cases g1).1 h2 with h | ⟨q, hq, h⟩
    · subst h
      rw [hc] at g1
      cases Option.some.inj g1
      rw [hcp] at g2
      cases Option.some.inj g2
      exact absurd g3 (child_anc_root w hj hjp)
    · rw [g2] at hq
      cases Option.some.inj hq
      exact ih h

/-- Where the search goes from the root. -/
theorem selectLeafNode_root {st : Store G Fl} (w : WellFormed st) {rn : Node G Fl} (h0 : st[0]? = some rn) {i : Nat}
    (h : selectLeafNode 0 st = .ok i) :
    (i = 0 ∧ (rn.children = [] ∨ rn.expandable ≠ [])) ∨
    (rn.children ≠ [] ∧ rn.expandable = [] ∧ ∃ (c : Nat) (m : Node G Fl), selectUcb 0 st = .ok m ∧ c ∈ rn.children ∧
      st[c]? = some m ∧ Anc st c i) := by
  have hlen : 0 < st.length := (List.getElem?_eq_some_iff.1 h0).1
  obtain ⟨f, hf⟩ : ∃ f, st.length = f + 1 := ⟨st.length - 1, by omega⟩
  unfold selectLeafNode at h
  rw [hf] at h
  have hstep : selectLeaf st (f + 1) 0 = (if rn.children.isEmpty || !rn.isFullyExpanded then pure rn.idx
      else do
        let c ← selectUcb 0 st
        selectLeaf st f c.idx) := by
    show (getNode st 0 >>= _) = _
    rw [getNode_ok.2 h0]
    rfl
  rw [hstep] at h
  by_cases hc : (rn.children.isEmpty || !rn.isFullyExpanded) = true
  · rw [if_pos hc] at h
    cases Except.ok.inj h
    exact .inl ⟨w.idx 0 rn h0, by simpa [Node.isFullyExpanded] using hc⟩
  · rw [if_neg hc] at h
    have hch : rn.children ≠ [] := by
      intro h; simp [h] at hc
    have hex : rn.expandable = [] := by
      simp [Node.isFullyExpanded] at hc
      exact hc.2
    obtain ⟨c, m, h1, h2, h3⟩ := selectUcb_spec w h0 hch
    rw [h1] at h
    change selectLeaf st f m.idx = .ok i at h
    rw [w.idx c m h3] at h
    obtain ⟨cn, h4, h5⟩ := w.down 0 rn c h0 h2
    have h0c : 0 < c := (w.up c cn 0 h4 h5).1
    obtain ⟨k, kn, h6, h7, h8, -⟩ := selectLeaf_spec w f c (List.getElem?_eq_some_iff.1 h3).1 (by omega)
    rw [h6] at h
    cases Except.ok.inj h
    exact .inr ⟨hch, hex, c, m, h1, h2, h3, h8⟩

/-! ## The values of the root's children -/

/-- Sums of integers and results up to `B` are exact. -/
def IntAdd (Fl : Floats) (B : Nat) : Prop :=
  ∀ a b : Int, (b = 1 ∨ b = -1 ∨ b = 0) → -(B : Int) < a → a < B → Fl.add (Fl.ofInt a) (Fl.ofInt b) = Fl.ofInt (a + b)

/-- What holds after `N` iterations: final nodes have no children; a child of the root which is won for the searching
player has a value equal to its visits, any other a lower one; while the root has moves to expand all its children have
one visit. -/
structure WinInv (player : Int) (st : Store G Fl) (N : Nat) : Prop where
  wf : WellFormed st
  bound : ∀ (i : Nat) (n : Node G Fl), st[i]? = some n → n.visits ≤ N
  term : ∀ (i : Nat) (n : Node G Fl), st[i]? = some n → G.winner n.state ≠ none → n.children = []
  root : ∃ rn : Node G Fl, st[0]? = some rn ∧ G.winner rn.state = none
  pos : ∀ (c : Nat) (n : Node G Fl), st[c]? = some n → n.parent = some 0 → 0 < n.visits
  win : ∀ (c : Nat) (n : Node G Fl), st[c]? = some n → n.parent = some 0 → G.winner n.state = some player →
    n.value = Fl.ofInt n.visits
  other : ∀ (c : Nat) (n : Node G Fl), st[c]? = some n → n.parent = some 0 → G.winner n.state ≠ some player →
    ∃ z : Int, n.value = Fl.ofInt z ∧ -n.visits ≤ z ∧ z < n.visits
  fresh : ∀ rn : Node G Fl, st[0]? = some rn → rn.expandable ≠ [] → ∀ (c : Nat) (n : Node G Fl), st[c]? = some n →
    n.parent = some 0 → n.visits = 1

theorem firstValue_win {player : Int} {s : G.S} (h : G.winner s = some player) : firstValue G player s = 1 := by
  unfold firstValue
  rw [h]
  simp [outcome]

theorem outcome_le (w player : Int) : -1 ≤ outcome w player ∧ outcome w player ≤ 1 := by
  rcases outcome_range w player with h | h | h <;> omega

theorem firstValue_other {player : Int} {s : G.S} (h : G.winner s ≠ some player) :
    -1 ≤ firstValue G player s ∧ firstValue G player s ≤ 0 := by
  unfold firstValue
  cases hw : G.winner s with
  | none => simp
  | some w =>
    have : w ≠ player := by rintro rfl; exact h hw
    unfold outcome
    simp only [if_neg this]
    split <;> omega

theorem firstValue_range (player : Int) (s : G.S) :
    firstValue G player s = 1 ∨ firstValue G player s = -1 ∨ firstValue G player s = 0 := by
  unfold firstValue
  split
  · exact outcome_range _ _
  · simp

theorem vinc_lt {v B : Nat} (hB : B ≤ 16777216) (h : v < B) : vinc v = v + 1 := by
  unfold vinc
  rw [if_pos (by omega)]

theorem leaf_anc {st : Store G Fl} (w : WellFormed st) {j i : Nat} {m : Node G Fl} (hj : st[j]? = some m)
    (hc : m.children = []) (h : Anc st j i) : i = j := by
  by_cases hne : i = j
  · exact hne
  obtain ⟨c, hc', -⟩ := h.through w hj hne
  rw [hc] at hc'
  cases hc'

theorem record_other {B : Nat} (hB : B ≤ 16777216) (A : IntAdd Fl B) {m : Node G Fl} (hm : m.visits < B) {v : Int}
    (hv : v = 1 ∨ v = -1 ∨ v = 0)
    (h : ∃ z : Int, m.value = Fl.ofInt z ∧ -m.visits ≤ z ∧ z < m.visits) :
    ∃ z : Int, (m.record (Fl.ofInt v)).value = Fl.ofInt z ∧ -((m.record (Fl.ofInt v)).visits : Int) ≤ z ∧
      z < (m.record (Fl.ofInt v)).visits := by
  obtain ⟨z, h1, h2, h3⟩ := h
  refine ⟨z + v, ?_, ?_, ?_⟩
  · show Fl.add m.value (Fl.ofInt v) = _
    rw [h1, A z v hv (by omega) (by omega)]
  · show -((vinc m.visits : Nat) : Int) ≤ _
    rw [vinc_lt hB hm]
    push_cast
    omega
  · show _ < ((vinc m.visits : Nat) : Int)
    rw [vinc_lt hB hm]
    push_cast
    omega

/-- What one iteration does to the visits of the root's children. -/
inductive RootStep (st st' : Store G Fl) (rn : Node G Fl) : Prop
  /-- a child is added; all children have one visit -/
  | add (h : rn.expandable ≠ []) (hch : ∃ rn' : Node G Fl, st'[0]? = some rn' ∧ rn'.children.length = rn.children.length + 1)
      (hall : ∀ (c : Nat) (n : Node G Fl), st'[c]? = some n → n.parent = some 0 → n.visits = 1) : RootStep st st' rn
  /-- the child of maximal score gets one visit more -/
  | visit (h : rn.expandable = []) {c : Nat} {m : Node G Fl} (hsel : selectUcb 0 st = .ok m) (hm : st[c]? = some m)
      (hmem : c ∈ rn.children)
      (hch : ∃ rn' : Node G Fl, st'[0]? = some rn' ∧ rn'.children = rn.children ∧ rn'.expandable = [])
      (hnew : ∀ (j : Nat) (n : Node G Fl), st'[j]? = some n → n.parent = some 0 → ∃ n0 : Node G Fl, st[j]? = some n0 ∧
        n0.parent = some 0 ∧ n0.state = n.state ∧ n.visits = if j = c then n0.visits + 1 else n0.visits)
      (hold : ∀ (j : Nat) (n0 : Node G Fl), st[j]? = some n0 → n0.parent = some 0 → ∃ n : Node G Fl, st'[j]? = some n ∧
        n.parent = some 0 ∧ n.state = n0.state ∧ n.visits = if j = c then n0.visits + 1 else n0.visits) : RootStep st st' rn

theorem WinInv.step {player : Int} {limit B N : Nat} {st st' : Store G Fl} {k : Nat} {t t' : Tape}
    (hB : B ≤ 16777216) (A : IntAdd Fl B) (hl : 0 < limit) (hN : N < B) (v : WinInv player st N)
    (h : iteration player limit 0 st t = .ok ((st', k), t')) :
    WinInv player st' (N + 1) ∧ ∀ rn : Node G Fl, st[0]? = some rn → RootStep st st' rn := by
  classical
  obtain ⟨rn, hrn, hrw⟩ := v.root
  have hlen : 0 < st.length := (List.getElem?_eq_some_iff.1 hrn).1
  have w' := (iteration_spec v.wf hlen h).1
  obtain ⟨i, n, h1, h2, h3, h4⟩ := iteration_detail v.wf hl hlen h
  have hil : i < st.length := (List.getElem?_eq_some_iff.1 h2).1
  have hroot := selectLeafNode_root v.wf hrn h1
  have hvis : ∀ (j : Nat) (m : Node G Fl), st[j]? = some m → vinc m.visits = m.visits + 1 := fun j m hj =>
    vinc_lt hB (Nat.lt_of_le_of_lt (v.bound j m hj) hN)
  rcases h4 with ⟨wn, hw, hlen', hrec⟩ | ⟨hw, f, f1, f2, f3, f4, hex, hlen', hnew, hrec⟩
  · -- a final leaf
    have hi0 : i ≠ 0 := by
      rintro rfl
      rw [h2] at hrn
      cases Option.some.inj hrn
      rw [hw] at hrw
      cases hrw
    have back : ∀ (j : Nat) (n' : Node G Fl), st'[j]? = some n' → ∃ m, st[j]? = some m ∧
        n' = if Anc st j i then m.record (Fl.ofInt (outcome wn player)) else m := by
      intro j n' hj
      have hjl : j < st.length := by rw [← hlen']; exact (List.getElem?_eq_some_iff.1 hj).1
      refine ⟨st[j], List.getElem?_eq_getElem hjl, ?_⟩
      have := hrec j _ (List.getElem?_eq_getElem hjl)
      rw [hj] at this
      exact Option.some.inj this
    obtain ⟨hcne, hexp, c, m, hsel, hcm, hcst, hanc⟩ : rn.children ≠ [] ∧ rn.expandable = [] ∧
        ∃ (c : Nat) (m : Node G Fl), selectUcb 0 st = .ok m ∧ c ∈ rn.children ∧ st[c]? = some m ∧ Anc st c i := by
      rcases hroot with ⟨h, -⟩ | h
      · exact absurd h hi0
      · exact h
    obtain ⟨cn, hcn, hcp⟩ := v.wf.down 0 rn c hrn hcm
    rw [hcst] at hcn
    cases Option.some.inj hcn
    have hroot' : st'[0]? = some (rn.record (Fl.ofInt (outcome wn player))) := by
      rw [hrec 0 rn hrn, if_pos h3]
    have hiff : ∀ (j : Nat) (mj : Node G Fl), st[j]? = some mj → mj.parent = some 0 → (Anc st j i ↔ j = c) := by
      intro j mj hj hp
      constructor
      · intro ha; exact sibling_unique v.wf hj hp hcst hcp ha hanc
      · rintro rfl; exact hanc
    refine ⟨⟨w', ?_, ?_, ?_, ?_, ?_, ?_, ?_⟩, ?_⟩
    · intro j n' hj
      obtain ⟨mj, hmj, rfl⟩ := back j n' hj
      have := v.bound j mj hmj
      split
      · show vinc mj.visits ≤ _; rw [hvis j mj hmj]; omega
      · omega
    · intro j n' hj
      obtain ⟨mj, hmj, rfl⟩ := back j n' hj
      split
      · exact v.term j mj hmj
      · exact v.term j mj hmj
    · exact ⟨_, hroot', hrw⟩
    · intro j n' hj
      obtain ⟨mj, hmj, rfl⟩ := back j n' hj
      split
      · intro _; show 0 < vinc mj.visits; rw [hvis j mj hmj]; omega
      · exact v.pos j mj hmj
    · intro j n' hj
      obtain ⟨mj, hmj, rfl⟩ := back j n' hj
      split
      case isTrue ha =>
        intro hp hwin
        change G.winner mj.state = some player at hwin
        have hij := leaf_anc v.wf hmj (v.term j mj hmj (by rw [hwin]; simp)) ha
        subst hij
        rw [h2] at hmj
        cases Option.some.inj hmj
        rw [hw] at hwin
        cases Option.some.inj hwin
        show Fl.add n.value (Fl.ofInt (outcome player player)) = Fl.ofInt ((vinc n.visits : Nat) : Int)
        have hb := v.bound i n h2
        rw [hvis i n h2, v.win i n h2 hp hw]
        have : outcome player player = 1 := by simp [outcome]
        rw [this, A _ 1 (.inl rfl) (by omega) (by omega)]
        push_cast
        rfl
      · exact v.win j mj hmj
    · intro j n' hj
      obtain ⟨mj, hmj, rfl⟩ := back j n' hj
      split
      · intro hp hnw
        exact record_other hB A (Nat.lt_of_le_of_lt (v.bound j mj hmj) hN) (outcome_range _ _) (v.other j mj hmj hp hnw)
      · exact v.other j mj hmj
    · intro rn' hrn' hne
      rw [hroot'] at hrn'
      cases Option.some.inj hrn'
      exact absurd hexp hne
    · intro rn1 hrn1
      rw [hrn] at hrn1
      cases Option.some.inj hrn1
      refine .visit hexp hsel hcst hcm ⟨_, hroot', rfl, hexp⟩ ?_ ?_
      · intro j n' hj hp
        obtain ⟨mj, hmj, rfl⟩ := back j n' hj
        have hp' : mj.parent = some 0 := by
          revert hp; split <;> exact id
        refine ⟨mj, hmj, hp', ?_, ?_⟩
        · split <;> rfl
        · by_cases ha : Anc st j i
          · rw [if_pos ha, if_pos ((hiff j mj hmj hp').1 ha)]
            exact hvis j mj hmj
          · rw [if_neg ha, if_neg (fun h => ha ((hiff j mj hmj hp').2 h))]
      · intro j n0 hj hp
        refine ⟨_, hrec j n0 hj, ?_, ?_, ?_⟩
        · split <;> exact hp
        · split <;> rfl
        · by_cases ha : Anc st j i
          · rw [if_pos ha, if_pos ((hiff j n0 hj hp).1 ha)]
            exact hvis j n0 hj
          · rw [if_neg ha, if_neg (fun h => ha ((hiff j n0 hj hp).2 h))]
  · -- a leaf that is expanded
    have back : ∀ (j : Nat) (n' : Node G Fl), st'[j]? = some n' →
        (j = st.length ∧ n' = f.record (Fl.ofInt (firstValue G player f.state))) ∨ ∃ m, st[j]? = some m ∧
        n' = if Anc st j i then (if j = i then m.grown st.length else m).record
          (Fl.ofInt (firstValue G player f.state)) else m := by
      intro j n' hj
      have hjl' : j < st.length + 1 := by rw [← hlen']; exact (List.getElem?_eq_some_iff.1 hj).1
      by_cases hjl : j = st.length
      · left
        subst hjl
        rw [hnew] at hj
        exact ⟨rfl, (Option.some.inj hj).symm⟩
      · right
        have hjl : j < st.length := by omega
        refine ⟨st[j], List.getElem?_eq_getElem hjl, ?_⟩
        have := hrec j _ (List.getElem?_eq_getElem hjl)
        rw [hj] at this
        exact Option.some.inj this
    have hroot' : st'[0]? = some ((if 0 = i then rn.grown st.length else rn).record
        (Fl.ofInt (firstValue G player f.state))) := by
      rw [hrec 0 rn hrn, if_pos h3]
    have gp : ∀ (j : Nat) (m : Node G Fl), ((if Anc st j i then (if j = i then m.grown st.length else m).record
          (Fl.ofInt (firstValue G player f.state)) else m) : Node G Fl).parent = m.parent := by
      intro j m; split
      · split <;> rfl
      · rfl
    have gs : ∀ (j : Nat) (m : Node G Fl), ((if Anc st j i then (if j = i then m.grown st.length else m).record
          (Fl.ofInt (firstValue G player f.state)) else m) : Node G Fl).state = m.state := by
      intro j m; split
      · split <;> rfl
      · rfl
    have gv : ∀ (j : Nat) (m : Node G Fl), st[j]? = some m → ((if Anc st j i then (if j = i then m.grown st.length else m).record
          (Fl.ofInt (firstValue G player f.state)) else m) : Node G Fl).visits =
          if Anc st j i then m.visits + 1 else m.visits := by
      intro j m hj; split
      · split
        · exact hvis j m hj
        · exact hvis j m hj
      · rfl
    have fv : (f.record (Fl.ofInt (firstValue G player f.state))).visits = 1 := by
      show vinc f.visits = 1
      rw [f2]; rfl
    refine ⟨⟨w', ?_, ?_, ?_, ?_, ?_, ?_, ?_⟩, ?_⟩
    · intro j n' hj
      rcases back j n' hj with ⟨rfl, rfl⟩ | ⟨mj, hmj, rfl⟩
      · rw [fv]; omega
      · rw [gv j mj hmj]
        have := v.bound j mj hmj
        split <;> omega
    · intro j n' hj hwn
      rcases back j n' hj with ⟨rfl, rfl⟩ | ⟨mj, hmj, rfl⟩
      · exact f4
      · rw [gs] at hwn
        have hji : j ≠ i := by
          rintro rfl
          rw [h2] at hmj
          cases Option.some.inj hmj
          exact hwn hw
        rw [if_neg hji]
        split
        · exact v.term j mj hmj hwn
        · exact v.term j mj hmj hwn
    · refine ⟨_, hroot', ?_⟩
      split <;> exact hrw
    · intro j n' hj hp
      rcases back j n' hj with ⟨rfl, rfl⟩ | ⟨mj, hmj, rfl⟩
      · rw [fv]; omega
      · rw [gp] at hp
        rw [gv j mj hmj]
        have := v.pos j mj hmj hp
        split <;> omega
    · intro j n' hj hp hwin
      rcases back j n' hj with ⟨rfl, rfl⟩ | ⟨mj, hmj, rfl⟩
      · change G.winner f.state = some player at hwin
        rw [fv]
        show Fl.add f.value (Fl.ofInt (firstValue G player f.state)) = _
        rw [f3, firstValue_win hwin, A 0 1 (.inl rfl) (by omega) (by omega)]
        rfl
      · rw [gp] at hp
        rw [gs] at hwin
        have ha : ¬ Anc st j i := by
          intro ha
          have hij := leaf_anc v.wf hmj (v.term j mj hmj (by rw [hwin]; simp)) ha
          subst hij
          rw [h2] at hmj
          cases Option.some.inj hmj
          rw [hw] at hwin
          cases hwin
        rw [if_neg ha]
        exact v.win j mj hmj hp hwin
    · intro j n' hj hp hnw
      rcases back j n' hj with ⟨rfl, rfl⟩ | ⟨mj, hmj, rfl⟩
      · change G.winner f.state ≠ some player at hnw
        obtain ⟨g1, g2⟩ := firstValue_other hnw
        refine ⟨firstValue G player f.state, ?_, ?_, ?_⟩
        · show Fl.add f.value (Fl.ofInt (firstValue G player f.state)) = _
          rw [f3, A 0 _ (firstValue_range _ _) (by omega) (by omega), Int.zero_add]
        · rw [fv]; push_cast; exact g1
        · rw [fv]; push_cast; omega
      · rw [gp] at hp
        rw [gs] at hnw
        by_cases ha : Anc st j i
        · rw [if_pos ha]
          have := record_other hB A (Nat.lt_of_le_of_lt (v.bound j mj hmj) hN) (firstValue_range player f.state)
            (v.other j mj hmj hp hnw)
          split
          · exact this
          · exact this
        · rw [if_neg ha]
          exact v.other j mj hmj hp hnw
    · intro rn' hrn' hne j n' hj hp
      rw [hroot'] at hrn'
      cases Option.some.inj hrn'
      have hexp : rn.expandable ≠ [] := by
        intro h0
        apply hne
        split
        · show rn.expandable.dropLast = []; rw [h0]; rfl
        · exact h0
      have hi0 : i = 0 := by
        rcases hroot with ⟨h, -⟩ | ⟨-, h, -⟩
        · exact h
        · exact absurd h hexp
      rcases back j n' hj with ⟨rfl, rfl⟩ | ⟨mj, hmj, rfl⟩
      · exact fv
      · rw [gp] at hp
        rw [gv j mj hmj, if_neg (by rw [hi0]; exact child_anc_root v.wf hmj hp)]
        exact v.fresh rn hrn hexp j mj hmj hp
    · intro rn1 hrn1
      rw [hrn] at hrn1
      cases Option.some.inj hrn1
      rcases hroot with ⟨hi0, -⟩ | ⟨hcne, hexp, c, m, hsel, hcm, hcst, hanc⟩
      · subst hi0
        rw [hrn] at h2
        cases Option.some.inj h2
        refine .add hex ⟨_, hroot', ?_⟩ ?_
        · rw [if_pos rfl]
          show (rn.children ++ [st.length]).length = _
          simp
        · intro j n' hj hp
          rcases back j n' hj with ⟨rfl, rfl⟩ | ⟨mj, hmj, rfl⟩
          · exact fv
          · rw [gp] at hp
            rw [gv j mj hmj, if_neg (child_anc_root v.wf hmj hp)]
            exact v.fresh rn hrn hex j mj hmj hp
      · obtain ⟨cn, hcn, hcp⟩ := v.wf.down 0 rn c hrn hcm
        rw [hcst] at hcn
        cases Option.some.inj hcn
        have hi0 : 0 ≠ i := by
          intro h
          rw [← h] at hanc
          exact child_anc_root v.wf hcst hcp hanc
        have hiff : ∀ (j : Nat) (mj : Node G Fl), st[j]? = some mj → mj.parent = some 0 → (Anc st j i ↔ j = c) := by
          intro j mj hj hp
          constructor
          · intro ha; exact sibling_unique v.wf hj hp hcst hcp ha hanc
          · rintro rfl; exact hanc
        rw [if_neg hi0] at hroot'
        refine .visit hexp hsel hcst hcm ⟨_, hroot', rfl, hexp⟩ ?_ ?_
        · intro j n' hj hp
          rcases back j n' hj with ⟨rfl, rfl⟩ | ⟨mj, hmj, rfl⟩
          · change f.parent = some 0 at hp
            rw [f1] at hp
            exact absurd (Option.some.inj hp).symm hi0
          · rw [gp] at hp
            refine ⟨mj, hmj, hp, (gs j mj).symm, ?_⟩
            rw [gv j mj hmj]
            by_cases ha : Anc st j i
            · rw [if_pos ha, if_pos ((hiff j mj hmj hp).1 ha)]
            · rw [if_neg ha, if_neg (fun h => ha ((hiff j mj hmj hp).2 h))]
        · intro j n0 hj hp
          refine ⟨_, hrec j n0 hj, (gp j n0).trans hp, gs j n0, ?_⟩
          rw [gv j n0 hj]
          by_cases ha : Anc st j i
          · rw [if_pos ha, if_pos ((hiff j n0 hj hp).1 ha)]
          · rw [if_neg ha, if_neg (fun h => ha ((hiff j n0 hj hp).2 h))]

end DieE.Mcts
