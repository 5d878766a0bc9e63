import Verif.Mcts.AlphaFacts

/-! # Lemmas about the batched search -/

namespace DieE.Mcts
variable {G : Game} {Fl : Floats}

/-- The forest of a batched search: the first `states.length` nodes are the roots, in the order of the states; all
other nodes have parents. -/
structure Forest (states : List G.S) (st : Store G Fl) : Prop where
  wf : WellFormed st
  len : states.length ≤ st.length
  roots : ∀ (i : Nat) (n : Node G Fl), st[i]? = some n → (n.parent = none ↔ i < states.length)
  state : ∀ (i : Nat) (s : G.S), states[i]? = some s → ∃ n : Node G Fl, st[i]? = some n ∧ n.state = s

theorem Forest.shape {states : List G.S} {st st' : Store G Fl} (f : Forest states st) (h : SameShape st st') :
    Forest states st' := by
  refine ⟨h.wellFormed f.wf, by have := h.length; have := f.len; omega, ?_, ?_⟩
  · intro i n hi
    obtain ⟨m, h1, h2, -⟩ := h.symm.up i n hi
    rw [← h2]; exact f.roots i m h1
  · intro i s hs
    obtain ⟨n, h1, h2⟩ := f.state i s hs
    obtain ⟨m, h3, -, h4⟩ := h.up i n h1
    exact ⟨m, h3, h4.trans h2⟩

/-- Every node lies below some root. -/
theorem Forest.hasRoot {states : List G.S} {st : Store G Fl} (f : Forest states st) (i : Nat) (hi : i < st.length) :
    ∃ r, r < states.length ∧ Anc st r i := by
  induction i using Nat.strongRecOn with
  | _ i ih =>
    obtain ⟨n, hn⟩ : ∃ n, st[i]? = some n := ⟨_, List.getElem?_eq_getElem hi⟩
    cases hp : n.parent with
    | none => exact ⟨i, (f.roots i n hn).1 hp, .refl⟩
    | some p =>
      have hlt := (f.wf.up i n p hn hp).1
      obtain ⟨r, h1, h2⟩ := ih p hlt (by omega)
      exact ⟨r, h1, .step hn hp h2⟩

/-- ... and below one only. -/
theorem Forest.rootUnique {states : List G.S} {st : Store G Fl} (f : Forest states st) {r r' i : Nat}
    (hr : r < states.length) (hr' : r' < states.length) (h : Anc st r i) (h' : Anc st r' i) : r = r' := by
  induction h with
  | refl =>
    obtain ⟨n, hn⟩ : ∃ n, st[r]? = some n := ⟨_, List.getElem?_eq_getElem (Nat.lt_of_lt_of_le hr f.len)⟩
    rcases (anc_cases hn).1 h' with h1 | ⟨p, hp, -⟩
    · exact h1.symm
    · rw [(f.roots r n hn).2 hr] at hp; cases hp
  | @step k p n h1 h2 h3 ih =>
    rcases (anc_cases h1).1 h' with h4 | ⟨q, hq, h4⟩
    · subst h4
      rw [(f.roots r' n h1).2 hr'] at h2; cases h2
    · rw [h2] at hq
      injection hq with hq
      subst hq
      exact ih h4

theorem Anc.lt_of {st : Store G Fl} {i k : Nat} (h : Anc st i k) (hi : i < st.length) : k < st.length := by
  cases h with
  | refl => exact hi
  | step h1 _ _ => exact (List.getElem?_eq_some_iff.1 h1).1

/-- Extending a forest by children of existing nodes. -/
theorem Forest.extend {states : List G.S} {st st' : Store G Fl} (f : Forest states st) (w : WellFormed st')
    (hup : SameUp st st') (hlen : st.length ≤ st'.length)
    (hnew : ∀ (j : Nat) (m : Node G Fl), st.length ≤ j → st'[j]? = some m → m.parent ≠ none) : Forest states st' := by
  refine ⟨w, Nat.le_trans f.len hlen, ?_, ?_⟩
  · intro i n hi
    by_cases hil : i < st.length
    · obtain ⟨m, hm⟩ : ∃ m, st[i]? = some m := ⟨_, List.getElem?_eq_getElem hil⟩
      obtain ⟨m', h1, h2, -⟩ := hup i m hm
      rw [hi] at h1
      injection h1 with h1
      subst h1
      rw [h2]; exact f.roots i m hm
    · have := f.len
      constructor
      · intro h; exact absurd h (hnew i n (by omega) hi)
      · intro h; omega
  · intro i s hs
    obtain ⟨n, h1, h2⟩ := f.state i s hs
    obtain ⟨m, h3, -, h4⟩ := hup i n h1
    exact ⟨m, h3, h4.trans h2⟩

theorem Forest.expand {states : List G.S} {st st' : Store G Fl} (f : Forest states st) {n n0 n' : Node G Fl}
    {prior : Nat → Res Fl.F} {i : Nat} {t t' : Tape} (hi : st[i]? = some n0) (hn : n.shape = n0.shape)
    (h : alphaExpandWith n prior st t = .ok ((st', n'), t')) : Forest states st' := by
  obtain ⟨w, hup, -, hlen, -, -, -, hpar, -⟩ := alphaExpand_wf f.wf hi hn h
  exact f.extend w hup hlen fun j m hj hm => by rw [hpar j m hj hm]; exact Option.some_ne_none _

/-! ## The start -/

theorem addRoots_ok (ss : List G.S) {st st' : Store G Fl} (h : addRoots ss st = .ok st') (pre : List G.S)
    (f : Forest pre st) (hlen : st.length = pre.length) :
    Forest (pre ++ ss) st' ∧ st'.length = (pre ++ ss).length := by
  induction ss generalizing st pre with
  | nil =>
    simp only [addRoots] at h
    injection h with h
    subst h
    simpa using ⟨f, hlen⟩
  | cons s ss ih =>
    unfold addRoots at h
    obtain ⟨⟨st1, k⟩, h1, h2⟩ := Res.bind_ok.1 h
    obtain ⟨ms, hm, rfl, rfl⟩ := addNode_ok.1 h1
    have w := wf_root (Fl := Fl) f.wf hm (Fl.ofInt 0)
    have hget : ∀ (i : Nat) (m : Node G Fl), st[i]? = some m →
        (st ++ [freshNode s st.length none none (Fl.ofInt 0) ms])[i]? = some m := by
      intro i m hi
      rw [List.getElem?_append_left (List.getElem?_eq_some_iff.1 hi).1]; exact hi
    have f' : Forest (pre ++ [s]) (st ++ [freshNode s st.length none none (Fl.ofInt 0) ms]) := by
      refine ⟨w, by simp [hlen], ?_, ?_⟩
      · intro i m hi
        by_cases hil : i < st.length
        · rw [List.getElem?_append_left hil] at hi
          rw [f.roots i m hi]
          simp
          omega
        · rw [List.getElem?_append_right (by omega)] at hi
          have := (List.getElem?_eq_some_iff.1 hi).1
          simp at this
          have h0 : i - st.length = 0 := by omega
          rw [h0] at hi
          simp at hi
          subst hi
          simp [freshNode]
          omega
      · intro i s' hs
        by_cases hil : i < pre.length
        · rw [List.getElem?_append_left hil] at hs
          obtain ⟨m, h3, h4⟩ := f.state i s' hs
          exact ⟨m, hget i m h3, h4⟩
        · rw [List.getElem?_append_right (by omega)] at hs
          have := (List.getElem?_eq_some_iff.1 hs).1
          simp at this
          have h0 : i - pre.length = 0 := by omega
          rw [h0] at hs
          simp at hs
          subst hs
          refine ⟨freshNode s st.length none none (Fl.ofInt 0) ms, ?_, rfl⟩
          rw [List.getElem?_append_right (by omega)]
          have : i - st.length = 0 := by omega
          rw [this]; rfl
    obtain ⟨h3, h4⟩ := ih h2 (pre ++ [s]) f' (by simp [hlen])
    rw [List.append_assoc] at h3 h4
    exact ⟨h3, h4⟩

theorem forest_nil : Forest ([] : List G.S) ([] : Store G Fl) :=
  ⟨wf_nil, Nat.le_refl _, by simp, by simp⟩

/-- Root expansion keeps the forest and sets the visits of the expanded roots to one. -/
theorem expandRoots_ok {states : List G.S} {probs : Tensor Fl.F} (is : List Nat) {st st' : Store G Fl} {t t' : Tape}
    (f : Forest states st) (his : ∀ i ∈ is, i < states.length) (h : expandRoots probs is st t = .ok (st', t')) :
    Forest states st' ∧ ∀ r, r < states.length → visitsAt st' r = if r ∈ is then 1 else visitsAt st r := by
  induction is generalizing st t with
  | nil =>
    have := M.pure_ok.1 h
    simp only [Prod.mk.injEq] at this
    obtain ⟨rfl, -⟩ := this
    exact ⟨f, by simp⟩
  | cons i is ih =>
    unfold expandRoots at h
    obtain ⟨root, t1, h1, h⟩ := M.bind_ok.1 h
    rw [M.lift_ok, getNode_ok] at h1
    simp only at h
    obtain ⟨row, t2, h2, h⟩ := M.bind_ok.1 h
    obtain ⟨⟨st1, n1⟩, t3, h3, h4⟩ := M.bind_ok.1 h
    simp only at h4
    have h5 := alphaExpand_wf (n := { root with visits := 1 }) f.wf h1.1 rfl h3
    obtain ⟨-, -, -, -, h6, h7, h8, -⟩ := h5
    have f1 : Forest states st1 := f.expand (n := { root with visits := 1 }) h1.1 rfl h3
    obtain ⟨h9, h10⟩ := ih f1 (fun j hj => his j (List.mem_cons_of_mem _ hj)) h4
    refine ⟨h9, ?_⟩
    intro r hr
    rw [h10 r hr]
    by_cases hmem : r ∈ is
    · rw [if_pos hmem, if_pos (List.mem_cons_of_mem _ hmem)]
    · rw [if_neg hmem]
      by_cases hri : r = i
      · subst hri
        rw [if_pos (List.mem_cons_self ..)]
        unfold visitsAt
        rw [h6]
        exact h7
      · rw [if_neg (by simp [hri, hmem]), h8 r hri]

theorem parallelStart_ok {net : Net Fl} {states : List G.S} {st st' : Store G Fl} {t t' : Tape}
    (h : parallelStart net states st t = .ok (st', t')) :
    Forest states st' ∧ ∀ r, r < states.length → visitsAt st' r = 1 := by
  unfold parallelStart at h
  obtain ⟨u, t1, h1, h⟩ := M.bind_ok.1 h
  rw [M.lift_ok] at h1
  have hst : st = [] := by
    have h1 := h1.1
    unfold assert at h1
    split at h1
    · rename_i he; simpa using he
    · cases h1
  subst hst
  obtain ⟨ts, t2, h2, h⟩ := M.bind_ok.1 h
  obtain ⟨x, t3, h3, h⟩ := M.bind_ok.1 h
  obtain ⟨policy, t4, h4, h⟩ := M.bind_ok.1 h
  obtain ⟨st1, t5, h5, h⟩ := M.bind_ok.1 h
  rw [M.lift_ok] at h5
  obtain ⟨probs, t6, h6, h7⟩ := M.bind_ok.1 h
  obtain ⟨f, -⟩ := addRoots_ok states h5.1 [] forest_nil rfl
  simp only [List.nil_append] at f
  obtain ⟨h8, h9⟩ := expandRoots_ok _ f (by simp) h7
  refine ⟨h8, fun r hr => ?_⟩
  rw [h9 r hr, if_pos (List.mem_range.2 hr)]

/-! ## The selection phase -/

/-- Node `k` (which is `kn`) is what selection finds for game `g`. -/
def Leaf (st : Store G Fl) (g k : Nat) (kn : Node G Fl) : Prop := alphaLeafNode g st = .ok k ∧ st[k]? = some kn

theorem Forest.leaf {states : List G.S} {st : Store G Fl} (f : Forest states st) {g : Nat} (hg : g < states.length) :
    ∃ k kn, Leaf st g k kn ∧ Anc st g k ∧ kn.children = [] := by
  obtain ⟨k, kn, h1, h2, h3, h4⟩ := alphaLeafNode_spec f.wf g (Nat.lt_of_lt_of_le hg f.len)
  exact ⟨k, kn, ⟨h1, h2⟩, h3, h4⟩

theorem Leaf.unique {st : Store G Fl} {g k k' : Nat} {kn kn' : Node G Fl} (h : Leaf st g k kn) (h' : Leaf st g k' kn') :
    k = k' ∧ kn = kn' := by
  have h1 := h.1
  rw [h'.1] at h1
  injection h1 with h1
  subst h1
  have h2 := h.2
  rw [h'.2] at h2
  injection h2 with h2
  exact ⟨rfl, h2.symm⟩

theorem Leaf.anc {states : List G.S} {st : Store G Fl} (f : Forest states st) {g k : Nat} {kn : Node G Fl}
    (hg : g < states.length) (h : Leaf st g k kn) : Anc st g k := by
  obtain ⟨k', kn', h1, h2, -⟩ := f.leaf hg
  rw [(h.unique h1).1]; exact h2

open Classical in
/-- The result of the selection phase over the games `L`: trees of games whose leaf is terminal get the result
recorded on the path to the leaf, all others are unchanged; games whose leaf is not terminal get their leaf entered in
the list of selected nodes; the flag tells whether there is such a game. -/
structure PhaseResult (states : List G.S) (L : List Nat) (st : Store G Fl) (sel : List Nat) (flag : Bool)
    (st' : Store G Fl) (sel' : List Nat) (flag' : Bool) : Prop where
  shape : SameShape st st'
  len : sel'.length = sel.length
  tree : ∀ (g i k : Nat) (s : G.S) (n kn : Node G Fl), states[g]? = some s → Anc st g i → st[i]? = some n →
    Leaf st g k kn → st'[i]? = some (match G.winner kn.state with
      | some w => if g ∈ L ∧ Anc st i k then n.record (Fl.ofInt (outcome w (G.player s))) else n
      | none => n)
  sel : ∀ (g k : Nat) (kn : Node G Fl), g < states.length → Leaf st g k kn →
    sel'[g]? = if g ∈ L ∧ G.winner kn.state = none then some k else sel[g]?
  flag : flag' = true ↔ flag = true ∨ ∃ g ∈ L, ∃ k kn, Leaf st g k kn ∧ G.winner kn.state = none

open Classical in
theorem selectGame_spec {states : List G.S} {st : Store G Fl} (f : Forest states st) {g : Nat} {s : G.S}
    (hg : states[g]? = some s) (sel : List Nat) (hsel : sel.length = states.length) (flag : Bool) :
    ∃ k kn, Leaf st g k kn ∧ Anc st g k ∧
      (∀ w, G.winner kn.state = some w → ∃ st', selectGame g st sel flag = .ok (st', sel, flag) ∧ SameShape st st' ∧
        ∀ (i : Nat) (n : Node G Fl), st[i]? = some n →
          st'[i]? = some (if Anc st i k then n.record (Fl.ofInt (outcome w (G.player s))) else n)) ∧
      (G.winner kn.state = none → selectGame g st sel flag = .ok (st, sel.set g k, true)) := by
  have hgl : g < states.length := (List.getElem?_eq_some_iff.1 hg).1
  obtain ⟨k, kn, hl, ha, -⟩ := f.leaf hgl
  obtain ⟨rn, hr1, hr2⟩ := f.state g s hg
  refine ⟨k, kn, hl, ha, ?_, ?_⟩
  · intro w hw
    obtain ⟨st', h1, h2, h3⟩ := backpropagate_spec (Fl.ofInt (outcome w (G.player s))) k st f.wf.upLt
      (List.getElem?_eq_some_iff.1 hl.2).1
    refine ⟨st', ?_, h2, h3⟩
    unfold selectGame
    rw [hl.1]
    show (getNode st k >>= _) = _
    rw [getNode_ok.2 hl.2]
    show (match G.winner kn.state with | some w => _ | none => _) = _
    rw [hw]
    simp only
    rw [getNode_ok.2 hr1]
    show (backpropagate k (Fl.ofInt (outcome w (G.player rn.state))) st >>= _) = _
    rw [hr2, h1]
    rfl
  · intro hw
    unfold selectGame
    rw [hl.1]
    show (getNode st k >>= _) = _
    rw [getNode_ok.2 hl.2]
    show (match G.winner kn.state with | some w => _ | none => _) = _
    rw [hw]
    simp only
    rw [if_pos (by omega), f.wf.idx k kn hl.2]
    rfl

theorem Leaf.congr {states : List G.S} {st st' : Store G Fl} (f : Forest states st) {g : Nat} (hg : g < states.length)
    (heq : ∀ j, Anc st g j → st'[j]? = st[j]?) (hlen : st'.length = st.length) (k : Nat) (kn : Node G Fl) :
    Leaf st' g k kn ↔ Leaf st g k kn := by
  have h1 := alphaLeafNode_congr f.wf heq hlen (Nat.lt_of_lt_of_le hg f.len)
  obtain ⟨k0, kn0, hl, ha, -⟩ := f.leaf hg
  have hl' : Leaf st' g k0 kn0 := ⟨h1.trans hl.1, by rw [heq k0 ha]; exact hl.2⟩
  constructor
  · intro h
    obtain ⟨rfl, rfl⟩ := h.unique hl'
    exact hl
  · intro h
    obtain ⟨rfl, rfl⟩ := h.unique hl
    exact hl'

open Classical in
theorem selectPhase_spec {states : List G.S} (L : List Nat) {st : Store G Fl} (f : Forest states st) (hnd : L.Nodup)
    (hL : ∀ g ∈ L, g < states.length) (sel : List Nat) (hsel : sel.length = states.length) (flag : Bool) :
    ∃ st' sel' flag', selectPhase L st sel flag = .ok (st', sel', flag') ∧
      PhaseResult states L st sel flag st' sel' flag' := by
  induction L generalizing st sel flag with
  | nil =>
    refine ⟨st, sel, flag, rfl, rfl, rfl, ?_, ?_, ?_⟩
    · intro g i k s n kn _ _ hn _
      rw [hn]
      split <;> simp
    · intro g k kn _ _
      simp
    · simp
  | cons g0 L ih =>
    rw [List.nodup_cons] at hnd
    have hg0 : g0 < states.length := hL g0 (List.mem_cons_self ..)
    have hL' : ∀ g ∈ L, g < states.length := fun g hg => hL g (List.mem_cons_of_mem _ hg)
    obtain ⟨k0, kn0, hl0, ha0, hterm, hnon⟩ := selectGame_spec f (List.getElem?_eq_getElem hg0) sel hsel flag
    have hcons : ∀ x, selectGame g0 st sel flag = .ok x →
        selectPhase (g0 :: L) st sel flag = selectPhase L x.1 x.2.1 x.2.2 := by
      intro x hx
      unfold selectPhase
      rw [List.foldlM_cons]
      simp only
      rw [hx]
      rfl
    cases hw : G.winner kn0.state with
    | none =>
      have h1 := hnon hw
      obtain ⟨st', sel', flag', h2, h3⟩ := ih f hnd.2 hL' (sel.set g0 k0) (by simpa using hsel) true
      refine ⟨st', sel', flag', by rw [hcons _ h1]; exact h2, h3.shape, by rw [h3.len]; simp, ?_, ?_, ?_⟩
      · intro g i k s n kn hs ha hn hl
        rw [h3.tree g i k s n kn hs ha hn hl]
        by_cases hgg : g = g0
        · subst hgg
          obtain ⟨rfl, rfl⟩ := hl.unique hl0
          rw [hw]
        · have : g ∈ g0 :: L ↔ g ∈ L := by simp [hgg]
          simp only [this]
      · intro g k kn hg hl
        rw [h3.sel g k kn hg hl]
        by_cases hgg : g = g0
        · subst hgg
          obtain ⟨rfl, rfl⟩ := hl.unique hl0
          rw [if_neg (fun h => hnd.1 h.1), if_pos ⟨List.mem_cons_self .., hw⟩, List.getElem?_set_self (by omega)]
        · have : g ∈ g0 :: L ↔ g ∈ L := by simp [hgg]
          simp only [this]
          rw [List.getElem?_set_ne (Ne.symm hgg)]
      · rw [h3.flag]
        constructor
        · intro _
          exact .inr ⟨g0, List.mem_cons_self .., k0, kn0, hl0, hw⟩
        · intro _; exact .inl rfl
    | some w =>
      obtain ⟨st1, h1, hsh, hget⟩ := hterm w hw
      have f1 := f.shape hsh
      have hother : ∀ g, g < states.length → g ≠ g0 → ∀ j, Anc st g j → st1[j]? = st[j]? := by
        intro g hg hne j haj
        have hjl := haj.lt_of (Nat.lt_of_lt_of_le hg f.len)
        rw [hget j _ (List.getElem?_eq_getElem hjl), List.getElem?_eq_getElem hjl, if_neg]
        intro hjk
        exact hne (f.rootUnique hg hg0 (haj.trans hjk) ha0)
      obtain ⟨st', sel', flag', h2, h3⟩ := ih f1 hnd.2 hL' sel hsel flag
      refine ⟨st', sel', flag', by rw [hcons _ h1]; exact h2, hsh.trans h3.shape, h3.len, ?_, ?_, ?_⟩
      · intro g i k s n kn hs ha hn hl
        have hg : g < states.length := (List.getElem?_eq_some_iff.1 hs).1
        by_cases hgg : g = g0
        · subst hgg
          obtain ⟨rfl, rfl⟩ := hl.unique hl0
          have hi1 := hget i n hn
          obtain ⟨k1, kn1, hl1, ha1, -⟩ := f1.leaf hg
          rw [h3.tree g i k1 s _ kn1 hs (ha.mono hsh.up) hi1 hl1]
          rw [hw]
          have hss : states[g] = s := by
            rw [List.getElem?_eq_getElem hg] at hs
            injection hs
          rw [hss]
          have hmem : g ∈ g :: L := List.mem_cons_self ..
          have hnm : ¬ (g ∈ L ∧ Anc st1 i k1) := fun h => hnd.1 h.1
          simp only [hmem, true_and]
          split
          · rw [if_neg hnm]
          · rfl
        · have hcg := Leaf.congr f hg (hother g hg hgg) hsh.length.symm
          have hi1 : st1[i]? = some n := by rw [hother g hg hgg i ha]; exact hn
          rw [h3.tree g i k s n kn hs (ha.mono hsh.up) hi1 ((hcg k kn).2 hl)]
          have hmem : g ∈ g0 :: L ↔ g ∈ L := by simp [hgg]
          have hanc : Anc st1 i k ↔ Anc st i k := ⟨Anc.mono hsh.symm.up, Anc.mono hsh.up⟩
          simp only [hmem, hanc]
      · intro g k kn hg hl
        by_cases hgg : g = g0
        · subst hgg
          obtain ⟨rfl, rfl⟩ := hl.unique hl0
          obtain ⟨k1, kn1, hl1, ha1, -⟩ := f1.leaf hg
          rw [h3.sel g k1 kn1 hg hl1, if_neg (fun h => hnd.1 h.1), if_neg]
          rw [hw]
          exact fun h => by cases h.2
        · have hcg := Leaf.congr f hg (hother g hg hgg) hsh.length.symm
          rw [h3.sel g k kn hg ((hcg k kn).2 hl)]
          have hmem : g ∈ g0 :: L ↔ g ∈ L := by simp [hgg]
          simp only [hmem]
      · rw [h3.flag]
        constructor
        · rintro (h | ⟨g, hg, k, kn, hl, hwn⟩)
          · exact .inl h
          · have hgg : g ≠ g0 := by rintro rfl; exact hnd.1 hg
            have hcg := Leaf.congr f (hL' g hg) (hother g (hL' g hg) hgg) hsh.length.symm
            exact .inr ⟨g, List.mem_cons_of_mem _ hg, k, kn, (hcg k kn).1 hl, hwn⟩
        · rintro (h | ⟨g, hg, k, kn, hl, hwn⟩)
          · exact .inl h
          · by_cases hgg : g = g0
            · subst hgg
              obtain ⟨rfl, rfl⟩ := hl.unique hl0
              rw [hw] at hwn; cases hwn
            · have hg' : g ∈ L := by
                rcases List.mem_cons.1 hg with h | h
                · exact absurd h hgg
                · exact h
              have hcg := Leaf.congr f (hL' g hg') (hother g (hL' g hg') hgg) hsh.length.symm
              exact .inr ⟨g, hg', k, kn, (hcg k kn).2 hl, hwn⟩

open Classical in
/-- The result of the selection phase is determined by the set of games. -/
theorem PhaseResult.det {states : List G.S} {L L' : List Nat} {st : Store G Fl} (f : Forest states st) {sel : List Nat}
    (hsel : sel.length = states.length) {flag : Bool} {st1 st2 : Store G Fl} {sel1 sel2 : List Nat} {flag1 flag2 : Bool}
    (hL : ∀ g, g ∈ L ↔ g ∈ L') (h1 : PhaseResult states L st sel flag st1 sel1 flag1)
    (h2 : PhaseResult states L' st sel flag st2 sel2 flag2) : st1 = st2 ∧ sel1 = sel2 ∧ flag1 = flag2 := by
  refine ⟨?_, ?_, ?_⟩
  · apply List.ext_getElem?
    intro i
    by_cases hi : i < st.length
    · obtain ⟨g, hg, ha⟩ := f.hasRoot i hi
      obtain ⟨k, kn, hl, -⟩ := f.leaf hg
      rw [h1.tree g i k _ _ kn (List.getElem?_eq_getElem hg) ha (List.getElem?_eq_getElem hi) hl,
        h2.tree g i k _ _ kn (List.getElem?_eq_getElem hg) ha (List.getElem?_eq_getElem hi) hl]
      cases G.winner kn.state with
      | none => rfl
      | some w => exact congrArg some (ite_congr (propext (and_congr (hL g) Iff.rfl)) (fun _ => rfl) (fun _ => rfl))
    · have e1 := h1.shape.length
      have e2 := h2.shape.length
      rw [List.getElem?_eq_none (by omega), List.getElem?_eq_none (by omega)]
  · apply List.ext_getElem?
    intro g
    by_cases hg : g < states.length
    · obtain ⟨k, kn, hl, -⟩ := f.leaf hg
      rw [h1.sel g k kn hg hl, h2.sel g k kn hg hl]
      exact ite_congr (propext (and_congr (hL g) Iff.rfl)) (fun _ => rfl) (fun _ => rfl)
    · have e1 := h1.len
      have e2 := h2.len
      rw [List.getElem?_eq_none (by omega), List.getElem?_eq_none (by omega)]
  · have : flag1 = true ↔ flag2 = true := by
      rw [h1.flag, h2.flag]
      simp only [hL]
    cases flag1 <;> cases flag2 <;> simp_all

/-! ## The expansion phase -/

/-- `vinc`, repeated. -/
def vincN : Nat → Nat → Nat
  | 0, v => v
  | k + 1, v => vincN k (vinc v)

theorem vincN_eq (k v : Nat) (h : v ≤ 16777216) : vincN k v = min (v + k) 16777216 := by
  induction k generalizing v with
  | zero => unfold vincN; omega
  | succ k ih =>
    unfold vincN
    have h1 : vinc v ≤ 16777216 := by unfold vinc; split <;> omega
    rw [ih _ h1]
    unfold vinc
    split <;> omega

theorem countOf_cons {α : Type} (P : α → Prop) (l : List α) (x : α) :
    countOf P (x :: l) = countOf P l + (@ite _ (P x) (Classical.propDecidable _) 1 0) := by
  unfold countOf
  rw [List.countP_cons]
  by_cases h : P x <;> simp [h]

theorem expandPhase_ok {net : Net Fl} {states : List G.S} {policy eval : Tensor Fl.F} (l : List (Nat × Nat))
    {st st' : Store G Fl} {t t' : Tape} (f : Forest states st) (hl : ∀ p ∈ l, p.2 < st.length)
    (h : expandPhase net policy eval l st t = .ok (st', t')) :
    Forest states st' ∧ SameUp st st' ∧ st.length ≤ st'.length ∧
      ∀ j, j < st.length → visitsAt st' j = vincN (countOf (fun p : Nat × Nat => Anc st j p.2) l) (visitsAt st j) := by
  induction l generalizing st t with
  | nil =>
    have := M.pure_ok.1 h
    simp only [Prod.mk.injEq] at this
    obtain ⟨rfl, -⟩ := this
    exact ⟨f, fun i n hn => ⟨n, hn, rfl, rfl⟩, Nat.le_refl _, fun j _ => rfl⟩
  | cons p l ih =>
    obtain ⟨row, i⟩ := p
    unfold expandPhase at h
    obtain ⟨node, t1, h1, h⟩ := M.bind_ok.1 h
    rw [M.lift_ok, getNode_ok] at h1
    obtain ⟨p, t2, -, h⟩ := M.bind_ok.1 h
    obtain ⟨e, t3, -, h⟩ := M.bind_ok.1 h
    obtain ⟨probs, t4, -, h⟩ := M.bind_ok.1 h
    obtain ⟨⟨st1, node1⟩, t5, h5, h⟩ := M.bind_ok.1 h
    simp only at h
    obtain ⟨value, t6, -, h⟩ := M.bind_ok.1 h
    obtain ⟨st2, t7, h7, h8⟩ := M.bind_ok.1 h
    rw [M.lift_ok] at h7
    have f1 := f.expand h1.1 rfl h5
    obtain ⟨w1, hup1, hidx, hlen1, hself, hvself, hv, hpar, -⟩ := alphaExpand_wf f.wf h1.1 rfl h5
    have hil : i < st.length := (List.getElem?_eq_some_iff.1 h1.1).1
    rw [hidx] at h7
    obtain ⟨st2', h9, h10, h11⟩ := backpropagate_spec value i st1 w1.upLt (by omega)
    rw [h9] at h7
    have h7 := h7.1
    injection h7 with h7
    subst h7
    have hlen2 := h10.length
    have hl' : ∀ p ∈ l, p.2 < st.length := fun p hp => hl p (List.mem_cons_of_mem _ hp)
    obtain ⟨g1, g2, g3, g4⟩ := ih (f1.shape h10) (fun p hp => by have := hl' p hp; omega) h8
    have hup2 : SameUp st st2' := hup1.trans h10.up
    refine ⟨g1, hup2.trans g2, by omega, ?_⟩
    intro j hj
    have hvis1 : visitsAt st1 j = visitsAt st j := by
      by_cases hji : j = i
      · subst hji
        unfold visitsAt
        rw [hself, h1.1]
        exact hvself
      · exact hv j hji
    have hvis2 : visitsAt st2' j = @ite _ (Anc st j i) (Classical.propDecidable _) (vinc (visitsAt st j)) (visitsAt st j) := by
      rw [visitsAt_back h10 h11 (by omega), hvis1]
      have : Anc st2' j i ↔ Anc st j i := anc_iff f.wf.upLt hup2 hil
      by_cases ha : Anc st j i
      · rw [if_pos ha, if_pos (this.2 ha)]
      · rw [if_neg ha, if_neg (fun h => ha (this.1 h))]
    rw [g4 j (by omega), hvis2, countOf_cons]
    rw [countOf_congr (Q := fun p : Nat × Nat => Anc st j p.2) fun p hp => anc_iff f.wf.upLt hup2 (hl' p hp)]
    by_cases ha : Anc st j i
    · rw [if_pos ha, if_pos ha]; rfl
    · rw [if_neg ha, if_neg ha]; rfl

/-! ## One iteration, and the loop -/

/-- The entries of `selected_nodes_idxs`: one for each game; each is 0 or belongs to the tree of its game. -/
structure SelOk (states : List G.S) (st : Store G Fl) (sel : List Nat) : Prop where
  len : sel.length = states.length
  mem : ∀ g k, sel[g]? = some k → k < st.length ∧ (k = 0 ∨ Anc st g k)

theorem SelOk.up {states : List G.S} {st st' : Store G Fl} {sel : List Nat} (h : SelOk states st sel) (hup : SameUp st st')
    (hlen : st.length ≤ st'.length) : SelOk states st' sel := by
  refine ⟨h.len, fun g k hk => ?_⟩
  obtain ⟨h1, h2⟩ := h.mem g k hk
  exact ⟨by omega, h2.imp_right fun a => a.mono hup⟩

theorem selOk_replicate {states : List G.S} {st : Store G Fl} (f : Forest states st) :
    SelOk states st (List.replicate states.length 0) := by
  refine ⟨by simp, fun g k hk => ?_⟩
  have hg := (List.getElem?_eq_some_iff.1 hk).1
  rw [List.getElem?_eq_getElem hg] at hk
  simp at hk hg
  have := f.len
  exact ⟨by omega, .inl hk.symm⟩

theorem PhaseResult.selOk {states : List G.S} {L : List Nat} {st st' : Store G Fl} {sel sel' : List Nat}
    {flag flag' : Bool} (f : Forest states st) (hs : SelOk states st sel)
    (h : PhaseResult states L st sel flag st' sel' flag') : SelOk states st' sel' := by
  refine ⟨h.len.trans hs.len, fun g k hk => ?_⟩
  have hg : g < states.length := by
    have := (List.getElem?_eq_some_iff.1 hk).1
    rw [← hs.len, ← h.len]; exact this
  obtain ⟨k1, kn, hl, ha, -⟩ := f.leaf hg
  rw [h.sel g k1 kn hg hl] at hk
  have hlen := h.shape.length
  split at hk
  · injection hk with hk
    subst hk
    have := (List.getElem?_eq_some_iff.1 hl.2).1
    exact ⟨by omega, .inr (ha.mono h.shape.up)⟩
  · obtain ⟨h1, h2⟩ := hs.mem g k hk
    exact ⟨by omega, h2.imp_right fun a => a.mono h.shape.up⟩

/-- Does selection of game `g` end at a position with a winner? -/
def EndsTerminal (st : Store G Fl) (g : Nat) : Prop := ∃ k kn, Leaf st g k kn ∧ G.winner kn.state ≠ none

theorem zip_range_countOf (P : Nat → Prop) (sel : List Nat) :
    countOf (fun p : Nat × Nat => P p.2) ((List.range sel.length).zip sel) = countOf P sel := by
  have h : (((List.range sel.length).zip sel).map Prod.snd) = sel := by
    rw [List.map_snd_zip]
    simp
  conv => rhs; rw [← h]
  unfold countOf
  rw [List.countP_map]
  rfl

open Classical in
/-- One iteration of the batched search: forest and selected nodes stay in order, and the visits of root `r` grow by
one if the selection of game `r` ended at a position with a winner, plus, if some game selected a node to expand, by the
number of entries of `selected_nodes_idxs` that lie in tree `r`. -/
theorem parallelIteration_ok {net : Net Fl} {states : List G.S} {order : List Nat} {st st' : Store G Fl}
    {sel sel' : List Nat} {t t' : Tape} (f : Forest states st) (hs : SelOk states st sel) (hnd : order.Nodup)
    (ho : ∀ g, g ∈ order ↔ g < states.length)
    (h : parallelIteration net order st sel t = .ok ((st', sel'), t')) :
    Forest states st' ∧ SelOk states st' sel' ∧ SameUp st st' ∧ st.length ≤ st'.length ∧
      (∀ k ∈ sel', k < st.length) ∧
      (∀ g k kn, g < states.length → Leaf st g k kn → sel'[g]? = if G.winner kn.state = none then some k else sel[g]?) ∧
      ∀ r i k (kn : Node G Fl), r < states.length → Anc st r i → Leaf st r k kn → visitsAt st' i =
        vincN ((if G.winner kn.state ≠ none ∧ Anc st i k then 1 else 0) +
          (if ∃ g, g < states.length ∧ ¬ EndsTerminal st g then countOf (fun k => Anc st i k) sel' else 0))
            (visitsAt st i) := by
  unfold parallelIteration at h
  obtain ⟨st1, sel1, flag1, h1, h2⟩ := selectPhase_spec order f hnd (fun g hg => (ho g).1 hg) sel hs.len false
  rw [h1] at h
  obtain ⟨x, t1, h3, h⟩ := M.bind_ok.1 h
  rw [M.lift_ok] at h3
  obtain ⟨h3, rfl⟩ := h3
  injection h3 with h3
  subst h3
  simp only at h
  have f1 := f.shape h2.shape
  have hs1 := h2.selOk f hs
  have hlen1 := h2.shape.length
  have hmem1 : ∀ k ∈ sel1, k < st.length := by
    intro k hk
    obtain ⟨g, hg⟩ := List.getElem?_of_mem hk
    have := (hs1.mem g k hg).1
    omega
  have hsel1 : ∀ g k (kn : Node G Fl), g < states.length → Leaf st g k kn →
      sel1[g]? = if G.winner kn.state = none then some k else sel[g]? := by
    intro g k kn hg hl
    rw [h2.sel g k kn hg hl]
    have := (ho g).2 hg
    simp only [this, true_and]
  have hterm : ∀ g k (kn : Node G Fl), Leaf st g k kn → (EndsTerminal st g ↔ G.winner kn.state ≠ none) := by
    intro g k kn hl
    constructor
    · rintro ⟨k', kn', hl', hw⟩
      obtain ⟨-, rfl⟩ := hl'.unique hl
      exact hw
    · intro hw; exact ⟨k, kn, hl, hw⟩
  -- visits after the selection phase
  have hv1 : ∀ r i k (kn : Node G Fl), r < states.length → Anc st r i → Leaf st r k kn →
      visitsAt st1 i = vincN (if G.winner kn.state ≠ none ∧ Anc st i k then 1 else 0) (visitsAt st i) := by
    intro r i k kn hr hai hl
    obtain ⟨n, hn⟩ : ∃ n, st[i]? = some n :=
      ⟨_, List.getElem?_eq_getElem (hai.lt_of (Nat.lt_of_lt_of_le hr f.len))⟩
    have := h2.tree r i k _ n kn (List.getElem?_eq_getElem hr) hai hn hl
    unfold visitsAt
    rw [this, hn]
    cases hw : G.winner kn.state with
    | none =>
      rw [if_neg (by simp)]
      rfl
    | some w =>
      simp only
      by_cases ha : Anc st i k
      · rw [if_pos ⟨(ho r).2 hr, ha⟩, if_pos (by simp [ha])]
        rfl
      · rw [if_neg (by simp [ha]), if_neg (by simp [ha])]
        rfl
  have hflag : flag1 = true ↔ ∃ g, g < states.length ∧ ¬ EndsTerminal st g := by
    rw [h2.flag]
    constructor
    · rintro (h | ⟨g, hg, k, kn, hl, hw⟩)
      · cases h
      · exact ⟨g, (ho g).1 hg, by rw [hterm g k kn hl]; simp [hw]⟩
    · rintro ⟨g, hg, hn⟩
      obtain ⟨k, kn, hl, -⟩ := f.leaf hg
      rw [hterm g k kn hl] at hn
      exact .inr ⟨g, (ho g).2 hg, k, kn, hl, Classical.not_not.1 hn⟩
  cases hf : flag1 with
  | false =>
    rw [hf] at h hflag
    have := M.pure_ok.1 h
    simp only [Prod.mk.injEq] at this
    obtain ⟨⟨rfl, rfl⟩, -⟩ := this
    refine ⟨f1, hs1, h2.shape.up, by omega, hmem1, hsel1, ?_⟩
    intro r i k kn hr hai hl
    have hno : ¬ ∃ g, g < states.length ∧ ¬ EndsTerminal st g := fun h => by simpa using hflag.2 h
    rw [hv1 r i k kn hr hai hl, if_neg hno]
    rfl
  | true =>
    rw [hf] at h hflag
    simp only [Bool.not_true, Bool.false_eq_true, if_false] at h
    obtain ⟨ts, t2, -, h⟩ := M.bind_ok.1 h
    obtain ⟨x, t3, -, h⟩ := M.bind_ok.1 h
    obtain ⟨st2, t4, h4, h⟩ := M.bind_ok.1 h
    have := M.pure_ok.1 h
    simp only [Prod.mk.injEq] at this
    obtain ⟨⟨rfl, rfl⟩, -⟩ := this
    have hzip : ∀ p ∈ (List.range sel'.length).zip sel', p.2 < st1.length := by
      intro p hp
      have := (List.of_mem_zip (a := p.1) (b := p.2) hp).2
      have := hmem1 p.2 this
      omega
    obtain ⟨g1, g2, g3, g4⟩ := expandPhase_ok _ f1 hzip h4
    refine ⟨g1, hs1.up g2 g3, h2.shape.up.trans g2, by omega, hmem1, hsel1, ?_⟩
    intro r i k kn hr hai hl
    have hil := hai.lt_of (Nat.lt_of_lt_of_le hr f.len)
    rw [g4 i (by omega), zip_range_countOf (fun k => Anc st1 i k), hv1 r i k kn hr hai hl, if_pos (hflag.1 rfl),
      countOf_congr (Q := fun k => Anc st i k) fun k hk =>
        ⟨Anc.mono h2.shape.symm.up, Anc.mono h2.shape.up⟩]
    split
    · rw [Nat.add_comm]; rfl
    · rw [Nat.zero_add]; rfl

theorem parallelIterate_ok {net : Net Fl} {states : List G.S} {order : List Nat} (hnd : order.Nodup)
    (ho : ∀ g, g ∈ order ↔ g < states.length) (k : Nat) {st st' : Store G Fl} {sel sel' : List Nat} {t t' : Tape}
    (f : Forest states st) (hs : SelOk states st sel)
    (h : parallelIterate net order k st sel t = .ok ((st', sel'), t')) :
    Forest states st' ∧ SelOk states st' sel' ∧ SameUp st st' := by
  induction k generalizing st sel t with
  | zero =>
    have := M.pure_ok.1 h
    simp only [Prod.mk.injEq] at this
    obtain ⟨⟨rfl, rfl⟩, -⟩ := this
    exact ⟨f, hs, fun i n hn => ⟨n, hn, rfl, rfl⟩⟩
  | succ k ih =>
    unfold parallelIterate at h
    obtain ⟨⟨st1, sel1⟩, t1, h1, h2⟩ := M.bind_ok.1 h
    obtain ⟨f1, hs1, hup, -⟩ := parallelIteration_ok f hs hnd ho h1
    obtain ⟨g1, g2, g3⟩ := ih f1 hs1 h2
    exact ⟨g1, g2, hup.trans g3⟩

theorem perm_range {order : List Nat} {n : Nat} (h : order.Perm (List.range n)) :
    order.Nodup ∧ ∀ g, g ∈ order ↔ g < n :=
  ⟨h.nodup_iff.2 List.nodup_range, fun g => by rw [h.mem_iff, List.mem_range]⟩

/-- The search returns a forest over the searched states. -/
theorem alphaMctsParallel_forest {net : Net Fl} {order : List Nat} {states : List G.S} {iterations : Nat}
    {st st' : Store G Fl} {t t' : Tape} (ho : order.Perm (List.range states.length))
    (h : alphaMctsParallel net order states iterations st t = .ok (st', t')) : Forest states st' := by
  unfold alphaMctsParallel at h
  obtain ⟨st1, t1, h1, h⟩ := M.bind_ok.1 h
  obtain ⟨⟨st2, sel2⟩, t2, h2, h⟩ := M.bind_ok.1 h
  have := M.pure_ok.1 h
  simp only [Prod.mk.injEq] at this
  obtain ⟨rfl, -⟩ := this
  obtain ⟨f, -⟩ := parallelStart_ok h1
  exact (parallelIterate_ok (perm_range ho).1 (perm_range ho).2 iterations f (selOk_replicate f) h2).1

end DieE.Mcts
