import Verif.Props.Grab

/-!
# C116 in a batch of several games

The second half of `C116_partial` needs a batch of one game.  In a batch of two, the game with the winning move repeats the
last unfinished position it has reached whenever the selected position is finished, because the other game still needs
the network: a losing move is visited in every iteration, the winning one not.
-/

namespace DieE.Props.Gr
open DieE DieE.Mcts DieE.Props.S DieE.Props.A DieE.Props.Wn DieE.Props.Pu

/-! ## One move wins, the other does not -/

/-- Player 1 is to move; 7 completes the middle column, 8 does not win. -/
def grabTTT : TTT.State := { player := 1, board := #v[-1, 1, -1, 1, 1, -1, -1, 0, 0], id := 0 }

/-- The same prior for every legal move, and value 0. -/
noncomputable def evenNet : Net (realFloats 2) where
  policy := fun _ _ _ => (1 / 9 : ℝ)
  eval := fun _ _ => (0 : ℝ)
  priorBatch := fun _ codes _ => (1 / codes.length : ℝ)
  priorTensor := fun _ codes _ => (1 / codes.length : ℝ)
  priorVec := fun _ codes _ => (1 / codes.length : ℝ)
  noise := fun _ _ => (1 / 9 : ℝ)
  mixTensor := fun p n : ℝ => (3 * p + n) / 4
  mixChild := fun p n : ℝ => (3 * p + n) / 4
  alphaOk := true

/-- A node of the search without its numbers: parent, children, visits, moves to be expanded, winner. -/
def outline (n : Node (TTT.game .debug) (realFloats 2)) : Option Nat × List Nat × Nat × List Nat × Option Int :=
  (n.parent, n.children, n.visits, n.expandable, TTT.checkWinner n.state)

/-- The batch. -/
def two : List (TTT.game .debug).S := [grabTTT, TTT.new]

theorem two_perm : [0, 1].Perm (List.range two.length) := List.Perm.refl [0, 1]

/-- The store before the first iteration. -/
noncomputable def start : Option (List (Option Nat × List Nat × Nat × List Nat × Option Int)) :=
  (parallelStart (G := TTT.game .debug) evenNet two [] demoTape).toOption.map fun r => r.1.map outline

def shown : List (Option Nat × List Nat × Nat × List Nat × Option Int) :=
  [(none, [2, 3], 1, [], none), (none, [4, 5, 6, 7, 8, 9, 10, 11, 12], 1, [], none), (some 0, [], 0, [8], some 1),
    (some 0, [], 0, [7], none)] ++ (List.range 9).map fun i => (some 1, [], 0, (List.range 9).erase i, none)

set_option synthInstance.maxSize 2000 in
theorem start_outline : start = some shown := by decide +kernel

theorem outline_eq {n : Node (TTT.game .debug) (realFloats 2)} {a : Option Nat} {b : List Nat} {v : Nat} {d : List Nat} {e : Option Int}
    (h : outline n = (a, b, v, d, e)) :
    n.parent = a ∧ n.children = b ∧ n.visits = v ∧ (n.expandable : List Nat) = d ∧ TTT.checkWinner n.state = e :=
  ⟨congrArg (fun p => p.1) h, congrArg (fun p => p.2.1) h, congrArg (fun p => p.2.2.1) h, congrArg (fun p => p.2.2.2.1) h,
    congrArg (fun p => p.2.2.2.2) h⟩

theorem mapM_length {α β : Type} {f : α → Res β} (l : List α) {r : List β} (h : l.mapM f = .ok r) : r.length = l.length := by
  induction l generalizing r with
  | nil => cases Except.ok.inj h; rfl
  | cons a l ih =>
    rw [List.mapM_cons] at h
    obtain ⟨b, -, h⟩ := Res.bind_ok.1 h
    obtain ⟨bs, h2, h⟩ := Res.bind_ok.1 h
    cases Except.ok.inj h
    rw [List.length_cons, List.length_cons, ih h2]

/-! ## The invariant -/

/-- The first moves of the other game. -/
def kids : List Nat := [4, 5, 6, 7, 8, 9, 10, 11, 12]

abbrev TS := Store (TTT.game .debug) (realFloats 2)
abbrev TN := Node (TTT.game .debug) (realFloats 2)

/-- The value after one visit is 0. -/
def Once (n : Nat) (x : (realFloats 2).F) : Prop := n = 1 → real x = 0

theorem once_keeps : KeepsF (Fl := realFloats 2) Once (fun _ => True) (fun x => real x = 0) where
  first := by
    intro r hr _
    show ((0 : Int) : ℝ) + real r = 0
    rw [hr]
    simp
  later := by
    intro v x r h0 _ _ h1
    unfold vinc at h1
    split at h1 <;> omega
  sub := fun _ _ => trivial

/-- After `T` iterations: the losing move 8 (node 3) has `T` visits or more and the winning move 7 (node 2) fewer. -/
structure Lost (T : Nat) (st : TS) (sel : List Nat) : Prop where
  root : ∃ n : TN, st[0]? = some n ∧ n.children = [2, 3] ∧ n.expandable = []
  win : ∃ n : TN, st[2]? = some n ∧ n.children = [] ∧ TTT.checkWinner n.state = some 1 ∧ n.visits ≤ T - 1 ∧ real n.policy = 1 / 2
  notIn : 2 ∉ sel
  lose : ∃ n : TN, st[3]? = some n ∧ TTT.checkWinner n.state = none ∧ T ≤ n.visits ∧ n.visits ≤ 3 * T ∧ real n.policy = 1 / 2 ∧
    (T = 0 → n.children = [])
  last : 0 < T → ∃ x, sel[0]? = some x ∧ Anc st 3 x
  other : ∃ n : TN, st[1]? = some n ∧ n.children = kids ∧ n.expandable = [] ∧ 1 ≤ n.visits ∧ n.visits ≤ 1 + 3 * T
  kid : ∀ i ∈ kids, ∃ n : TN, st[i]? = some n ∧ TTT.checkWinner n.state = none ∧ real n.policy = 1 / 9 ∧ n.visits ≤ 1 ∧
    (n.visits = 0 → n.children = [])
  sum : (kids.map (visitsAt st)).sum ≤ T
  once : AllF (Fl := realFloats 2) Once st
  blank : AllQ (Blank (Fl := realFloats 2)) st

theorem sum_kids (f : Nat → Nat) : (kids.map f).sum = f 4 + f 5 + f 6 + f 7 + f 8 + f 9 + f 10 + f 11 + f 12 := by
  simp only [kids, List.map_cons, List.map_nil, List.sum_cons, List.sum_nil]
  omega

theorem maxBy_two {α : Type} {cmp : α → α → Res Ordering} {a b : α} (h : cmp a b = .ok .lt) : maxBy cmp [a, b] = .ok (some b) := by
  unfold maxBy
  simp only [List.foldlM, h]
  rfl

/-- Of two children with the same score the later one is taken. -/
theorem selectAlpha_later {c : ℝ} {G : Game} {st : Store G (realFloats c)} (w : WellFormed st) {i a b : Nat}
    {n an bn : Node G (realFloats c)} (hi : st[i]? = some n) (hc : n.children = [a, b]) (ha : st[a]? = some an) (hb : st[b]? = some bn)
    (he : real ((realFloats c).alphaUcb an.value an.visits an.policy n.visits) ≤
      real ((realFloats c).alphaUcb bn.value bn.visits bn.policy n.visits)) : selectAlpha i st = .ok bn := by
  unfold selectAlpha
  rw [getNode_ok.2 hi]
  have h1 : childNodes st n = .ok [an, bn] := by
    unfold childNodes
    rw [hc, List.mapM_cons, getNode_ok.2 ha, List.mapM_cons, getNode_ok.2 hb, List.mapM_nil]
    rfl
  show (childNodes st n >>= _) = _
  rw [h1]
  have h2 := (ucb_child w hi (by rw [hc]; simp) ha).2
  have h3 := (ucb_child w hi (by rw [hc]; simp) hb).2
  have h4 : (realFloats c).cmp ((realFloats c).alphaUcb an.value an.visits an.policy n.visits)
      ((realFloats c).alphaUcb bn.value bn.visits bn.policy n.visits) = .lt := by
    show (@ite Ordering (real ((realFloats c).alphaUcb bn.value bn.visits bn.policy n.visits) <
      real ((realFloats c).alphaUcb an.value an.visits an.policy n.visits)) (Classical.propDecidable _) .gt .lt) = .lt
    rw [if_neg (not_lt.2 he)]
  show (maxBy _ [an, bn] >>= _) = _
  rw [maxBy_two (by simp only [h2, h3]; show (Except.ok _ : Res _) = _; rw [h4])]
  rfl

open Classical in
theorem Lost.step {T : Nat} {st st' : TS} {sel sel' : List Nat} {t t' : Tape} (hT : T < 9)
    (hf : Forest two st) (hs : SelOk two st sel) (x : Lost T st sel)
    (h : parallelIteration evenNet [0, 1] st sel t = .ok ((st', sel'), t')) : Lost (T + 1) st' sel' := by
  have hnd := (perm_range two_perm).1
  have ho := (perm_range two_perm).2
  obtain ⟨f1, hs1, hup, hlen, hmem, hsel, hvis⟩ := parallelIteration_ok hf hs hnd ho h
  have hkept := parallelIteration_kept hf hs hnd ho h
  have hrest := @parallelIteration_rest _ _ evenNet _ _ st st' sel sel' t t' hf hs hnd ho h
  have hF1 := parallelIteration_f once_keeps ⟨trivial, trivial, trivial⟩ (fun _ _ => rfl) hf hs hnd ho x.once x.blank h
  have hB1 := parallelIteration_q (Q := Blank) (V := fun _ => True) blank_zero (blank_keeps _) ⟨trivial, trivial, trivial⟩
      (fun _ _ => trivial) x.blank h
  have hl0 : 0 < two.length := by decide
  have hl1 : 1 < two.length := by decide
  obtain ⟨k0, kn0, hk0, ha0, hkc⟩ := hf.leaf hl0
  obtain ⟨k1, kn1, hk1, ha1, -⟩ := hf.leaf hl1
  obtain ⟨r0, hr0, hr0c, hr0e⟩ := x.root
  obtain ⟨wn, hwn, hwc, hww, hwv, hwp⟩ := x.win
  obtain ⟨an, han, haw, hav, hav3, hap, hat⟩ := x.lose
  obtain ⟨r1, hr1, hr1c, hr1e, hr1v, hr1v3⟩ := x.other
  have hvn : ∀ {st : TS} {o : Nat} {on : TN}, st[o]? = some on → visitsAt st o = on.visits := by
    intro st o on h
    simp [visitsAt, h]
  -- the other game
  obtain ⟨u, hu, hu0⟩ : ∃ u ∈ kids, visitsAt st u = 0 := by
    by_contra hno
    have h1 : ∀ i ∈ kids, 1 ≤ visitsAt st i := fun i hi => by
      by_contra h1
      exact hno ⟨i, hi, by omega⟩
    have := x.sum
    rw [sum_kids] at this
    have := h1 4 (by decide); have := h1 5 (by decide); have := h1 6 (by decide); have := h1 7 (by decide)
    have := h1 8 (by decide); have := h1 9 (by decide); have := h1 10 (by decide); have := h1 11 (by decide)
    have := h1 12 (by decide)
    omega
  obtain ⟨m, mn, hm1, hm2, hm3, hmk⟩ := hk1.first hf.wf hr1 (by rw [hr1c]; decide)
  rw [hr1c] at hm2
  have hscore : ∀ i ∈ kids, ∀ n : TN, st[i]? = some n → real ((realFloats 2).alphaUcb n.value n.visits n.policy r1.visits) =
      2 * (Real.sqrt r1.visits / (n.visits + 1)) * (1 / 9) := by
    intro i hi n hn
    obtain ⟨n', h1, h2, h3, h4, -⟩ := x.kid i hi
    rw [hn] at h1
    cases Option.some.inj h1
    rw [score_eq, h3]
    have : mean (real n.value) n.visits = 0 := by
      unfold mean
      split
      · rfl
      · rename_i h0
        rw [(x.once n (List.mem_of_getElem? hn)).2 h2 (by omega) (by omega), zero_div]
    rw [this, zero_add]
  obtain ⟨mn', hmn', hmw, hmp, hmv, hmc⟩ := x.kid m hm2
  rw [hm3] at hmn'
  cases Option.some.inj hmn'
  have hm0 : mn.visits = 0 := by
    obtain ⟨un, hun, -⟩ := x.kid u hu
    obtain ⟨m', -, -, hb⟩ := selectAlpha_best hf.wf hr1 (fun a b => real a ≤ real b) (fun _ => le_refl _)
      (fun _ _ _ => le_trans) (fun _ _ _ _ _ _ _ _ => cmp_real _ _) hm1
    have := hb u (by rw [hr1c]; exact hu) un hun
    rw [hscore u hu un hun, hscore m hm2 mn hm3] at this
    by_contra h0
    have h1 : mn.visits = 1 := by omega
    have h2 : un.visits = 0 := by rw [← hvn hun]; exact hu0
    rw [h1, h2] at this
    have hsp : 0 < Real.sqrt r1.visits := Real.sqrt_pos.2 (by exact_mod_cast hr1v)
    norm_num at this
    linarith
  have hmk1 : k1 = m := by
    by_contra hne
    exact anc_children hf.wf hm3 hmk (Ne.symm hne) (hmc hm0)
  subst hmk1
  have hkn1 : kn1 = mn := by
    have := hk1.2
    rw [hm3] at this
    exact (Option.some.inj this).symm
  subst hkn1
  have hex : ∃ g, g < two.length ∧ ¬ EndsTerminal st g := by
    refine ⟨1, hl1, ?_⟩
    rintro ⟨k', kn', hl', hw'⟩
    obtain ⟨-, rfl⟩ := hl'.unique hk1
    exact hw' hmw
  have hsel1 : sel'[1]? = some k1 := by
    rw [hsel 1 k1 kn1 hl1 hk1, if_pos (show (TTT.game .debug).winner kn1.state = none from hmw)]
  obtain ⟨x0, hx0⟩ : ∃ x0, sel'[0]? = some x0 := ⟨_, List.getElem?_eq_getElem (by rw [hs1.len]; decide)⟩
  have hselx : sel' = [x0, k1] := by
    have hl := hs1.len
    match sel', hl, hx0, hsel1 with
    | [a, b], _, h1, h2 =>
      cases Option.some.inj h1
      cases Option.some.inj h2
      rfl
  have hc0 : ∀ i ∈ [2, 3], Anc st 0 i := by
    intro i hi
    obtain ⟨cn, h4, h5⟩ := hf.wf.down 0 r0 i hr0 (by rw [hr0c]; exact hi)
    exact .step h4 h5 .refl
  have hc1 : ∀ i ∈ kids, Anc st 1 i := by
    intro i hi
    obtain ⟨cn, h4, h5⟩ := hf.wf.down 1 r1 i hr1 (by rw [hr1c]; exact hi)
    exact .step h4 h5 .refl
  have hself : ∀ y, Anc st 2 y → y = 2 := by
    intro y hy
    by_contra hne
    exact anc_children hf.wf hwn hy (Ne.symm hne) hwc
  have h23 : ∀ y, Anc st 2 y → Anc st 3 y → False := by
    intro y h2 h3
    have := anc_sibling hf.wf hr0 (a := 2) (b := 3) (by rw [hr0c]; simp) (by rw [hr0c]; simp) h2 h3
    omega
  have h01 : ∀ y, Anc st 0 y → Anc st 1 y → False := by
    intro y h2 h3
    have := hf.rootUnique hl0 hl1 h2 h3
    omega
  -- the game with the winning move
  have hfirst : T = 0 → k0 = 3 := by
    intro hT0
    have hsc : selectAlpha 0 st = .ok an := by
      refine selectAlpha_later hf.wf hr0 hr0c hwn han ?_
      have e : ∀ n : TN, n ∈ st → n.visits = 0 → real n.policy = 1 / 2 →
          real ((realFloats 2).alphaUcb n.value n.visits n.policy r0.visits) = 2 * (Real.sqrt r0.visits / 1) * (1 / 2) := by
        intro n _ hv hp
        rw [score_eq, hp, hv]
        unfold mean
        rw [if_pos rfl]
        norm_num
      rw [e wn (List.mem_of_getElem? hwn) (by omega) hwp, e an (List.mem_of_getElem? han) (by omega) hap]
    obtain ⟨c0, m0, g1, g2, g3, g4⟩ := hk0.first hf.wf hr0 (by rw [hr0c]; simp)
    rw [hsc] at g1
    cases Except.ok.inj g1
    have hc3 : c0 = 3 := by rw [← hf.wf.idx c0 an g3, ← hf.wf.idx 3 an han]
    subst hc3
    by_contra hne
    exact anc_children hf.wf han g4 (Ne.symm hne) (hat hT0)
  have hx3 : Anc st 3 x0 := by
    have hx := hsel 0 k0 kn0 hl0 hk0
    rw [hx0] at hx
    by_cases hw : TTT.checkWinner kn0.state = none
    · rw [if_pos (show (TTT.game .debug).winner kn0.state = none from hw)] at hx
      cases Option.some.inj hx
      obtain ⟨c0, g1, g2⟩ := ha0.through hf.wf hr0 (by
        rintro rfl
        have hk := hk0.2
        rw [hr0] at hk
        cases Option.some.inj hk
        rw [hr0c] at hkc
        cases hkc)
      rw [hr0c] at g1
      simp only [List.mem_cons, List.not_mem_nil, or_false] at g1
      rcases g1 with rfl | rfl
      · have := hself _ g2
        have hk := hk0.2
        rw [this, hwn] at hk
        cases Option.some.inj hk
        rw [hww] at hw
        cases hw
      · exact g2
    · rw [if_neg (show ¬ (TTT.game .debug).winner kn0.state = none from hw)] at hx
      have hT0 : 0 < T := by
        by_contra h0
        have hk := hk0.2
        rw [hfirst (by omega), han] at hk
        cases Option.some.inj hk
        exact hw haw
      obtain ⟨y, hy1, hy2⟩ := x.last hT0
      rw [hy1] at hx
      cases Option.some.inj hx
      exact hy2
  have hx00 : Anc st 0 x0 := (hc0 3 (by simp)).trans hx3
  have hcnt : ∀ i, countOf (fun k => Anc st i k) sel' ≤ 2 := by
    intro i
    rw [hselx]
    exact countOf_le
  have hx0m : x0 ∈ sel' := by rw [hselx]; simp
  refine ⟨?_, ?_, ?_, ?_, ?_, ?_, ?_, ?_, hF1, hB1⟩
  · obtain ⟨r', h1, -, -, -, h5⟩ := hkept 0 r0 hr0
    obtain ⟨h5, h6⟩ := h5 hr0e
    exact ⟨r', h1, h6.trans hr0c, h5⟩
  · have hst := hrest (r := 0) (s := grabTTT) rfl (hc0 2 (by simp)) hwn hk0 (by
      intro y hy ha
      rw [hselx] at hy
      simp only [List.mem_cons, List.not_mem_nil, or_false] at hy
      rcases hy with rfl | rfl
      · exact h23 _ ha hx3
      · exact h01 _ ((hc0 2 (by simp)).trans ha) ha1)
    refine ⟨_, hst, ?_⟩
    cases hw : (TTT.game .debug).winner kn0.state with
    | none => exact ⟨hwc, hww, (show wn.visits ≤ _ by omega), hwp⟩
    | some z =>
      simp only
      by_cases h2 : Anc st 2 k0
      · rw [if_pos h2]
        refine ⟨hwc, hww, ?_, hwp⟩
        have hT0 : 0 < T := by
          by_contra h0
          rw [hfirst (by omega)] at h2
          exact h23 3 h2 .refl
        show vinc wn.visits ≤ _
        unfold vinc
        split <;> omega
      · rw [if_neg h2]
        exact ⟨hwc, hww, by omega, hwp⟩
  · rw [hselx]
    intro hin
    simp only [List.mem_cons, List.not_mem_nil, or_false] at hin
    rcases hin with rfl | rfl
    · exact h23 2 .refl hx3
    · revert hm2; decide
  · obtain ⟨n', h1, h2, -, h4, -⟩ := hkept 3 an han
    obtain ⟨n2, h5, -, h6⟩ := hup 3 an han
    rw [h1] at h5
    cases Option.some.inj h5
    have hv := hvis 0 3 k0 kn0 hl0 (hc0 3 (by simp)) hk0
    rw [hvn h1, hvn han, if_pos hex] at hv
    have hc2 := hcnt 3
    have hc1 := countOf_pos (P := fun k => Anc st 3 k) hx0m hx3
    rw [vincN_add (by split <;> omega)] at hv
    refine ⟨n', h1, by rw [h6]; exact haw, ?_, ?_, by rw [h4]; exact hap, fun h => absurd h (Nat.succ_ne_zero _)⟩
    · rw [hv]; omega
    · rw [hv]; split <;> omega
  · intro _
    exact ⟨x0, hx0, hx3.mono hup⟩
  · obtain ⟨r', h1, -, -, -, h5⟩ := hkept 1 r1 hr1
    obtain ⟨h5, h6⟩ := h5 hr1e
    have hv := hvis 1 1 k1 kn1 hl1 .refl hk1
    rw [hvn h1, hvn hr1, if_pos hex] at hv
    have hc2 := hcnt 1
    rw [vincN_add (by split <;> omega)] at hv
    refine ⟨r', h1, h6.trans hr1c, h5, ?_, ?_⟩
    · rw [hv]; omega
    · rw [hv]; split <;> omega
  · intro i hi
    by_cases hik : i = k1
    · subst hik
      obtain ⟨n', h1, h2, -, h4, -⟩ := hkept i kn1 hm3
      obtain ⟨n2, h5, -, h6⟩ := hup i kn1 hm3
      rw [h1] at h5
      cases Option.some.inj h5
      have hv := hvis 1 i i kn1 hl1 ha1 hk1
      rw [hvn h1, hvn hm3, if_pos hex, if_neg (fun h => h.1 hmw), hm0, hselx, countOf_cons, countOf_cons, if_pos .refl,
        if_neg (fun ha => h01 x0 hx00 (ha1.trans ha))] at hv
      have hv : n'.visits = 1 := hv
      exact ⟨n', h1, by rw [h6]; exact hmw, by rw [h4]; exact hmp, by omega, fun h => by omega⟩
    · obtain ⟨n, h1, h2⟩ := x.kid i hi
      have hst := hrest (r := 1) (s := TTT.new) rfl (hc1 i hi) h1 hk1 (by
        intro y hy ha
        rw [hselx] at hy
        simp only [List.mem_cons, List.not_mem_nil, or_false] at hy
        rcases hy with rfl | rfl
        · exact h01 _ hx00 ((hc1 i hi).trans ha)
        · exact hik (anc_sibling hf.wf hr1 (by rw [hr1c]; exact hi) (by rw [hr1c]; exact hm2) ha .refl))
      rw [show (TTT.game .debug).winner kn1.state = none from hmw] at hst
      exact ⟨n, hst, h2⟩
  · have hsame : ∀ i ∈ kids, i ≠ k1 → visitsAt st' i = visitsAt st i := by
      intro i hi hik
      rw [hvis 1 i k1 kn1 hl1 (hc1 i hi) hk1, if_pos hex, if_neg (fun h => h.1 hmw), hselx, countOf_cons, countOf_cons, if_neg (fun ha =>
        hik (anc_sibling hf.wf hr1 (by rw [hr1c]; exact hi) (by rw [hr1c]; exact hm2) ha .refl)),
        if_neg (fun ha => h01 x0 hx00 ((hc1 i hi).trans ha))]
      rfl
    have hone : visitsAt st' k1 ≤ visitsAt st k1 + 1 := by
      rw [hvis 1 k1 k1 kn1 hl1 ha1 hk1, if_pos hex, if_neg (fun h => h.1 hmw), hselx, countOf_cons, countOf_cons, if_pos .refl,
        if_neg (fun ha => h01 x0 hx00 (ha1.trans ha)), hvn hm3, hm0]
      exact Nat.le_refl 1
    have hall : ∀ i ∈ kids, visitsAt st' i ≤ visitsAt st i + if i = k1 then 1 else 0 := by
      intro i hi
      by_cases hik : i = k1
      · rw [if_pos hik, hik]; exact hone
      · rw [if_neg hik, hsame i hi hik]; omega
    have := x.sum
    rw [sum_kids] at this ⊢
    have := hall 4 (by decide); have := hall 5 (by decide); have := hall 6 (by decide); have := hall 7 (by decide)
    have := hall 8 (by decide); have := hall 9 (by decide); have := hall 10 (by decide); have := hall 11 (by decide)
    have := hall 12 (by decide)
    simp only [kids, List.mem_cons, List.not_mem_nil, or_false] at hm2
    rcases hm2 with rfl | rfl | rfl | rfl | rfl | rfl | rfl | rfl | rfl <;> simp at * <;> omega

theorem iterate_lost (k : Nat) {T : Nat} {st st' : TS} {sel sel' : List Nat} {t t' : Tape} (hT : T + k ≤ 9)
    (hf : Forest two st) (hs : SelOk two st sel) (x : Lost T st sel)
    (h : parallelIterate evenNet [0, 1] k st sel t = .ok ((st', sel'), t')) : Lost (T + k) st' sel' := by
  induction k generalizing st sel t T with
  | zero =>
    cases M.pure_ok.1 h
    exact x
  | succ k ih =>
    unfold parallelIterate at h
    obtain ⟨⟨st1, sel1⟩, t1, h1, h2⟩ := M.bind_ok.1 h
    obtain ⟨f1, hs1, -⟩ := parallelIteration_ok hf hs
      (perm_range two_perm).1
      (perm_range two_perm).2 h1
    have := ih (by omega) f1 hs1 (x.step (by omega) hf hs h1) h2
    rwa [show T + (k + 1) = T + 1 + k by omega]

/-- What one would expect of a search with the exploration constant 2, the same prior for all moves, and enough iterations:
no other move is visited more often than a move that wins at once. -/
def C116_statement (G : Game) : Prop :=
  ∀ (net : Net (realFloats 2)), (∀ x row, -1 ≤ real (net.eval x row) ∧ real (net.eval x row) < 1) →
    ∀ (states : List G.S) (order : List Nat), order.Perm (List.range states.length) →
    ∀ (iterations : Nat) (t t' : Tape) (st : Store G (realFloats 2)), 1 + iterations * (states.length + 1) < 2 ^ 24 →
    alphaMctsParallel net order states iterations [] t = .ok (st, t') →
    ∀ (g : Nat) (s : G.S) (ms : List G.Mv), states[g]? = some s → G.moves s = .ok ms →
    ∀ (rn wn : Node G (realFloats 2)) (w : Nat), st[g]? = some rn → w ∈ rn.children → st[w]? = some wn →
    G.winner wn.state = some (G.player s) →
    ∀ q L : ℝ, (∀ o ∈ rn.children, ∀ on : Node G (realFloats 2), st[o]? = some on → real on.policy = q) → 0 ≤ q → 2 ≤ L →
    4 ≤ L * (2 * q) ^ 2 → ms.length * L < iterations →
    ∀ o ∈ rn.children, ∀ on : Node G (realFloats 2), st[o]? = some on → G.winner on.state ≠ some (G.player s) →
      on.visits ≤ wn.visits

/-- It holds in batches of one game, and a move that wins at once has at least its share of the visits. -/
theorem C116_even {G : Game} (net : Net (realFloats 2)) (he : ∀ x row, -1 ≤ real (net.eval x row) ∧ real (net.eval x row) < 1)
    (s : G.S) (iterations : Nat) (t t' : Tape) (st : Store G (realFloats 2)) (hN : 1 + iterations * 2 < 2 ^ 24)
    (h : alphaMctsParallel net [0] [s] iterations [] t = .ok (st, t'))
    (ms : List G.Mv) (hm : G.moves s = .ok ms) (rn wn : Node G (realFloats 2)) (w : Nat) (hr : st[0]? = some rn)
    (hw : w ∈ rn.children) (hwn : st[w]? = some wn) (hwin : G.winner wn.state = some (G.player s)) (q L : ℝ)
    (hp : ∀ o ∈ rn.children, ∀ on : Node G (realFloats 2), st[o]? = some on → real on.policy = q) (hq0 : 0 ≤ q) (hL : 2 ≤ L)
    (hq : 4 ≤ L * (2 * q) ^ 2) (hlong : ms.length * L < iterations) (o : Nat) (ho : o ∈ rn.children)
    (on : Node G (realFloats 2)) (hon : st[o]? = some on) (hnw : G.winner on.state ≠ some (G.player s)) :
    on.visits ≤ wn.visits ∧ iterations ≤ ms.length * (wn.visits + 1) := by
  have hwq := hp w hw wn hwn
  obtain ⟨e1, e2⟩ := C116_partial (c := 2) (by norm_num) he (states := [s]) (List.Perm.refl [0]) hN h (g := 0) rfl hm hr hw hwn hwin
    (κ := 1) (L := L) (le_refl _) (by linarith) (by rw [hwq]; exact hq0) (by rw [hwq]; exact hq)
    (fun o ho on hon => by rw [hwq, hp o ho on hon]; linarith) hlong
  have e2 := e2 rfl o ho on hon hnw
  rw [one_mul] at e1 e2
  have e2 : on.visits < wn.visits + 1 := by exact_mod_cast e2
  exact ⟨by omega, by exact_mod_cast e1⟩

theorem moves_grab : (TTT.game .debug).moves grabTTT = .ok ([7, 8] : List Nat) := by decide +kernel
theorem moves_new : (TTT.game .debug).moves TTT.new = .ok ([0, 1, 2, 3, 4, 5, 6, 7, 8] : List Nat) := by decide +kernel

/-- Before the first iteration. -/
theorem start_lost {st : TS} {t : Tape} (h : parallelStart evenNet two [] demoTape = .ok (st, t)) :
    Lost 0 st (List.replicate two.length 0) := by
  have hout : st.map outline = shown := by
    have := start_outline
    unfold start at this
    rw [h] at this
    exact Option.some.inj this
  have hat : ∀ (i : Nat) o, shown[i]? = some o → ∃ n : TN, st[i]? = some n ∧ outline n = o := by
    intro i o hi
    rw [← hout, List.getElem?_map] at hi
    obtain ⟨n, hn, he⟩ := Option.map_eq_some_iff.1 hi
    exact ⟨n, hn, he⟩
  obtain ⟨f, -⟩ := parallelStart_ok h
  have h0 : alphaMctsParallel evenNet [0, 1] two 0 [] demoTape = .ok (st, t) := by
    unfold alphaMctsParallel
    refine M.bind_ok.2 ⟨st, t, h, ?_⟩
    rfl
  obtain ⟨ts, X, r, -, -, hpr⟩ := root_priors two_perm h0
  have hpol : ∀ (g : Nat) (s : TTT.State) (l : List Nat), two[g]? = some s → (TTT.game .debug).moves s = .ok l → ∀ (n : TN), st[g]? = some n →
      ∀ c ∈ n.children, ∀ m : TN, st[c]? = some m → real m.policy = 1 / l.length := by
    intro g s l hg hl n hn c hc m hm
    obtain ⟨n', ms, codes, h1, -, h3, h4, h5⟩ := hpr g s hg
    rw [hn] at h1
    cases Option.some.inj h1
    rw [hl] at h3
    cases Except.ok.inj h3
    obtain ⟨m', a, code, h6, -, -, h7⟩ := h5 c hc
    rw [hm] at h6
    cases Option.some.inj h6
    rw [h7]
    show (1 / (codes.length : ℝ)) = _
    rw [mapM_length _ h4]
    rfl
  have hF0 : AllF (Fl := realFloats 2) Once st := parallelStart_f (F := Once) (fun _ => by
    show ((0 : Int) : ℝ) = 0
    simp) h
  have hB0 : AllQ (Blank (Fl := realFloats 2)) st := fun n hn _ => ((parallelStart_q h) n hn).2
  obtain ⟨n0, e0, o0⟩ := hat 0 _ rfl
  obtain ⟨n1, e1, o1⟩ := hat 1 _ rfl
  obtain ⟨n2, e2, o2⟩ := hat 2 _ rfl
  obtain ⟨n3, e3, o3⟩ := hat 3 _ rfl
  have o0 := outline_eq o0
  have o1 := outline_eq o1
  have o2 := outline_eq o2
  have o3 := outline_eq o3
  have hk : ∀ i ∈ kids, ∃ n : TN, st[i]? = some n ∧ n.children = [] ∧ n.visits = 0 ∧ TTT.checkWinner n.state = none := by
    intro i hi
    have hsh : ∀ i ∈ kids, ∃ l, shown[i]? = some (some 1, [], 0, l, none) := by
      intro i hi
      simp only [kids, List.mem_cons, List.not_mem_nil, or_false] at hi
      rcases hi with rfl | rfl | rfl | rfl | rfl | rfl | rfl | rfl | rfl <;> exact ⟨_, rfl⟩
    obtain ⟨l, hl⟩ := hsh i hi
    obtain ⟨n, e, o⟩ := hat i _ hl
    have o := outline_eq o
    exact ⟨n, e, o.2.1, o.2.2.1, o.2.2.2.2⟩
  refine ⟨⟨n0, e0, o0.2.1, o0.2.2.2.1⟩, ⟨n2, e2, o2.2.1, o2.2.2.2.2, by omega, ?_⟩, by decide,
    ⟨n3, e3, o3.2.2.2.2, by omega, by omega, ?_, fun _ => o3.2.1⟩, fun h => absurd h (by omega),
    ⟨n1, e1, o1.2.1, o1.2.2.2.1, by omega, by omega⟩, ?_, ?_, hF0, hB0⟩
  · rw [hpol 0 grabTTT _ rfl moves_grab n0 e0 2 (by rw [o0.2.1]; simp) n2 e2]
    norm_num
  · rw [hpol 0 grabTTT _ rfl moves_grab n0 e0 3 (by rw [o0.2.1]; simp) n3 e3]
    norm_num
  · intro i hi
    obtain ⟨n, h1, h2, h3, h4⟩ := hk i hi
    refine ⟨n, h1, h4, ?_, by omega, fun _ => h2⟩
    rw [hpol 1 TTT.new _ rfl moves_new n1 e1 i (by rw [o1.2.1]; exact hi) n h1]
    norm_num
  · have hz : ∀ i ∈ kids, visitsAt st i = 0 := by
      intro i hi
      obtain ⟨n, h1, -, h3, -⟩ := hk i hi
      simp [visitsAt, h1, h3]
    rw [sum_kids, hz 4 (by decide), hz 5 (by decide), hz 6 (by decide), hz 7 (by decide), hz 8 (by decide), hz 9 (by decide),
      hz 10 (by decide), hz 11 (by decide), hz 12 (by decide)]

/-- In a batch of two games a move that wins at once is visited less often than one that does not. -/
theorem C116_refuted : ¬ C116_statement (TTT.game .debug) := by
  intro hall
  obtain ⟨st, t', h, -⟩ := alphaMctsParallel_progress (ttt_safeNet .debug) (net := evenNet) rfl (states := two) (by decide)
    (by
      intro s hs
      rcases List.mem_cons.1 hs with rfl | hs
      · left; rfl
      · rcases List.mem_singleton.1 hs with rfl
        right; rfl) two_perm 9 demoTape
  have h' := h
  unfold alphaMctsParallel at h
  obtain ⟨st1, t1, h1, h⟩ := M.bind_ok.1 h
  obtain ⟨⟨st2, sel2⟩, t2, h2, h⟩ := M.bind_ok.1 h
  cases M.pure_ok.1 h
  obtain ⟨f, -⟩ := parallelStart_ok h1
  have x := iterate_lost 9 (by omega) f (selOk_replicate f) (start_lost h1) h2
  obtain ⟨r0, hr0, hr0c, hr0e⟩ := x.root
  obtain ⟨wn, hwn, hwc, hww, hwv, hwp⟩ := x.win
  obtain ⟨an, han, haw, hav, hav3, hap, -⟩ := x.lose
  have := hall evenNet (fun _ _ => ⟨by show (-1 : ℝ) ≤ 0; norm_num, by show (0 : ℝ) < 1; norm_num⟩) two [0, 1] two_perm 9
    demoTape _ _ (by decide) h' 0 grabTTT ([7, 8] : List Nat) rfl moves_grab r0 wn 2 hr0 (by rw [hr0c]; simp) hwn hww (1 / 2) 4 (by
      intro o ho on hon
      rw [hr0c] at ho
      simp only [List.mem_cons, List.not_mem_nil, or_false] at ho
      rcases ho with rfl | rfl
      · rw [hwn] at hon
        cases Option.some.inj hon
        exact hwp
      · rw [han] at hon
        cases Option.some.inj hon
        exact hap) (by norm_num) (by norm_num) (by norm_num) (by
      show ((2 : Nat) : ℝ) * 4 < ((9 : Nat) : ℝ)
      norm_num) 3 (by rw [hr0c]; simp) an han (by
      show TTT.checkWinner an.state ≠ _
      rw [haw]
      simp)
  omega

/-- The child of the root for a legal move. -/
theorem ttt_child {Fl : Floats} {pf : Profile} {s : TTT.State} {st : Store (TTT.game pf) Fl} (w : WellFormed st) {g : Nat}
    {rn : Node (TTT.game pf) Fl} (hr : st[g]? = some rn) (hrs : rn.state = s)
    (hp : (childActions st rn).Perm (TTT.getValidMoves s)) {a : Nat} {sa : TTT.State} (ha : a ∈ TTT.getValidMoves s)
    (hsa : TTT.applyMove pf s a = .ok sa) :
    ∃ (i : Nat) (n : Node (TTT.game pf) Fl), i ∈ rn.children ∧ st[i]? = some n ∧ n.action = some a ∧ n.state = sa := by
  have := hp.symm.subset (show a ∈ _ from ha)
  unfold childActions at this
  obtain ⟨i, hi, he⟩ := List.mem_filterMap.1 this
  obtain ⟨n, hn, he⟩ := Option.bind_eq_some_iff.1 he
  refine ⟨i, n, hi, hn, he, ?_⟩
  obtain ⟨cn, c1, c2⟩ := w.down g rn i hr hi
  rw [hn] at c1
  cases Option.some.inj c1
  obtain ⟨-, pn, a', u1, -, u3, t1, t2, u4⟩ := w.up i n g hn c2
  rw [hr] at u1
  cases Option.some.inj u1
  rw [he] at u3
  cases Option.some.inj u3
  rw [hrs] at u4
  have u5 := (M.lift_ok.1 (show (M.lift (TTT.applyMove pf s a)) t1 = .ok (n.state, t2) from u4)).1
  rw [hsa] at u5
  exact (Except.ok.inj u5).symm

/-- The priors of the root in a search with the network `evenNet`. -/
theorem even_priors {G : Game} {s : G.S} {ms : List G.Mv} {iterations : Nat} {t t' : Tape} {st : Store G (realFloats 2)}
    (h : alphaMctsParallel evenNet [0] [s] iterations [] t = .ok (st, t')) (hm : G.moves s = .ok ms) {rn : Node G (realFloats 2)}
    (hr : st[0]? = some rn) : ∀ c ∈ rn.children, ∀ m : Node G (realFloats 2), st[c]? = some m → real m.policy = 1 / ms.length := by
  intro c hc m hm'
  obtain ⟨ts, X, r, -, -, hpr⟩ := root_priors (List.Perm.refl [0]) h
  obtain ⟨n', ms, codes, g1, -, g3, g4, g5⟩ := hpr 0 s rfl
  rw [hr] at g1
  cases Option.some.inj g1
  rw [hm] at g3
  cases Except.ok.inj g3
  obtain ⟨m', a, code, g6, -, -, g7⟩ := g5 c hc
  rw [hm'] at g6
  cases Option.some.inj g6
  rw [g7]
  show (1 / (codes.length : ℝ)) = _
  rw [mapM_length _ g4]

/-- `C116_even` for the network `evenNet`: with `d` legal moves, more than `d ^ 3` iterations are enough. -/
theorem even_grab {G : Game} {s : G.S} {ms : List G.Mv} {iterations : Nat} {t t' : Tape} {st : Store G (realFloats 2)}
    (h : alphaMctsParallel evenNet [0] [s] iterations [] t = .ok (st, t')) (hm : G.moves s = .ok ms) (hd : 2 ≤ ms.length)
    (h1 : ms.length ^ 3 < iterations) (h2 : 1 + iterations * 2 < 2 ^ 24)
    {rn wn on : Node G (realFloats 2)} {w o : Nat} (hr : st[0]? = some rn) (hw : w ∈ rn.children) (hwn : st[w]? = some wn)
    (hwin : G.winner wn.state = some (G.player s)) (ho : o ∈ rn.children) (hon : st[o]? = some on)
    (hnw : G.winner on.state ≠ some (G.player s)) : on.visits ≤ wn.visits ∧ iterations ≤ ms.length * (wn.visits + 1) := by
  have he : ∀ x row, -1 ≤ real (evenNet.eval x row) ∧ real (evenNet.eval x row) < 1 := fun _ _ =>
    ⟨by show (-1 : ℝ) ≤ 0; norm_num, by show (0 : ℝ) < 1; norm_num⟩
  have hd' : (2 : ℝ) ≤ ms.length := by exact_mod_cast hd
  refine C116_even evenNet he s iterations t t' st h2 h ms hm rn wn w hr hw hwn hwin (1 / ms.length) ((ms.length : ℝ) ^ 2)
    (even_priors h hm hr) (by positivity) (by nlinarith) ?_ ?_ o ho on hon hnw
  · rw [← mul_pow]
    have : (ms.length : ℝ) * (2 * (1 / ms.length)) = 2 := by field_simp
    rw [this]
    norm_num
  · rw [← pow_succ']
    exact_mod_cast h1

/-- TicTacToe with the network `evenNet` and a batch of one game: with `d` legal moves and more than `d ^ 3` iterations (the
100 of the example configuration for `d ≤ 4`), a move `a` that wins at once has at least the `d`-th part of the
iterations, less one, as visits, and a move `b` that does not win has no more visits than `a`. -/
theorem C116_ttt {pf : Profile} {s : TTT.State} (hs : s.player = 1 ∨ s.player = -1) {a b : Nat} (ha : a ∈ TTT.getValidMoves s)
    (hb : b ∈ TTT.getValidMoves s) {sa sb : TTT.State} (hsa : TTT.applyMove pf s a = .ok sa) (hsb : TTT.applyMove pf s b = .ok sb)
    (hwa : TTT.checkWinner sa = some s.player) (hwb : TTT.checkWinner sb ≠ some s.player) {iterations : Nat}
    (h1 : (TTT.getValidMoves s).length ^ 3 < iterations) (h2 : 1 + iterations * 2 < 2 ^ 24) (t : Tape) :
    ∃ (st : Store (TTT.game pf) (realFloats 2)) (t' : Tape) (rn an bn : Node (TTT.game pf) (realFloats 2)) (i j : Nat),
      alphaMctsParallel (G := TTT.game pf) evenNet [0] [s] iterations [] t = .ok (st, t') ∧ st[0]? = some rn ∧ i ∈ rn.children ∧ j ∈ rn.children ∧
      st[i]? = some an ∧ st[j]? = some bn ∧ an.action = some a ∧ bn.action = some b ∧
      bn.visits ≤ an.visits ∧ iterations ≤ (TTT.getValidMoves s).length * (an.visits + 1) := by
  have hperm : [0].Perm (List.range [s].length) := List.Perm.refl [0]
  obtain ⟨st, t', h, -⟩ := alphaMctsParallel_progress (Fl := realFloats 2) (ttt_safeNet pf) (net := evenNet) rfl (states := [s])
    (List.cons_ne_nil _ _) (by intro x hx; rw [List.mem_singleton.1 hx]; exact hs) hperm iterations t
  have hd : 2 ≤ (TTT.getValidMoves s).length := by
    by_contra hlt
    have hd := List.length_pos_of_mem ha
    obtain ⟨y, hy⟩ : ∃ y, TTT.getValidMoves s = [y] := List.length_eq_one_iff.1 (by omega)
    rw [hy] at ha hb
    rw [List.mem_singleton.1 ha] at hsa
    rw [List.mem_singleton.1 hb, hsa] at hsb
    cases Except.ok.inj hsb
    exact hwb hwa
  obtain ⟨rn, ms, hr, hrs, hm, hp, -⟩ := alphaMctsParallel_visited hperm h 0 s rfl
  have hms : ms = TTT.getValidMoves s := (Except.ok.inj hm).symm
  subst hms
  have f := alphaMctsParallel_forest hperm h
  obtain ⟨i, an, hi, han, haa, has⟩ := ttt_child f.wf hr hrs hp ha hsa
  obtain ⟨j, bn, hj, hbn, hba, hbs⟩ := ttt_child f.wf hr hrs hp hb hsb
  have e := even_grab (G := TTT.game pf) h hm hd h1 h2 hr hi han (by rw [has]; exact hwa) hj hbn (by rw [hbs]; exact hwb)
  exact ⟨st, t', rn, an, bn, i, j, h, hr, hi, hj, han, hbn, haa, hba, e.1, e.2⟩

/-- The hypotheses are met by the 100 iterations of the example configuration: in `grabTTT` the winning move 7 gets at least 49
of them, for every random stream. -/
example (t : Tape) : ∃ (st : Store (TTT.game .debug) (realFloats 2)) (t' : Tape) (rn an bn : Node (TTT.game .debug) (realFloats 2)) (i j : Nat),
    alphaMctsParallel (G := TTT.game .debug) evenNet [0] [grabTTT] 100 [] t = .ok (st, t') ∧ st[0]? = some rn ∧ i ∈ rn.children ∧ j ∈ rn.children ∧
      st[i]? = some an ∧ st[j]? = some bn ∧ an.action = some (7 : Nat) ∧ bn.action = some (8 : Nat) ∧
      bn.visits ≤ an.visits ∧ 49 ≤ an.visits := by
  obtain ⟨st, t', rn, an, bn, i, j, h1, h2, h3, h4, h5, h6, h7, h8, h9, h10⟩ := C116_ttt (pf := .debug) (s := grabTTT) (.inl rfl)
    (a := 7) (b := 8) (by decide) (by decide) (sa := (TTT.applyMove .debug grabTTT 7).toOption.getD grabTTT)
    (sb := (TTT.applyMove .debug grabTTT 8).toOption.getD grabTTT) (by decide) (by decide) (by decide) (by decide)
    (iterations := 100) (by decide) (by decide) t
  have h10 : 100 ≤ 2 * (an.visits + 1) := h10
  exact ⟨st, t', rn, an, bn, i, j, h1, h2, h3, h4, h5, h6, h7, h8, h9, by omega⟩

end DieE.Props.Gr
