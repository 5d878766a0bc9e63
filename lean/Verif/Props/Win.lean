import Verif.Mcts.Win
import Verif.Props.Values
import Mathlib.Analysis.SpecialFunctions.Log.Basic
import Mathlib.Analysis.Complex.ExponentialBounds
import Mathlib.Analysis.SpecialFunctions.Sqrt

/-! # C80: the plain search takes an immediate win -/

namespace DieE.Props.Wn
open DieE DieE.Mcts DieE.Props.S
variable {G : Game} {Fl : Floats}

/-- What is assumed of the arithmetic, for counts below `B`: sums of integers are exact, scores of visited children are
ordered by their value, and of two children with the same number of visits the one that was always won has the higher
score.  True of `f32` as long as the difference of two means `1 / visits` is visible in a score, and of exact real
numbers (see `realArith`). -/
structure Arith (Fl : Floats) (K : Type) [LinearOrder K] (B : Nat) where
  /-- the number meant -/
  val : Fl.F → K
  add : IntAdd Fl B
  cmp : ∀ (y z : Int) (m n p : Nat), 0 < m → 0 < n → m ≤ p → n ≤ p → p < B → -m ≤ y → y ≤ m → -n ≤ z → z ≤ n →
    (Fl.cmp (Fl.ucb (Fl.ofInt y) m p) (Fl.ucb (Fl.ofInt z) n p) = .gt ↔
      val (Fl.ucb (Fl.ofInt z) n p) < val (Fl.ucb (Fl.ofInt y) m p))
  ucb : ∀ (z : Int) (n p : Nat), 0 < n → n ≤ p → p < B → -n ≤ z → z < n →
    val (Fl.ucb (Fl.ofInt z) n p) < val (Fl.ucb (Fl.ofInt n) n p)

/-- The exploration term does not make up for one visit less: up to `N` iterations a child that was always won and has
`n + 1` visits has a higher score than a child with `n` visits that was not always won. -/
def Sober {K : Type} [LinearOrder K] {B : Nat} (A : Arith Fl K B) (N : Nat) : Prop :=
  ∀ (z : Int) (n p : Nat), 0 < n → n < p → p < N → -n ≤ z → z < n →
    A.val (Fl.ucb (Fl.ofInt z) n p) < A.val (Fl.ucb (Fl.ofInt (n + 1 : Nat)) (n + 1) p)

/-- `c` is a child of the root. -/
def RootChild (st : Store G Fl) (c : Nat) (n : Node G Fl) : Prop := st[c]? = some n ∧ n.parent = some 0

/-- Final and won for `player`. -/
def Won (player : Int) (n : Node G Fl) : Prop := G.winner n.state = some player

section
variable {K : Type} [LinearOrder K] {B : Nat}

/-- The score of a child of the root is a score the assumptions speak of. -/
theorem child_value {player : Int} {st : Store G Fl} {N : Nat} (v : WinInv player st N) {c : Nat} {n : Node G Fl}
    (h : RootChild st c n) : ∃ z : Int, n.value = Fl.ofInt z ∧ -n.visits ≤ z ∧ z ≤ n.visits ∧
      (Won player n → z = n.visits) ∧ (¬ Won player n → z < n.visits) := by
  by_cases hw : Won player n
  · exact ⟨n.visits, v.win c n h.1 h.2 hw, by omega, by omega, fun _ => rfl, fun h => absurd hw h⟩
  · obtain ⟨z, h1, h2, h3⟩ := v.other c n h.1 h.2 hw
    exact ⟨z, h1, h2, by omega, fun h => absurd h hw, fun _ => h3⟩

/-- The child selected at the root has a maximal score. -/
theorem selected_max (A : Arith Fl K B) {player : Int} {st : Store G Fl} {N : Nat} (v : WinInv player st N)
    (hN : N < B) {rn m : Node G Fl} (hr : st[0]? = some rn) (hv : rn.visits = N) (h : selectUcb 0 st = .ok m) :
    ∀ (d : Nat) (dn : Node G Fl), RootChild st d dn → A.val (Fl.ucb dn.value dn.visits N) ≤ A.val (Fl.ucb m.value m.visits N) := by
  have key := selectUcb_best v.wf hr (fun a b => A.val a ≤ A.val b) (fun _ => le_refl _) (fun _ _ _ => le_trans) (by
    intro c d x y hc hd hx hy
    have hcx : RootChild st c x := by
      obtain ⟨x', h1, h2⟩ := v.wf.down 0 rn c hr hc
      rw [hx] at h1
      cases Option.some.inj h1
      exact ⟨hx, h2⟩
    have hdy : RootChild st d y := by
      obtain ⟨x', h1, h2⟩ := v.wf.down 0 rn d hr hd
      rw [hy] at h1
      cases Option.some.inj h1
      exact ⟨hy, h2⟩
    obtain ⟨zx, e1, e2, e3, -⟩ := child_value v hcx
    obtain ⟨zy, f1, f2, f3, -⟩ := child_value v hdy
    rw [e1, f1, hv, ne_eq, A.cmp zx zy x.visits y.visits N (v.pos c x hcx.1 hcx.2) (v.pos d y hdy.1 hdy.2)
      (v.bound c x hx) (v.bound d y hy) hN e2 e3 f2 f3]
    exact ⟨fun h => h.le, fun h => not_lt.1 h⟩) h
  obtain ⟨c, -, -, key⟩ := key
  intro d dn hd
  obtain ⟨-, rn', -, hr', hmem, -, -⟩ := v.wf.up d dn 0 hd.1 hd.2
  rw [hr] at hr'
  cases Option.some.inj hr'
  have := key d hmem dn hd.1
  rwa [hv] at this

/-- The race between the children of the root after `N` iterations. -/
structure Race (player : Int) (st : Store G Fl) (N : Nat) : Prop where
  inv : WinInv player st N
  le : ∀ (w o : Nat) (wn on : Node G Fl), RootChild st w wn → RootChild st o on → Won player wn → ¬ Won player on →
    on.visits ≤ wn.visits

theorem Race.step (A : Arith Fl K B) (hB : B ≤ 16777216) {player : Int} {limit N : Nat} {st st' : Store G Fl} {k : Nat}
    {t t' : Tape} (hl : 0 < limit) (hN : N < B) (v : Race player st N)
    (hroot : ∀ rn : Node G Fl, st[0]? = some rn → rn.visits = N)
    (h : iteration player limit 0 st t = .ok ((st', k), t')) : Race player st' (N + 1) := by
  obtain ⟨inv', hs⟩ := v.inv.step hB A.add hl hN h
  refine ⟨inv', ?_⟩
  obtain ⟨rn, hrn, -⟩ := v.inv.root
  intro w o wn on hw ho hww how
  cases hs rn hrn with
  | add _ _ hall => rw [hall w wn hw.1 hw.2, hall o on ho.1 ho.2]
  | @visit _ c m hsel hm hmem hch hnew hold =>
    obtain ⟨w0, g1, g2, g3, g4⟩ := hnew w wn hw.1 hw.2
    obtain ⟨o0, f1, f2, f3, f4⟩ := hnew o on ho.1 ho.2
    have hww0 : Won player w0 := by unfold Won; rw [g3]; exact hww
    have how0 : ¬ Won player o0 := by unfold Won; rw [f3]; exact how
    have hle := v.le w o w0 o0 ⟨g1, g2⟩ ⟨f1, f2⟩ hww0 how0
    rw [g4, f4]
    by_cases hoc : o = c
    · have hwc : w ≠ c := by
        rintro rfl
        subst hoc
        rw [f1] at g1
        cases Option.some.inj g1
        exact how0 hww0
      rw [if_pos hoc, if_neg hwc]
      subst hoc
      rw [f1] at hm
      have hom := Option.some.inj hm
      subst hom
      by_contra hlt
      have heq : o0.visits = w0.visits := by omega
      have hmax := selected_max A v.inv hN hrn (hroot rn hrn) hsel w w0 ⟨g1, g2⟩
      obtain ⟨zw, e1, -, -, e4, -⟩ := child_value v.inv ⟨g1, g2⟩
      obtain ⟨zo, d1, d2, -, -, d5⟩ := child_value v.inv ⟨f1, f2⟩
      rw [e1, e4 hww0, d1, ← heq] at hmax
      exact absurd hmax (not_le.2 (A.ucb zo o0.visits N (v.inv.pos o o0 f1 f2) (v.inv.bound o o0 f1) hN d2 (d5 how0)))
    · rw [if_neg hoc]
      split <;> omega

/-- The start of the search. -/
theorem Race.start {state : G.S} {player : Int} {ms : List G.Mv} (hw : G.winner state = none) (hm : G.moves state = .ok ms) :
    Race player ([freshNode state 0 none none (Fl.ofInt 0) ms] : Store G Fl) 0 := by
  have w := wf_root (Fl := Fl) wf_nil hm (Fl.ofInt 0)
  have one : ∀ (i : Nat) (n : Node G Fl), ([freshNode state 0 none none (Fl.ofInt 0) ms] : Store G Fl)[i]? = some n →
      n = freshNode state 0 none none (Fl.ofInt 0) ms := by
    intro i n h
    have hi := (List.getElem?_eq_some_iff.1 h).1
    have : i = 0 := by simp at hi; omega
    subst this
    exact (Option.some.inj h).symm
  refine ⟨⟨w, ?_, ?_, ⟨_, rfl, hw⟩, ?_, ?_, ?_, ?_⟩, ?_⟩
  · intro i n h; rw [one i n h]; exact Nat.le_refl _
  · intro i n h _; rw [one i n h]; rfl
  · intro i n h hp; rw [one i n h] at hp; cases hp
  · intro i n h hp; rw [one i n h] at hp; cases hp
  · intro i n h hp; rw [one i n h] at hp; cases hp
  · intro _ _ _ i n h hp; rw [one i n h] at hp; cases hp
  · intro w o wn on h _; have := h.2; rw [one w wn h.1] at this; cases this

/-- Two phases: first every child has one visit and there are as many as iterations; afterwards all moves have a child
and, if there is a won child, some won child is ahead of all that are not. -/
inductive Phase (player : Int) (st : Store G Fl) (N : Nat) : Prop
  | opening {rn : Node G Fl} (hr : st[0]? = some rn) (hlen : rn.children.length = N)
      (hall : ∀ (c : Nat) (n : Node G Fl), RootChild st c n → n.visits = 1) : Phase player st N
  | ahead {rn : Node G Fl} (hr : st[0]? = some rn) (hexp : rn.expandable = [])
      (h : (∃ (w : Nat) (wn : Node G Fl), RootChild st w wn ∧ Won player wn) → ∃ (w : Nat) (wn : Node G Fl),
        RootChild st w wn ∧ Won player wn ∧ ∀ (o : Nat) (on : Node G Fl), RootChild st o on → ¬ Won player on →
          on.visits < wn.visits) : Phase player st N

theorem Phase.step (A : Arith Fl K B) (hB : B ≤ 16777216) {player : Int} {limit N total : Nat} {st st' : Store G Fl}
    {k : Nat} {t t' : Tape} (hs : Sober A total) (hl : 0 < limit) (hN : N < B) (hT : N < total) (v : Race player st N)
    (hroot : ∀ rn : Node G Fl, st[0]? = some rn → rn.visits = N) (ph : Phase player st N)
    (h : iteration player limit 0 st t = .ok ((st', k), t')) : Phase player st' (N + 1) := by
  obtain ⟨inv', hstep⟩ := v.inv.step hB A.add hl hN h
  obtain ⟨rn, hrn, -⟩ := v.inv.root
  cases hstep rn hrn with
  | add hne hch hall =>
    obtain ⟨rn', h1, h2⟩ := hch
    cases ph with
    | opening hr hlen _ =>
      rw [hrn] at hr
      cases Option.some.inj hr
      exact .opening h1 (by omega) fun c n hc => hall c n hc.1 hc.2
    | ahead hr hexp _ =>
      rw [hrn] at hr
      cases Option.some.inj hr
      exact absurd hexp hne
  | @visit _ c m hsel hm hmem hch hnew hold =>
    obtain ⟨rn', h1, h2, h3⟩ := hch
    have hmax := selected_max A v.inv hN hrn (hroot rn hrn) hsel
    obtain ⟨m', hm', hmp⟩ := v.inv.wf.down 0 rn c hrn hmem
    rw [hm] at hm'
    cases Option.some.inj hm'
    obtain ⟨zm, m1, m2, m3, m4, m5⟩ := child_value v.inv ⟨hm, hmp⟩
    have mpos := v.inv.pos c m hm hmp
    have mle := v.inv.bound c m hm
    refine .ahead h1 h3 ?_
    rintro ⟨a, an, ha, haw⟩
    obtain ⟨a0, g1, g2, g3, -⟩ := hnew a an ha.1 ha.2
    have haw0 : Won player a0 := by unfold Won; rw [g3]; exact haw
    cases ph with
    | opening hr hlen hall =>
      -- all children have one visit; the selected one must be won
      have hmw : Won player m := by
        by_contra hmw
        have := hmax a a0 ⟨g1, g2⟩
        obtain ⟨za, e1, -, -, e4, -⟩ := child_value v.inv ⟨g1, g2⟩
        have hv1 := hall a a0 ⟨g1, g2⟩
        have hv2 := hall c m ⟨hm, hmp⟩
        rw [e1, e4 haw0, m1, hv1, ← hv2] at this
        exact absurd this (not_le.2 (A.ucb zm m.visits N mpos mle hN m2 (m5 hmw)))
      obtain ⟨cn, f1, f2, f3, f4⟩ := hold c m hm hmp
      refine ⟨c, cn, ⟨f1, f2⟩, by unfold Won; rw [f3]; exact hmw, ?_⟩
      intro o on ho how
      obtain ⟨o0, d1, d2, d3, d4⟩ := hnew o on ho.1 ho.2
      have hoc : o ≠ c := by
        rintro rfl
        rw [hm] at d1
        cases Option.some.inj d1
        exact how (by unfold Won; rw [← d3]; exact hmw)
      rw [d4, if_neg hoc, hall o o0 ⟨d1, d2⟩, f4, if_pos rfl, hall c m ⟨hm, hmp⟩]
      omega
    | ahead hr hexp hah =>
      obtain ⟨w, wn, hw, hww, hlt⟩ := hah ⟨a, a0, ⟨g1, g2⟩, haw0⟩
      obtain ⟨wn', f1, f2, f3, f4⟩ := hold w wn hw.1 hw.2
      refine ⟨w, wn', ⟨f1, f2⟩, by unfold Won; rw [f3]; exact hww, ?_⟩
      intro o on ho how
      obtain ⟨o0, d1, d2, d3, d4⟩ := hnew o on ho.1 ho.2
      have how0 : ¬ Won player o0 := by unfold Won; rw [d3]; exact how
      have hlt0 := hlt o o0 ⟨d1, d2⟩ how0
      rw [d4, f4]
      by_cases hoc : o = c
      · have hwc : w ≠ c := by
          rintro rfl
          subst hoc
          have := hw.1
          rw [d1] at this
          cases Option.some.inj this
          exact how0 hww
        rw [if_pos hoc, if_neg hwc]
        subst hoc
        rw [d1] at hm
        have hom := Option.some.inj hm
        subst hom
        by_contra hge
        have heq : wn.visits = o0.visits + 1 := by omega
        have := hmax w wn hw
        obtain ⟨zw, e1, -, -, e4, -⟩ := child_value v.inv hw
        have hwle := v.inv.bound w wn hw.1
        rw [e1, e4 hww, m1, heq] at this
        exact absurd this (not_le.2 (hs zm o0.visits N mpos (by omega) hT m2 (m5 how0)))
      · rw [if_neg hoc]
        split <;> omega

theorem root_visits {st : Store G Fl} {tr : List Nat} (v : RunInv 0 st tr) (hN : tr.length ≤ 16777216) {rn : Node G Fl}
    (hr : st[0]? = some rn) : rn.visits = tr.length := by
  have := v.visits 0 v.root
  rw [countOf_all (fun k hk => (v.mem k hk).2)] at this
  unfold visitsAt at this
  rw [hr] at this
  change rn.visits = _ at this
  omega

theorem iterate_race (A : Arith Fl K B) (hB : B ≤ 16777216) {player : Int} {limit total : Nat} (hl : 0 < limit)
    (n : Nat) {st st' : Store G Fl} {tr tr' : List Nat} {t t' : Tape} (hN : tr.length + n < B) (r : RunInv 0 st tr)
    (v : Race player st tr.length) (h : iterate player limit 0 n st tr t = .ok ((st', tr'), t')) :
    Race player st' (tr.length + n) ∧
      (Sober A total → tr.length + n ≤ total → Phase player st tr.length → Phase player st' (tr.length + n)) := by
  induction n generalizing st tr t with
  | zero =>
    have := M.pure_ok.1 h
    simp only [Prod.mk.injEq] at this
    obtain ⟨⟨rfl, rfl⟩, -⟩ := this
    exact ⟨v, fun _ _ h => h⟩
  | succ n ih =>
    obtain ⟨⟨st1, k⟩, t1, h1, h2⟩ := M.bind_ok.1 h
    have hroot : ∀ rn : Node G Fl, st[0]? = some rn → rn.visits = tr.length := fun rn hr =>
      root_visits r (by omega) hr
    have v1 := v.step A hB hl (by omega) hroot h1
    have hlen : (tr ++ [k]).length = tr.length + 1 := by simp
    obtain ⟨h3, h4⟩ := ih (tr := tr ++ [k]) (by rw [hlen]; omega) (r.step h1) (by rw [hlen]; exact v1) h2
    rw [hlen] at h3 h4
    refine ⟨by rw [show tr.length + (n + 1) = tr.length + 1 + n by omega]; exact h3, ?_⟩
    intro hs hle ph
    rw [show tr.length + (n + 1) = tr.length + 1 + n by omega]
    exact h4 hs (by omega) (ph.step A hB hs hl (by omega) (by omega) v hroot h1)

theorem buildTree_race (A : Arith Fl K B) (hB : B ≤ 16777216) {state : G.S} {player : Int} {iterations limit : Nat}
    (hl : 0 < limit) (hN : iterations < B) (hw : G.winner state = none) {st : Store G Fl} {tr : List Nat} {t t' : Tape}
    (h : buildTree Fl state player iterations limit t = .ok ((st, tr), t')) :
    Race player st iterations ∧ (Sober A iterations → Phase player st iterations) := by
  unfold buildTree at h
  obtain ⟨⟨st0, r⟩, t1, h1, h2⟩ := M.bind_ok.1 h
  rw [M.lift_ok, addNode_ok] at h1
  obtain ⟨⟨ms, hm, rfl, rfl⟩, rfl⟩ := h1
  have w := wf_root (Fl := Fl) wf_nil hm (Fl.ofInt 0)
  have v : RunInv 0 ([freshNode state 0 none none (Fl.ofInt 0) ms] : Store G Fl) [] := by
    refine ⟨w, by simp, by simp, ?_, ?_, by simp⟩
    · intro i hi
      have : i = 0 := by simp at hi; omega
      subst this
      simp [visitsAt, freshNode, countOf]
    · intro i hi
      have : i = 0 := by simp at hi; omega
      subst this
      exact .refl
  obtain ⟨h3, h4⟩ := iterate_race A hB (total := iterations) hl iterations (tr := []) (by simpa using hN) v
    (Race.start hw hm) h2
  simp only [List.length_nil, Nat.zero_add] at h3 h4
  refine ⟨h3, fun hs => h4 hs (Nat.le_refl _) (.opening (rn := freshNode state 0 none none (Fl.ofInt 0) ms) rfl rfl ?_)⟩
  intro c n hc
  have hi := (List.getElem?_eq_some_iff.1 hc.1).1
  have : c = 0 := by simp at hi; omega
  subst this
  have hp := hc.2
  rw [← Option.some.inj hc.1] at hp
  cases hp
end

theorem childActions_length {st : Store G Fl} (w : WellFormed st) {i : Nat} {n : Node G Fl} (hi : st[i]? = some n) :
    (childActions st n).length = n.children.length := by
  unfold childActions
  have key : ∀ l : List Nat, (∀ c ∈ l, c ∈ n.children) →
      (l.filterMap fun c => (st[c]?).bind fun m => m.action).length = l.length := by
    intro l
    induction l with
    | nil => intro _; rfl
    | cons c l ih =>
      intro hl
      obtain ⟨cn, h1, -⟩ := w.down i n c hi (hl c (List.mem_cons_self ..))
      obtain ⟨a, ms, h2, -⟩ := child_legal w hi (hl c (List.mem_cons_self ..)) h1
      rw [List.filterMap_cons_some (b := a) (by rw [h1]; exact h2), List.length_cons, List.length_cons,
        ih fun d hd => hl d (List.mem_cons_of_mem _ hd)]
  exact key n.children fun _ h => h

/-! ## C80 -/

/-- The move `a` wins at once for `player`. -/
def Wins (G : Game) (player : Int) (s : G.S) (a : G.Mv) : Prop := ∀ s', Plays G s a s' → G.winner s' = some player

/-- C80 in full: if some legal move wins at once and there are at least as many iterations as legal moves, so that every
move is tried, the search returns a move that can win at once. -/
def C80_statement : Prop :=
  ∀ (G : Game) (Fl : Floats) (K : Type) [LinearOrder K] (B : Nat) (_ : Arith Fl K B), B ≤ 2 ^ 24 →
    ∀ (state : G.S) (player : Int) (iterations limit : Nat) (ms : List G.Mv) (a mv : G.Mv) (t t' : Tape),
      G.winner state = none → G.moves state = .ok ms → a ∈ ms → Wins G player state a → 0 < limit →
      ms.length ≤ iterations → iterations < B → mctSearch Fl state player iterations limit t = .ok (mv, t') →
      ∃ s', Plays G state mv s' ∧ G.winner s' = some player

/-- C80, what the tree guarantees for every exploration constant: no child of the root has more visits than a child that
wins at once. -/
theorem C80_visits_partial {K : Type} [LinearOrder K] {B : Nat} (A : Arith Fl K B) (hB : B ≤ 2 ^ 24) {state : G.S}
    {player : Int} {iterations limit : Nat} (hl : 0 < limit) (hN : iterations < B) (hw : G.winner state = none)
    {st : Store G Fl} {tr : List Nat} {t t' : Tape}
    (h : buildTree Fl state player iterations limit t = .ok ((st, tr), t')) {rn : Node G Fl} (hr : st[0]? = some rn)
    {w o : Nat} {wn on : Node G Fl} (hcw : w ∈ rn.children) (hco : o ∈ rn.children) (hsw : st[w]? = some wn)
    (hso : st[o]? = some on) (hwon : G.winner wn.state = some player) : on.visits ≤ wn.visits ∨
      G.winner on.state = some player := by
  obtain ⟨v, -⟩ := buildTree_race A hB hl hN hw h
  have child : ∀ (c : Nat) (n : Node G Fl), c ∈ rn.children → st[c]? = some n → RootChild st c n := by
    intro c n hc hn
    obtain ⟨n', h1, h2⟩ := v.inv.wf.down 0 rn c hr hc
    rw [hn] at h1
    cases Option.some.inj h1
    exact ⟨hn, h2⟩
  by_cases hon : G.winner on.state = some player
  · exact .inr hon
  · exact .inl (v.le w o wn on (child w wn hcw hsw) (child o on hco hso) hwon hon)

/-- C80 for exploration constants which are not too large (`Sober`) and at least one iteration more than there are legal
moves.  Missing: as many iterations as moves, and large exploration constants; see `C80_refuted`. -/
theorem C80_partial {K : Type} [LinearOrder K] {B : Nat} (A : Arith Fl K B) (hB : B ≤ 2 ^ 24) {state : G.S}
    {player : Int} {iterations limit : Nat} {ms : List G.Mv} {a mv : G.Mv} {t t' : Tape} (hs : Sober A iterations)
    (hw : G.winner state = none) (hm : G.moves state = .ok ms) (ha : a ∈ ms) (hwin : Wins G player state a)
    (hl : 0 < limit) (hi : ms.length < iterations) (hN : iterations < B)
    (h : mctSearch Fl state player iterations limit t = .ok (mv, t')) :
    mv ∈ ms ∧ ∃ s', Plays G state mv s' ∧ G.winner s' = some player := by
  obtain ⟨st, tr, h1, h2⟩ := mctSearch_run hw h
  obtain ⟨r, -, rn, h3, h4, -⟩ := buildTree_inv h1
  obtain ⟨v, ph⟩ := buildTree_race A hB hl hN hw h1
  obtain ⟨ms', h5, h6⟩ := r.wf.part 0 rn h3
  rw [h4, hm] at h5
  cases Except.ok.inj h5
  have hcl : (childActions st rn).length = rn.children.length := childActions_length r.wf h3
  have hlen := h6.length_eq
  rw [List.length_append, hcl] at hlen
  cases ph hs with
  | opening hr hlen' _ =>
    rw [h3] at hr
    cases Option.some.inj hr
    omega
  | @ahead rn' hr hexp hah =>
    rw [h3] at hr
    cases Option.some.inj hr
    rw [hexp, List.nil_append] at h6
    have ha' : a ∈ childActions st rn := h6.mem_iff.2 ha
    unfold childActions at ha'
    obtain ⟨c, hc, hca⟩ := List.mem_filterMap.1 ha'
    obtain ⟨cn, hcn, hcp⟩ := r.wf.down 0 rn c h3 hc
    rw [hcn] at hca
    change cn.action = some a at hca
    obtain ⟨b, ms2, g1, -, -, g4⟩ := child_legal r.wf h3 hc hcn
    rw [hca] at g1
    cases Option.some.inj g1
    rw [h4] at g4
    obtain ⟨w, wn, hw1, hw2, hlt⟩ := hah ⟨c, cn, ⟨hcn, hcp⟩, hwin _ g4⟩
    have hne : rn.children ≠ [] := by intro h; rw [h] at hc; cases hc
    obtain ⟨d, dn, b, f1, f2, f3, f4, f5⟩ := C37_most_visited r.wf h3 hne
    rw [f4] at h2
    cases Except.ok.inj h2
    obtain ⟨-, rn'', -, k1, k2, -, -⟩ := r.wf.up w wn 0 hw1.1 hw1.2
    rw [h3] at k1
    cases Option.some.inj k1
    have hle := f5 w wn k2 hw1.1
    have hdw : Won player dn := by
      by_contra hdw
      obtain ⟨dn', e1, e2⟩ := r.wf.down 0 rn d h3 f1
      rw [f2] at e1
      cases Option.some.inj e1
      have := hlt d dn ⟨f2, e2⟩ hdw
      omega
    obtain ⟨b, ms2, g1, g2, g3, g5⟩ := child_legal r.wf h3 f1 f2
    rw [f3] at g1
    cases Option.some.inj g1
    rw [h4, hm] at g2
    cases Except.ok.inj g2
    rw [h4] at g5
    exact ⟨g3, dn.state, g5, hdw⟩

/-! ## The formulas over the real numbers -/

/-- node.rs:86-116 over the real numbers, with the exploration constant `c`. -/
noncomputable def realFloats (c : ℝ) : Floats where
  F := ℝ
  ofInt := fun n => (n : ℝ)
  add := fun x y => x + y
  inf := 0
  ucb := fun v n p => v / n + Real.sqrt (c * Real.log p / n)
  alphaUcb := fun v n q p => (if n = 0 then 0 else v / n) + c * (Real.sqrt p / (n + 1)) * q
  winPct := fun v n => v / n
  cmp := fun a b => @ite _ (b < a) (Classical.propDecidable _) .gt .lt

/-- The real formulas satisfy the assumptions, for every exploration constant. -/
noncomputable def realArith (c : ℝ) (B : Nat) : Arith (realFloats c) ℝ B where
  val := fun x => x
  add := by
    intro a b _ _ _
    show ((a : ℝ) + (b : ℝ)) = ((a + b : Int) : ℝ)
    push_cast
    rfl
  cmp := by
    intro y z m n p _ _ _ _ _ _ _ _ _
    show (@ite Ordering (_ < _) (Classical.propDecidable _) .gt .lt) = .gt ↔ _
    split
    case isTrue h => exact ⟨fun _ => h, fun _ => rfl⟩
    case isFalse h => exact ⟨(fun h' => by cases h'), fun h' => absurd h' h⟩
  ucb := by
    intro z n p hn _ _ _ hz
    show (z : ℝ) / n + _ < ((n : Int) : ℝ) / n + _
    have hn' : (0 : ℝ) < n := by exact_mod_cast hn
    have : (z : ℝ) < ((n : Int) : ℝ) := by exact_mod_cast hz
    exact add_lt_add_of_lt_of_le (div_lt_div_of_pos_right this hn') (le_refl _)

/-- `s (1/√n - 1/√(n+1)) < 1/n` for `s² ≤ 11`. -/
theorem one_visit_less {s a b : ℝ} (hs2 : s ^ 2 ≤ 11) (ha : a = 1 ∨ 2 ≤ a ^ 2) (ha1 : 1 ≤ a)
    (hb : 0 < b) (hab : b ^ 2 = a ^ 2 + 1) : s / a - s / b < 1 / a ^ 2 := by
  have ha0 : 0 < a := by linarith
  have hle : a ≤ b := by nlinarith
  have key : s * a < b * (a + b) := by
    have h2 : (s * a) ^ 2 < (b * (a + b)) ^ 2 := by
      have e : (b * (a + b)) = a * b + a ^ 2 + 1 := by nlinarith
      rw [e, mul_pow]
      rcases ha with rfl | ha
      · have h14 : (1.4 : ℝ) ≤ b := by nlinarith
        nlinarith
      · have h1 : a ^ 2 ≤ a * b := by nlinarith
        have h3 : (2 * a ^ 2 + 1) ^ 2 ≤ (a * b + a ^ 2 + 1) ^ 2 := by
          apply pow_le_pow_left₀ (by positivity)
          linarith
        have h4 : s ^ 2 * a ^ 2 ≤ 11 * a ^ 2 := mul_le_mul_of_nonneg_right hs2 (by positivity)
        nlinarith
    exact lt_of_pow_lt_pow_left₀ 2 (by positivity) h2
  have hba : (b - a) * (a + b) = 1 := by nlinarith
  have e1 : s / a - s / b = s * (b - a) / (a * b) := by field_simp
  rw [e1, div_lt_div_iff₀ (by positivity) (by positivity)]
  have hpos : 0 < a + b := by linarith
  have : s * (b - a) * a ^ 2 * (a + b) < 1 * (a * b) * (a + b) := by
    have : s * (b - a) * a ^ 2 * (a + b) = s * a * a * ((b - a) * (a + b)) := by ring
    rw [this, hba, mul_one]
    have : 1 * (a * b) * (a + b) = (b * (a + b)) * a := by ring
    rw [this]
    exact mul_lt_mul_of_pos_right key ha0
  exact lt_of_mul_lt_mul_right this hpos.le

/-- With `c · ln N ≤ 11` the exploration term does not make up for one visit less. -/
theorem real_sober {c : ℝ} (hc : 0 ≤ c) {N B : Nat} (h : c * Real.log N ≤ 11) : Sober (realArith c B) N := by
  intro z n p hn hnp hpN _ hz
  show (z : ℝ) / n + Real.sqrt (c * Real.log p / n) <
    (((n + 1 : Nat) : Int) : ℝ) / ((n + 1 : Nat) : ℝ) + Real.sqrt (c * Real.log p / ((n + 1 : Nat) : ℝ))
  have hn' : (0 : ℝ) < n := by exact_mod_cast hn
  have hp1 : (1 : ℝ) ≤ p := by exact_mod_cast (by omega : 1 ≤ p)
  have hlog : Real.log p ≤ Real.log N := Real.log_le_log (by linarith) (by exact_mod_cast hpN.le)
  have hlog0 : 0 ≤ Real.log p := Real.log_nonneg hp1
  have hx : 0 ≤ c * Real.log p := mul_nonneg hc hlog0
  have hx2 : c * Real.log p ≤ 11 := le_trans (mul_le_mul_of_nonneg_left hlog hc) h
  rw [Real.sqrt_div hx, Real.sqrt_div hx]
  have e1 : ((((n + 1 : Nat) : Int) : ℝ) / ((n + 1 : Nat) : ℝ)) = 1 := by
    have : ((n + 1 : Nat) : ℝ) ≠ 0 := by positivity
    push_cast
    push_cast at this
    exact div_self this
  rw [e1]
  have hz' : (z : ℝ) ≤ n - 1 := by
    have : z ≤ (n : Int) - 1 := by omega
    exact_mod_cast this
  have hza : (z : ℝ) / n ≤ 1 - 1 / n := by
    rw [div_le_iff₀ hn']
    field_simp
    linarith
  have hsq : Real.sqrt n ^ 2 = n := Real.sq_sqrt hn'.le
  have key := one_visit_less (s := Real.sqrt (c * Real.log p)) (a := Real.sqrt n) (b := Real.sqrt ((n + 1 : Nat) : ℝ))
    (by rw [Real.sq_sqrt hx]; exact hx2)
    (by
      rcases Nat.lt_or_ge 1 n with h2 | h2
      · right
        rw [hsq]
        exact_mod_cast h2
      · left
        have : n = 1 := by omega
        subst this
        simp)
    (by
      rw [Real.le_sqrt (by norm_num) hn'.le]
      have : (1 : ℝ) ≤ n := by exact_mod_cast hn
      linarith)
    (Real.sqrt_pos.2 (by positivity))
    (by
      rw [hsq, Real.sq_sqrt (by positivity)]
      push_cast
      rfl)
  rw [hsq] at key
  linarith

/-- C80 for the parameters of config-example.toml (exploration constant 2, 100 iterations, 400 rounds) over the real
numbers: in every game, in every position with fewer than 100 legal moves. -/
theorem C80_example_config {state : G.S} {player : Int} {ms : List G.Mv} {a mv : G.Mv} {t t' : Tape}
    (hw : G.winner state = none) (hm : G.moves state = .ok ms) (ha : a ∈ ms) (hwin : Wins G player state a)
    (hi : ms.length < 100) (h : mctSearch (realFloats 2) state player 100 400 t = .ok (mv, t')) :
    mv ∈ ms ∧ ∃ s', Plays G state mv s' ∧ G.winner s' = some player := by
  refine C80_partial (realArith 2 (2 ^ 24)) (Nat.le_refl _) (real_sober (by norm_num) ?_) hw hm ha hwin (by omega) hi
    (by norm_num) h
  have h1 : Real.log ((100 : Nat) : ℝ) ≤ Real.log ((2 : ℝ) ^ 7) := Real.log_le_log (by norm_num) (by norm_num)
  rw [Real.log_pow] at h1
  have h2 := Real.log_two_lt_d9
  push_cast at h1 ⊢
  linarith

/-- TicTacToe, -1 to move and winning with cell 8; the other free cell is 5. -/
def winTTT : TTT.State := { player := -1, board := #v[1, -1, 1, 1, 1, 0, -1, -1, 0], id := 0 }

theorem winTTT_facts : TTT.checkWinner winTTT = none ∧ TTT.getValidMoves winTTT = [5, 8] ∧
    Wins (TTT.game .debug) (-1) winTTT (8 : Nat) ∧ ¬ ∃ s', Plays (TTT.game .debug) winTTT (5 : Nat) s' ∧
      TTT.checkWinner s' = some (-1) := by
  have e8 : TTT.applyMove .debug winTTT 8 = .ok { player := 1, board := #v[1, -1, 1, 1, 1, 0, -1, -1, -1], id := 0 } := by
    decide +kernel
  have e5 : TTT.applyMove .debug winTTT 5 = .ok { player := 1, board := #v[1, -1, 1, 1, 1, -1, -1, -1, 0], id := 0 } := by
    decide +kernel
  refine ⟨by decide +kernel, by decide +kernel, ?_, ?_⟩
  · rintro s' ⟨t, t', h⟩
    have h : M.lift (TTT.applyMove .debug winTTT 8) t = .ok (s', t') := h
    have h := (M.lift_ok.1 h).1
    rw [e8] at h
    cases Except.ok.inj h
    show TTT.checkWinner { player := 1, board := #v[1, -1, 1, 1, 1, 0, -1, -1, -1], id := 0 } = some (-1)
    decide +kernel
  · rintro ⟨s', ⟨t, t', h⟩, hw⟩
    have h : M.lift (TTT.applyMove .debug winTTT 5) t = .ok (s', t') := h
    have h := (M.lift_ok.1 h).1
    rw [e5] at h
    cases Except.ok.inj h
    revert hw
    decide +kernel

/-- The hypotheses of `C80_example_config` are met in `winTTT`, where the search returns cell 8, for every random stream. -/
example (t : Tape) : ∃ t', mctSearch (G := TTT.game .debug) (realFloats 2) winTTT (-1) 100 400 t = .ok ((8 : Nat), t') := by
  obtain ⟨mv, t', h⟩ := C32_tictactoe (Fl := realFloats 2) .debug winTTT (.inr rfl) (-1) 100 400 t
  obtain ⟨h1, h2, h3, h4⟩ := winTTT_facts
  have hm : (TTT.game .debug).moves winTTT = .ok [(5 : Nat), (8 : Nat)] := congrArg Except.ok h2
  obtain ⟨h5, h6⟩ := C80_example_config (G := TTT.game .debug) (state := winTTT) (a := (8 : Nat)) h1 hm
    (List.mem_cons_of_mem _ (List.mem_singleton.2 rfl)) h3 (show 2 < 100 by omega) h
  rcases List.mem_cons.1 h5 with rfl | h5
  · exact absurd h6 h4
  · cases List.mem_singleton.1 h5
    exact ⟨t', h⟩

/-- An exact arithmetic with a strong exploration term. -/
def eagerFloats : Floats where
  F := Int
  ofInt := id
  add := (· + ·)
  inf := 1000000
  ucb := fun v n p => v + 100 * ((p / n : Nat) : Int)
  alphaUcb := fun v n p q => v + p * ((q / (n + 1) : Nat) : Int)
  winPct := fun v n => v / n
  cmp := compare

/-- See `eagerFloats`. -/
def eagerArith : Arith eagerFloats Int (2 ^ 24) where
  val := fun x => x
  add := fun _ _ _ _ _ => rfl
  cmp := fun y z m n p _ _ _ _ _ _ _ _ _ => compare_gt_iff_gt (α := Int)
  ucb := fun z n p _ _ _ _ h => by
    show z + _ < (n : Int) + _
    omega

/-- C80 is false: with two legal moves and two iterations both children have one visit, and of equally visited children
the last one is returned; with a strong exploration term the same happens after four iterations. -/
theorem C80_refuted : ¬ C80_statement ∧
    (∃ t', mctSearch (G := TTT.game .debug) eagerFloats winTTT (-1) 2 400 demoTape = .ok ((5 : Nat), t')) ∧
    ∃ t', mctSearch (G := TTT.game .debug) eagerFloats winTTT (-1) 4 400 demoTape = .ok ((5 : Nat), t') := by
  have run : ∀ n : Nat, ((mctSearch (G := TTT.game .debug) eagerFloats winTTT (-1) n 400 demoTape).toOption.map fun r => ((r.1 : Nat) : Nat)) =
      some 5 → ∃ t', mctSearch (G := TTT.game .debug) eagerFloats winTTT (-1) n 400 demoTape = .ok ((5 : Nat), t') := by
    intro n h
    cases hr : mctSearch (G := TTT.game .debug) eagerFloats winTTT (-1) n 400 demoTape with
    | error e => rw [hr] at h; cases h
    | ok r =>
      rw [hr] at h
      obtain ⟨mv, t'⟩ := r
      cases Option.some.inj h
      exact ⟨t', rfl⟩
  have r2 := run 2 (by decide +kernel)
  refine ⟨fun hst => ?_, r2, run 4 (by decide +kernel)⟩
  obtain ⟨t', h⟩ := r2
  obtain ⟨h1, h2, h3, h4⟩ := winTTT_facts
  exact h4 (hst (TTT.game .debug) eagerFloats Int (2 ^ 24) eagerArith (Nat.le_refl _) winTTT (-1) 2 400 [(5 : Nat), (8 : Nat)]
    (8 : Nat) (5 : Nat) demoTape t' h1 (congrArg Except.ok h2)
    (List.mem_cons_of_mem _ (List.mem_singleton.2 rfl)) h3 (by omega) (Nat.le_refl 2) (by norm_num) h)

end DieE.Props.Wn
