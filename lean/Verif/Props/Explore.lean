import Verif.Props.Win

/-!
# C99: no legal move is abandoned

How often the plain search visits each legal move of the searched position, with an exploration constant `c ≥ 0` and
scores that differ by at most `ε` from the formula of node.rs:86-97 over the real numbers.  C99 is the case of the exact
formula; single precision is treated in `Single32`.
-/

namespace DieE.Props.Xp
open DieE DieE.Mcts DieE.Props.S DieE.Props.Wn
variable {G : Game} {Fl : Floats} {B : Nat}

/-- The scores differ by at most `ε` from the formula over the real numbers. -/
def Close (A : Arith Fl ℝ B) (c ε : ℝ) : Prop :=
  ∀ (z : Int) (n p : Nat), 0 < n → n ≤ p → p < B → -n ≤ z → z ≤ n →
    |A.val (Fl.ucb (Fl.ofInt z) n p) - ((z : ℝ) / n + Real.sqrt (c * Real.log p / n))| ≤ ε

/-- A child with `m` visits was preferred to one with `K` visits when the parent had `p` visits. -/
def Gap (c ε : ℝ) (K m p : Nat) : Prop := Real.sqrt (c * Real.log p) * (1 / Real.sqrt K - 1 / Real.sqrt m) ≤ 2 + 2 * ε

theorem Gap.mono {c ε : ℝ} {K L m p : Nat} (hK : 0 < K) (hKL : K ≤ L) (h : Gap c ε K m p) : Gap c ε L m p := by
  unfold Gap at *
  refine le_trans (mul_le_mul_of_nonneg_left (sub_le_sub_right ?_ _) (Real.sqrt_nonneg _)) h
  have h1 : (0 : ℝ) < Real.sqrt K := Real.sqrt_pos.2 (by exact_mod_cast hK)
  exact one_div_le_one_div_of_le h1 (Real.sqrt_le_sqrt (by exact_mod_cast hKL))

/-- The higher score explains the gap. -/
theorem gap_of_score {c ε : ℝ} (hc : 0 ≤ c) {K m p : Nat} (hK : 0 < K) (hm : 0 < m) (hp : 0 < p) {y z : Int}
    (hy : -K ≤ y) (hz : z ≤ m)
    (h : (y : ℝ) / K + Real.sqrt (c * Real.log p / K) ≤ (z : ℝ) / m + Real.sqrt (c * Real.log p / m) + 2 * ε) :
    Gap c ε K m p := by
  have hK' : (0 : ℝ) < K := by exact_mod_cast hK
  have hm' : (0 : ℝ) < m := by exact_mod_cast hm
  have hp1 : (1 : ℝ) ≤ p := by exact_mod_cast hp
  have hx : 0 ≤ c * Real.log p := mul_nonneg hc (Real.log_nonneg hp1)
  rw [Real.sqrt_div hx, Real.sqrt_div hx] at h
  have h1 : -1 ≤ (y : ℝ) / K := by
    rw [le_div_iff₀ hK']
    have : (-(K : Int) : ℝ) ≤ (y : ℝ) := by exact_mod_cast hy
    push_cast at this
    linarith
  have h2 : (z : ℝ) / m ≤ 1 := by
    rw [div_le_one hm']
    exact_mod_cast hz
  unfold Gap
  rw [mul_sub, mul_one_div, mul_one_div]
  linarith

/-- A gap means that the less visited child has at least a quarter of the visits of the other, or at least
`c ln m / (4 + 4 ε)²`. -/
theorem Gap.visits {c ε : ℝ} (hc : 0 ≤ c) {K m p : Nat} (hK : 0 < K) (hm : 0 < m) (hmp : m ≤ p)
    (h : Gap c ε K m p) : m ≤ 4 * K ∨ c * Real.log m ≤ (4 + 4 * ε) ^ 2 * K := by
  by_cases hq : m ≤ 4 * K
  · exact .inl hq
  · refine .inr ?_
    unfold Gap at h
    have hK' : (0 : ℝ) < K := by exact_mod_cast hK
    have hm' : (0 : ℝ) < m := by exact_mod_cast hm
    have hsK : 0 < Real.sqrt K := Real.sqrt_pos.2 hK'
    have hsm : 2 * Real.sqrt K ≤ Real.sqrt m := by
      rw [show (2 : ℝ) * Real.sqrt K = Real.sqrt (4 * K) by
        rw [Real.sqrt_mul (by norm_num), show (4 : ℝ) = 2 ^ 2 by norm_num, Real.sqrt_sq (by norm_num)]]
      refine Real.sqrt_le_sqrt ?_
      exact_mod_cast (by omega : 4 * K ≤ m)
    have hinv : 1 / Real.sqrt m ≤ 1 / (2 * Real.sqrt K) := one_div_le_one_div_of_le (by positivity) hsm
    have hhalf : 1 / (2 * Real.sqrt K) = 1 / Real.sqrt K / 2 := by field_simp
    have hS := Real.sqrt_nonneg (c * Real.log p)
    have h1 : Real.sqrt (c * Real.log p) * (1 / Real.sqrt K / 2) ≤ 2 + 2 * ε :=
      le_trans (mul_le_mul_of_nonneg_left (by linarith) hS) h
    have h2 : Real.sqrt (c * Real.log p) ≤ (4 + 4 * ε) * Real.sqrt K := by
      have : Real.sqrt (c * Real.log p) * (1 / Real.sqrt K / 2) = Real.sqrt (c * Real.log p) / (2 * Real.sqrt K) := by
        field_simp
      rw [this, div_le_iff₀ (by positivity)] at h1
      linarith
    have hp1 : (1 : ℝ) ≤ p := by exact_mod_cast (by omega : 1 ≤ p)
    have hx : 0 ≤ c * Real.log p := mul_nonneg hc (Real.log_nonneg hp1)
    have h3 : c * Real.log p ≤ (4 + 4 * ε) ^ 2 * K := by
      have := pow_le_pow_left₀ hS h2 2
      rw [Real.sq_sqrt hx, mul_pow, Real.sq_sqrt hK'.le] at this
      linarith
    refine le_trans (mul_le_mul_of_nonneg_left (Real.log_le_log hm' (by exact_mod_cast hmp)) hc) h3

/-- Between any two children of the root there is a gap, unless the first was visited once only. -/
def Explored (c ε : ℝ) (st : Store G Fl) : Prop :=
  ∀ (o b : Nat) (on bn : Node G Fl), RootChild st o on → RootChild st b bn →
    on.visits = 1 ∨ ∃ p, 0 < on.visits - 1 ∧ on.visits - 1 ≤ p ∧ Gap c ε bn.visits (on.visits - 1) p

theorem Explored.step (A : Arith Fl ℝ B) (hB : B ≤ 16777216) {c ε : ℝ} (hc : 0 ≤ c) (hA : Close A c ε) {player : Int} {limit N : Nat} {st st' : Store G Fl} {k : Nat}
    {t t' : Tape} (hl : 0 < limit) (hN : N < B) (v : Race player st N)
    (hroot : ∀ rn : Node G Fl, st[0]? = some rn → rn.visits = N) (x : Explored c ε st)
    (h : iteration player limit 0 st t = .ok ((st', k), t')) : Explored c ε st' := by
  obtain ⟨-, hs⟩ := v.inv.step hB A.add hl hN h
  obtain ⟨rn, hrn, -⟩ := v.inv.root
  intro o b on bn ho hb
  cases hs rn hrn with
  | add _ _ hall => exact .inl (hall o on ho.1 ho.2)
  | @visit _ s m hsel hm hmem hch hnew hold =>
    obtain ⟨o0, f1, f2, -, f4⟩ := hnew o on ho.1 ho.2
    obtain ⟨b0, g1, g2, -, g4⟩ := hnew b bn hb.1 hb.2
    have hbpos := v.inv.pos b b0 g1 g2
    have hopos := v.inv.pos o o0 f1 f2
    have hble : b0.visits ≤ bn.visits := by rw [g4]; split <;> omega
    by_cases hos : o = s
    · subst hos
      rw [hm] at f1
      have hom := Option.some.inj f1
      subst hom
      right
      rw [if_pos rfl] at f4
      have hle := v.inv.bound o m hm
      refine ⟨N, by omega, by omega, ?_⟩
      rw [show on.visits - 1 = m.visits by omega]
      refine Gap.mono hbpos hble ?_
      have hmax := selected_max A v.inv hN hrn (hroot rn hrn) hsel b b0 ⟨g1, g2⟩
      obtain ⟨y, e1, e2, e3, -⟩ := child_value v.inv ⟨g1, g2⟩
      obtain ⟨z, d1, d2, d3, -⟩ := child_value v.inv ⟨hm, f2⟩
      rw [e1, d1] at hmax
      refine gap_of_score hc hbpos hopos (by omega) e2 d3 ?_
      have k1 := abs_le.1 (hA y b0.visits N hbpos (v.inv.bound b b0 g1) hN e2 e3)
      have k2 := abs_le.1 (hA z m.visits N hopos (v.inv.bound o m hm) hN d2 d3)
      linarith [k1.1, k2.2]
    · rw [if_neg hos] at f4
      rw [f4]
      rcases x o b o0 b0 ⟨f1, f2⟩ ⟨g1, g2⟩ with h1 | ⟨p, h1, h2, h3⟩
      · exact .inl h1
      · exact .inr ⟨p, h1, h2, h3.mono hbpos hble⟩

theorem iterate_explored (A : Arith Fl ℝ B) (hB : B ≤ 16777216) {c ε : ℝ} (hc : 0 ≤ c) (hA : Close A c ε) {player : Int} {limit : Nat} (hl : 0 < limit) (n : Nat)
    {st st' : Store G Fl} {tr tr' : List Nat} {t t' : Tape} (hN : tr.length + n < B)
    (r : RunInv 0 st tr) (v : Race player st tr.length) (x : Explored c ε st)
    (h : iterate player limit 0 n st tr t = .ok ((st', tr'), t')) : Explored c ε st' := by
  induction n generalizing st tr t with
  | zero =>
    have := M.pure_ok.1 h
    simp only [Prod.mk.injEq] at this
    obtain ⟨⟨rfl, rfl⟩, -⟩ := this
    exact x
  | succ n ih =>
    obtain ⟨⟨st1, k⟩, t1, h1, h2⟩ := M.bind_ok.1 h
    have hroot : ∀ rn : Node G Fl, st[0]? = some rn → rn.visits = tr.length := fun rn hr =>
      root_visits r (by omega) hr
    have v1 := v.step A hB hl (by omega) hroot h1
    have hlen : (tr ++ [k]).length = tr.length + 1 := by simp
    exact ih (tr := tr ++ [k]) (by rw [hlen]; omega) (r.step h1) (by rw [hlen]; exact v1)
      (x.step A hB hc hA hl (by omega) v hroot h1) h2

theorem buildTree_explored (A : Arith Fl ℝ B) (hB : B ≤ 16777216) {c ε : ℝ} (hc : 0 ≤ c) (hA : Close A c ε) {state : G.S} {player : Int} {iterations limit : Nat} (hl : 0 < limit)
    (hN : iterations < B) (hw : G.winner state = none) {st : Store G Fl} {tr : List Nat} {t t' : Tape}
    (h : buildTree Fl state player iterations limit t = .ok ((st, tr), t')) : Explored c ε st := by
  unfold buildTree at h
  obtain ⟨⟨st0, r⟩, t1, h1, h2⟩ := M.bind_ok.1 h
  rw [M.lift_ok, addNode_ok] at h1
  obtain ⟨⟨ms, hm, rfl, rfl⟩, rfl⟩ := h1
  have w := wf_root (Fl := Fl) wf_nil hm (Fl.ofInt 0)
  have v : RunInv 0 ([freshNode state 0 none none (Fl.ofInt 0) ms] : Store G Fl) [] := by
    refine ⟨w, by simp, by simp, ?_, ?_, by simp⟩
    · intro i hi
      have : i = 0 := by simp at hi; omega
      subst this
      simp [visitsAt, freshNode, countOf]
    · intro i hi
      have : i = 0 := by simp at hi; omega
      subst this
      exact .refl
  refine iterate_explored A hB hc hA hl iterations (tr := []) (by simpa using hN) v (Race.start hw hm) ?_ h2
  intro o b on bn ho _
  have hi := (List.getElem?_eq_some_iff.1 ho.1).1
  have : o = 0 := by simp at hi; omega
  subst this
  have hp := ho.2
  rw [← Option.some.inj ho.1] at hp
  cases hp

/-- After `N` iterations in a position with `d ≤ N` legal moves every legal move was tried, and the number `K` of visits of
its child satisfies `N ≤ d (4 K + 1)` or `c · ln (N / d - 1) ≤ (4 + 4 ε)² K`. -/
theorem explored_visits (A : Arith Fl ℝ B) (hB : B ≤ 16777216) {c ε : ℝ} (hc : 0 ≤ c) (hA : Close A c ε) {state : G.S} {player : Int} {iterations limit : Nat} (hl : 0 < limit)
    (hN : iterations < B) (hw : G.winner state = none) {ms : List G.Mv} (hm : G.moves state = .ok ms)
    (hd : ms.length ≤ iterations) {st : Store G Fl} {tr : List Nat} {t t' : Tape}
    (h : buildTree Fl state player iterations limit t = .ok ((st, tr), t')) {a : G.Mv} (ha : a ∈ ms) :
    ∃ (rn n : Node G Fl) (i : Nat), st[0]? = some rn ∧ i ∈ rn.children ∧ st[i]? = some n ∧
      n.action = some a ∧ 1 ≤ n.visits ∧
      (iterations ≤ ms.length * (4 * n.visits + 1) ∨
        c * Real.log ((iterations : ℝ) / ms.length - 1) ≤ (4 + 4 * ε) ^ 2 * n.visits) := by
  obtain ⟨rn, cs, hr, hcs, hsum⟩ := C34_children h hw (show iterations ≤ 16777216 by omega)
  obtain ⟨r, -, rn', h3, h4, -⟩ := buildTree_inv h
  rw [hr] at h3
  cases Option.some.inj h3
  obtain ⟨v, -⟩ := buildTree_race A hB hl hN hw h
  have x := buildTree_explored A hB hc hA hl hN hw h
  obtain ⟨ms', h5, h6⟩ := r.wf.part 0 rn hr
  rw [h4, hm] at h5
  cases Except.ok.inj h5
  have hcl : (childActions st rn).length = rn.children.length := childActions_length r.wf hr
  have hlen := h6.length_eq
  rw [List.length_append, hcl] at hlen
  have child : ∀ i ∈ rn.children, ∃ n : Node G Fl, RootChild st i n := fun i hi => by
    obtain ⟨n, h1, h2⟩ := r.wf.down 0 rn i hr hi
    exact ⟨n, h1, h2⟩
  have hcsum : (rn.children.map (visitsAt st)).sum = iterations := by
    rw [← hsum]
    congr 1
    clear hsum h hlen hcl h6
    generalize rn.children = l at hcs
    induction l generalizing cs with
    | nil =>
      rw [List.mapM_nil] at hcs
      cases Option.some.inj hcs
      rfl
    | cons i l ih =>
      rw [List.mapM_cons] at hcs
      cases hi : st[i]? with
      | none => rw [hi] at hcs; cases hcs
      | some n =>
        rw [hi] at hcs
        cases hl' : l.mapM (fun c => st[c]?) with
        | none => rw [hl'] at hcs; cases hcs
        | some ns =>
          rw [hl'] at hcs
          cases Option.some.inj hcs
          rw [List.map_cons, List.map_cons, ih ns hl']
          simp [visitsAt, hi]
  -- all moves were tried
  have hexp : rn.expandable = [] := by
    by_contra hne
    have hone : rn.children.map (visitsAt st) = rn.children.map fun _ => 1 := by
      refine List.map_congr_left fun i hi => ?_
      obtain ⟨n, hn⟩ := child i hi
      have := v.inv.fresh rn hr hne i n hn.1 hn.2
      simp [visitsAt, hn.1, this]
    rw [hone] at hcsum
    simp at hcsum
    have := List.length_pos_iff.2 hne
    omega
  rw [hexp] at h6 hlen
  rw [List.nil_append] at h6
  simp only [List.length_nil, Nat.zero_add] at hlen
  -- the child of the move
  obtain ⟨i, hi, hia⟩ := List.mem_filterMap.1 (h6.mem_iff.2 ha)
  obtain ⟨n, hn⟩ := child i hi
  rw [hn.1] at hia
  have hpos := v.inv.pos i n hn.1 hn.2
  refine ⟨rn, n, i, hr, hi, hn.1, hia, hpos, ?_⟩
  -- a child with many visits
  have hdpos : 0 < ms.length := List.length_pos_of_mem ha
  obtain ⟨o, ho, hov⟩ : ∃ o ∈ rn.children, iterations ≤ ms.length * visitsAt st o := by
    by_contra hno
    have hlt : ∀ o ∈ rn.children, ms.length * visitsAt st o + 1 ≤ iterations := fun o ho => by
      by_contra hlt
      exact hno ⟨o, ho, by omega⟩
    have hle : ∀ l : List Nat, (∀ o ∈ l, ms.length * visitsAt st o + 1 ≤ iterations) →
        ms.length * (l.map (visitsAt st)).sum + l.length ≤ iterations * l.length := by
      intro l
      induction l with
      | nil => intro _; simp
      | cons o l ih =>
        intro hl
        have h1 := ih fun q hq => hl q (List.mem_cons_of_mem _ hq)
        have h2 := hl o (List.mem_cons_self ..)
        rw [List.map_cons, List.sum_cons, List.length_cons, Nat.mul_add, Nat.mul_add]
        omega
    have := hle rn.children hlt
    rw [hcsum, hlen, Nat.mul_comm] at this
    omega
  obtain ⟨on, hon⟩ := child o ho
  have hvo : visitsAt st o = on.visits := by simp [visitsAt, hon.1]
  rw [hvo] at hov
  rcases x o i on n hon hn with h1 | ⟨p, h1, h2, h3⟩
  · left
    rw [h1] at hov
    exact le_trans hov (Nat.mul_le_mul_left _ (by omega))
  · rcases h3.visits hc hpos h1 h2 with hq | hq
    · left
      exact le_trans hov (Nat.mul_le_mul_left _ (by omega))
    · by_cases hle : iterations ≤ ms.length
      · left
        exact le_trans hle (Nat.le_mul_of_pos_right _ (by omega))
      · right
        refine le_trans (mul_le_mul_of_nonneg_left (Real.log_le_log ?_ ?_) hc) hq
        · have hd' : (0 : ℝ) < ms.length := by exact_mod_cast hdpos
          rw [sub_pos, one_lt_div hd']
          exact_mod_cast (by omega : ms.length < iterations)
        · have hd' : (0 : ℝ) < ms.length := by exact_mod_cast hdpos
          rw [Nat.cast_sub (by omega), Nat.cast_one]
          refine sub_le_sub_right ?_ 1
          rw [div_le_iff₀ hd', mul_comm]
          exact_mod_cast hov

/-- C99: after `N` iterations in a position with `d ≤ N` legal moves every legal move was tried, and the number `K` of
visits of its child satisfies `N ≤ d (4 K + 1)` or `c · ln (N / d - 1) ≤ 16 K`: however bad the results of a move are, it
is visited again and again as `N` grows. -/
theorem C99 {c : ℝ} (hc : 0 ≤ c) {state : G.S} {player : Int} {iterations limit : Nat} (hl : 0 < limit)
    (hN : iterations < 2 ^ 24) (hw : G.winner state = none) {ms : List G.Mv} (hm : G.moves state = .ok ms)
    (hd : ms.length ≤ iterations) {st : Store G (realFloats c)} {tr : List Nat} {t t' : Tape}
    (h : buildTree (realFloats c) state player iterations limit t = .ok ((st, tr), t')) {a : G.Mv} (ha : a ∈ ms) :
    ∃ (rn n : Node G (realFloats c)) (i : Nat), st[0]? = some rn ∧ i ∈ rn.children ∧ st[i]? = some n ∧
      n.action = some a ∧ 1 ≤ n.visits ∧
      (iterations ≤ ms.length * (4 * n.visits + 1) ∨
        c * Real.log ((iterations : ℝ) / ms.length - 1) ≤ 16 * n.visits) := by
  have hA : Close (realArith c 16777216) c 0 := by
    intro z n p _ _ _ _ _
    rw [abs_le]
    exact ⟨le_of_eq (by show -0 = (_ : ℝ) - _; simp [realArith, realFloats]), le_of_eq (by simp [realArith, realFloats])⟩
  have := explored_visits (realArith c 16777216) (Nat.le_refl _) hc hA hl hN hw hm hd h ha
  simpa only [show ((4 : ℝ) + 4 * 0) ^ 2 = 16 by norm_num] using this

/-- The hypotheses are met: TicTacToe from the start, exploration constant 2, for every random stream.  After `2 ^ 20`
iterations each of the nine moves has been visited at least twice. -/
example (t : Tape) : ∃ st tr t', buildTree (G := TTT.game .debug) (realFloats 2) TTT.new 1 (2 ^ 20) 400 t = .ok ((st, tr), t') ∧
    ∀ a : Nat, a ∈ TTT.getValidMoves TTT.new → ∃ (i : Nat) (n : Node (TTT.game .debug) (realFloats 2)), st[i]? = some n ∧
      n.parent = some 0 ∧ n.action = some a ∧ 2 ≤ n.visits := by
  obtain ⟨mv, t', h⟩ := C32_tictactoe (Fl := realFloats 2) .debug TTT.new (.inr rfl) 1 (2 ^ 20) 400 t
  have hw : (TTT.game .debug).winner TTT.new = none := show TTT.checkWinner TTT.new = none by decide
  obtain ⟨st, tr, h1, -⟩ := mctSearch_run hw h
  refine ⟨st, tr, _, h1, fun a ha => ?_⟩
  have hlen : (TTT.getValidMoves TTT.new).length = 9 := by decide
  have hlenN : 9 ≤ (2 : Nat) ^ 20 := by norm_num
  obtain ⟨rn, n, i, g1, g2, g3, g4, g5, g6⟩ := C99 (c := 2) (by norm_num) (by norm_num) (by norm_num) hw
    (ms := TTT.getValidMoves TTT.new) rfl (le_trans (le_of_eq hlen) hlenN) h1 (a := a) ha
  obtain ⟨r, -⟩ := buildTree_inv h1
  obtain ⟨n', k1, k2⟩ := r.wf.down 0 rn i g1 g2
  rw [g3] at k1
  cases Option.some.inj k1
  refine ⟨i, n, g3, k2, g4, ?_⟩
  by_contra hlt
  have h1v : n.visits = 1 := by omega
  rw [h1v] at g6
  rcases g6 with g6 | g6
  · have g6 : 2 ^ 20 ≤ (TTT.getValidMoves TTT.new).length * (4 * 1 + 1) := g6
    rw [hlen] at g6
    norm_num at g6
  · have g6 : 2 * Real.log (((2 ^ 20 : Nat) : ℝ) / ((TTT.getValidMoves TTT.new).length : Nat) - 1) ≤ 16 * ((1 : Nat) : ℝ) := g6
    rw [hlen] at g6
    have h2 : Real.log ((2 : ℝ) ^ 16) ≤ Real.log (((2 ^ 20 : Nat) : ℝ) / (9 : Nat) - 1) :=
      Real.log_le_log (by norm_num) (by norm_num)
    rw [Real.log_pow] at h2
    have h3 := Real.log_two_gt_d9
    push_cast at h2 g6
    linarith

end DieE.Props.Xp
