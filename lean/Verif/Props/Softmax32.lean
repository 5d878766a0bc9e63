import Verif.Fp.Softmax
import Verif.Mcts.LastChild
import Verif.Props.Shares32

/-!
# C137: what the network search does with a policy that vanishes on the legal moves

The softmax of `src/alphazero/nnet.rs` in `f32`, the priors computed from it for the nodes below the roots, and the children
that `select_alpha` then follows.
-/

namespace DieE.Props.Sx
open DieE DieE.Fp DieE.Mcts DieE.Props.Fn DieE.Props.Sa DieE.Props.Pu

/-- What is assumed of the exponential function of the library, for arguments that are not positive: values between 0 and 1,
the value 1 at 0, a relative error of at most `2^-20` down to -80, and zero from -105 on. -/
structure ExpOK (exp : Num → Num) : Prop where
  unit : ∀ x : Rat, x ≤ 0 → ∃ y, Unit32 (exp (.fin x)) y
  one : exp (.fin 0) = .fin 1
  near : ∀ x y : Rat, -80 ≤ x → x ≤ 0 → exp (.fin x) = .fin y → |(y : ℝ) - Real.exp x| ≤ Real.exp x / 2 ^ 20
  zero : ∀ x : Rat, x ≤ -105 → exp (.fin x) = .fin 0
  inf : exp (.inf true) = .fin 0

/-- A row of finite logits `q`, which are numbers of `f32`. -/
structure Logits (N : Nat) (z : Nat → Num) (q : Nat → Rat) : Prop where
  val : ∀ k < N, z k = .fin (q k)
  rep : ∀ k < N, Representable f32 (q k)

/-- The maximum found is one of the logits and the largest one. -/
theorem rowMax_spec {N : Nat} (hN : 0 < N) {z : Nat → Num} {q : Nat → Rat} (h : Logits N z q) :
    ∃ j < N, rowMax N z = .fin (q j) ∧ ∀ k < N, q k ≤ q j := by
  have key : ∀ M ≤ N, 0 < M → ∃ j < M, rowMax M z = .fin (q j) ∧ ∀ k < M, q k ≤ q j := by
    intro M
    induction M with
    | zero => intro _ h; exact absurd h (lt_irrefl _)
    | succ M ih =>
      intro hM _
      have hs : rowMax (M + 1) z = if Num.cmp (rowMax M z) (z M) = .lt then z M else rowMax M z := by
        unfold rowMax
        rw [List.range_succ, List.foldl_append]
        rfl
      rcases Nat.eq_zero_or_pos M with rfl | h0
      · refine ⟨0, by omega, ?_, fun k hk => by rw [show k = 0 by omega]⟩
        rw [hs, h.val 0 (by omega)]
        rfl
      · obtain ⟨j, h1, h2, h3⟩ := ih (by omega) h0
        rw [hs, h2, h.val M (by omega)]
        show ∃ j' < M + 1, (if compare (q j) (q M) = .lt then _ else _) = _ ∧ _
        by_cases hc : q j < q M
        · refine ⟨M, by omega, by rw [if_pos (compare_lt_iff_lt.2 hc)], fun k hk => ?_⟩
          rcases Nat.lt_succ_iff_lt_or_eq.1 hk with hk | rfl
          · exact (h3 k hk).trans hc.le
          · exact le_refl _
        · refine ⟨j, by omega, by rw [if_neg (fun h => hc (compare_lt_iff_lt.1 h))], fun k hk => ?_⟩
          rcases Nat.lt_succ_iff_lt_or_eq.1 hk with hk | rfl
          · exact h3 k hk
          · exact not_lt.1 hc
  exact key N (le_refl _) hN

/-- The difference to the maximum as computed. -/
theorem gap_cases {a b : Rat} (h : a ≤ b) :
    (Num.add f32 (.fin a) (.fin (-b)) = .fin (rnd f32 (a - b)) ∧ rnd f32 (a - b) ≤ 0) ∨
      (Num.add f32 (.fin a) (.fin (-b)) = .inf true ∧ a - b < -105) := by
  have h0 : a - b ≤ 0 := by linarith
  have e : Num.add f32 (.fin a) (.fin (-b)) = Num.round f32 (a - b) := by
    show Num.round f32 (a + -b) = _
    rw [← sub_eq_add_neg]
  rw [e]
  have hr : rnd f32 (a - b) ≤ 0 := le_rep (K := Rat) hprec rep_zero (by simpa using h0)
  by_cases hlt : |rnd f32 (a - b)| < 2 ^ f32.high
  · left
    exact ⟨by unfold Num.round; rw [if_pos hlt], hr⟩
  · right
    have hbig : a - b < -105 := by
      by_contra hc
      have hc : -105 ≤ a - b := not_lt.1 hc
      refine hlt ?_
      have h1 : -105 ≤ rnd f32 (a - b) := rep_le (K := Rat) hprec
        ⟨-105, 0, by norm_num [f32], by norm_num [f32], by norm_num⟩ (by simpa using hc)
      rw [abs_of_nonpos hr]
      have : (105 : Rat) < 2 ^ f32.high := by norm_num [f32]
      linarith
    refine ⟨?_, hbig⟩
    unfold Num.round
    rw [if_neg hlt]
    have : a - b < 0 := by linarith
    simp [this]

/-- The exponentials `y` of a row of logits. -/
structure Exps (N : Nat) (exp : Num → Num) (z : Nat → Num) (q : Nat → Rat) (y : Nat → Rat) : Prop where
  unit : ∀ k < N, Unit32 (exp (Num.add f32 (z k) (rowMax N z).neg)) (y k)
  top : ∃ j < N, y j = 1 ∧ ∀ k < N, q k ≤ q j
  zero : ∀ k < N, (∃ j < N, q k + 105 ≤ q j) → y k = 0
  low : ∀ k < N, (∀ j < N, q j ≤ q k + 79) → 3 / 2 ^ 116 ≤ y k

theorem exp_low : (1 : ℝ) / 2 ^ 114 ≤ Real.exp (-79) := by
  have h1 : Real.exp 1 < 2.7182818286 := Real.exp_one_lt_d9
  have h2 : Real.exp 79 ≤ 2 ^ 114 := by
    have : Real.exp 79 = Real.exp 1 ^ 79 := by rw [← Real.exp_nat_mul]; norm_num
    rw [this]
    calc Real.exp 1 ^ 79 ≤ (2.7182818286 : ℝ) ^ 79 := pow_le_pow_left₀ (Real.exp_pos _).le h1.le _
      _ ≤ 2 ^ 114 := by norm_num
  rw [Real.exp_neg, one_div]
  exact inv_anti₀ (Real.exp_pos _) h2

theorem exps {N : Nat} (hN : 0 < N) {exp : Num → Num} (he : ExpOK exp) {z : Nat → Num} {q : Nat → Rat}
    (h : Logits N z q) : ∃ y, Exps N exp z q y := by
  obtain ⟨j, hj, hm, hmax⟩ := rowMax_spec hN h
  have harg : ∀ k < N, Num.add f32 (z k) (rowMax N z).neg = Num.add f32 (.fin (q k)) (.fin (-q j)) := by
    intro k hk
    rw [hm, h.val k hk]
    rfl
  have key : ∀ k < N, ∃ y, Unit32 (exp (Num.add f32 (z k) (rowMax N z).neg)) y := by
    intro k hk
    rw [harg k hk]
    rcases gap_cases (hmax k hk) with ⟨g1, g2⟩ | ⟨g1, -⟩
    · rw [g1]; exact he.unit _ g2
    · rw [g1, he.inf]; exact ⟨0, rfl, le_refl _, by norm_num, rep_zero⟩
  choose! y hy using key
  have val : ∀ k < N, exp (Num.add f32 (.fin (q k)) (.fin (-q j))) = .fin (y k) := fun k hk => by
    rw [← harg k hk]; exact (hy k hk).1
  refine ⟨y, hy, ⟨j, hj, ?_, hmax⟩, fun k hk hz => ?_, fun k hk hl => ?_⟩
  · have := val j hj
    rw [show Num.add f32 (.fin (q j)) (.fin (-q j)) = .fin 0 by
      show Num.round f32 (q j + -q j) = _
      rw [add_neg_cancel, round_nn (le_refl _) (by norm_num), rnd_rep rep_zero], he.one] at this
    exact (Num.fin.inj this).symm
  · obtain ⟨i, hi, hz⟩ := hz
    have hz' : q k - q j ≤ -105 := by have := hmax i hi; linarith
    have := val k hk
    rcases gap_cases (hmax k hk) with ⟨g1, -⟩ | ⟨g1, -⟩
    · rw [g1, he.zero _ (le_rep (K := Rat) hprec ⟨-105, 0, by norm_num [f32], by norm_num [f32], by norm_num⟩
        (by simpa using hz'))] at this
      exact (Num.fin.inj this).symm
    · rw [g1, he.inf] at this
      exact (Num.fin.inj this).symm
  · have hl' : -79 ≤ q k - q j := by have := hl j hj; linarith
    have := val k hk
    rcases gap_cases (hmax k hk) with ⟨g1, g2⟩ | ⟨-, g2⟩
    · rw [g1] at this
      have g3 : -79 ≤ rnd f32 (q k - q j) := rep_le (K := Rat) hprec
        ⟨-79, 0, by norm_num [f32], by norm_num [f32], by norm_num⟩ (by simpa using hl')
      have g4 := he.near _ _ (by linarith) g2 this
      have g5 : Real.exp (-79) ≤ Real.exp (rnd f32 (q k - q j) : Rat) := Real.exp_le_exp.2 (by exact_mod_cast g3)
      have g6 := (abs_le.1 g4).1
      have g7 := exp_low
      have g8 : ((3 / 2 ^ 116 : Rat) : ℝ) ≤ (y k : ℝ) := by
        have : Real.exp (rnd f32 (q k - q j) : Rat) / 2 ^ 20 ≤ Real.exp (rnd f32 (q k - q j) : Rat) / 4 := by
          apply div_le_div_of_nonneg_left (Real.exp_pos _).le (by norm_num) (by norm_num)
        norm_num at g7 ⊢
        linarith
      exact_mod_cast g8
    · linarith

/-- C137: the softmax of a row of finite logits.  All entries are numbers between 0 and 1; an entry whose logit is at least
105 below another one is exactly zero; an entry whose logit is at most 79 below the largest one is a normal number. -/
theorem C137_softmax {N : Nat} (hN : 0 < N) (hN' : N ≤ 1352) {exp : Num → Num} (he : ExpOK exp) {T : SumTree}
    (hT : T.codes.Perm (List.range N)) {z : Nat → Num} {q : Nat → Rat} (h : Logits N z q) :
    ∃ p : Nat → Rat, (∀ k < N, Unit32 (softmax exp T N z k) (p k)) ∧
      (∀ k < N, (∃ j < N, q k + 105 ≤ q j) → p k = 0) ∧
      (∀ k < N, (∀ j < N, q j ≤ q k + 79) → 1 / 2 ^ 126 ≤ p k) := by
  obtain ⟨y, hy⟩ := exps hN he h
  obtain ⟨s, hs, S⟩ := sum_entries (p := fun k => exp (Num.add f32 (z k) (rowMax N z).neg)) (q := y) T (fun c hc => by
    obtain ⟨h1, h2, h3, h4⟩ := hy.unit c (List.mem_range.1 (hT.mem_iff.1 hc))
    exact ⟨h1, h2, by linarith, h4⟩) (by rw [hT.length_eq, List.length_range]; omega)
  have hmem : ∀ k < N, k ∈ T.codes := fun k hk => hT.mem_iff.2 (List.mem_range.2 hk)
  obtain ⟨j, hj, hj1, -⟩ := hy.top
  have hs1 : 1 ≤ s := by rw [← hj1]; exact S.max j (hmem j hj)
  have hs2 : s ≤ 2704 := by
    have := S.le
    rw [hT.length_eq, List.length_range] at this
    have h2 : (N : Rat) ≤ 1352 := by exact_mod_cast hN'
    linarith
  have hspos : 0 < s := by linarith
  refine ⟨fun k => rnd f32 (y k / s), fun k hk => ?_, fun k hk hz => ?_, fun k hk hl => ?_⟩
  · obtain ⟨h1, h2, h3, h4⟩ := hy.unit k hk
    have q0 : 0 ≤ y k / s := div_nonneg h2 hspos.le
    have q1 : y k / s ≤ 1 := (div_le_one hspos).2 (S.max k (hmem k hk))
    refine ⟨?_, rnd_nn q0, le_rep (K := Rat) hprec rep_one (by simpa using q1), rnd_representable hprec _⟩
    show Num.div f32 (exp _) (T.sum _) = _
    rw [hs, h1]
    show (if s = 0 then _ else _) = _
    rw [if_neg hspos.ne']
    exact round_nn q0 (le_trans q1 (by norm_num))
  · show rnd f32 (y k / s) = 0
    rw [hy.zero k hk hz, zero_div, rnd_rep rep_zero]
  · have h1 := hy.low k hk hl
    refine rep_le (K := Rat) hprec ⟨1, -126, by norm_num [f32], by norm_num [f32], ?_⟩ ?_
    · rw [zpow_neg]
      norm_num
    · rw [le_div_iff₀ hspos]
      have : (1 / 2 ^ 126 : Rat) * s ≤ 1 / 2 ^ 126 * 2704 := mul_le_mul_of_nonneg_left hs2 (by norm_num)
      norm_num at this h1 ⊢
      linarith

/-! ## The search -/

/-- A score with a prior that is not a number is not a number, and compares equal to everything. -/
theorem nan_lost (c : Num) (ln : Num → Num) : Lost (Fl := single c ln) (fun q => q = Num.nan) := by
  rintro v n q p v' n' q' p' rfl
  have h1 : ∀ a : Num, Num.mul f32 a .nan = .nan := fun a => by cases a <;> rfl
  have h2 : ∀ a : Num, Num.add f32 a .nan = .nan := fun a => by cases a <;> rfl
  have h3 : (single c ln).alphaUcb v n Num.nan p = Num.nan := by
    show Num.add f32 _ (Num.mul f32 _ .nan) = .nan
    rw [h1, h2]
  show Num.cmp ((single c ln).alphaUcb v n Num.nan p) _ ≠ .gt
  rw [h3]
  simp [Num.cmp]

/-- The network computes the policy by a softmax of logits and the priors of the nodes below the roots as in the code; the
order of adding up may depend on the row. -/
structure Softmaxed (N : Nat) (exp : Num → Num) {c : Num} {ln : Num → Num} (net : Mcts.Net (single c ln))
    (z : Tensor Int → Nat → Nat → Num) (q : Tensor Int → Nat → Nat → Rat) : Prop where
  pos : 0 < N
  width : N ≤ 1352
  expOK : ExpOK exp
  logits : ∀ x row, Logits N (z x row) (q x row)
  policy : ∀ x row, ∃ T : SumTree, T.codes.Perm (List.range N) ∧ ∀ k < N, net.policy x row k = softmax exp T N (z x row) k
  tensor : ∀ (pol : Nat → Num) codes, ∃ T : SumTree, T.codes.Perm (List.range N) ∧
    net.priorTensor pol codes = Fp.priorTensor T pol codes

variable {G : Game}

/-- The row of a batch belongs to the state. -/
def RowOf (G : Game) (s : G.S) (x : Tensor Int) (row : Nat) : Prop :=
  ∃ (ts : List (Tensor Int)) (u : Tensor Int), batchTensor ts = .ok x ∧ ts[row]? = some u ∧ G.tensor s = .ok u

/-- All legal moves of the state have logits at least 105 below another logit. -/
def Vanishes (N : Nat) (q : Tensor Int → Nat → Nat → Rat) (s : G.S) : Prop :=
  ∀ x row, RowOf G s x row → ∀ ms, G.moves s = .ok ms → ∀ a ∈ ms, ∀ k, G.encode s a = .ok k →
    k < N ∧ ∃ j < N, q x row k + 105 ≤ q x row j

/-- The codes of the legal moves of the state are different. -/
def CodesApart (s : G.S) : Prop :=
  ∀ (ms as : List G.Mv) (codes : List Nat), G.moves s = .ok ms → as.Perm ms → as.mapM (G.encode s) = .ok codes → codes.Nodup

theorem mapM_from {α β : Type} {f : α → Res β} {l : List α} {l' : List β} (h : l.mapM f = .ok l') {b : β} (hb : b ∈ l') :
    ∃ a ∈ l, f a = .ok b := by
  induction l generalizing l' with
  | nil => cases Except.ok.inj h; cases hb
  | cons c l ih =>
    rw [List.mapM_cons] at h
    obtain ⟨y, h1, h⟩ := Res.bind_ok.1 h
    obtain ⟨ys, h2, h⟩ := Res.bind_ok.1 h
    cases Except.ok.inj h
    rcases List.mem_cons.1 hb with rfl | hb
    · exact ⟨c, List.mem_cons_self .., h1⟩
    · obtain ⟨a, ha, e⟩ := ih h2 hb
      exact ⟨a, List.mem_cons_of_mem _ ha, e⟩

/-- Such a state has no priors. -/
theorem vanishes_inner {N : Nat} {exp : Num → Num} {c : Num} {ln : Num → Num} {net : Mcts.Net (single c ln)}
    {z : Tensor Int → Nat → Nat → Num} {q : Tensor Int → Nat → Nat → Rat} (C : Softmaxed N exp net z q) {s : G.S}
    (hv : Vanishes N q s) (hd : CodesApart s) : Inner (fun p => p = Num.nan) net s := by
  intro ms as codes hm hp hc ts x u row hx hu hsu k hk
  have hlegal : ∀ k ∈ codes, k < N ∧ ∃ j < N, q x row k + 105 ≤ q x row j := by
    intro k hk
    obtain ⟨a, ha, e⟩ := mapM_from hc hk
    exact hv x row ⟨ts, u, hx, hu, hsu⟩ ms hm a (hp.mem_iff.1 ha) k e
  obtain ⟨T, hT, e⟩ := C.policy x row
  obtain ⟨p, h1, h2, -⟩ := C137_softmax C.pos C.width C.expOK hT (C.logits x row)
  obtain ⟨T', hT', e'⟩ := C.tensor (fun c => net.policy x row c) codes
  show net.priorTensor (fun c => net.policy x row c) codes k = Num.nan
  rw [e']
  have hw := C.width
  exact ((C136_nan (by omega) hT' (q := p) (fun k hk => by
    obtain ⟨a1, a2, a3, a4⟩ := h1 k hk
    exact ⟨(e k hk).trans a1, a2, by linarith, a4⟩) (hd ms as codes hm hp hc) (fun k hk => (hlegal k hk).1)
    fun k hk => h2 k (hlegal k hk).1 (hlegal k hk).2).1 k (hlegal k hk).1).2

/-- C137: where the network gives no weight to any legal move, the search follows the last move only.  After every batched
search, at every node below the roots whose legal moves all have logits 105 below another one, all children but the last one
have no visits, however good they are. -/
theorem C137_last {N : Nat} {exp : Num → Num} {c : Num} {ln : Num → Num} {net : Mcts.Net (single c ln)}
    {z : Tensor Int → Nat → Nat → Num} {q : Tensor Int → Nat → Nat → Rat} (C : Softmaxed N exp net z q)
    {states : List G.S} {order : List Nat} (ho : order.Perm (List.range states.length)) {iterations : Nat}
    {st : Store G (single c ln)} {t t' : Tape}
    (h : alphaMctsParallel net order states iterations [] t = .ok (st, t'))
    {i : Nat} (hi : states.length ≤ i) {n : Node G (single c ln)} (hn : st[i]? = some n)
    (hv : Vanishes N q n.state) (hd : CodesApart n.state) :
    ∀ j ∈ n.children, ∃ m : Node G (single c ln), st[j]? = some m ∧ m.policy = Num.nan ∧
      (n.children.getLast? ≠ some j → m.visits = 0) := by
  obtain ⟨sel, I⟩ := search_onlyLast (nan_lost c ln) ho h
  have hk := I.kids i n hi hn (vanishes_inner C hv hd)
  intro j hj
  obtain ⟨m, h1, h2⟩ := hk j hj
  refine ⟨m, h1, h2, fun hne => ?_⟩
  have := (I.dead i j n hn hk hj hne).1
  unfold visitsAt at this
  rw [h1] at this
  exact this

/-- A legal move of the state has a logit at most 79 below the largest one, and all codes are below the width. -/
def Weighs (N : Nat) (q : Tensor Int → Nat → Nat → Rat) (s : G.S) : Prop :=
  ∀ x row, RowOf G s x row → ∀ ms, G.moves s = .ok ms → (∀ a ∈ ms, ∀ k, G.encode s a = .ok k → k < N) ∧
    ∃ a ∈ ms, ∀ k, G.encode s a = .ok k → ∀ j < N, q x row j ≤ q x row k + 79

/-- C137, the other case: where the network gives a legal move a logit at most 79 below the largest one, the priors of all
children are numbers between 0 and 1. -/
theorem C137_finite {N : Nat} {exp : Num → Num} {c : Num} {ln : Num → Num} {net : Mcts.Net (single c ln)}
    {z : Tensor Int → Nat → Nat → Num} {q : Tensor Int → Nat → Nat → Rat} (C : Softmaxed N exp net z q)
    {states : List G.S} {order : List Nat} (ho : order.Perm (List.range states.length)) {iterations : Nat}
    {st : Store G (single c ln)} {t t' : Tape}
    (h : alphaMctsParallel net order states iterations [] t = .ok (st, t'))
    {i : Nat} (hi : states.length ≤ i) {n : Node G (single c ln)} (hn : st[i]? = some n)
    (hw : Weighs N q n.state) (hd : CodesApart n.state) :
    ∀ j ∈ n.children, ∃ m : Node G (single c ln), st[j]? = some m ∧ FinShare m.policy := by
  refine search_inner (P := FinShare) ho h i n hi hn ?_
  intro ms as codes hm hp hc ts x u row hx hu hsu k hk
  obtain ⟨w1, a, ha, w2⟩ := hw x row ⟨ts, u, hx, hu, hsu⟩ ms hm
  have hlt : ∀ k ∈ codes, k < N := by
    intro k hk
    obtain ⟨b, hb, e⟩ := mapM_from hc hk
    exact w1 b (hp.mem_iff.1 hb) k e
  obtain ⟨T, hT, e⟩ := C.policy x row
  obtain ⟨p, h1, -, h3⟩ := C137_softmax C.pos C.width C.expOK hT (C.logits x row)
  obtain ⟨T', hT', e'⟩ := C.tensor (fun c => net.policy x row c) codes
  have hpos : ∃ k ∈ codes, 0 < p k := by
    have : ∃ k, G.encode n.state a = .ok k := by
      clear e' hk hlt
      have ha' := hp.mem_iff.2 ha
      clear hp ha
      induction as generalizing codes with
      | nil => cases ha'
      | cons b as ih =>
        rw [List.mapM_cons] at hc
        obtain ⟨y, g1, g⟩ := Res.bind_ok.1 hc
        obtain ⟨ys, g2, -⟩ := Res.bind_ok.1 g
        rcases List.mem_cons.1 ha' with rfl | ha'
        · exact ⟨y, g1⟩
        · exact ih ys g2 ha'
    obtain ⟨k, hk⟩ := this
    have hkc := mapM_code hc (hp.mem_iff.2 ha) hk
    refine ⟨k, hkc, lt_of_lt_of_le (by norm_num) (h3 k (hlt k hkc) (w2 k hk))⟩
  have hw := C.width
  obtain ⟨y, hy⟩ := C136_tensor (by omega) hT' (pol := fun c => net.policy x row c) (q := p) (codes := codes)
    ⟨fun k hk => by
      obtain ⟨a1, a2, a3, a4⟩ := h1 k hk
      exact ⟨(e k hk).trans a1, a2, by linarith, a4⟩, hd ms as codes hm hp hc, hlt, hpos⟩
  show FinShare (net.priorTensor (fun c => net.policy x row c) codes k)
  rw [e']
  exact ⟨y k, hy.val k (hlt k hk), hy.range k (hlt k hk)⟩

/-! ## Examples -/

/-- A correctly rounded exponential function. -/
noncomputable def roundedExp : Num → Num
  | .fin q => .round f32 (Real.exp q)
  | .inf s => if s then .fin 0 else .inf false
  | .nan => .nan

theorem exp_tiny : Real.exp (-105) < 1 / 2 ^ 150 := by
  have h1 : 2.7182818283 < Real.exp 1 := Real.exp_one_gt_d9
  have h2 : (2 : ℝ) ^ 150 < Real.exp 105 := by
    have : Real.exp 105 = Real.exp 1 ^ 105 := by rw [← Real.exp_nat_mul]; norm_num
    rw [this]
    calc (2 : ℝ) ^ 150 < (2.7182818283 : ℝ) ^ 105 := by norm_num
      _ ≤ Real.exp 1 ^ 105 := pow_le_pow_left₀ (by norm_num) h1.le _
  rw [Real.exp_neg, one_div]
  exact inv_strictAnti₀ (by norm_num) h2

theorem exp_eighty : (1 : ℝ) / 2 ^ 126 ≤ Real.exp (-80) := by
  have h1 : Real.exp 1 < 2.7182818286 := Real.exp_one_lt_d9
  have h2 : Real.exp 80 ≤ 2 ^ 126 := by
    have : Real.exp 80 = Real.exp 1 ^ 80 := by rw [← Real.exp_nat_mul]; norm_num
    rw [this]
    calc Real.exp 1 ^ 80 ≤ (2.7182818286 : ℝ) ^ 80 := pow_le_pow_left₀ (Real.exp_pos _).le h1.le _
      _ ≤ 2 ^ 126 := by norm_num
  rw [Real.exp_neg, one_div]
  exact inv_anti₀ (Real.exp_pos _) h2

theorem rounded_unit {x : ℝ} (h0 : 0 ≤ x) (h1 : x ≤ 1) : Unit32 (Num.round f32 x) (rnd f32 x) := by
  have r0 : 0 ≤ rnd f32 x := rep_le (K := ℝ) hprec rep_zero (by simpa using h0)
  have r1 : rnd f32 x ≤ 1 := le_rep (K := ℝ) hprec rep_one (by simpa using h1)
  refine ⟨?_, r0, r1, rnd_representable hprec _⟩
  unfold Num.round
  rw [if_pos]
  rw [abs_of_nonneg r0]
  have : (1 : Rat) < 2 ^ f32.high := by norm_num [f32]
  linarith

theorem roundedExp_ok : ExpOK roundedExp where
  unit := fun x hx => ⟨_, rounded_unit (Real.exp_pos _).le (by
    rw [Real.exp_le_one_iff]; exact_mod_cast hx)⟩
  one := by
    show Num.round f32 (Real.exp ((0 : Rat) : ℝ)) = _
    rw [Rat.cast_zero, Real.exp_zero, (rounded_unit (by norm_num) (le_refl _)).1]
    congr 1
    have := rnd_exact (K := ℝ) hprec rep_one
    simpa using this
  near := by
    intro x y h1 h2 h
    have hx : Real.exp x ≤ 1 := by rw [Real.exp_le_one_iff]; exact_mod_cast h2
    have e : Num.round f32 (Real.exp x) = .fin y := h
    rw [(rounded_unit (Real.exp_pos _).le hx).1] at e
    cases Num.fin.inj e
    have hlow : Real.exp (-80) ≤ Real.exp x := Real.exp_le_exp.2 (by exact_mod_cast h1)
    have := rnd_rel (φ := f32) (Real.exp x) (by
      rw [abs_of_pos (Real.exp_pos _)]
      refine le_trans ?_ (exp_eighty.trans hlow)
      rw [show f32.low + f32.prec - 1 = -126 by norm_num [f32], zpow_neg]
      norm_num)
    rw [abs_sub_comm, abs_of_pos (Real.exp_pos _)] at this
    refine this.trans (div_le_div_of_nonneg_left (Real.exp_pos _).le (by norm_num) ?_)
    norm_num [f32]
  zero := by
    intro x hx
    have h1 : Real.exp x < 1 / 2 ^ 150 := lt_of_le_of_lt (Real.exp_le_exp.2 (by exact_mod_cast hx)) exp_tiny
    have hu := rounded_unit (Real.exp_pos (x : ℝ)).le (h1.le.trans (by norm_num))
    show Num.round f32 (Real.exp x) = _
    rw [hu.1]
    congr 1
    obtain ⟨m, hm⟩ := rep_multiple hu.2.2.2
    have hn := (rnd_nearest (K := ℝ) hprec (Real.exp x)).near 0 rep_zero
    rw [Rat.cast_zero, sub_zero, abs_of_pos (Real.exp_pos _)] at hn
    have hlt : ((rnd f32 (Real.exp x) : Rat) : ℝ) < 2 ^ (-149 : Int) := by
      have := (abs_le.1 hn).1
      have e : (2 : ℝ) ^ (-149 : Int) = 2 * (1 / 2 ^ 150) := by
        rw [zpow_neg]; norm_num
      rw [e]
      linarith
    have hlt' : rnd f32 (Real.exp x) < (2 : Rat) ^ (-149 : Int) := by
      have e : (((2 : Rat) ^ (-149 : Int) : Rat) : ℝ) = 2 ^ (-149 : Int) := by push_cast; rfl
      rw [← e] at hlt
      exact Rat.cast_lt.1 hlt
    have h0 := hu.2.1
    rw [hm] at hlt' h0 ⊢
    have hp : (0 : Rat) < 2 ^ (-149 : Int) := by positivity
    have m1 : (m : Rat) < 1 := by
      by_contra hc
      have := mul_le_mul_of_nonneg_right (not_lt.1 hc) hp.le
      linarith
    have m0 : (0 : Rat) ≤ m := by
      by_contra hc
      have := mul_neg_of_neg_of_pos (not_le.1 hc) hp
      linarith
    have : m = 0 := by
      have a1 : m < 1 := by exact_mod_cast m1
      have a0 : 0 ≤ m := by exact_mod_cast m0
      omega
    rw [this]
    simp
  inf := rfl

/-- The logits of a network for TicTacToe that always wants the centre. -/
def centreLogit (k : Nat) : Rat := if k = 4 then 0 else -200

/-- The network. -/
noncomputable def centreNet (ln : Num → Num) : Mcts.Net (single (.fin 2) ln) where
  policy := fun _ _ => softmax roundedExp (SumTree.inOrder 9) 9 fun k => .fin (centreLogit k)
  eval := fun _ _ => Num.fin 0
  priorBatch := Fp.priorBatch (SumTree.inOrder 9)
  priorTensor := Fp.priorTensor (SumTree.inOrder 9)
  priorVec := Fp.priorVec 1352
  noise := fun _ _ => Num.fin (1 / 8)
  mixTensor := Fp.mixTensor (1 / 4)
  mixChild := Fp.mixChild (1 / 4)
  alphaOk := true

theorem centreNet_softmaxed (ln : Num → Num) :
    Softmaxed 9 roundedExp (centreNet ln) (fun _ _ k => .fin (centreLogit k)) (fun _ _ => centreLogit) where
  pos := by norm_num
  width := by norm_num
  expOK := roundedExp_ok
  logits := fun _ _ => ⟨fun _ _ => rfl, fun k _ => by
    unfold centreLogit
    split
    · exact rep_zero
    · exact ⟨-200, 0, by norm_num [f32], by norm_num [f32], by norm_num⟩⟩
  policy := fun _ _ => ⟨_, by rw [inOrder_codes], fun _ _ => rfl⟩
  tensor := fun _ _ => ⟨_, by rw [inOrder_codes], rfl⟩

theorem ttt_apart (pf : Profile) (s : TTT.State) : CodesApart (G := TTT.game pf) s := by
  intro ms as codes hm hp hc
  have hm : (Except.ok (TTT.getValidMoves s) : Res (List Nat)) = .ok ms := hm
  cases Except.ok.inj hm
  have e : codes = as := by
    have : ∀ (as codes : List Nat), as.mapM (fun a => (Except.ok a : Res Nat)) = .ok codes → codes = as := by
      intro as
      induction as with
      | nil => intro codes h; cases Except.ok.inj h; rfl
      | cons b as ih =>
        intro codes h
        rw [List.mapM_cons] at h
        obtain ⟨y, g1, g⟩ := Res.bind_ok.1 h
        obtain ⟨ys, g2, g⟩ := Res.bind_ok.1 g
        cases Except.ok.inj g
        have g1 : (Except.ok b : Res Nat) = .ok y := g1
        cases Except.ok.inj g1
        rw [ih ys g2]
    exact this as codes hc
  rw [e]
  exact hp.nodup_iff.2 (List.nodup_range.filter _)

/-- With the centre taken, the network gives no weight to any legal move; on a board with the centre free it does. -/
theorem centre_vanishes (pf : Profile) {s : TTT.State} :
    (s.cell 4 ≠ 0 → Vanishes (G := TTT.game pf) 9 (fun _ _ => centreLogit) s) ∧
      (s.cell 4 = 0 → Weighs (G := TTT.game pf) 9 (fun _ _ => centreLogit) s) := by
  have enc : ∀ a k : Nat, (TTT.game pf).encode s a = .ok k → a = k := by
    intro a k h
    have h : (Except.ok a : Res Nat) = .ok k := h
    exact Except.ok.inj h
  constructor
  · intro h x row _ ms hm (a : Nat) ha k hk
    have hm : (Except.ok (TTT.getValidMoves s) : Res (List Nat)) = .ok ms := hm
    cases Except.ok.inj hm
    cases enc a k hk
    have ha := List.mem_filter.1 ha
    refine ⟨List.mem_range.1 ha.1, 4, by norm_num, ?_⟩
    have hne : a ≠ (4 : Nat) := by
      rintro rfl
      exact h (by simpa using ha.2)
    show (if a = (4 : Nat) then (0 : Rat) else -200) + 105 ≤ (if (4 : Nat) = 4 then 0 else -200)
    rw [if_neg hne]
    norm_num
  · intro h x row _ ms hm
    have hm : (Except.ok (TTT.getValidMoves s) : Res (List Nat)) = .ok ms := hm
    cases Except.ok.inj hm
    refine ⟨fun a ha k hk => ?_, (4 : Nat), ?_, fun k hk j _ => ?_⟩
    · cases enc a k hk
      exact List.mem_range.1 (List.mem_filter.1 ha).1
    · exact List.mem_filter.2 ⟨List.mem_range.2 (show (4 : Nat) < 9 by norm_num), by simpa using h⟩
    · cases enc 4 k hk
      show (if j = 4 then (0 : Rat) else -200) ≤ (if (4 : Nat) = 4 then 0 else -200) + 79
      split <;> norm_num

/-- C137 for this network: it plays the centre, and every search tries only one reply to it, the last free square.  The
search from the empty board ends for every random stream. -/
theorem C137_centre (pf : Profile) (ln : Num → Num) {states : List TTT.State} {order : List Nat}
    (ho : order.Perm (List.range states.length)) {iterations : Nat} {st : Store (TTT.game pf) (single (.fin 2) ln)} {t t' : Tape}
    (h : alphaMctsParallel (G := TTT.game pf) (centreNet ln) order states iterations [] t = .ok (st, t'))
    {i : Nat} (hi : states.length ≤ i) {n : Node (TTT.game pf) (single (.fin 2) ln)} (hn : st[i]? = some n)
    (hc : TTT.State.cell n.state 4 ≠ 0) :
    ∀ j ∈ n.children, ∃ m : Node (TTT.game pf) (single (.fin 2) ln), st[j]? = some m ∧
      (n.children.getLast? ≠ some j → m.visits = 0) := by
  intro j hj
  obtain ⟨m, h1, -, h2⟩ := C137_last (G := TTT.game pf) (centreNet_softmaxed ln) ho h hi hn ((centre_vanishes pf).1 hc)
    (ttt_apart pf _) j hj
  exact ⟨m, h1, h2⟩

/-- The search ends, for every random stream. -/
example (ln : Num → Num) (t : Tape) : ∃ st t',
    alphaMctsParallel (G := TTT.game .debug) (centreNet ln) [0] [TTT.new] 1000 [] t = .ok (st, t') := by
  obtain ⟨st, t', h, -⟩ := alphaMctsParallel_progress (Fl := single (.fin 2) ln) (A.ttt_safeNet .debug) (net := centreNet ln) rfl
    (states := [TTT.new]) (List.cons_ne_nil _ _)
    (show ∀ s ∈ [TTT.new], TTT.State.player s = 1 ∨ TTT.State.player s = -1 by simp [TTT.new])
    (order := [0]) (by decide) 1000 t
  exact ⟨st, t', h⟩

end DieE.Props.Sx
