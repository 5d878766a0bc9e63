import Verif.Mcts.BatchKept
import Verif.Mcts.RootPriors
import Verif.Props.Win

/-!
# C103: the batched search keeps visiting every legal move

How often `alpha_mcts_parallel` visits each legal move of a searched position, with an exploration constant `c ≥ 0` and
scores that differ by at most `ε` from the formula of node.rs:98-112 over the real numbers.
-/

namespace DieE.Props.Pu
open DieE DieE.Mcts DieE.Props.S DieE.Props.A DieE.Props.Wn
variable {G : Game} {Fl : Floats} {B : Nat} {c ε : ℝ}

/-- What is assumed of the arithmetic: sums of `n` values are `Sum n`, values are `Value`, priors are `Prior`; scores of
such numbers are compared as the real numbers they stand for, and differ by at most `ε` from
`x + c (√p / (n + 1)) π` for some mean `x` between -1 and 1. -/
structure Scores (Fl : Floats) (c ε : ℝ) (B : Nat) where
  /-- sums of so many values -/
  Sum : Nat → Fl.F → Prop
  /-- values -/
  Value : Fl.F → Prop
  /-- priors -/
  Prior : Fl.F → Prop
  /-- the number a score stands for -/
  val : Fl.F → ℝ
  /-- the number a prior stands for -/
  prior : Fl.F → ℝ
  zero : Sum 0 (Fl.ofInt 0)
  one : Sum 1 (Fl.ofInt 0)
  add : ∀ n x v, n < B → Sum n x → Value v → Sum (n + 1) (Fl.add x v)
  outcomes : Outcomes Value
  range : ∀ q, Prior q → 0 ≤ prior q ∧ prior q ≤ 1
  cmp : ∀ n m p v w q r, n < p → m < p → p < B → Sum n v → Sum m w → Prior q → Prior r →
    (Fl.cmp (Fl.alphaUcb v n q p) (Fl.alphaUcb w m r p) = .gt ↔
      val (Fl.alphaUcb w m r p) < val (Fl.alphaUcb v n q p))
  score : ∀ n p v q, n < p → p < B → Sum n v → Prior q →
    ∃ x : ℝ, |x| ≤ 1 ∧ |val (Fl.alphaUcb v n q p) - (x + c * (Real.sqrt p / (n + 1)) * prior q)| ≤ ε

/-- A child with `m - 1` visits was preferred to one with `K` visits and prior `q` when the parent had `p` visits. -/
def Gap (c ε q : ℝ) (K m p : Nat) : Prop := c * Real.sqrt p * (q / (K + 1) - 1 / m) ≤ 2 + 2 * ε

theorem Gap.mono (hc : 0 ≤ c) {q : ℝ} (hq : 0 ≤ q) {K L m l p : Nat} (hKL : K ≤ L) (hl : 0 < l) (hlm : l ≤ m)
    (h : Gap c ε q K m p) : Gap c ε q L l p := by
  unfold Gap at *
  have hKL' : (K : ℝ) ≤ L := by exact_mod_cast hKL
  have hl' : (0 : ℝ) < l := by exact_mod_cast hl
  have hlm' : (l : ℝ) ≤ m := by exact_mod_cast hlm
  refine le_trans (mul_le_mul_of_nonneg_left ?_ (mul_nonneg hc (Real.sqrt_nonneg _))) h
  have h1 : q / ((L : ℝ) + 1) ≤ q / (K + 1) := div_le_div_of_nonneg_left hq (by positivity) (by linarith)
  have h2 : 1 / (m : ℝ) ≤ 1 / l := one_div_le_one_div_of_le hl' hlm'
  linarith

/-- The higher score explains the gap. -/
theorem gap_of_score (hc : 0 ≤ c) {q r x y : ℝ} {K m p : Nat} (hr : r ≤ 1) (hx : |x| ≤ 1) (hy : |y| ≤ 1)
    (h : x + c * (Real.sqrt p / (K + 1)) * q ≤ y + c * (Real.sqrt p / (m + 1)) * r + 2 * ε) :
    Gap c ε q K (m + 1) p := by
  have hx := (abs_le.1 hx).1
  have hy := (abs_le.1 hy).2
  have hcp : 0 ≤ c * Real.sqrt p := mul_nonneg hc (Real.sqrt_nonneg _)
  have hm : (0 : ℝ) < (m : ℝ) + 1 := by positivity
  have h1 : c * (Real.sqrt p / (m + 1)) * r ≤ c * Real.sqrt p * (1 / ((m : ℝ) + 1)) := by
    rw [show c * (Real.sqrt p / ((m : ℝ) + 1)) * r = c * Real.sqrt p * (r / ((m : ℝ) + 1)) by ring]
    exact mul_le_mul_of_nonneg_left (div_le_div_of_nonneg_right hr hm.le) hcp
  have h2 : c * (Real.sqrt p / (K + 1)) * q = c * Real.sqrt p * (q / ((K : ℝ) + 1)) := by ring
  unfold Gap
  push_cast
  rw [mul_sub]
  linarith

/-- A gap means that the visits of the less visited child are in proportion to those of the other, or to the square root
of them. -/
theorem Gap.visits (hc : 0 ≤ c) {q : ℝ} (hq : 0 ≤ q) {K m p : Nat} (hm : 0 < m) (hmp : m ≤ p)
    (h : Gap c ε q K m p) : q * m ≤ 2 * (K + 1) ∨ c * q * Real.sqrt m ≤ (4 + 4 * ε) * (K + 1) := by
  by_cases hcase : q * m ≤ 2 * (K + 1)
  · exact .inl hcase
  · refine .inr ?_
    have hcase := not_le.1 hcase
    have hm' : (0 : ℝ) < m := by exact_mod_cast hm
    have hK : (0 : ℝ) < (K : ℝ) + 1 := by positivity
    have h1 : 1 / (m : ℝ) ≤ q / (K + 1) / 2 := by
      rw [div_div, div_le_div_iff₀ hm' (by positivity)]
      linarith
    have hcp : 0 ≤ c * Real.sqrt p := mul_nonneg hc (Real.sqrt_nonneg _)
    unfold Gap at h
    have h2 : c * Real.sqrt p * (q / (K + 1) / 2) ≤ 2 + 2 * ε :=
      le_trans (mul_le_mul_of_nonneg_left (by linarith) hcp) h
    have h3 : c * q * Real.sqrt p ≤ (4 + 4 * ε) * (K + 1) := by
      rw [show c * Real.sqrt p * (q / ((K : ℝ) + 1) / 2) = c * q * Real.sqrt p / (2 * ((K : ℝ) + 1)) by
        field_simp, div_le_iff₀ (by positivity)] at h2
      linarith
    have h4 : Real.sqrt m ≤ Real.sqrt p := Real.sqrt_le_sqrt (by exact_mod_cast hmp)
    exact le_trans (mul_le_mul_of_nonneg_left h4 (mul_nonneg hc hq)) h3

/-! ## The invariant -/

/-- Sums of values, up to `B` visits. -/
def Scores.Q (S : Scores Fl c ε B) (n : Nat) (x : Fl.F) : Prop := n < B → S.Sum n x

theorem Scores.keeps (S : Scores Fl c ε B) (hB : B ≤ 16777216) : Keeps S.Q S.Value := by
  intro v x r hq hr hv
  have hv' : v < B := by unfold vinc at hv; split at hv <;> omega
  have hv2 : v < 16777216 := by omega
  unfold vinc
  rw [if_pos hv2]
  exact S.add v x r hv' (hq hv') hr

/-- Game `g` after `T` iterations: the `f o` selections of child `o` of the root add up to at least `T`, every selection was
also a visit, and the last one explains a gap to every other child; the root has more visits than its children, whose
priors are in order. -/
structure Followed (S : Scores Fl c ε B) (g T V : Nat) (st : Store G Fl) (rn : Node G Fl) (f : Nat → Nat) : Prop where
  root : st[g]? = some rn
  done : rn.expandable = []
  visits : rn.visits ≤ V
  sum : T ≤ (rn.children.map f).sum
  prior : ∀ o ∈ rn.children, ∀ on : Node G Fl, st[o]? = some on → S.Prior on.policy
  less : ∀ o ∈ rn.children, visitsAt st o < rn.visits
  sel : ∀ o ∈ rn.children, f o ≤ visitsAt st o
  gap : ∀ o ∈ rn.children, ∀ b ∈ rn.children, ∀ bn : Node G Fl, st[b]? = some bn → 0 < f o →
    ∃ p, f o ≤ p ∧ Gap c ε (S.prior bn.policy) bn.visits (f o) p

theorem vincN_add {k v : Nat} (h : v + k < 16777216) : vincN k v = v + k := by
  rw [vincN_eq k v (by omega)]
  omega

theorem countOf_mono {α : Type} {P Q : α → Prop} {l : List α} (h : ∀ x ∈ l, P x → Q x) : countOf P l ≤ countOf Q l := by
  unfold countOf
  refine List.countP_mono_left fun x hx hp => ?_
  simp only [decide_eq_true_eq] at *
  exact h x hx hp

theorem countOf_le {α : Type} {P : α → Prop} {l : List α} : countOf P l ≤ l.length := by
  unfold countOf
  exact List.countP_le_length

theorem sum_update_ge {f : Nat → Nat} {l : List Nat} {s : Nat} (hs : s ∈ l) :
    (l.map f).sum + 1 ≤ (l.map fun o => if o = s then f o + 1 else f o).sum := by
  induction l with
  | nil => simp at hs
  | cons a l ih =>
    rw [List.map_cons, List.map_cons, List.sum_cons, List.sum_cons]
    have hle : (l.map f).sum ≤ (l.map fun o => if o = s then f o + 1 else f o).sum := by
      clear ih hs
      induction l with
      | nil => simp
      | cons b l ih =>
        simp only [List.map_cons, List.sum_cons]
        split <;> omega
    by_cases ha : a = s
    · rw [if_pos ha]; omega
    · rw [if_neg ha]
      rcases List.mem_cons.1 hs with h | h
      · exact absurd h.symm ha
      · have := ih h; omega

open Classical in
theorem Followed.step (S : Scores Fl c ε B) (hB : B ≤ 16777216) (hc : 0 ≤ c) {net : Net Fl} {states : List G.S}
    {order : List Nat} {g T V : Nat} {st st' : Store G Fl} {sel sel' : List Nat} {t t' : Tape} {rn : Node G Fl}
    {f : Nat → Nat} (hf : Forest states st) (hs : SelOk states st sel) (hnd : order.Nodup)
    (ho : ∀ g, g ∈ order ↔ g < states.length) (hg : g < states.length) (hV : V + (states.length + 1) < B)
    (hq : AllQ S.Q st) (x : Followed S g T V st rn f) (hne : rn.children ≠ [])
    (h : parallelIteration net order st sel t = .ok ((st', sel'), t')) :
    ∃ rn' f', Followed S g (T + 1) (V + (states.length + 1)) st' rn' f' ∧ rn'.children = rn.children ∧
      ∀ o ∈ rn.children, ∀ on on' : Node G Fl, st[o]? = some on → st'[o]? = some on' →
        on'.action = on.action ∧ on'.policy = on.policy := by
  obtain ⟨f1, hs1, hup, hlen, hmem, hsel, hvis⟩ := parallelIteration_ok hf hs hnd ho h
  have hkept := parallelIteration_kept hf hs hnd ho h
  obtain ⟨k, kn, hl, hgk, -⟩ := hf.leaf hg
  obtain ⟨rn', e1, e2, e3, e4, e5⟩ := hkept g rn x.root
  obtain ⟨e5, e6⟩ := e5 x.done
  obtain ⟨s, m, hm1, hm2, hm3, hsk⟩ := hl.first hf.wf x.root hne
  -- visits
  have hch : ∀ o ∈ rn.children, Anc st g o := fun o hoc => by
    obtain ⟨cn, h4, h5⟩ := hf.wf.down g rn o x.root hoc
    exact .step h4 h5 .refl
  have hrv : visitsAt st g = rn.visits := by simp [visitsAt, x.root]
  have hrv' : visitsAt st' g = rn'.visits := by simp [visitsAt, e1]
  let add := fun i : Nat => (if G.winner kn.state ≠ none ∧ Anc st i k then 1 else 0) +
    (if ∃ g, g < states.length ∧ ¬ EndsTerminal st g then countOf (fun k => Anc st i k) sel' else 0)
  have hadd : ∀ i, add i ≤ states.length + 1 := by
    intro i
    have h1 : countOf (fun k => Anc st i k) sel' ≤ states.length := by
      rw [← hs1.len]; exact countOf_le
    show _ + _ ≤ _
    split <;> split <;> omega
  have hv : ∀ i, Anc st g i → visitsAt st i ≤ rn.visits → visitsAt st' i = visitsAt st i + add i := by
    intro i hi hle
    rw [hvis g i k kn hg hi hl]
    refine vincN_add ?_
    have := hadd i
    have := x.visits
    show visitsAt st i + add i < _
    omega
  have hmono : ∀ o ∈ rn.children, add o ≤ add g := by
    intro o hoc
    have h1 : ∀ k, Anc st o k → Anc st g k := fun k hk => (hch o hoc).trans hk
    have h2 : countOf (fun k => Anc st o k) sel' ≤ countOf (fun k => Anc st g k) sel' :=
      countOf_mono fun k _ hk => h1 k hk
    show _ + _ ≤ _ + _
    refine Nat.add_le_add ?_ ?_
    · by_cases hw : G.winner kn.state ≠ none ∧ Anc st o k
      · rw [if_pos hw, if_pos ⟨hw.1, h1 k hw.2⟩]
      · rw [if_neg hw]; omega
    · split
      · exact h2
      · exact Nat.le_refl _
  have hpos : 1 ≤ add s := by
    by_cases hw : G.winner kn.state = none
    · have hex : ∃ g, g < states.length ∧ ¬ EndsTerminal st g := by
        refine ⟨g, hg, ?_⟩
        rintro ⟨k', kn', hl', hw'⟩
        obtain ⟨-, rfl⟩ := hl'.unique hl
        exact hw' hw
      have hmem : k ∈ sel' := by
        have := hsel g k kn hg hl
        rw [if_pos hw] at this
        exact List.mem_of_getElem? this
      have := countOf_pos (P := fun k => Anc st s k) hmem hsk
      show 1 ≤ _ + _
      rw [if_pos hex]
      omega
    · show 1 ≤ _ + _
      rw [if_pos ⟨hw, hsk⟩]
      omega
  have hgv : rn'.visits = rn.visits + add g := by rw [← hrv', hv g .refl (by omega), hrv]
  have hcv : ∀ o ∈ rn.children, visitsAt st' o = visitsAt st o + add o := fun o hoc =>
    hv o (hch o hoc) (Nat.le_of_lt (x.less o hoc))
  -- nodes
  have hback : ∀ o ∈ rn.children, ∀ on' : Node G Fl, st'[o]? = some on' → ∃ on : Node G Fl, st[o]? = some on ∧
      on'.action = on.action ∧ on'.policy = on.policy := by
    intro o hoc on' hon'
    obtain ⟨on, h4, -⟩ := hf.wf.down g rn o x.root hoc
    obtain ⟨n', k1, -, k3, k4, -⟩ := hkept o on h4
    rw [hon'] at k1
    cases Option.some.inj k1
    exact ⟨on, h4, k3, k4⟩
  have hvn : ∀ {st : Store G Fl} {o : Nat} {on : Node G Fl}, st[o]? = some on → visitsAt st o = on.visits := by
    intro st o on h
    simp [visitsAt, h]
  have hQ : ∀ o ∈ rn.children, ∀ on : Node G Fl, st[o]? = some on → S.Sum on.visits on.value := by
    intro o hoc on hon
    refine hq.get hon ?_
    have := x.less o hoc
    rw [hvn hon] at this
    have := x.visits
    omega
  have hpB : rn.visits < B := by have := x.visits; omega
  -- the selected child has the highest score
  obtain ⟨s', hs1', hs2', hbest⟩ := selectAlpha_best hf.wf x.root (fun a b => S.val a ≤ S.val b) (fun _ => le_refl _)
    (fun _ _ _ => le_trans) (by
      intro a b an bn ha hb han hbn
      have la := x.less a ha
      have lb := x.less b hb
      rw [hvn han] at la
      rw [hvn hbn] at lb
      have := S.cmp an.visits bn.visits rn.visits an.value bn.value an.policy bn.policy la lb hpB (hQ a ha an han)
        (hQ b hb bn hbn) (x.prior a ha an han) (x.prior b hb bn hbn)
      rw [Ne, this]
      exact ⟨le_of_lt, not_lt.1⟩) hm1
  refine ⟨rn', fun o => if o = s then f o + 1 else f o, ⟨e1, e5, ?_, ?_, ?_, ?_, ?_, ?_⟩, e6, ?_⟩
  · have := hadd g; have := x.visits; omega
  · rw [e6]
    exact le_trans (Nat.add_le_add_right x.sum 1) (sum_update_ge hm2)
  · rw [e6]
    intro o hoc on' hon'
    obtain ⟨on, h1, -, h3⟩ := hback o hoc on' hon'
    rw [h3]
    exact x.prior o hoc on h1
  · rw [e6]
    intro o hoc
    rw [hcv o hoc, hgv]
    have := x.less o hoc
    have := hmono o hoc
    omega
  · rw [e6]
    intro o hoc
    rw [hcv o hoc]
    have := x.sel o hoc
    by_cases hos : o = s
    · rw [if_pos hos, hos]
      rw [hos] at this
      omega
    · rw [if_neg hos]; omega
  · rw [e6]
    intro o hoc b hb bn' hbn' hfo
    obtain ⟨bn, hbn, -, hpol⟩ := hback b hb bn' hbn'
    have hbv : bn.visits ≤ bn'.visits := by
      rw [← hvn hbn, ← hvn hbn', hcv b hb]
      omega
    have hqb := S.range _ (x.prior b hb bn hbn)
    rw [hpol]
    by_cases hos : o = s
    · subst hos
      simp only [if_true]
      have hlo := x.less o hoc
      have hso := x.sel o hoc
      rw [hvn hm3] at hlo hso
      refine ⟨rn.visits, by omega, ?_⟩
      refine Gap.mono hc hqb.1 (m := m.visits + 1) hbv (by omega) (by omega) ?_
      have hlb := x.less b hb
      rw [hvn hbn] at hlb
      obtain ⟨u, hu1, hu2⟩ := S.score bn.visits rn.visits bn.value bn.policy hlb hpB (hQ b hb bn hbn) (x.prior b hb bn hbn)
      obtain ⟨v, hv1, hv2⟩ := S.score m.visits rn.visits m.value m.policy hlo hpB (hQ o hoc m hm3) (x.prior o hoc m hm3)
      refine gap_of_score hc (S.range _ (x.prior o hoc m hm3)).2 hu1 hv1 ?_
      have h1 := (abs_le.1 hu2).1
      have h2 := (abs_le.1 hv2).2
      have h3 := hbest b hb bn hbn
      linarith
    · simp only [if_neg hos] at hfo ⊢
      obtain ⟨p, h1, h2⟩ := x.gap o hoc b hb bn hbn hfo
      exact ⟨p, h1, h2.mono hc hqb.1 hbv hfo (Nat.le_refl _)⟩
  · intro o hoc on on' hon hon'
    obtain ⟨n, h1, h2, h3⟩ := hback o hoc on' hon'
    rw [hon] at h1
    cases Option.some.inj h1
    exact ⟨h2, h3⟩

theorem parallelIterate_followed (S : Scores Fl c ε B) (hB : B ≤ 16777216) (hc : 0 ≤ c) {net : Net Fl}
    (he : ∀ x row, S.Value (net.eval x row)) {states : List G.S}
    {order : List Nat} (hnd : order.Nodup) (ho : ∀ g, g ∈ order ↔ g < states.length) {g : Nat} (hg : g < states.length)
    (k : Nat) {T V : Nat} {st st' : Store G Fl} {sel sel' : List Nat} {t t' : Tape} {rn : Node G Fl} {f : Nat → Nat}
    (hf : Forest states st) (hs : SelOk states st sel) (hV : V + k * (states.length + 1) < B) (hq : AllQ S.Q st)
    (x : Followed S g T V st rn f) (hne : rn.children ≠ [])
    (h : parallelIterate net order k st sel t = .ok ((st', sel'), t')) :
    ∃ V' rn' f', Followed S g (T + k) V' st' rn' f' ∧ rn'.children = rn.children ∧ Forest states st' := by
  induction k generalizing st sel t T V rn f with
  | zero =>
    cases M.pure_ok.1 h
    exact ⟨V, rn, f, x, rfl, hf⟩
  | succ k ih =>
    unfold parallelIterate at h
    obtain ⟨⟨st1, sel1⟩, t1, h1, h2⟩ := M.bind_ok.1 h
    obtain ⟨f1, hs1, -⟩ := parallelIteration_ok hf hs hnd ho h1
    have hVk : V + (states.length + 1) + k * (states.length + 1) < B := by
      rw [Nat.add_mul] at hV; omega
    obtain ⟨rn1, f', x1, e1, -⟩ := x.step S hB hc hf hs hnd ho hg (by omega) hq hne h1
    have hq1 := parallelIteration_q (Q := S.Q) (V := S.Value) (fun _ => S.zero) (S.keeps hB) S.outcomes he hq h1
    obtain ⟨V', rn', f2, x2, e2, f3⟩ := ih f1 hs1 hVk hq1 x1 (by rw [e1]; exact hne) h2
    exact ⟨V', rn', f2, by rw [show T + (k + 1) = T + 1 + k by omega]; exact x2, e2.trans e1, f3⟩

theorem exists_many {f : Nat → Nat} {l : List Nat} {N : Nat} (hl : l ≠ []) (h : N ≤ (l.map f).sum) :
    ∃ o ∈ l, N ≤ l.length * f o := by
  by_contra hno
  have hlt : ∀ o ∈ l, l.length * f o + 1 ≤ N := fun o ho => by
    by_contra hlt
    exact hno ⟨o, ho, by omega⟩
  have hle : ∀ r : List Nat, (∀ o ∈ r, l.length * f o + 1 ≤ N) → l.length * (r.map f).sum + r.length ≤ N * r.length := by
    intro r
    induction r with
    | nil => intro _; simp
    | cons o r ih =>
      intro hr
      have h1 := ih fun q hq => hr q (List.mem_cons_of_mem _ hq)
      have h2 := hr o (List.mem_cons_self ..)
      rw [List.map_cons, List.sum_cons, List.length_cons, Nat.mul_add, Nat.mul_add]
      omega
  have h1 := hle l hlt
  have h2 := Nat.mul_le_mul_left l.length h
  rw [Nat.mul_comm N] at h1
  have h3 := List.length_pos_iff.2 hl
  omega

/-- The priors of the legal moves `ms` of the position are `P`, whatever the batch, the row of the position in it and the
noise. -/
def PriorsAre (P : Fl.F → Prop) (net : Net Fl) (s : G.S) (ms : List G.Mv) : Prop :=
  ∀ codes, ms.mapM (G.encode s) = .ok codes → ∀ x row r, ∀ k ∈ codes,
    P (net.priorBatch (fun c => net.mixTensor (net.policy x row c) (net.noise r c)) codes k)

theorem mapM_mem {α β : Type} {f : α → Res β} {l : List α} {l' : List β} (h : l.mapM f = .ok l') {a : α} (ha : a ∈ l) {b : β}
    (hb : f a = .ok b) : b ∈ l' := by
  induction l generalizing l' with
  | nil => cases ha
  | cons c l ih =>
    rw [List.mapM_cons] at h
    obtain ⟨d, h1, h2⟩ := Res.bind_ok.1 h
    obtain ⟨ds, h3, h4⟩ := Res.bind_ok.1 h2
    have : l' = d :: ds := by simpa [pure, Except.pure] using h4.symm
    subst this
    rcases List.mem_cons.1 ha with rfl | ha
    · rw [hb] at h1
      cases h1
      exact List.mem_cons_self ..
    · exact List.mem_cons_of_mem _ (ih h3 ha)

/-- After `N` iterations every legal move of a searched position has a child whose prior `q` and visits `K` satisfy
`q N ≤ 2 d (K + 1)` or `c q √(N / d) ≤ (4 + 4 ε) (K + 1)`, where `d` is the number of legal moves. -/
theorem followed_visits (S : Scores Fl c ε B) (hB : B ≤ 16777216) (hc : 0 ≤ c) {net : Net Fl}
    (he : ∀ x row, S.Value (net.eval x row))
    {states : List G.S} {order : List Nat} (ho : order.Perm (List.range states.length)) {iterations : Nat}
    (hN : 1 + iterations * (states.length + 1) < B) {st st' : Store G Fl} {t t' : Tape}
    (h : alphaMctsParallel net order states iterations st t = .ok (st', t')) {g : Nat} {s : G.S}
    (hg : states[g]? = some s) {ms : List G.Mv} (hm : G.moves s = .ok ms)
    (hp : PriorsAre S.Prior net s ms) {a : G.Mv} (ha : a ∈ ms) :
    ∃ (rn n : Node G Fl) (i : Nat), st'[g]? = some rn ∧ i ∈ rn.children ∧ st'[i]? = some n ∧ n.action = some a ∧
      S.Prior n.policy ∧
      (S.prior n.policy * iterations ≤ 2 * ms.length * (n.visits + 1) ∨
        c * S.prior n.policy * Real.sqrt ((iterations : ℝ) / ms.length) ≤ (4 + 4 * ε) * (n.visits + 1)) := by
  unfold alphaMctsParallel at h
  obtain ⟨st1, t1, h1, h⟩ := M.bind_ok.1 h
  obtain ⟨⟨st2, sel2⟩, t2, h2, h⟩ := M.bind_ok.1 h
  cases M.pure_ok.1 h
  obtain ⟨f, hone⟩ := parallelStart_ok h1
  have hd := parallelStart_done h1
  have hgl : g < states.length := (List.getElem?_eq_some_iff.1 hg).1
  obtain ⟨n0, hn0, hns0⟩ := f.state g s hg
  obtain ⟨ms0, hm0, hp0⟩ := f.wf.part g n0 hn0
  rw [hd g hgl n0 hn0, List.nil_append] at hp0
  rw [hns0, hm] at hm0
  cases Except.ok.inj hm0
  have hstart := parallelStart_q h1
  have hv0 : n0.visits = 1 := by
    have := hone g hgl
    simpa [visitsAt, hn0] using this
  have hcl : (childActions st1 n0).length = n0.children.length := childActions_length f.wf hn0
  have hlen : n0.children.length = ms.length := by rw [← hcl]; exact hp0.length_eq
  have hdpos : 0 < ms.length := List.length_pos_of_mem ha
  have hne : n0.children ≠ [] := by
    intro h0; rw [h0] at hlen; simp at hlen; omega
  have hst0 : st = [] := by
    unfold parallelStart at h1
    obtain ⟨u, t1, h1, -⟩ := M.bind_ok.1 h1
    rw [M.lift_ok] at h1
    have h1 := h1.1
    unfold assert at h1
    split at h1
    · rename_i he; simpa using he
    · cases h1
  subst hst0
  obtain ⟨ts, x, r, -, -, hroot⟩ := root_priors (iterations := 0) ho (M.bind_ok.2 ⟨_, _, h1, rfl⟩)
  obtain ⟨n0', ms', codes, hr1, hr2, hr3, hr4, hr5⟩ := hroot g s hg
  rw [hn0] at hr1
  cases Option.some.inj hr1
  rw [hm] at hr3
  cases Except.ok.inj hr3
  have x0 : Followed S g 0 1 st1 n0 (fun _ => 0) := by
    refine ⟨hn0, hd g hgl n0 hn0, by omega, Nat.zero_le _, ?_, ?_, fun _ _ => Nat.zero_le _, ?_⟩
    · intro o hoc on hon
      obtain ⟨cn, h4, h5⟩ := f.wf.down g n0 o hn0 hoc
      rw [hon] at h4
      cases Option.some.inj h4
      obtain ⟨m, a', code, q1, q2, q3, q4⟩ := hr5 o hoc
      rw [hon] at q1
      cases Option.some.inj q1
      rw [q4]
      refine hp codes hr4 x g r code (mapM_mem hr4 ?_ q3)
      refine hp0.mem_iff.1 (List.mem_filterMap.2 ⟨o, hoc, ?_⟩)
      rw [hon]
      exact q2
    · intro o hoc
      obtain ⟨cn, h4, h5⟩ := f.wf.down g n0 o hn0 hoc
      have := (parallelStart_prior (P := fun _ => True) (fun _ _ _ _ _ => trivial) h1 cn (List.mem_of_getElem? h4) (by rw [h5]; simp)).2
      simp [visitsAt, h4, this, hv0]
    · intro o _ b _ bn _ h0
      exact absurd h0 (Nat.lt_irrefl _)
  have hq0 : AllQ S.Q st1 := by
    intro n hn hB
    obtain ⟨h3, h4⟩ := hstart n hn
    rw [h4]
    have : n.visits = 0 ∨ n.visits = 1 := by omega
    rcases this with h5 | h5
    · rw [h5]; exact S.zero
    · rw [h5]; exact S.one
  obtain ⟨V', rn, fs, x, hch, f'⟩ := parallelIterate_followed S hB hc he (perm_range ho).1 (perm_range ho).2 hgl iterations
    f (selOk_replicate f) hN hq0 x0 hne h2
  rw [Nat.zero_add] at x
  -- the child of the move
  obtain ⟨n, hn, hns⟩ := f'.state g s hg
  obtain ⟨ms1, hm1, hp1⟩ := f'.wf.part g n hn
  rw [x.root] at hn
  cases Option.some.inj hn
  rw [hns, hm] at hm1
  cases Except.ok.inj hm1
  rw [x.done, List.nil_append] at hp1
  obtain ⟨i, hi, hia⟩ := List.mem_filterMap.1 (hp1.mem_iff.2 ha)
  obtain ⟨b, hb, -⟩ := f'.wf.down g rn i x.root hi
  rw [hb] at hia
  refine ⟨rn, b, i, x.root, hi, hb, hia, x.prior i hi b hb, ?_⟩
  have hrange := S.range _ (x.prior i hi b hb)
  obtain ⟨o, hoc, hov⟩ := exists_many (by rw [hch]; exact hne) x.sum
  rw [hch, hlen] at hov
  have hd' : (0 : ℝ) < ms.length := by exact_mod_cast hdpos
  have hov' : (iterations : ℝ) ≤ ms.length * fs o := by exact_mod_cast hov
  by_cases h0 : fs o = 0
  · left
    rw [h0] at hov'
    have : (iterations : ℝ) = 0 := le_antisymm (by simpa using hov') (Nat.cast_nonneg _)
    rw [this, mul_zero]
    positivity
  · obtain ⟨p, hp1, hgap⟩ := x.gap o hoc i hi b hb (by omega)
    rcases hgap.visits hc hrange.1 (by omega) hp1 with hv | hv
    · left
      have h3 : S.prior b.policy * iterations ≤ S.prior b.policy * (ms.length * fs o) :=
        mul_le_mul_of_nonneg_left hov' hrange.1
      have h4 := mul_le_mul_of_nonneg_left hv hd'.le
      linarith
    · right
      refine le_trans (mul_le_mul_of_nonneg_left (Real.sqrt_le_sqrt ?_) (mul_nonneg hc hrange.1)) hv
      rw [div_le_iff₀ hd']
      linarith

/-! ## C103 -/

/-- Between -1 and 1. -/
def Mean (x : ℝ) : Prop := |x| ≤ 1

/-- Between 0 and 1. -/
def Share (x : ℝ) : Prop := 0 ≤ x ∧ x ≤ 1

/-- The real formulas satisfy the assumptions, for every exploration constant and all priors between 0 and 1. -/
noncomputable def realScores (c : ℝ) (B : Nat) (P : ℝ → Prop) (hP : ∀ q, P q → Share q) : Scores (realFloats c) c 0 B where
  Sum := fun n (x : ℝ) => |x| ≤ n
  Value := Mean
  Prior := P
  val := fun x => x
  prior := fun q => q
  zero := by simp [realFloats]
  one := by simp [realFloats]
  add := by
    intro n (x : ℝ) (v : ℝ) _ hx hv
    show |x + v| ≤ ((n + 1 : Nat) : ℝ)
    have := abs_add_le x v
    have hv : |v| ≤ 1 := hv
    push_cast
    linarith
  outcomes := by
    refine ⟨?_, ?_, ?_⟩ <;> simp [realFloats, Mean]
  range := fun q h => hP q h
  cmp := by
    intro n m p v w q r _ _ _ _ _ _ _
    show (@ite Ordering (_ < _) (Classical.propDecidable _) .gt .lt) = .gt ↔ _
    split
    case isTrue h => exact ⟨fun _ => h, fun _ => rfl⟩
    case isFalse h => exact ⟨(fun h' => by cases h'), fun h' => absurd h' h⟩
  score := by
    intro n p (v : ℝ) q _ _ hv _
    refine ⟨if n = 0 then 0 else v / n, ?_, ?_⟩
    · split
      · simp
      · rename_i hn
        have hn' : (0 : ℝ) < n := by exact_mod_cast Nat.pos_of_ne_zero hn
        rw [abs_div, abs_of_pos hn', div_le_one hn']
        exact hv
    · show |((if n = 0 then (0 : ℝ) else v / n) + _) - (_ + _)| ≤ 0
      rw [sub_self, abs_zero]

/-- C103: in a batched search with network values between -1 and 1, if the priors of the legal moves of a searched position
are between 0 and 1, after `N` iterations every
legal move of every searched position has a child whose prior `q` and visits `K` satisfy `q N ≤ 2 d (K + 1)` or
`c q √(N / d) ≤ 4 (K + 1)`, where `d` is the number of legal moves: whatever the network says, no move with a positive
prior is abandoned. -/
theorem C103 {c : ℝ} (hc : 0 ≤ c) {net : Net (realFloats c)} (he : ∀ x row, Mean (net.eval x row))
    {states : List G.S} {order : List Nat} (ho : order.Perm (List.range states.length)) {iterations : Nat}
    (hN : 1 + iterations * (states.length + 1) < 2 ^ 24) {st st' : Store G (realFloats c)} {t t' : Tape}
    (h : alphaMctsParallel net order states iterations st t = .ok (st', t')) {g : Nat} {s : G.S}
    (hg : states[g]? = some s) {ms : List G.Mv} (hm : G.moves s = .ok ms) (hp : PriorsAre Share net s ms) {a : G.Mv}
    (ha : a ∈ ms) :
    ∃ (rn n : Node G (realFloats c)) (i : Nat) (q : ℝ), st'[g]? = some rn ∧ i ∈ rn.children ∧ st'[i]? = some n ∧
      n.action = some a ∧ n.policy = q ∧
      (q * iterations ≤ 2 * ms.length * (n.visits + 1) ∨
        c * q * Real.sqrt ((iterations : ℝ) / ms.length) ≤ 4 * (n.visits + 1)) := by
  obtain ⟨rn, n, i, h1, h2, h3, h4, -, h6⟩ := followed_visits (realScores c 16777216 Share fun _ h => h) (Nat.le_refl _) hc
    he ho hN h hg hm hp ha
  refine ⟨rn, n, i, n.policy, h1, h2, h3, h4, rfl, ?_⟩
  rw [mul_zero, add_zero] at h6
  exact h6

/-- C103 for priors with a positive lower bound `b`: as `N` grows, every move is visited as often as wanted. -/
theorem C103_unbounded {c b : ℝ} (hc : 0 < c) (hb : 0 < b) {net : Net (realFloats c)} (he : ∀ x row, Mean (net.eval x row))
    {states : List G.S} {order : List Nat} (ho : order.Perm (List.range states.length)) {iterations K d : Nat}
    (hd : 0 < d) (hN1 : 2 * d * (K + 1) < b * iterations) (hN2 : d * (4 * (K + 1) / (c * b)) ^ 2 < iterations)
    (hN : 1 + iterations * (states.length + 1) < 2 ^ 24) {st st' : Store G (realFloats c)} {t t' : Tape}
    (h : alphaMctsParallel net order states iterations st t = .ok (st', t')) {g : Nat} {s : G.S}
    (hg : states[g]? = some s) {ms : List G.Mv} (hm : G.moves s = .ok ms) (hms : ms.length ≤ d)
    (hp : PriorsAre (fun q : ℝ => b ≤ q ∧ Share q) net s ms) {a : G.Mv} (ha : a ∈ ms) :
    ∃ (rn n : Node G (realFloats c)) (i : Nat), st'[g]? = some rn ∧ i ∈ rn.children ∧ st'[i]? = some n ∧
      n.action = some a ∧ K < n.visits := by
  obtain ⟨rn, n, i, h1, h2, h3, h4, h5, h6⟩ := followed_visits
    (realScores c 16777216 (fun q => b ≤ q ∧ Share q) fun _ h => h.2) (Nat.le_refl _) hc.le he ho hN h hg hm hp ha
  refine ⟨rn, n, i, h1, h2, h3, h4, ?_⟩
  by_contra hlt
  have hK : (n.visits : ℝ) ≤ K := by exact_mod_cast not_lt.1 hlt
  have hq : b ≤ (realScores c 16777216 (fun q => b ≤ q ∧ Share q) fun _ h => h.2).prior n.policy := h5.1
  generalize (realScores c 16777216 (fun q => b ≤ q ∧ Share q) fun _ h => h.2).prior n.policy = q at hq h6
  have hms' : (ms.length : ℝ) ≤ d := by exact_mod_cast hms
  have hms0 : (0 : ℝ) < ms.length := by exact_mod_cast List.length_pos_of_mem ha
  have hd' : (0 : ℝ) < d := by exact_mod_cast hd
  have hN0 : (0 : ℝ) ≤ iterations := Nat.cast_nonneg _
  rcases h6 with h6 | h6
  · have e1 : b * iterations ≤ q * iterations := mul_le_mul_of_nonneg_right hq hN0
    have e2 : 2 * (ms.length : ℝ) * (n.visits + 1) ≤ 2 * d * (K + 1) := by
      refine mul_le_mul (by linarith) (by linarith) (by positivity) (by positivity)
    linarith
  · have hcb : 0 < c * b := mul_pos hc hb
    have e1 : c * b * Real.sqrt ((iterations : ℝ) / ms.length) ≤ 4 * (K + 1) := by
      refine le_trans (mul_le_mul_of_nonneg_right (mul_le_mul_of_nonneg_left hq hc.le) (Real.sqrt_nonneg _)) ?_
      linarith
    have e2 : Real.sqrt ((iterations : ℝ) / ms.length) ≤ 4 * (K + 1) / (c * b) := by
      rw [le_div_iff₀ hcb]
      linarith
    have e3 := (Real.sqrt_le_left (by positivity)).1 e2
    rw [div_le_iff₀ hms0] at e3
    have e4 : (4 * ((K : ℝ) + 1) / (c * b)) ^ 2 * ms.length ≤ (4 * (K + 1) / (c * b)) ^ 2 * d :=
      mul_le_mul_of_nonneg_left hms' (by positivity)
    linarith

/-- A network which thinks that everything is lost, with the same prior for every move. -/
noncomputable def lostNet : Net (realFloats 2) where
  policy := fun _ _ _ => (1 : ℝ)
  eval := fun _ _ => (-1 : ℝ)
  priorBatch := fun _ _ _ => (1 / 9 : ℝ)
  priorTensor := fun _ _ _ => (1 / 9 : ℝ)
  priorVec := fun _ _ _ => (1 / 9 : ℝ)
  noise := fun _ _ => (1 / 9 : ℝ)
  mixTensor := fun p n : ℝ => (p + n) / 2
  mixChild := fun p n : ℝ => (p + n) / 2
  alphaOk := true

/-- The hypotheses are met: TicTacToe from the start, in a batch with a position about to end, exploration constant 2, for
every random stream.  After 810000 iterations each of the nine moves has been visited more than 15 times. -/
example (t : Tape) : ∃ st t', alphaMctsParallel (G := TTT.game .debug) lostNet [1, 0] demoBatch 810000 [] t = .ok (st, t') ∧
    ∀ a : Nat, a ∈ TTT.getValidMoves TTT.new → ∃ (rn n : Node (TTT.game .debug) (realFloats 2)) (i : Nat), st[1]? = some rn ∧
      i ∈ rn.children ∧ st[i]? = some n ∧ n.action = some a ∧ 15 < n.visits := by
  have ho : [1, 0].Perm (List.range demoBatch.length) := by decide
  obtain ⟨st, t', h, -⟩ := alphaMctsParallel_progress (Fl := realFloats 2) (ttt_safeNet .debug) (net := lostNet) rfl
    (states := demoBatch) (List.cons_ne_nil _ _)
    (show ∀ s ∈ demoBatch, TTT.State.player s = 1 ∨ TTT.State.player s = -1 by simp [demoBatch, lastTTT, TTT.new]) ho 810000 t
  refine ⟨st, t', h, fun a ha => ?_⟩
  refine C103_unbounded (c := 2) (b := 1 / 9) (d := 9) (by norm_num) (by norm_num) ?_ ho (by norm_num) (by norm_num) (by norm_num) ?_ h
    (g := 1) (s := TTT.new) rfl (ms := TTT.getValidMoves TTT.new) rfl ?_ ?_ ha
  · intro x row
    show |(-1 : ℝ)| ≤ 1
    norm_num
  · show 1 + 810000 * (2 + 1) < 2 ^ 24
    norm_num
  · show (TTT.getValidMoves TTT.new).length ≤ 9
    decide
  · intro codes _ x row r k _
    show (1 / 9 : ℝ) ≤ 1 / 9 ∧ (0 : ℝ) ≤ 1 / 9 ∧ (1 / 9 : ℝ) ≤ 1
    norm_num

end DieE.Props.Pu
