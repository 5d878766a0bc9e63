import Verif.Mcts.BatchWon
import Verif.Props.Puct

/-!
# C116: how the batched search treats a move that wins at once

A child of the root in which the searching player has won gets 1 recorded whenever it is selected, and nothing else, in
every batch.  So its mean is 1, and another child is only preferred to it if its prior is larger in proportion to its
visits.
-/

namespace DieE.Props.Gr
open DieE DieE.Mcts DieE.Props.S DieE.Props.A DieE.Props.Wn DieE.Props.Pu
variable {G : Game} {c κ L q : ℝ}

/-- The mean and the score of a node, as real numbers. -/
noncomputable def mean (x : ℝ) (n : Nat) : ℝ := if n = 0 then 0 else x / n

/-- The number a value stands for. -/
def real (x : (realFloats c).F) : ℝ := x

theorem score_eq (x : (realFloats c).F) (n : Nat) (q : (realFloats c).F) (p : Nat) :
    real ((realFloats c).alphaUcb x n q p) = mean (real x) n + c * (Real.sqrt p / (n + 1)) * real q := rfl

theorem mean_le {x : ℝ} {n : Nat} (h : |x| ≤ n) : mean x n ≤ 1 := by
  unfold mean
  split
  · norm_num
  · rename_i hn
    have hn' : (0 : ℝ) < n := by exact_mod_cast Nat.pos_of_ne_zero hn
    rw [div_le_one hn']
    exact le_trans (le_abs_self x) h

theorem mean_lt {x : ℝ} {n : Nat} (h : 0 < n → x < n) : mean x n < 1 := by
  unfold mean
  split
  · norm_num
  · rename_i hn
    have hn' : (0 : ℝ) < n := by exact_mod_cast Nat.pos_of_ne_zero hn
    rw [div_lt_one hn']
    exact h (Nat.pos_of_ne_zero hn)

/-- A child preferred to an unvisited winning child has few visits. -/
theorem unvisited (hc : 0 ≤ c) (hκ : 1 ≤ κ) (hM : 2 * κ ≤ L) (hq : 4 ≤ L * (c * q) ^ 2) (hq0 : 0 ≤ q) {x r : ℝ} {n p : Nat} (hx : x ≤ 1)
    (hr : r ≤ κ * q) (hnp : n < p) (h : c * (Real.sqrt p / 1) * q ≤ x + c * (Real.sqrt p / (n + 1)) * r) :
    ((n + 1 : Nat) : ℝ) ≤ L := by
  push_cast
  by_cases hn : (n : ℝ) + 1 ≤ 2 * κ
  · linarith
  · have hn := not_le.1 hn
    have hcp : 0 ≤ c * Real.sqrt p := mul_nonneg hc (Real.sqrt_nonneg _)
    have hn1 : (0 : ℝ) < (n : ℝ) + 1 := by positivity
    have h1 : c * (Real.sqrt p / (n + 1)) * r ≤ c * Real.sqrt p * q / 2 := by
      have e1 : c * (Real.sqrt p / ((n : ℝ) + 1)) * r = c * Real.sqrt p * (r / (n + 1)) := by ring
      have e2 : r / ((n : ℝ) + 1) ≤ q / 2 := by
        rw [div_le_div_iff₀ hn1 (by norm_num)]
        nlinarith
      rw [e1]
      calc c * Real.sqrt p * (r / (n + 1)) ≤ c * Real.sqrt p * (q / 2) := mul_le_mul_of_nonneg_left e2 hcp
        _ = _ := by ring
    have h2 : c * q * Real.sqrt p ≤ 2 := by
      rw [div_one] at h
      nlinarith
    have h3 : (c * q) ^ 2 * p ≤ 4 := by
      have h4 : (c * q * Real.sqrt p) ^ 2 ≤ 2 ^ 2 := by
        refine pow_le_pow_left₀ (mul_nonneg (mul_nonneg hc hq0) (Real.sqrt_nonneg _)) h2 2
      rw [mul_pow, Real.sq_sqrt (Nat.cast_nonneg _)] at h4
      linarith
    have hpos : 0 < (c * q) ^ 2 := by
      rcases (sq_nonneg (c * q)).lt_or_eq with h | h
      · exact h
      · rw [← h] at hq
        linarith
    have h5 : (p : ℝ) ≤ L := by
      by_contra hlt
      have := mul_lt_mul_of_pos_right (not_le.1 hlt) hpos
      linarith
    have h6 : (n : ℝ) + 1 ≤ p := by exact_mod_cast hnp
    linarith

/-- A child preferred to a visited winning child has not many more visits. -/
theorem visited (hc : 0 ≤ c) (hκ : 1 ≤ κ) (hq : 4 ≤ L * (c * q) ^ 2) (hq0 : 0 ≤ q) {x r : ℝ} {n m p : Nat} (hp : 0 < p)
    (hr : r ≤ κ * q) (h : 1 + c * (Real.sqrt p / (m + 1)) * q ≤ x + c * (Real.sqrt p / (n + 1)) * r) :
    (x ≤ 1 → ((n + 1 : Nat) : ℝ) ≤ κ * (m + 1)) ∧ (x < 1 → ((n + 1 : Nat) : ℝ) < κ * (m + 1)) := by
  have hcq : c * q ≠ 0 := by
    intro h0
    rw [h0] at hq
    norm_num at hq
  have hc' : 0 < c := lt_of_le_of_ne hc fun h0 => hcq (by rw [← h0, zero_mul])
  have hq' : 0 < q := lt_of_le_of_ne hq0 fun h0 => hcq (by rw [← h0, mul_zero])
  have hsp : 0 < Real.sqrt p := Real.sqrt_pos.2 (by exact_mod_cast hp)
  have hcp : 0 < c * Real.sqrt p := mul_pos hc' hsp
  have hn1 : (0 : ℝ) < (n : ℝ) + 1 := by positivity
  have hm1 : (0 : ℝ) < (m : ℝ) + 1 := by positivity
  have e1 : c * (Real.sqrt p / ((n : ℝ) + 1)) * r ≤ c * Real.sqrt p * (κ * q / (n + 1)) := by
    rw [show c * (Real.sqrt p / ((n : ℝ) + 1)) * r = c * Real.sqrt p * (r / (n + 1)) by ring]
    exact mul_le_mul_of_nonneg_left (div_le_div_of_nonneg_right hr hn1.le) hcp.le
  have e2 : c * (Real.sqrt p / ((m : ℝ) + 1)) * q = c * Real.sqrt p * (q / (m + 1)) := by ring
  rw [e2] at h
  push_cast
  constructor
  · intro hx
    have h1 : c * Real.sqrt p * (q / (m + 1)) ≤ c * Real.sqrt p * (κ * q / (n + 1)) := by linarith
    have h2 := le_of_mul_le_mul_left h1 hcp
    rw [div_le_div_iff₀ hm1 hn1] at h2
    have h3 : q * ((n : ℝ) + 1) ≤ q * (κ * (m + 1)) := by linarith
    exact le_of_mul_le_mul_left h3 hq'
  · intro hx
    have h1 : c * Real.sqrt p * (q / (m + 1)) < c * Real.sqrt p * (κ * q / (n + 1)) := by linarith
    have h2 := lt_of_mul_lt_mul_left h1 hcp.le
    rw [div_lt_div_iff₀ hm1 hn1] at h2
    have h3 : q * ((n : ℝ) + 1) < q * (κ * (m + 1)) := by linarith
    exact lt_of_mul_lt_mul_left h3 hq'.le

/-! ## The invariant -/

/-- Below the number of visits. -/
def Below (n : Nat) (x : (realFloats c).F) : Prop := n < 16777216 → real x < n

/-- A value below 1, and not below -1. -/
def Doubt (x : (realFloats c).F) : Prop := -1 ≤ real x ∧ real x < 1

theorem below_keeps : KeepsF (Fl := realFloats c) Below (fun x => Mean (real x)) Doubt where
  first := by
    intro r hr _
    show ((0 : Int) : ℝ) + real r < ((1 : Nat) : ℝ)
    have := hr.2
    norm_num
    exact this
  later := by
    intro v x r h0 hx hr hv
    have hv' : v < 16777216 := by unfold vinc at hv; split at hv <;> omega
    have hx := hx hv'
    have hr := (abs_le.1 hr).2
    show real x + real r < ((vinc v : Nat) : ℝ)
    unfold vinc
    rw [if_pos hv']
    push_cast
    linarith
  sub := fun r hr => abs_le.2 ⟨hr.1, hr.2.le⟩

/-- Game `g` after `T` iterations: the `f o` selections of child `o` of the root add up to at least `T`; a finished child was
visited only when it was selected, and has the result of its position as its mean; the selections of the others are few,
or in proportion to those of the winning child `w`. -/
structure Grab (c κ L q : ℝ) (single : Prop) (player : Int) (g T V w : Nat) (st : Store G (realFloats c)) (sel : List Nat)
    (rn : Node G (realFloats c)) (f : Nat → Nat) : Prop where
  root : st[g]? = some rn
  done : rn.expandable = []
  visits : rn.visits ≤ V
  sum : T ≤ (rn.children.map f).sum
  less : ∀ o ∈ rn.children, visitsAt st o < rn.visits
  taken : ∀ o ∈ rn.children, f o ≤ visitsAt st o
  only : single → ∀ o ∈ rn.children, f o = visitsAt st o
  final : ∀ o ∈ rn.children, ∀ (on : Node G (realFloats c)) (z : Int), st[o]? = some on → G.winner on.state = some z →
    on.children = [] ∧ o ∉ sel ∧ real on.value = on.visits * (outcome z player : ℝ) ∧ f o = on.visits
  mem : w ∈ rn.children
  win : ∃ wn : Node G (realFloats c), st[w]? = some wn ∧ G.winner wn.state = some player ∧ real wn.policy = q
  prior : ∀ o ∈ rn.children, ∀ on : Node G (realFloats c), st[o]? = some on → real on.policy ≤ κ * q
  weak : ∀ o ∈ rn.children, (f o : ℝ) ≤ L ∨ (f o : ℝ) ≤ κ * (visitsAt st w + 1)
  strong : ∀ o ∈ rn.children, ∀ on : Node G (realFloats c), st[o]? = some on → G.winner on.state ≠ some player →
    (f o : ℝ) ≤ L ∨ (f o : ℝ) < κ * (visitsAt st w + 1)

theorem cmp_real (a b : (realFloats c).F) : ((realFloats c).cmp a b = .gt → real b ≤ real a) ∧
    ((realFloats c).cmp a b ≠ .gt → real a ≤ real b) := by
  show ((@ite Ordering (real b < real a) (Classical.propDecidable _) .gt .lt) = .gt → _) ∧
    ((@ite Ordering (real b < real a) (Classical.propDecidable _) .gt .lt) ≠ .gt → _)
  split
  case isTrue h => exact ⟨fun _ => h.le, fun h' => absurd rfl h'⟩
  case isFalse h => exact ⟨(fun h' => by cases h'), fun _ => not_lt.1 h⟩

theorem outcome_win (p : Int) : outcome p p = 1 := by unfold outcome; rw [if_pos rfl]

theorem outcome_other {z p : Int} (h : z ≠ p) : outcome z p ≤ 0 := by
  unfold outcome
  rw [if_neg h]
  split <;> omega

open Classical in
theorem Grab.step (hc : 0 ≤ c) (hκ : 1 ≤ κ) (hM : 2 * κ ≤ L) (hq : 4 ≤ L * (c * q) ^ 2) (hq0 : 0 ≤ q)
    {net : Net (realFloats c)} {states : List G.S} {s0 : G.S}
    {order : List Nat} {g T V w : Nat} {st st' : Store G (realFloats c)} {sel sel' : List Nat} {t t' : Tape}
    {rn : Node G (realFloats c)}
    {f : Nat → Nat} (hf : Forest states st) (hs : SelOk states st sel) (hnd : order.Nodup)
    (ho : ∀ g, g ∈ order ↔ g < states.length) (hg : states[g]? = some s0) (hV : V + (states.length + 1) < 16777216)
    (hQ : AllQ (realScores c 16777216 (fun _ => False) (fun _ h => h.elim)).Q st)
    (hF : AllF (Fl := realFloats c) Below st)
    (x : Grab c κ L q (states.length = 1) (G.player s0) g T V w st sel rn f)
    (h : parallelIteration net order st sel t = .ok ((st', sel'), t')) :
    ∃ rn' f', Grab c κ L q (states.length = 1) (G.player s0) g (T + 1) (V + (states.length + 1)) w st' sel' rn' f' ∧
      rn'.children = rn.children := by
  obtain ⟨f1, hs1, hup, hlen, hmem, hsel, hvis⟩ := parallelIteration_ok hf hs hnd ho h
  have hkept := parallelIteration_kept hf hs hnd ho h
  have hgl : g < states.length := (List.getElem?_eq_some_iff.1 hg).1
  obtain ⟨k, kn, hl, hgk, -⟩ := hf.leaf hgl
  obtain ⟨rn', e1, e2, e3, e4, e5⟩ := hkept g rn x.root
  obtain ⟨e5, e6⟩ := e5 x.done
  have hne : rn.children ≠ [] := List.ne_nil_of_mem x.mem
  obtain ⟨s, m, hm1, hm2, hm3, hsk⟩ := hl.first hf.wf x.root hne
  have hvn : ∀ {st : Store G (realFloats c)} {o : Nat} {on : Node G (realFloats c)}, st[o]? = some on →
      visitsAt st o = on.visits := by
    intro st o on h
    simp [visitsAt, h]
  have hch : ∀ o ∈ rn.children, Anc st g o := fun o hoc => by
    obtain ⟨cn, h4, h5⟩ := hf.wf.down g rn o x.root hoc
    exact .step h4 h5 .refl
  have hsib : ∀ o ∈ rn.children, (Anc st o k ↔ o = s) := fun o hoc =>
    ⟨fun ha => anc_sibling hf.wf x.root hoc hm2 ha hsk, fun he => he ▸ hsk⟩
  -- visits
  have hrv : visitsAt st g = rn.visits := hvn x.root
  have hrv' : visitsAt st' g = rn'.visits := hvn e1
  let add := fun i : Nat => (if G.winner kn.state ≠ none ∧ Anc st i k then 1 else 0) +
    (if ∃ g, g < states.length ∧ ¬ EndsTerminal st g then countOf (fun k => Anc st i k) sel' else 0)
  have hadd : ∀ i, add i ≤ states.length + 1 := by
    intro i
    have h1 : countOf (fun k => Anc st i k) sel' ≤ states.length := by
      rw [← hs1.len]; exact countOf_le
    show _ + _ ≤ _
    split <;> split <;> omega
  have hv : ∀ i, Anc st g i → visitsAt st i ≤ rn.visits → visitsAt st' i = visitsAt st i + add i := by
    intro i hi hle
    rw [hvis g i k kn hgl hi hl]
    refine vincN_add ?_
    have := hadd i
    have := x.visits
    show visitsAt st i + add i < _
    omega
  have hmono : ∀ o ∈ rn.children, add o ≤ add g := by
    intro o hoc
    have h1 : ∀ k, Anc st o k → Anc st g k := fun k hk => (hch o hoc).trans hk
    have h2 : countOf (fun k => Anc st o k) sel' ≤ countOf (fun k => Anc st g k) sel' :=
      countOf_mono fun k _ hk => h1 k hk
    show _ + _ ≤ _ + _
    refine Nat.add_le_add ?_ ?_
    · by_cases hw : G.winner kn.state ≠ none ∧ Anc st o k
      · rw [if_pos hw, if_pos ⟨hw.1, h1 k hw.2⟩]
      · rw [if_neg hw]; omega
    · split
      · exact h2
      · exact Nat.le_refl _
  have hpos : 1 ≤ add s := by
    by_cases hw : G.winner kn.state = none
    · have hex : ∃ g, g < states.length ∧ ¬ EndsTerminal st g := by
        refine ⟨g, hgl, ?_⟩
        rintro ⟨k', kn', hl', hw'⟩
        obtain ⟨-, rfl⟩ := hl'.unique hl
        exact hw' hw
      have hmem : k ∈ sel' := by
        have := hsel g k kn hgl hl
        rw [if_pos hw] at this
        exact List.mem_of_getElem? this
      have := countOf_pos (P := fun k => Anc st s k) hmem hsk
      show 1 ≤ _ + _
      rw [if_pos hex]
      omega
    · show 1 ≤ _ + _
      rw [if_pos ⟨hw, hsk⟩]
      omega
  have hgv : rn'.visits = rn.visits + add g := by rw [← hrv', hv g .refl (by omega), hrv]
  have hcv : ∀ o ∈ rn.children, visitsAt st' o = visitsAt st o + add o := fun o hoc =>
    hv o (hch o hoc) (Nat.le_of_lt (x.less o hoc))
  have honly : states.length = 1 → ∀ o ∈ rn.children, add o = if o = s then 1 else 0 := by
    intro h1 o hoc
    obtain ⟨y, hy⟩ : ∃ y, sel' = [y] := List.length_eq_one_iff.1 (hs1.len.trans h1)
    have hg0 : g = 0 := by omega
    subst hg0
    show _ + _ = _
    by_cases hw : G.winner kn.state = none
    · have hex : ∃ g, g < states.length ∧ ¬ EndsTerminal st g := by
        refine ⟨0, hgl, ?_⟩
        rintro ⟨k', kn', hl', hw'⟩
        obtain ⟨-, rfl⟩ := hl'.unique hl
        exact hw' hw
      have hyk := hsel 0 k kn hgl hl
      rw [if_pos hw, hy] at hyk
      cases Option.some.inj hyk
      rw [if_neg (fun h => h.1 hw), if_pos hex, hy, countOf_cons]
      simp only [countOf, List.countP_nil, Nat.zero_add]
      by_cases hos : o = s
      · rw [if_pos hos, if_pos ((hsib o hoc).2 hos)]
      · rw [if_neg hos, if_neg fun ha => hos ((hsib o hoc).1 ha)]
    · have hex : ¬ ∃ g, g < states.length ∧ ¬ EndsTerminal st g := by
        rintro ⟨g', hg', hn⟩
        have : g' = 0 := by omega
        subst this
        exact hn ⟨k, kn, hl, hw⟩
      rw [if_neg hex]
      by_cases hos : o = s
      · rw [if_pos hos, if_pos ⟨hw, (hsib o hoc).2 hos⟩]
      · rw [if_neg hos, if_neg fun ha => hos ((hsib o hoc).1 ha.2)]
  -- nodes
  have hback : ∀ o ∈ rn.children, ∀ on' : Node G (realFloats c), st'[o]? = some on' → ∃ on : Node G (realFloats c),
      st[o]? = some on ∧ on'.state = on.state ∧ on'.policy = on.policy := by
    intro o hoc on' hon'
    obtain ⟨on, h4, -⟩ := hf.wf.down g rn o x.root hoc
    obtain ⟨n', k1, -, k3, k4, -⟩ := hkept o on h4
    obtain ⟨n2, j1, -, j3⟩ := hup o on h4
    rw [hon'] at k1 j1
    cases Option.some.inj k1
    cases Option.some.inj j1
    exact ⟨on, h4, j3, k4⟩
  have hsmall : ∀ o ∈ rn.children, ∀ on : Node G (realFloats c), st[o]? = some on → on.visits < 16777216 := by
    intro o hoc on hon
    have := x.less o hoc
    rw [hvn hon] at this
    have := x.visits
    omega
  have hmean : ∀ o ∈ rn.children, ∀ on : Node G (realFloats c), st[o]? = some on → mean (real on.value) on.visits ≤ 1 := by
    intro o hoc on hon
    exact mean_le (hQ.get hon (hsmall o hoc on hon))
  -- finished children
  have hfin : ∀ o ∈ rn.children, ∀ (on : Node G (realFloats c)) (z : Int), st[o]? = some on → G.winner on.state = some z →
      o ∉ sel' ∧ st'[o]? = some (if o = s then on.record ((realFloats c).ofInt (outcome z (G.player s0))) else on) := by
    intro o hoc on z hon hz
    obtain ⟨a1, a2, -, -⟩ := x.final o hoc on z hon hz
    have hnot : o ∉ sel' := by
      intro hin
      obtain ⟨g', hg'⟩ := List.getElem?_of_mem hin
      have hgl' : g' < states.length := by rw [← hs1.len]; exact (List.getElem?_eq_some_iff.1 hg').1
      obtain ⟨k', kn', hl', -⟩ := hf.leaf hgl'
      rw [hsel g' k' kn' hgl' hl'] at hg'
      split at hg'
      · rename_i hw
        cases Option.some.inj hg'
        have := hl'.2
        rw [hon] at this
        cases Option.some.inj this
        rw [hz] at hw
        cases hw
      · exact a2 (List.mem_of_getElem? hg')
    have hself : ∀ y, Anc st o y → y = o := by
      intro y hy
      by_contra hne
      exact anc_children hf.wf hon hy (Ne.symm hne) a1
    refine ⟨hnot, ?_⟩
    rw [parallelIteration_rest hf hs hnd ho h hg (hch o hoc) hon hl fun y hy ha => hnot (hself y ha ▸ hy)]
    by_cases hos : o = s
    · have hok : k = o := hself k ((hsib o hoc).2 hos)
      have hkn : kn = on := by
        have := hl.2
        rw [hok, hon] at this
        exact (Option.some.inj this).symm
      rw [hkn, hz, if_pos hos]
      simp only
      rw [if_pos ((hsib o hoc).2 hos)]
    · rw [if_neg hos]
      have hna : ¬ Anc st o k := fun ha => hos ((hsib o hoc).1 ha)
      cases G.winner kn.state with
      | none => rfl
      | some z' => simp only; rw [if_neg hna]
  obtain ⟨wn, hwn, hww, hwq⟩ := x.win
  obtain ⟨b1, b2, b3, b4⟩ := x.final w x.mem wn (G.player s0) hwn hww
  rw [outcome_win] at b3
  push_cast at b3
  rw [mul_one] at b3
  -- the selected child has the highest score
  have hbest : mean (real wn.value) wn.visits + c * (Real.sqrt rn.visits / (wn.visits + 1)) * q ≤
      mean (real m.value) m.visits + c * (Real.sqrt rn.visits / (m.visits + 1)) * real m.policy := by
    obtain ⟨s', -, -, hb⟩ := selectAlpha_best hf.wf x.root (fun a b => real a ≤ real b) (fun _ => le_refl _)
      (fun _ _ _ => le_trans) (fun _ _ _ _ _ _ _ _ => cmp_real _ _) hm1
    have := hb w x.mem wn hwn
    rw [score_eq, score_eq, hwq] at this
    exact this
  have hms := x.less s hm2
  rw [hvn hm3] at hms
  have hpr := x.prior s hm2 m hm3
  have hfs := x.taken s hm2
  rw [hvn hm3] at hfs
  have hp0 : 0 < rn.visits := by omega
  have hfs' : ((f s + 1 : Nat) : ℝ) ≤ ((m.visits + 1 : Nat) : ℝ) := by exact_mod_cast Nat.add_le_add_right hfs 1
  have hnew : (((f s + 1 : Nat) : ℝ) ≤ L ∨ ((f s + 1 : Nat) : ℝ) ≤ κ * (visitsAt st w + 1)) ∧
      (G.winner m.state ≠ some (G.player s0) →
        ((f s + 1 : Nat) : ℝ) ≤ L ∨ ((f s + 1 : Nat) : ℝ) < κ * (visitsAt st w + 1)) := by
    rw [hvn hwn]
    rcases Nat.eq_zero_or_pos wn.visits with h0 | h0
    · have : ((f s + 1 : Nat) : ℝ) ≤ L := by
        refine le_trans hfs' (unvisited hc hκ hM hq hq0 (hmean s hm2 m hm3) hpr hms ?_)
        rw [h0] at hbest
        unfold mean at hbest
        rw [if_pos rfl] at hbest
        rw [zero_add] at hbest
        push_cast at hbest
        rw [zero_add] at hbest
        exact hbest
      exact ⟨.inl this, fun _ => .inl this⟩
    · have h1 : mean (real wn.value) wn.visits = 1 := by
        unfold mean
        rw [if_neg (by omega), b3, div_self]
        exact_mod_cast Nat.ne_of_gt h0
      rw [h1] at hbest
      obtain ⟨v1, v2⟩ := visited hc hκ hq hq0 hp0 hpr hbest
      refine ⟨.inr (le_trans hfs' (v1 (hmean s hm2 m hm3))), fun hnw => .inr (lt_of_le_of_lt hfs' (v2 ?_))⟩
      refine mean_lt fun hpos' => ?_
      cases hmw : G.winner m.state with
      | none => exact (hF m (List.mem_of_getElem? hm3)).2 hmw hpos' (hsmall s hm2 m hm3)
      | some z =>
        obtain ⟨-, -, c3, -⟩ := x.final s hm2 m z hm3 hmw
        rw [c3]
        have hz : z ≠ G.player s0 := fun he => hnw (by rw [hmw, he])
        have h2 : (outcome z (G.player s0) : ℝ) ≤ 0 := by exact_mod_cast outcome_other hz
        have h3 : (0 : ℝ) < m.visits := by exact_mod_cast hpos'
        nlinarith
  have hwmono : (visitsAt st w : ℝ) ≤ visitsAt st' w := by
    rw [hcv w x.mem]
    exact_mod_cast Nat.le_add_right _ _
  have hκmono : κ * ((visitsAt st w : ℝ) + 1) ≤ κ * (visitsAt st' w + 1) :=
    mul_le_mul_of_nonneg_left (by linarith) (by linarith)
  refine ⟨rn', fun o => if o = s then f o + 1 else f o, ⟨e1, e5, ?_, ?_, ?_, ?_, ?_, ?_, ?_, ?_, ?_, ?_, ?_⟩, e6⟩
  · have := hadd g; have := x.visits; omega
  · rw [e6]
    exact le_trans (Nat.add_le_add_right x.sum 1) (sum_update_ge hm2)
  · rw [e6]
    intro o hoc
    rw [hcv o hoc, hgv]
    have := x.less o hoc
    have := hmono o hoc
    omega
  · rw [e6]
    intro o hoc
    rw [hcv o hoc]
    have := x.taken o hoc
    by_cases hos : o = s
    · simp only [if_pos hos]
      rw [← hos] at hpos
      omega
    · simp only [if_neg hos]; omega
  · rw [e6]
    intro h1 o hoc
    rw [hcv o hoc, honly h1 o hoc, ← x.only h1 o hoc]
    by_cases hos : o = s
    · simp only [if_pos hos]
    · simp only [if_neg hos, Nat.add_zero]
  · rw [e6]
    intro o hoc on' z hon' hz
    obtain ⟨on, h1, h2, -⟩ := hback o hoc on' hon'
    rw [h2] at hz
    obtain ⟨g1, g2, g3, g4⟩ := x.final o hoc on z h1 hz
    obtain ⟨k1, k2⟩ := hfin o hoc on z h1 hz
    have hsm := hsmall o hoc on h1
    rw [hon'] at k2
    by_cases hos : o = s
    · rw [if_pos hos] at k2
      cases Option.some.inj k2
      refine ⟨g1, k1, ?_, ?_⟩
      · show real on.value + ((outcome z (G.player s0) : Int) : ℝ) = ((vinc on.visits : Nat) : ℝ) * _
        unfold vinc
        rw [if_pos hsm, g3]
        push_cast
        ring
      · show (if o = s then f o + 1 else f o) = vinc on.visits
        unfold vinc
        rw [if_pos hos, if_pos hsm, g4]
    · rw [if_neg hos] at k2
      cases Option.some.inj k2
      refine ⟨g1, k1, g3, ?_⟩
      show (if o = s then f o + 1 else f o) = on'.visits
      rw [if_neg hos, g4]
  · rw [e6]; exact x.mem
  · obtain ⟨wn', j1, -, -, j4, -⟩ := hkept w wn hwn
    obtain ⟨wn2, i1, -, i3⟩ := hup w wn hwn
    rw [j1] at i1
    cases Option.some.inj i1
    exact ⟨wn', j1, by rw [i3]; exact hww, by rw [j4]; exact hwq⟩
  · rw [e6]
    intro o hoc on' hon'
    obtain ⟨on, h1, -, h3⟩ := hback o hoc on' hon'
    rw [h3]
    exact x.prior o hoc on h1
  · rw [e6]
    intro o hoc
    by_cases hos : o = s
    · simp only [if_pos hos]
      rw [hos]
      exact hnew.1.imp id fun h => le_trans h hκmono
    · simp only [if_neg hos]
      exact (x.weak o hoc).imp id fun h => le_trans h hκmono
  · rw [e6]
    intro o hoc on' hon' hnw
    obtain ⟨on, h1, h2, -⟩ := hback o hoc on' hon'
    rw [h2] at hnw
    by_cases hos : o = s
    · simp only [if_pos hos]
      subst hos
      rw [hm3] at h1
      cases Option.some.inj h1
      exact (hnew.2 hnw).imp id fun h => lt_of_lt_of_le h hκmono
    · simp only [if_neg hos]
      exact (x.strong o hoc on h1 hnw).imp id fun h => lt_of_lt_of_le h hκmono

theorem iterate_grab (hc : 0 ≤ c) (hκ : 1 ≤ κ) (hM : 2 * κ ≤ L) (hq : 4 ≤ L * (c * q) ^ 2) (hq0 : 0 ≤ q)
    {net : Net (realFloats c)} (he : ∀ x row, Doubt (net.eval x row)) {states : List G.S} {s0 : G.S}
    {order : List Nat} (hnd : order.Nodup) (ho : ∀ g, g ∈ order ↔ g < states.length) {g : Nat} (hg : states[g]? = some s0)
    (k : Nat) {T V w : Nat} {st st' : Store G (realFloats c)} {sel sel' : List Nat} {t t' : Tape}
    {rn : Node G (realFloats c)} {f : Nat → Nat}
    (hf : Forest states st) (hs : SelOk states st sel) (hV : V + k * (states.length + 1) < 16777216)
    (hQ : AllQ (realScores c 16777216 (fun _ => False) (fun _ h => h.elim)).Q st)
    (hF : AllF (Fl := realFloats c) Below st) (hB : AllQ (Blank (Fl := realFloats c)) st)
    (x : Grab c κ L q (states.length = 1) (G.player s0) g T V w st sel rn f)
    (h : parallelIterate net order k st sel t = .ok ((st', sel'), t')) :
    ∃ V' rn' f', Grab c κ L q (states.length = 1) (G.player s0) g (T + k) V' w st' sel' rn' f' ∧
      rn'.children = rn.children := by
  induction k generalizing st sel t T V rn f with
  | zero =>
    cases M.pure_ok.1 h
    exact ⟨V, rn, f, x, rfl⟩
  | succ k ih =>
    unfold parallelIterate at h
    obtain ⟨⟨st1, sel1⟩, t1, h1, h2⟩ := M.bind_ok.1 h
    obtain ⟨f1, hs1, -⟩ := parallelIteration_ok hf hs hnd ho h1
    have hVk : V + (states.length + 1) + k * (states.length + 1) < 16777216 := by
      rw [Nat.add_mul] at hV; omega
    obtain ⟨rn1, f', x1, e1⟩ := x.step hc hκ hM hq hq0 hf hs hnd ho hg (by omega) hQ hF h1
    have he' : ∀ x row, Mean (real (net.eval x row)) := fun x row => below_keeps.sub _ (he x row)
    let S := realScores c 16777216 (fun _ => False) (fun _ h => h.elim)
    have hQ1 := parallelIteration_q (Q := S.Q) (V := S.Value) (fun _ => S.zero) (S.keeps (Nat.le_refl _)) S.outcomes he' hQ h1
    have hB1 := parallelIteration_q (Q := Blank) (V := fun _ => True) blank_zero (blank_keeps _) ⟨trivial, trivial, trivial⟩
      (fun _ _ => trivial) hB h1
    have hF1 := parallelIteration_f below_keeps S.outcomes he hf hs hnd ho hF hB h1
    obtain ⟨V', rn', f2, x2, e2⟩ := ih f1 hs1 hVk hQ1 hF1 hB1 x1 h2
    exact ⟨V', rn', f2, by rw [show T + (k + 1) = T + 1 + k by omega]; exact x2, e2.trans e1⟩

/-- After `N` iterations: if the root of game `g` has a child in which the player to move has won, whose prior `q` is
positive, and no prior of a move is more than `κ` times as large, then the winning move has at least the `d κ`-th part
of the iterations as visits, where `d` is the number of legal moves; and in a batch of one game every move that does not
win has less than `κ (n + 1)` visits, where `n` is the number of visits of the winning move. -/
theorem C116_partial {c : ℝ} (hc : 0 ≤ c) {net : Net (realFloats c)}
    (he : ∀ x row, -1 ≤ real (net.eval x row) ∧ real (net.eval x row) < 1)
    {states : List G.S} {order : List Nat} (ho : order.Perm (List.range states.length)) {iterations : Nat}
    (hN : 1 + iterations * (states.length + 1) < 2 ^ 24) {st st' : Store G (realFloats c)} {t t' : Tape}
    (h : alphaMctsParallel net order states iterations st t = .ok (st', t')) {g : Nat} {s : G.S}
    (hg : states[g]? = some s) {ms : List G.Mv} (hm : G.moves s = .ok ms)
    {rn wn : Node G (realFloats c)} {w : Nat} (hr : st'[g]? = some rn) (hw : w ∈ rn.children) (hwn : st'[w]? = some wn)
    (hwin : G.winner wn.state = some (G.player s)) {κ L : ℝ} (hκ : 1 ≤ κ) (hM : 2 * κ ≤ L) (hq0 : 0 ≤ real wn.policy)
    (hq : 4 ≤ L * (c * real wn.policy) ^ 2)
    (hp : ∀ o ∈ rn.children, ∀ on : Node G (realFloats c), st'[o]? = some on → real on.policy ≤ κ * real wn.policy)
    (hlong : ms.length * L < iterations) :
    (iterations : ℝ) ≤ ms.length * (κ * (wn.visits + 1)) ∧
      (states.length = 1 → ∀ o ∈ rn.children, ∀ on : Node G (realFloats c), st'[o]? = some on →
        G.winner on.state ≠ some (G.player s) → (on.visits : ℝ) < κ * (wn.visits + 1)) := by
  unfold alphaMctsParallel at h
  obtain ⟨st1, t1, h1, h⟩ := M.bind_ok.1 h
  obtain ⟨⟨st2, sel2⟩, t2, h2, h⟩ := M.bind_ok.1 h
  cases M.pure_ok.1 h
  obtain ⟨f, hone⟩ := parallelStart_ok h1
  have hd := parallelStart_done h1
  have hgl : g < states.length := (List.getElem?_eq_some_iff.1 hg).1
  obtain ⟨n0, hn0, hns0⟩ := f.state g s hg
  have hstart := parallelStart_q h1
  have hv0 : n0.visits = 1 := by
    have := hone g hgl
    simpa [visitsAt, hn0] using this
  have hkept := parallelIterate_kept (perm_range ho).1 (perm_range ho).2 iterations f (selOk_replicate f) h2
  obtain ⟨-, -, hup⟩ := parallelIterate_ok (perm_range ho).1 (perm_range ho).2 iterations f (selOk_replicate f) h2
  obtain ⟨rn', r1, -, -, -, r5⟩ := hkept g n0 hn0
  rw [hr] at r1
  cases Option.some.inj r1
  obtain ⟨-, hch⟩ := r5 (hd g hgl n0 hn0)
  rw [hch] at hw hp
  -- a child before the first iteration
  have hchild : ∀ o ∈ n0.children, ∃ on on' : Node G (realFloats c), st1[o]? = some on ∧ st'[o]? = some on' ∧
      on'.state = on.state ∧ on'.policy = on.policy ∧ on.visits = 0 ∧ on.value = (realFloats c).ofInt 0 ∧ on.parent = some g := by
    intro o hoc
    obtain ⟨on, j1, j2⟩ := f.wf.down g n0 o hn0 hoc
    obtain ⟨on', j3, -, -, j4, -⟩ := hkept o on j1
    obtain ⟨on2, j5, -, j6⟩ := hup o on j1
    rw [j3] at j5
    cases Option.some.inj j5
    have hz := (parallelStart_prior (P := fun _ => True) (fun _ _ _ _ _ => trivial) h1 on (List.mem_of_getElem? j1)
      (by rw [j2]; simp)).2
    exact ⟨on, on', j1, j3, j6, j4, hz, (hstart on (List.mem_of_getElem? j1)).2, j2⟩
  have hF0 : AllF (Fl := realFloats c) Below st1 := parallelStart_f (F := Below) (by
    intro _
    show ((0 : Int) : ℝ) < ((1 : Nat) : ℝ)
    norm_num) h1
  have hM0 : 0 ≤ L := by linarith
  have x0 : Grab c κ L (real wn.policy) (states.length = 1) (G.player s) g 0 1 w st1 (List.replicate states.length 0) n0
      (fun _ => 0) := by
    refine ⟨hn0, hd g hgl n0 hn0, by omega, Nat.zero_le _, ?_, fun _ _ => Nat.zero_le _, ?_, ?_, hw, ?_, ?_, ?_, ?_⟩
    · intro o hoc
      obtain ⟨on, -, j1, -, -, -, j5, -⟩ := hchild o hoc
      simp [visitsAt, j1, j5, hv0]
    · intro _ o hoc
      obtain ⟨on, -, j1, -, -, -, j5, -⟩ := hchild o hoc
      simp [visitsAt, j1, j5]
    · intro o hoc on z hon hz
      obtain ⟨on2, -, j1, -, -, -, j5, j6, j7⟩ := hchild o hoc
      rw [hon] at j1
      cases Option.some.inj j1
      refine ⟨?_, ?_, ?_, j5.symm⟩
      · by_contra hc
        have := (hF0 on (List.mem_of_getElem? hon)).1 hc
        omega
      · intro hin
        have h0 := List.eq_of_mem_replicate hin
        have := (f.roots o on hon).2 (by omega)
        rw [j7] at this
        cases this
      · rw [j6, j5]
        show (((0 : Int)) : ℝ) = _
        simp
    · obtain ⟨on, on', j1, j2, j3, j4, -⟩ := hchild w hw
      rw [hwn] at j2
      cases Option.some.inj j2
      exact ⟨on, j1, by rw [← j3]; exact hwin, by rw [j4]⟩
    · intro o hoc on hon
      obtain ⟨on2, on', j1, j2, -, j4, -⟩ := hchild o hoc
      rw [hon] at j1
      cases Option.some.inj j1
      rw [← j4]
      exact hp o hoc on' j2
    · intro o _
      exact .inl (by simpa using hM0)
    · intro o _ on _ _
      exact .inl (by simpa using hM0)
  have hQ0 : AllQ (realScores c 16777216 (fun _ => False) (fun _ h => h.elim)).Q st1 := by
    intro n hn hB
    obtain ⟨h3, h4⟩ := hstart n hn
    rw [h4]
    have : n.visits = 0 ∨ n.visits = 1 := by omega
    rcases this with h5 | h5
    · rw [h5]; exact Scores.zero _
    · rw [h5]; exact Scores.one _
  have hB0 : AllQ (Blank (Fl := realFloats c)) st1 := fun n hn _ => (hstart n hn).2
  obtain ⟨V', rn', fs, x, hch'⟩ := iterate_grab hc hκ hM hq hq0 he (perm_range ho).1 (perm_range ho).2 hg iterations
    f (selOk_replicate f) hN hQ0 hF0 hB0 x0 h2
  rw [Nat.zero_add] at x
  have := x.root
  rw [hr] at this
  cases Option.some.inj this
  obtain ⟨ms0, hm0, hp0⟩ := f.wf.part g n0 hn0
  rw [hd g hgl n0 hn0, List.nil_append] at hp0
  rw [hns0, hm] at hm0
  cases Except.ok.inj hm0
  have hcl : (childActions st1 n0).length = n0.children.length := childActions_length f.wf hn0
  have hlen : n0.children.length = ms.length := by rw [← hcl]; exact hp0.length_eq
  have hwv : visitsAt st' w = wn.visits := by simp [visitsAt, hwn]
  obtain ⟨o, hoc, hov⟩ := exists_many (by rw [hch']; exact List.ne_nil_of_mem hw) x.sum
  rw [hch', hlen] at hov
  have hd0 : (0 : ℝ) ≤ ms.length := Nat.cast_nonneg _
  have hov' : (iterations : ℝ) ≤ ms.length * fs o := by exact_mod_cast hov
  have hMf : ¬ (fs o : ℝ) ≤ L := fun hle => by
    have := mul_le_mul_of_nonneg_left hle hd0
    linarith
  have hk : (fs o : ℝ) ≤ κ * (wn.visits + 1) := by
    have := (x.weak o hoc).resolve_left hMf
    rwa [hwv] at this
  have hall : (iterations : ℝ) ≤ ms.length * (κ * (wn.visits + 1)) :=
    le_trans hov' (mul_le_mul_of_nonneg_left hk hd0)
  refine ⟨hall, fun h1 o' ho' on hon hnw => ?_⟩
  have hfo : (on.visits : ℝ) = fs o' := by
    have := x.only h1 o' ho'
    simp only [visitsAt, hon] at this
    exact_mod_cast this.symm
  rw [hfo]
  rcases x.strong o' ho' on hon hnw with hs | hs
  · exact lt_of_le_of_lt hs (lt_of_lt_of_le (not_le.1 hMf) hk)
  · rwa [hwv] at hs

end DieE.Props.Gr
