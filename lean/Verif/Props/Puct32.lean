import Verif.Props.Puct
import Verif.Props.Single32

/-!
# C103 in single precision

The scores of `alpha_ucb` in `f32` differ by at most 1/128 from the formula over the real numbers, for exploration constants
up to 4 and parents with less than `2^24` visits.
-/

namespace DieE.Props.Pu
open DieE DieE.Mcts DieE.Fp DieE.Props.S DieE.Props.A DieE.Props.Fn
variable {G : Game}

/-- A finite number between -k and k. -/
def FinWithin (k : Nat) (x : Num) : Prop := ∃ q : Rat, x = .fin q ∧ |q| ≤ k

/-- A finite number between 0 and 1. -/
def FinShare (x : Num) : Prop := ∃ q : Rat, x = .fin q ∧ 0 ≤ q ∧ q ≤ 1

theorem err_real {x : ℝ} {e : Int} (h : |x| < 2 ^ (e + 24)) (he : -149 ≤ e) : |(rnd f32 x : ℝ) - x| ≤ 2 ^ e / 2 := by
  rw [abs_sub_comm]
  exact rnd_abs (φ := f32) x (e := e) h he

theorem err_rat {x : Rat} {e : Int} (h : |(x : ℝ)| < 2 ^ (e + 24)) (he : -149 ≤ e) :
    |(rnd f32 x : ℝ) - x| ≤ 2 ^ e / 2 := by
  have := err_real h he
  rwa [cast_round] at this

theorem rnd_range {x : Rat} {n : Nat} (hn : n ≤ 16777216) (h0 : 0 ≤ x) (h1 : x ≤ n) : 0 ≤ rnd f32 x ∧ rnd f32 x ≤ n := by
  constructor
  · have := rep_le (K := Rat) (φ := f32) (by decide) (rep_int (n := 0) (by norm_num)) (x := x) (by simpa using h0)
    simpa using this
  · have := le_rep (K := Rat) (φ := f32) (by decide) (rep_int (n := n) (by rw [abs_le]; omega)) (x := x) (by simpa using h1)
    simpa using this

/-- The exploration term. -/
theorem puct_term {c : Rat} (hc0 : 0 ≤ c) (hc4 : c ≤ 4) {n p : Nat} (hnp : n < p) (hp : p < 16777216) {q : Rat}
    (hq0 : 0 ≤ q) (hq1 : q ≤ 1) :
    ∃ E : Rat, Num.mul f32 (Num.mul f32 (.fin c) (Num.div f32 (Num.sqrt f32 (.fin p)) (Num.add f32 (.fin n) (.fin 1)))) (.fin q)
        = .fin E ∧ 0 ≤ E ∧ E ≤ 16384 ∧
      |(E : ℝ) - (c : ℝ) * (Real.sqrt p / (n + 1)) * q| ≤ 7 / 2048 := by
  have hp' : (p : ℝ) < 4096 ^ 2 := by
    have : p < 4096 ^ 2 := by norm_num; omega
    exact_mod_cast this
  have hs : Real.sqrt p < 4096 := (Real.sqrt_lt' (by norm_num)).2 hp'
  have hs0 := Real.sqrt_nonneg (p : ℝ)
  -- square root
  have e1 : Num.sqrt f32 (.fin (p : Rat)) = .fin (rnd f32 (Real.sqrt p)) := by
    show (if (p : Rat) < 0 then _ else Num.round f32 (Real.sqrt ((p : Rat) : ℝ))) = _
    rw [if_neg (not_lt.2 (Nat.cast_nonneg _)), Rat.cast_natCast]
    refine round_fin (by decide) (e := 12) (by decide) (by decide) ?_
    rw [abs_of_nonneg hs0]
    norm_num
    linarith
  have s1 := err_real (x := Real.sqrt p) (e := -12) (by rw [abs_of_nonneg hs0]; norm_num; exact hs) (by norm_num)
  have r1 : 0 ≤ rnd f32 (Real.sqrt p) ∧ rnd f32 (Real.sqrt p) ≤ 4096 := by
    constructor
    · have := rep_le (K := ℝ) (φ := f32) (by decide) (rep_int (n := 0) (by norm_num)) (x := Real.sqrt p) (by simpa using hs0)
      simpa using this
    · have := le_rep (K := ℝ) (φ := f32) (by decide) (rep_int (n := 4096) (by norm_num)) (x := Real.sqrt p) (by push_cast; linarith)
      simpa using this
  generalize rnd f32 (Real.sqrt p) = a at e1 s1 r1
  -- quotient
  have en : Num.add f32 (.fin (n : Rat)) (.fin 1) = .fin ((n : Rat) + 1) := by
    rw [C100_count (by omega)]
    unfold vinc
    rw [if_pos (by omega)]
    push_cast
    rfl
  have hn1 : (1 : Rat) ≤ (n : Rat) + 1 := by
    have : (0 : Rat) ≤ n := Nat.cast_nonneg _
    linarith
  have hn1' : (1 : ℝ) ≤ (n : ℝ) + 1 := by
    have : (0 : ℝ) ≤ n := Nat.cast_nonneg _
    linarith
  have hd0 : 0 ≤ a / ((n : Rat) + 1) := div_nonneg r1.1 (by linarith)
  have hd1 : a / ((n : Rat) + 1) ≤ 4096 := le_trans (div_le_self r1.1 hn1) r1.2
  have e2 : Num.div f32 (.fin a) (.fin ((n : Rat) + 1)) = .fin (rnd f32 (a / ((n : Rat) + 1))) := by
    show (if (n : Rat) + 1 = 0 then _ else Num.round f32 (a / ((n : Rat) + 1))) = _
    rw [if_neg (by linarith), round_rat (by rw [abs_of_nonneg hd0]; linarith)]
  have hd0' : (0 : ℝ) ≤ ((a / ((n : Rat) + 1) : Rat) : ℝ) := by exact_mod_cast hd0
  have hd1' : ((a / ((n : Rat) + 1) : Rat) : ℝ) ≤ 4096 := by exact_mod_cast hd1
  have s2 := err_rat (x := a / ((n : Rat) + 1)) (e := -11) (by rw [abs_of_nonneg hd0']; exact lt_of_le_of_lt hd1' (by norm_num)) (by norm_num)
  have r2 := rnd_range (n := 4096) (by norm_num) hd0 hd1
  generalize rnd f32 (a / ((n : Rat) + 1)) = b at e2 s2 r2
  -- times c
  have hm0 : 0 ≤ c * b := mul_nonneg hc0 r2.1
  have hm1 : c * b ≤ 16384 := by
    have := mul_le_mul hc4 r2.2 r2.1 (by norm_num)
    push_cast at this
    linarith
  have e3 : Num.mul f32 (.fin c) (.fin b) = .fin (rnd f32 (c * b)) :=
    round_rat (by rw [abs_of_nonneg hm0]; linarith)
  have hm0' : (0 : ℝ) ≤ ((c * b : Rat) : ℝ) := by exact_mod_cast hm0
  have hm1' : ((c * b : Rat) : ℝ) ≤ 16384 := by exact_mod_cast hm1
  have s3 := err_rat (x := c * b) (e := -9) (by rw [abs_of_nonneg hm0']; exact lt_of_le_of_lt hm1' (by norm_num)) (by norm_num)
  have r3 := rnd_range (n := 16384) (by norm_num) hm0 hm1
  generalize rnd f32 (c * b) = d at e3 s3 r3
  -- times the prior
  have hq0' : (0 : ℝ) ≤ q := by exact_mod_cast hq0
  have hq1' : (q : ℝ) ≤ 1 := by exact_mod_cast hq1
  have hf0 : 0 ≤ d * q := mul_nonneg r3.1 hq0
  have hf1 : d * q ≤ 16384 := by
    have := mul_le_mul r3.2 hq1 hq0 (by positivity)
    push_cast at this
    linarith
  have e4 : Num.mul f32 (.fin d) (.fin q) = .fin (rnd f32 (d * q)) :=
    round_rat (by rw [abs_of_nonneg hf0]; linarith)
  have hf0' : (0 : ℝ) ≤ ((d * q : Rat) : ℝ) := by exact_mod_cast hf0
  have hf1' : ((d * q : Rat) : ℝ) ≤ 16384 := by exact_mod_cast hf1
  have s4 := err_rat (x := d * q) (e := -9) (by rw [abs_of_nonneg hf0']; exact lt_of_le_of_lt hf1' (by norm_num)) (by norm_num)
  have r4 := rnd_range (n := 16384) (by norm_num) hf0 hf1
  refine ⟨rnd f32 (d * q), by rw [e1, en, e2, e3, e4], r4.1, by exact_mod_cast r4.2, ?_⟩
  -- the errors
  have hc0' : (0 : ℝ) ≤ c := by exact_mod_cast hc0
  have hc4' : (c : ℝ) ≤ 4 := by exact_mod_cast hc4
  push_cast at s2 s3 s4
  norm_num at s1 s2 s3 s4
  have t1 : |(a : ℝ) / ((n : ℝ) + 1) - Real.sqrt p / (n + 1)| ≤ 1 / 8192 := by
    rw [← sub_div, abs_div, abs_of_nonneg (by linarith : (0 : ℝ) ≤ (n : ℝ) + 1)]
    exact le_trans (div_le_self (abs_nonneg _) hn1') s1
  have t2 : |(b : ℝ) - Real.sqrt p / (n + 1)| ≤ 1 / 8192 + 1 / 4096 := by
    have := abs_sub_le (b : ℝ) ((a : ℝ) / ((n : ℝ) + 1)) (Real.sqrt p / (n + 1))
    linarith
  have t3 : |(c : ℝ) * b - c * (Real.sqrt p / (n + 1))| ≤ 4 * (1 / 8192 + 1 / 4096) := by
    rw [← mul_sub, abs_mul, abs_of_nonneg hc0']
    exact mul_le_mul hc4' t2 (abs_nonneg _) (by norm_num)
  have t4 : |(d : ℝ) - c * (Real.sqrt p / (n + 1))| ≤ 4 * (1 / 8192 + 1 / 4096) + 1 / 1024 := by
    have := abs_sub_le (d : ℝ) ((c : ℝ) * b) (c * (Real.sqrt p / (n + 1)))
    linarith
  have t5 : |(d : ℝ) * q - c * (Real.sqrt p / (n + 1)) * q| ≤ 4 * (1 / 8192 + 1 / 4096) + 1 / 1024 := by
    rw [← sub_mul, abs_mul, abs_of_nonneg hq0']
    exact le_trans (mul_le_of_le_one_right (abs_nonneg _) hq1') t4
  have := abs_sub_le (rnd f32 (d * q) : ℝ) ((d : ℝ) * q) (c * (Real.sqrt p / (n + 1)) * q)
  linarith

/-- The score of a child, as a finite number close to the exact one. -/
theorem puct_score {c : Rat} (hc0 : 0 ≤ c) (hc4 : c ≤ 4) {ln : Num → Num} {n p : Nat} (hnp : n < p) (hp : p < 16777216)
    {v : Num} (hv : FinWithin n v) {q : Rat} (hq0 : 0 ≤ q) (hq1 : q ≤ 1) :
    ∃ (S x : Rat), (single (.fin c) ln).alphaUcb v n (Num.fin q) p = Num.fin S ∧ |x| ≤ 1 ∧
      |(S : ℝ) - (x + (c : ℝ) * (Real.sqrt p / (n + 1)) * q)| ≤ 1 / 128 := by
  obtain ⟨E, e1, e2, e3, e4⟩ := puct_term hc0 hc4 hnp hp hq0 hq1
  obtain ⟨x, hx, hx1⟩ : ∃ x : Rat, (if n = 0 then Num.fin 0 else Num.div f32 v (.fin n)) = .fin x ∧ |x| ≤ 1 := by
    obtain ⟨w, rfl, hw⟩ := hv
    by_cases hn : n = 0
    · exact ⟨0, by rw [if_pos hn], by norm_num⟩
    · have hn' : (0 : Rat) < n := by exact_mod_cast Nat.pos_of_ne_zero hn
      have hzn : |w / n| ≤ 1 := by
        rw [abs_div, abs_of_pos hn', div_le_one hn']
        exact hw
      refine ⟨rnd f32 (w / n), ?_, ?_⟩
      · rw [if_neg hn]
        show (if (n : Rat) = 0 then _ else Num.round f32 (w / n)) = _
        rw [if_neg hn'.ne', round_rat (hzn.trans (by norm_num))]
      · have := abs_rnd_le (K := Rat) (φ := f32) (by decide) (rep_int (n := 1) (by norm_num)) (x := w / n) (by simpa using hzn)
        simpa using this
  have hs : |x + E| ≤ 16385 := by
    have := abs_add_le x E
    rw [abs_of_nonneg e2] at this
    linarith
  have hs' : |((x + E : Rat) : ℝ)| ≤ 16385 := by
    rw [← Rat.cast_abs]
    exact_mod_cast hs
  refine ⟨rnd f32 (x + E), x, ?_, hx1, ?_⟩
  · show Num.add f32 (if n = 0 then Num.fin 0 else Num.div f32 v (.fin n)) _ = _
    rw [hx, e1]
    exact round_rat (hs.trans (by norm_num))
  · have s := err_rat (x := x + E) (e := -9) (lt_of_le_of_lt hs' (by norm_num)) (by norm_num)
    norm_num at s
    rw [abs_le] at s e4 ⊢
    constructor <;> linarith [s.1, s.2, e4.1, e4.2]

theorem finWithin_iff {c : Num} {ln : Num → Num} {k : Nat} {x : Num} :
    FinWithin k x ↔ (Fn.singleRounded c ln).Within k x := by
  constructor
  · rintro ⟨q, rfl, h⟩
    exact ⟨q, rfl, h⟩
  · rintro ⟨q, h1, h⟩
    have h1 : value? x = some q := h1
    cases x with
    | fin p => cases h1; exact ⟨q, rfl, h⟩
    | inf _ => cases h1
    | nan => cases h1

/-- `f32` is as assumed, for exploration constants up to 4. -/
noncomputable def singleScores {c : Rat} (hc0 : 0 ≤ c) (hc4 : c ≤ 4) (ln : Num → Num) :
    Scores (single (.fin c) ln) (c : ℝ) (1 / 128) 16777216 where
  Sum := FinWithin
  Value := FinWithin 1
  Prior := FinShare
  val := real
  prior := real
  zero := finWithin_iff.2 ((Fn.singleRounded (.fin c) ln).start.1 (by norm_num))
  one := finWithin_iff.2 ((Fn.singleRounded (.fin c) ln).start.2 (by norm_num))
  add := fun n x v hn hx hv => finWithin_iff.2 ((Fn.singleRounded (.fin c) ln).within_add hn (finWithin_iff.1 hx) (finWithin_iff.1 hv))
  outcomes := by
    obtain ⟨h1, h2, h3⟩ := (Fn.singleRounded (.fin c) ln).outcomes
    exact ⟨finWithin_iff.2 h1, finWithin_iff.2 h2, finWithin_iff.2 h3⟩
  range := by
    rintro x ⟨q, rfl, h1, h2⟩
    show (0 : ℝ) ≤ (q : ℝ) ∧ (q : ℝ) ≤ 1
    exact ⟨by exact_mod_cast h1, by exact_mod_cast h2⟩
  cmp := by
    rintro n m p v w q r hn hm hp hv hw ⟨a, rfl, ha1, ha2⟩ ⟨b, rfl, hb1, hb2⟩
    obtain ⟨S, x, h1, -⟩ := puct_score hc0 hc4 (ln := ln) hn hp hv ha1 ha2
    obtain ⟨S', x', h2, -⟩ := puct_score hc0 hc4 (ln := ln) hm hp hw hb1 hb2
    rw [h1, h2]
    show compare S S' = .gt ↔ (S' : ℝ) < S
    rw [compare_gt_iff_gt]
    exact_mod_cast Iff.rfl
  score := by
    rintro n p v q hn hp hv ⟨a, rfl, ha1, ha2⟩
    obtain ⟨S, x, h1, h2, h3⟩ := puct_score hc0 hc4 (ln := ln) hn hp hv ha1 ha2
    rw [h1]
    exact ⟨x, by exact_mod_cast h2, h3⟩

/-- C103 in `f32`: as `C103`, with `4 + 1 / 32` in place of 4, for exploration constants up to 4. -/
theorem C103_single {c : Rat} (hc0 : 0 ≤ c) (hc4 : c ≤ 4) {ln : Num → Num} {net : Mcts.Net (single (.fin c) ln)}
    (he : ∀ x row, FinWithin 1 (net.eval x row))
    {states : List G.S} {order : List Nat} (ho : order.Perm (List.range states.length)) {iterations : Nat}
    (hN : 1 + iterations * (states.length + 1) < 2 ^ 24) {st st' : Store G (single (.fin c) ln)} {t t' : Tape}
    (h : alphaMctsParallel net order states iterations st t = .ok (st', t')) {g : Nat} {s : G.S}
    (hg : states[g]? = some s) {ms : List G.Mv} (hm : G.moves s = .ok ms) (hp : PriorsAre FinShare net s ms) {a : G.Mv}
    (ha : a ∈ ms) :
    ∃ (rn n : Node G (single (.fin c) ln)) (i : Nat) (q : Rat), st'[g]? = some rn ∧ i ∈ rn.children ∧ st'[i]? = some n ∧
      n.action = some a ∧ n.policy = Num.fin q ∧
      ((q : ℝ) * iterations ≤ 2 * ms.length * (n.visits + 1) ∨
        c * q * Real.sqrt ((iterations : ℝ) / ms.length) ≤ (4 + 1 / 32) * (n.visits + 1)) := by
  obtain ⟨rn, n, i, h1, h2, h3, h4, ⟨q, h5, -⟩, h6⟩ := followed_visits (singleScores hc0 hc4 ln) (Nat.le_refl _)
    (by exact_mod_cast hc0) he ho hN h hg hm hp ha
  refine ⟨rn, n, i, q, h1, h2, h3, h4, h5, ?_⟩
  have h7 : (singleScores hc0 hc4 ln).prior n.policy = (q : ℝ) := by rw [h5]; rfl
  rw [h7] at h6
  norm_num at h6 ⊢
  exact h6

/-- `lostNet` in `f32`. -/
noncomputable def lostNet32 (ln : Num → Num) : Mcts.Net (single (.fin 2) ln) where
  policy := fun _ _ _ => Num.fin 1
  eval := fun _ _ => Num.fin (-1)
  priorBatch := fun _ _ _ => Num.fin (1 / 8)
  priorTensor := fun _ _ _ => Num.fin (1 / 8)
  priorVec := fun _ _ _ => Num.fin (1 / 8)
  noise := fun _ _ => Num.fin (1 / 8)
  mixTensor := fun p _ => p
  mixChild := fun p _ => p
  alphaOk := true

/-- The hypotheses of `C103_single` are met by the batch of the examples, for every random stream. -/
example (ln : Num → Num) (t : Tape) : ∃ st t',
    alphaMctsParallel (G := TTT.game .debug) (lostNet32 ln) [1, 0] demoBatch 1000 [] t = .ok (st, t') ∧
    (∀ x row, FinWithin 1 ((lostNet32 ln).eval x row)) ∧ FinShare (Num.fin (1 / 8)) ∧ 1 + 1000 * (demoBatch.length + 1) < 2 ^ 24 := by
  have ho : [1, 0].Perm (List.range demoBatch.length) := by decide
  obtain ⟨st, t', h, -⟩ := alphaMctsParallel_progress (Fl := single (.fin 2) ln) (ttt_safeNet .debug) (net := lostNet32 ln) rfl
    (states := demoBatch) (List.cons_ne_nil _ _)
    (show ∀ s ∈ demoBatch, TTT.State.player s = 1 ∨ TTT.State.player s = -1 by simp [demoBatch, lastTTT, TTT.new]) ho 1000 t
  exact ⟨st, t', h, fun _ _ => ⟨-1, rfl, by norm_num⟩, ⟨1 / 8, rfl, by norm_num, by norm_num⟩, by
    show 1 + 1000 * (2 + 1) < 2 ^ 24
    norm_num⟩

end DieE.Props.Pu
