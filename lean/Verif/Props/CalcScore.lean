import Verif.Props.Calc
import Verif.Props.Explore
import Mathlib.Analysis.SpecialFunctions.Log.Deriv

/-! # Approximate scores for computing a search, exploration constant 2 -/

namespace DieE.Props.Ca
open DieE DieE.Mcts DieE.Props.Wn
variable {pf : Profile} {Fl : Floats} {B : Nat}

/-- `2 ^ 48 ln p` rounded down, for `p < 176` (0 at 0). -/
def lnTable : List Nat :=
  [
    0, 0, 195103586505167, 309231868366896, 390207173010334, 453016498919635,
    504335454872064, 547725013886373, 585310759515502, 618463736733793, 648120085424802, 674947516065513,
    699439041377231, 721969060655498, 742828600391540, 762248367286531, 780414346020669, 797478660034543,
    813567323238960, 828785893086821, 843223671929970, 856956882253270, 870051102570680, 882563161405054,
    894542627882399, 906032997839270, 917072647160665, 927695605100689, 937932186896708, 947809515323331,
    957351953791699, 966581468407147, 975517932525837, 984179384432410, 992582246539710, 1000741512806008,
    1008670909744128, 1016383035365623, 1023889479591989, 1031200929022394, 1038327258435137, 1045277610988937,
    1052060468758437, 1058683714968962, 1065154689075848, 1071480235653428, 1077666747910221, 1083720206523926,
    1089646214387566, 1095450027772746, 1101136584344437, 1106710528401439, 1112176233665833, 1117537823901589,
    1122799191605857, 1127964014985148, 1133035773401875, 1138017761453718, 1142913101828499, 1147724757060190,
    1152455540296866, 1157108125178627, 1161685054912314, 1166188750620166, 1170621519031004, 1174985559575133,
    1179282970937577, 1183515757118539, 1187685833044878, 1191795029771950, 1195845099311176, 1199837719115186,
    1203774496249295, 1207656971275257, 1211486621870791, 1215264866206167, 1218993066097156, 1222672529951886,
    1226304515527562, 1229890232511580, 1233430844940305, 1236927473467586, 1240381197494105, 1243793057167648,
    1247164055263605, 1250495158954178, 1253787301474129, 1257041383690228, 1260258275581015, 1263438817632957,
    1266583822158596, 1269694074541871, 1272770334415388, 1275813336774043, 1278823793029094, 1281802392006456,
    1284749800892734, 1287666666132222, 1290553614277914, 1293411252799306, 1296240170849605, 1299040939994764,
    1301814114906607, 1304560234022138, 1307279820171000, 1309973381172905, 1312641410406756, 1315284387353046,
    1317902778111024, 1320497035892033, 1323067601490316, 1325614903732520, 1328139359907043, 1330641376174294,
    1333121347958885, 1335579660324689, 1338016688333666, 1340432797389291, 1342828343565357, 1345203673920916,
    1347559126802034, 1349895032131026, 1352211711683794, 1354509479355834, 1356788641417482, 1359049496758905,
    1361292337125334, 1363517447342992, 1365725105536172, 1367915583335858, 1370089146080300, 1372246053007896,
    1374386557442745, 1376510906973195, 1378619343623706, 1380712104020325, 1382789419550045, 1384851516514343,
    1386898616277118, 1388930935407300, 1390948685816343, 1392952074890823, 1394941305620353, 1396916576721011,
    1398878082754463, 1400826014242967, 1402760557780425, 1404681896139643, 1406590208375958, 1408485669927371,
    1410368452711334, 1412238725218324, 1414096652602323, 1415942396768336, 1417776116457054, 1419597967326782,
    1421408102032729, 1423206670303767, 1424993819016748, 1426769692268486, 1428534431445472, 1430288175291427,
    1432031059972754, 1433763219141982, 1435484783999272, 1437195883352045, 1438896643672815, 1440587189155287,
    1442267641768772, 1443938121310996, 1445598745459345, 1447249629820614, 1448890887979297, 1450522631544481,
    1452144970195395, 1453758011725643
  ]

/-- Entry of the table. -/
def lnAt (p : Nat) : Nat := lnTable.getD p 0

/-! ## The table is right -/

/-- `ln q - ln (q - 1)` by nine terms of its series in `1 / q`. -/
theorem log_step {q : Nat} (hq : 9 ≤ q) :
    |(Real.log q - Real.log (q - 1 : Nat)) -
      (2520 * q ^ 8 + 1260 * q ^ 7 + 840 * q ^ 6 + 630 * q ^ 5 + 504 * q ^ 4 + 420 * q ^ 3 + 360 * q ^ 2 + 315 * q + 280 : ℝ) /
        (2520 * q ^ 9)| ≤ 1 / 2 ^ 31 := by
  have hq' : (9 : ℝ) ≤ q := by exact_mod_cast hq
  have hq0 : (0 : ℝ) < q := by linarith
  have hx : |(1 / q : ℝ)| < 1 := by
    rw [abs_of_pos (by positivity), div_lt_one hq0]
    linarith
  have h := Real.abs_log_sub_add_sum_range_le hx 9
  have hlog : Real.log (1 - 1 / q) = Real.log (q - 1 : Nat) - Real.log q := by
    rw [← Real.log_div (by rw [Nat.cast_sub (by omega)]; push_cast; linarith) hq0.ne', Nat.cast_sub (by omega)]
    congr 1
    push_cast
    field_simp
  rw [hlog] at h
  have hsum : (∑ i ∈ Finset.range 9, (1 / q : ℝ) ^ (i + 1) / (i + 1)) =
      (2520 * q ^ 8 + 1260 * q ^ 7 + 840 * q ^ 6 + 630 * q ^ 5 + 504 * q ^ 4 + 420 * q ^ 3 + 360 * q ^ 2 + 315 * q + 280 : ℝ) /
        (2520 * q ^ 9) := by
    simp only [Finset.sum_range_succ, Finset.sum_range_zero]
    push_cast
    field_simp
    ring
  rw [hsum] at h
  rw [abs_sub_comm]
  have e : ∀ a b c : ℝ, a - (b - c) = a + (c - b) := fun a b c => by ring
  rw [e]
  refine h.trans ?_
  rw [abs_of_pos (by positivity), div_pow, one_pow, div_div, div_le_div_iff₀ (by
    have : (1 : ℝ) / q ≤ 1 / 9 := one_div_le_one_div_of_le (by norm_num) hq'
    have : (0 : ℝ) < 1 - 1 / q := by linarith
    positivity) (by positivity)]
  have h1 : (1 : ℝ) / q ≤ 1 / 9 := one_div_le_one_div_of_le (by norm_num) hq'
  have h2 : (9 : ℝ) ^ 10 ≤ q ^ 10 := pow_le_pow_left₀ (by norm_num) hq' 10
  have h3 : (9 : ℝ) ^ 10 * (8 / 9) ≤ q ^ 10 * (1 - 1 / q) := mul_le_mul h2 (by linarith) (by norm_num) (by positivity)
  refine le_trans ?_ (le_trans h3 (le_of_eq (by ring)))
  norm_num

/-- What is checked of two neighbours in the table. -/
def stepOK (q : Nat) : Bool :=
  let s : Int := 2520 * q ^ 8 + 1260 * q ^ 7 + 840 * q ^ 6 + 630 * q ^ 5 + 504 * q ^ 4 + 420 * q ^ 3 + 360 * q ^ 2 + 315 * q + 280
  let d : Int := ((lnAt q : Int) - lnAt (q - 1)) * (2520 * q ^ 9) - 2 ^ 48 * s
  decide (-(16384 * 2520 * q ^ 9) ≤ d ∧ d ≤ 16384 * 2520 * q ^ 9)

theorem steps_ok : ∀ q < 176, 9 ≤ q → stepOK q = true := by
  have h : (List.range 176).all (fun q => decide (q < 9) || stepOK q) = true := by decide +kernel
  intro q hq h9
  have := List.all_eq_true.1 h q (List.mem_range.2 hq)
  rw [Bool.or_eq_true] at this
  rcases this with h | h
  · rw [decide_eq_true_eq] at h; omega
  · exact h

theorem ln8 : |(lnAt 8 : ℝ) - 2 ^ 48 * Real.log (8 : Nat)| ≤ 2 ^ 20 := by
  have h : Real.log ((8 : Nat) : ℝ) = 3 * Real.log 2 := by
    rw [show ((8 : Nat) : ℝ) = 2 ^ 3 by norm_num, Real.log_pow]
    norm_num
  rw [h, show lnAt 8 = 585310759515502 by decide +kernel, abs_le]
  have h1 := Real.log_two_gt_d9
  have h2 := Real.log_two_lt_d9
  constructor <;> (push_cast; linarith)

theorem ln_large (q : Nat) (h8 : 8 ≤ q) (hq : q < 176) : |(lnAt q : ℝ) - 2 ^ 48 * Real.log q| ≤ 2 ^ 20 + ((q - 8 : Nat) : ℝ) * 2 ^ 18 := by
  induction q with
  | zero => omega
  | succ q ih =>
    by_cases h : q + 1 = 8
    · have : q = 7 := by omega
      subst this
      have := ln8
      norm_num at this ⊢
      exact this
    · have i := ih (by omega) (by omega)
      have s := steps_ok (q + 1) hq (by omega)
      unfold stepOK at s
      simp only [decide_eq_true_eq] at s
      have l := log_step (q := q + 1) (by omega)
      rw [show q + 1 - 1 = q by omega] at s l
      have hq0 : (0 : ℝ) < ((q + 1 : Nat) : ℝ) := by exact_mod_cast Nat.succ_pos q
      generalize hx : ((q + 1 : Nat) : ℝ) = x at l hq0 ⊢
      have hden : (0 : ℝ) < 2520 * x ^ 9 := by positivity
      generalize hs : (2520 * x ^ 8 + 1260 * x ^ 7 + 840 * x ^ 6 + 630 * x ^ 5 + 504 * x ^ 4 + 420 * x ^ 3 + 360 * x ^ 2 + 315 * x + 280 : ℝ) = y at l
      have k : |(((lnAt (q + 1) : Nat) : ℝ) - (lnAt q : Nat)) - 2 ^ 48 * (y / (2520 * x ^ 9))| ≤ 16384 := by
        rw [← mul_div_assoc, abs_le]
        have s1 : (-(16384 * 2520 * x ^ 9) : ℝ) ≤ (((lnAt (q + 1) : Nat) : ℝ) - (lnAt q : Nat)) * (2520 * x ^ 9) - 2 ^ 48 * y := by
          rw [← hs, ← hx]
          exact_mod_cast s.1
        have s2 : (((lnAt (q + 1) : Nat) : ℝ) - (lnAt q : Nat)) * (2520 * x ^ 9) - 2 ^ 48 * y ≤ 16384 * 2520 * x ^ 9 := by
          rw [← hs, ← hx]
          exact_mod_cast s.2
        have e : (((lnAt (q + 1) : Nat) : ℝ) - (lnAt q : Nat)) - 2 ^ 48 * y / (2520 * x ^ 9) =
            ((((lnAt (q + 1) : Nat) : ℝ) - (lnAt q : Nat)) * (2520 * x ^ 9) - 2 ^ 48 * y) / (2520 * x ^ 9) := by
          field_simp
        rw [e, le_div_iff₀ hden, div_le_iff₀ hden]
        constructor <;> linarith
      generalize y / (2520 * x ^ 9) = z at k l
      have hcast : ((q + 1 - 8 : Nat) : ℝ) = ((q - 8 : Nat) : ℝ) + 1 := by
        rw [show q + 1 - 8 = (q - 8) + 1 by omega]
        push_cast
        rfl
      rw [hcast]
      rw [abs_le] at *
      obtain ⟨i1, i2⟩ := i
      obtain ⟨k1, k2⟩ := k
      obtain ⟨l1, l2⟩ := l
      constructor <;> nlinarith

/-- The table is accurate to `2 ^ 26` (that is, `2 ^ -22` as a logarithm). -/
theorem lnAt_close (p : Nat) (h2 : 2 ≤ p) (hp : p < 176) : |(lnAt p : ℝ) - 2 ^ 48 * Real.log p| ≤ 2 ^ 26 := by
  by_cases h8 : 8 ≤ p
  · refine (ln_large p h8 hp).trans ?_
    have : ((p - 8 : Nat) : ℝ) ≤ 168 := by exact_mod_cast (by omega : p - 8 ≤ 168)
    nlinarith
  · have hl2 := Real.log_two_gt_d9
    have hu2 := Real.log_two_lt_d9
    have half : ∀ (k m : Nat), 8 ≤ 2 * k → 2 * k < 176 → 0 < k → m = 2 * k →
        |(lnAt m : ℝ) - 2 ^ 48 * (Real.log k + Real.log 2)| ≤ 2 ^ 20 + ((m - 8 : Nat) : ℝ) * 2 ^ 18 := by
      intro k m h1 h2 h3 hm
      subst hm
      have := ln_large (2 * k) h1 h2
      rw [Nat.cast_mul, mul_comm ((2 : Nat) : ℝ), Real.log_mul (by exact_mod_cast h3.ne') (by norm_num)] at this
      push_cast at this ⊢
      exact this
    have h9 := ln_large 9 (by omega) (by omega)
    have e9 : Real.log ((9 : Nat) : ℝ) = 2 * Real.log 3 := by
      rw [show ((9 : Nat) : ℝ) = 3 ^ 2 by norm_num, Real.log_pow]
      norm_num
    have e4 : Real.log (4 : ℝ) = 2 * Real.log 2 := by
      rw [show (4 : ℝ) = 2 ^ 2 by norm_num, Real.log_pow]
      norm_num
    have h5 := half 5 10 (by omega) (by omega) (by omega) rfl
    have h6 := half 6 12 (by omega) (by omega) (by omega) rfl
    have h7 := half 7 14 (by omega) (by omega) (by omega) rfl
    rw [e9] at h9
    rw [show lnAt 9 = 618463736733793 by decide +kernel] at h9
    rw [show lnAt 10 = 648120085424802 by decide +kernel] at h5
    rw [show lnAt 12 = 699439041377231 by decide +kernel] at h6
    rw [show lnAt 14 = 742828600391540 by decide +kernel] at h7
    rw [abs_le] at *
    push_cast at h9 h5 h6 h7
    obtain ⟨a1, a2⟩ := h9
    obtain ⟨b1, b2⟩ := h5
    obtain ⟨c1, c2⟩ := h6
    obtain ⟨d1, d2⟩ := h7
    norm_num at a1 a2 b1 b2 c1 c2 d1 d2
    have hc : p = 2 ∨ p = 3 ∨ p = 4 ∨ p = 5 ∨ p = 6 ∨ p = 7 := by omega
    rcases hc with rfl | rfl | rfl | rfl | rfl | rfl
    · rw [show lnAt 2 = 195103586505167 by decide +kernel]
      constructor <;> (push_cast; linarith)
    · rw [show lnAt 3 = 309231868366896 by decide +kernel]
      constructor <;> (push_cast; linarith)
    · rw [show lnAt 4 = 390207173010334 by decide +kernel]
      push_cast
      rw [e4]
      constructor <;> linarith
    · rw [show lnAt 5 = 453016498919635 by decide +kernel]
      constructor <;> (push_cast; linarith)
    · rw [show lnAt 6 = 504335454872064 by decide +kernel]
      constructor <;> (push_cast; linarith)
    · rw [show lnAt 7 = 547725013886373 by decide +kernel]
      constructor <;> (push_cast; linarith)

/-! ## Scores -/

/-- Newton's iteration for a square root, from above. -/
def newton (x : Nat) : Nat → Nat → Nat
  | 0, g => g
  | f + 1, g =>
    let h := (g + x / g) / 2
    if h < g then newton x f h else g

/-- `2 ^ 24` times the score of a child with `n` visits and value `z` of a node with `p` visits. -/
def score (z : Int) (n p : Nat) : Option Int :=
  let x := 2 * lnAt p / n
  let r := newton x 60 67108864
  if r * r ≤ x ∧ x < (r + 1) * (r + 1) then some (z * 16777216 / n + r) else none

theorem score_close {z : Int} {n p : Nat} {s : Int} (hn : 0 < n) (hnp : n ≤ p) (h2 : 2 ≤ p) (hp : p < 176)
    (h : score z n p = some s) :
    |(s : ℝ) - 2 ^ 24 * ((z : ℝ) / n + Real.sqrt (2 * Real.log p / n))| ≤ 64 := by
  unfold score at h
  simp only at h
  generalize newton (2 * lnAt p / n) 60 67108864 = r at h
  split at h
  case isFalse => cases h
  case isTrue hr =>
    cases Option.some.inj h
    obtain ⟨hr1, hr2⟩ := hr
    have hn' : (0 : ℝ) < n := by exact_mod_cast hn
    have hn1 : (1 : ℝ) ≤ n := by exact_mod_cast hn
    have hn176 : (n : ℝ) ≤ 176 := by exact_mod_cast (by omega : n ≤ 176)
    have ht := lnAt_close p h2 hp
    have hlog : (0.69 : ℝ) ≤ Real.log p := by
      have h3 : Real.log (2 : ℝ) ≤ Real.log p := Real.log_le_log (by norm_num) (by exact_mod_cast h2)
      have := Real.log_two_gt_d9
      linarith
    -- the radicand
    have hx1 : (((2 * lnAt p / n : Nat)) : ℝ) * n ≤ 2 * lnAt p := by exact_mod_cast Nat.div_mul_le_self (2 * lnAt p) n
    have hx2 : (2 * lnAt p : ℝ) < ((2 * lnAt p / n : Nat) : ℝ) * n + n := by
      have := Nat.lt_div_mul_add (a := 2 * lnAt p) hn
      exact_mod_cast this
    generalize ((2 * lnAt p / n : Nat)) = x at hx1 hx2 hr1 hr2
    have hy0 : 0 ≤ 2 * Real.log p / n := by positivity
    generalize hg : Real.sqrt (2 * Real.log p / n) = g
    have hg0 : 0 ≤ g := by rw [← hg]; exact Real.sqrt_nonneg _
    have hg2 : g ^ 2 * n = 2 * Real.log p := by
      rw [← hg, Real.sq_sqrt hy0]
      field_simp
    have hgn : 1 ≤ g * n := by
      have h1 : (1 : ℝ) ^ 2 ≤ (g * n) ^ 2 := by
        have : (g * n) ^ 2 = (g ^ 2 * n) * n := by ring
        rw [this, hg2]
        nlinarith
      exact le_of_sq_le_sq h1 (by positivity)
    -- times `n`: the radicand differs by at most `2 ^ 28`
    have hd : |(x : ℝ) * n - 2 ^ 48 * (g ^ 2 * n)| ≤ 2 ^ 28 := by
      rw [hg2]
      rw [abs_le] at ht ⊢
      constructor <;> nlinarith [ht.1, ht.2]
    rw [abs_le] at hd
    have hr1' : (r : ℝ) * r ≤ x := by exact_mod_cast hr1
    have hr2' : (x : ℝ) < (r + 1) * (r + 1) := by exact_mod_cast hr2
    have hr0 : (0 : ℝ) ≤ r := by positivity
    have key : (2 : ℝ) ^ 28 ≤ 2 ^ 28 * g * n := by nlinarith
    have hup : (r : ℝ) ≤ 2 ^ 24 * g + 8 := by
      by_contra hc
      have hc := not_le.1 hc
      have h1 : (2 ^ 24 * g + 8) * (2 ^ 24 * g + 8) * n < r * r * n := by
        refine mul_lt_mul_of_pos_right ?_ hn'
        exact mul_lt_mul'' hc hc (by positivity) (by positivity)
      have h3 : (r : ℝ) * r * n ≤ x * n := mul_le_mul_of_nonneg_right hr1' hn'.le
      nlinarith
    have hlo : 2 ^ 24 * g - 17 ≤ (r : ℝ) := by
      by_contra hc
      have hc := not_le.1 hc
      have hpos : (0 : ℝ) ≤ r + 1 := by linarith
      have h1 : ((r : ℝ) + 1) * (r + 1) * n ≤ (2 ^ 24 * g - 16) * (2 ^ 24 * g - 16) * n := by
        refine mul_le_mul_of_nonneg_right ?_ hn'.le
        exact mul_le_mul (by linarith) (by linarith) hpos (by linarith)
      have h3 : (x : ℝ) * n < (r + 1) * (r + 1) * n := mul_lt_mul_of_pos_right hr2' hn'
      nlinarith
    -- the mean
    have hz1 : ((z * 16777216 / (n : Int) : Int) : ℝ) * n ≤ z * 16777216 := by
      exact_mod_cast Int.ediv_mul_le (z * 16777216) (by omega : (n : Int) ≠ 0)
    have hz2 : (z * 16777216 : ℝ) < (((z * 16777216 / (n : Int) : Int) : ℝ) + 1) * n := by
      have := Int.lt_ediv_add_one_mul_self (z * 16777216) (by omega : (0 : Int) < n)
      exact_mod_cast this
    have e : (2 : ℝ) ^ 24 * ((z : ℝ) / n) = (z * 16777216 : ℝ) / n := by
      field_simp
      ring
    have hm1 : ((z * 16777216 / (n : Int) : Int) : ℝ) ≤ (z * 16777216 : ℝ) / n := (le_div_iff₀ hn').2 hz1
    have hm2 : (z * 16777216 : ℝ) / n ≤ ((z * 16777216 / (n : Int) : Int) : ℝ) + 1 := (div_le_iff₀ hn').2 hz2.le
    rw [mul_add, e]
    push_cast
    rw [abs_le]
    constructor <;> linarith

/-! ## The judge -/

/-- Compares scores, unless they are closer than `700 / 2 ^ 24`. -/
def judge : Judge := fun p a x =>
  if 0 < a.visits ∧ a.visits ≤ p ∧ 0 < x.visits ∧ x.visits ≤ p ∧ 2 ≤ p ∧ p < 176 ∧ -a.visits ≤ a.value ∧ a.value ≤ a.visits ∧
      -x.visits ≤ x.value ∧ x.value ≤ x.visits then
    if a.value = x.value ∧ a.visits = x.visits then some false
    else match score a.value a.visits p, score x.value x.visits p with
      | some s, some u => if u + 700 ≤ s then some true else if s + 700 ≤ u then some false else none
      | _, _ => none
  else none

/-- The judge is right if scores are accurate to `2 ^ -16`. -/
theorem judge_just (A : Arith Fl ℝ B) (hB : 1000 ≤ B) {ε : ℝ} (hε : ε ≤ 1 / 2 ^ 16) (hA : Xp.Close A 2 ε) : Just Fl judge := by
  intro p a x b h
  unfold judge at h
  split at h
  case isFalse => cases h
  case isTrue hg =>
    obtain ⟨g1, g2, g3, g4, g5, g6, g7, g8, g9, g10⟩ := hg
    rw [A.cmp a.value x.value a.visits x.visits p g1 g3 g2 g4 (by omega) g7 g8 g9 g10]
    have ca := hA a.value a.visits p g1 g2 (by omega) g7 g8
    have cx := hA x.value x.visits p g3 g4 (by omega) g9 g10
    split at h
    case isTrue he =>
      cases Option.some.inj h
      rw [he.1, he.2]
      simp
    case isFalse =>
      cases hs : score a.value a.visits p with
      | none => rw [hs] at h; cases h
      | some s =>
        cases hu : score x.value x.visits p with
        | none => rw [hs, hu] at h; cases h
        | some u =>
          rw [hs, hu] at h
          simp only at h
          have ks := score_close g1 g2 g5 g6 hs
          have ku := score_close g3 g4 g5 g6 hu
          rw [abs_le] at ca cx ks ku
          split at h
          case isTrue hlt =>
            cases Option.some.inj h
            refine iff_of_true ?_ rfl
            have hlt : (u : ℝ) + 700 ≤ s := by exact_mod_cast hlt
            linarith [ca.1, ca.2, cx.1, cx.2, ks.1, ks.2, ku.1, ku.2]
          case isFalse =>
            split at h
            case isFalse => cases h
            case isTrue hlt =>
              cases Option.some.inj h
              refine iff_of_false ?_ (by simp)
              have hlt : (s : ℝ) + 700 ≤ u := by exact_mod_cast hlt
              rw [not_lt]
              linarith [ca.1, ca.2, cx.1, cx.2, ks.1, ks.2, ku.1, ku.2]

end DieE.Props.Ca
