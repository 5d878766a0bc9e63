import Verif.Props.Single32
import Mathlib.Data.EReal.Operations

/-!
# C100: the special values of `f32`

The rules of IEEE 754 for infinities, zeros and `NaN`, stated with the extended real numbers, and what they make of
`select_win_pct`.
-/

namespace DieE.Props.Fn
open DieE DieE.Fp DieE.Mcts DieE.Props.S DieE.Props.Vl DieE.Props.Wn

/-- The extended real number meant; none for `NaN`. -/
noncomputable def ext : Num → Option EReal
  | .fin q => some ((q : ℝ) : EReal)
  | .inf false => some ⊤
  | .inf true => some ⊥
  | .nan => none

/-- Comparison is the comparison of the numbers meant; `NaN` is neither smaller nor greater than anything. -/
theorem C100_compare (x y : Num) :
    (Num.cmp x y = .gt ↔ ∃ a b, ext x = some a ∧ ext y = some b ∧ b < a) ∧
    (Num.cmp x y = .lt ↔ ∃ a b, ext x = some a ∧ ext y = some b ∧ a < b) := by
  have fin : ∀ p q : Rat, (compare p q = .gt ↔ q < p) ∧ (compare p q = .lt ↔ p < q) := fun p q =>
    ⟨compare_gt_iff_gt, compare_lt_iff_lt⟩
  have cast : ∀ p q : Rat, ((p : ℝ) : EReal) < ((q : ℝ) : EReal) ↔ p < q := fun p q => by
    rw [EReal.coe_lt_coe_iff, Rat.cast_lt]
  rcases x with p | s | _ <;> rcases y with q | s' | _
  · simp only [Num.cmp, ext, Option.some.injEq, (fin p q).1, (fin p q).2]
    refine ⟨⟨fun h => ⟨_, _, rfl, rfl, (cast _ _).mpr h⟩, ?_⟩, ⟨fun h => ⟨_, _, rfl, rfl, (cast _ _).mpr h⟩, ?_⟩⟩
    · rintro ⟨a, b, rfl, rfl, h⟩
      exact (cast _ _).mp h
    · rintro ⟨a, b, rfl, rfl, h⟩
      exact (cast _ _).mp h
  · cases s' <;> simp [Num.cmp, ext, EReal.coe_lt_top, EReal.bot_lt_coe]
  · simp [Num.cmp, ext]
  · cases s <;> simp [Num.cmp, ext, EReal.coe_lt_top, EReal.bot_lt_coe]
  · cases s <;> cases s' <;> simp [Num.cmp, ext]
  · cases s <;> simp [Num.cmp, ext]
  · simp [Num.cmp, ext]
  · simp [Num.cmp, ext]
  · simp [Num.cmp, ext]

/-- A sum of finite numbers is rounded; a sum with one infinity, or two equal ones, is that infinity; every other sum is
`NaN`. -/
theorem C100_add (φ : Format) (x y : Num) :
    (∀ a b, x = .fin a → y = .fin b → Num.add φ x y = Num.round φ (a + b)) ∧
    (Num.add φ x y = .nan ↔ x = .nan ∨ y = .nan ∨ ∃ s, x = .inf s ∧ y = .inf !s) ∧
    (∀ s, x = .inf s → Num.add φ x y ≠ .nan → ext (Num.add φ x y) = ext x) ∧
    (∀ s, y = .inf s → Num.add φ x y ≠ .nan → ext (Num.add φ x y) = ext y) := by
  have hr : ∀ a : Rat, Num.round φ a ≠ .nan := fun a => by
    unfold Num.round
    split <;> simp
  rcases x with p | s | _ <;> rcases y with q | s' | _
  · refine ⟨by rintro a b ⟨⟩ ⟨⟩; rfl, ⟨fun h => absurd h (hr _), by simp⟩, by simp, by simp⟩
  · simp [Num.add]
  · simp [Num.add]
  · simp [Num.add]
  · cases s <;> cases s' <;> simp [Num.add]
  · simp [Num.add]
  · simp [Num.add]
  · simp [Num.add]
  · simp [Num.add]

/-- A product of finite numbers is rounded; a product with an infinity is an infinity with the sign of the product, and
`NaN` if the other factor is zero. -/
theorem C100_mul (φ : Format) (x y : Num) :
    (∀ a b, x = .fin a → y = .fin b → Num.mul φ x y = Num.round φ (a * b)) ∧
    (Num.mul φ x y = .nan ↔ x = .nan ∨ y = .nan ∨ (x = .fin 0 ∧ ∃ s, y = .inf s) ∨ (y = .fin 0 ∧ ∃ s, x = .inf s)) ∧
    (∀ a b s, ext x = some a → ext y = some b → (x = .inf s ∨ y = .inf s) → Num.mul φ x y ≠ .nan →
      ext (Num.mul φ x y) = some (a * b)) := by
  have hr : ∀ a : Rat, Num.round φ a ≠ .nan := fun a => by
    unfold Num.round
    split <;> simp
  have hn : ∀ p : Rat, p < 0 → ((p : ℝ) : EReal) < 0 := fun p h => by exact_mod_cast h
  have hp : ∀ p : Rat, 0 < p → (0 : EReal) < ((p : ℝ) : EReal) := fun p h => by exact_mod_cast h
  rcases x with p | s | _ <;> rcases y with q | s' | _
  · refine ⟨by rintro a b ⟨⟩ ⟨⟩; rfl, ⟨fun h => absurd h (hr _), by simp⟩, by simp⟩
  · refine ⟨by simp, ?_, ?_⟩
    · by_cases h : p = 0 <;> simp [Num.mul, h]
    · intro a b s ha hb hs hne
      cases Option.some.inj ha
      have h : p ≠ 0 := by rintro rfl; simp [Num.mul] at hne
      simp only [Num.mul, if_neg h]
      rcases lt_or_gt_of_ne h with h | h
      · rw [decide_eq_true h]
        cases s' <;> cases Option.some.inj hb
        · simp [ext, EReal.mul_top_of_neg (hn p h)]
        · simp [ext, EReal.mul_bot_of_neg (hn p h)]
      · rw [decide_eq_false h.not_gt]
        cases s' <;> cases Option.some.inj hb
        · simp [ext, EReal.mul_top_of_pos (hp p h)]
        · simp [ext, EReal.mul_bot_of_pos (hp p h)]
  · simp [Num.mul]
  · refine ⟨by simp, ?_, ?_⟩
    · by_cases h : q = 0 <;> simp [Num.mul, h]
    · intro a b s'' ha hb hs hne
      cases Option.some.inj hb
      have h : q ≠ 0 := by rintro rfl; simp [Num.mul] at hne
      simp only [Num.mul, if_neg h]
      rcases lt_or_gt_of_ne h with h | h
      · rw [decide_eq_true h]
        cases s <;> cases Option.some.inj ha
        · simp [ext, EReal.top_mul_of_neg (hn q h)]
        · simp [ext, EReal.bot_mul_of_neg (hn q h)]
      · rw [decide_eq_false h.not_gt]
        cases s <;> cases Option.some.inj ha
        · simp [ext, EReal.top_mul_of_pos (hp q h)]
        · simp [ext, EReal.bot_mul_of_pos (hp q h)]
  · refine ⟨by simp, ?_, ?_⟩
    · cases s <;> cases s' <;> simp [Num.mul]
    · intro a b s'' ha hb _ _
      cases s <;> cases s' <;> cases Option.some.inj ha <;> cases Option.some.inj hb <;> simp [Num.mul, ext]
  · simp [Num.mul]
  · simp [Num.mul]
  · simp [Num.mul]
  · simp [Num.mul]

/-- A quotient of finite numbers is rounded, and an infinity or `NaN` if the divisor is zero; a finite number divided by an
infinity is zero. -/
theorem C100_div (φ : Format) (x y : Num) :
    (∀ a b, x = .fin a → y = .fin b → b ≠ 0 → Num.div φ x y = Num.round φ (a / b)) ∧
    (∀ a, x = .fin a → y = .fin 0 → (0 < a → ext (Num.div φ x y) = some ⊤) ∧ (a < 0 → ext (Num.div φ x y) = some ⊥)) ∧
    (∀ a s, x = .fin a → y = .inf s → ext (Num.div φ x y) = some 0) ∧
    (Num.div φ x y = .nan ↔ x = .nan ∨ y = .nan ∨ (x = .fin 0 ∧ y = .fin 0) ∨ ((∃ s, x = .inf s) ∧ ∃ s, y = .inf s)) ∧
    (∀ s b, x = .inf s → y = .fin b → ext (Num.div φ x y) = some (if (s = true) = (b < 0) then ⊤ else ⊥)) := by
  have hr : ∀ a : Rat, Num.round φ a ≠ .nan := fun a => by
    unfold Num.round
    split <;> simp
  rcases x with p | s | _ <;> rcases y with q | s' | _
  · refine ⟨?_, ?_, by simp, ?_, by simp⟩
    · rintro a b ⟨⟩ ⟨⟩ h
      simp only [Num.div, if_neg h]
    · rintro a ⟨⟩ ⟨⟩
      refine ⟨fun h => ?_, fun h => ?_⟩
      · simp [Num.div, h.ne', decide_eq_false h.not_gt, ext]
      · simp [Num.div, h.ne, h, ext]
    · by_cases hq : q = 0
      · by_cases hp : p = 0 <;> simp [Num.div, hp, hq]
      · simp [Num.div, hq, hr]
  · simp [Num.div, ext]
  · simp [Num.div]
  · refine ⟨by simp, by simp, by simp, by simp [Num.div], ?_⟩
    rintro s b ⟨⟩ ⟨⟩
    by_cases h : q < 0 <;> cases s <;> simp [Num.div, ext, h]
  · simp [Num.div]
  · simp [Num.div]
  · simp [Num.div]
  · simp [Num.div]
  · simp [Num.div]

/-- A root is rounded, `NaN` for negative numbers, infinite for infinity. -/
theorem C100_sqrt (φ : Format) (x : Num) :
    (∀ a, x = .fin a → 0 ≤ a → Num.sqrt φ x = Num.round φ (Real.sqrt a)) ∧
    (Num.sqrt φ x = .nan ↔ x = .nan ∨ ∃ a, ext x = some a ∧ a < 0) ∧
    (ext x = some ⊤ → ext (Num.sqrt φ x) = some ⊤) := by
  have hr : ∀ a : ℝ, Num.round φ a ≠ .nan := fun a => by
    unfold Num.round
    split <;> simp
  rcases x with p | s | _
  · refine ⟨?_, ?_, ?_⟩
    · rintro a ⟨⟩ h
      simp only [Num.sqrt, if_neg h.not_gt]
    · have hc : ((p : ℝ) : EReal) < 0 ↔ p < 0 := by exact_mod_cast Iff.rfl
      by_cases h : p < 0
      · simp [Num.sqrt, h, ext, hc]
      · simp [Num.sqrt, h, hr, ext, hc]
    · simp [ext]
  · cases s <;> simp [Num.sqrt, ext]
  · simp [Num.sqrt, ext]

/-- Infinities and `NaN` do come up in the formulas: the score of a node without visits is `NaN`. -/
example (ln : Num → Num) : (single (.fin 2) ln).ucb (.fin 0) 0 3 = Num.nan := by
  have h : Num.div f32 (.fin 0) (.fin ((0 : Nat) : Rat)) = .nan := by simp [Num.div]
  unfold single
  simp only [h]
  exact (C100_add f32 _ _).2.1.mpr (.inl rfl)

/-! ## `select_win_pct` -/

/-- A mean in single precision is off by at most `2 ^ -24`. -/
theorem mean_single {q : Rat} {n : Nat} (h : |q / n| ≤ 1) (hn : 0 < n) :
    ∃ r : Rat, Num.div f32 (.fin q) (.fin n) = .fin r ∧ |q / n - r| ≤ 1 / 2 ^ 24 := by
  have h0 : (n : Rat) ≠ 0 := by exact_mod_cast hn.ne'
  refine ⟨rnd f32 (q / n), ?_, ?_⟩
  · simp only [Num.div, if_neg h0]
    exact round_rat (by linarith)
  · have := rnd_abs (φ := f32) (q / n) (e := -23) (by
      show _ < (2 : Rat) ^ ((-23 : Int) + (24 : Nat))
      norm_num
      linarith) (by decide)
    rw [Rat.cast_id] at this
    norm_num at this ⊢
    exact this

/-- `select_win_pct` in single precision, on a well-formed store: if the children of a node have been visited and have
values between minus and plus their visits, it returns the action of a child whose mean is at most `2 ^ -23` below the mean
of any other. -/
theorem win_pct_single {G : Game} {c : Num} {ln : Num → Num} {st : Store G (single c ln)} (w : WellFormed st) {i : Nat}
    {n : Node G (single c ln)} (hi : st[i]? = some n) (hc : n.children ≠ [])
    (hv : ∀ d ∈ n.children, ∀ dn : Node G (single c ln), st[d]? = some dn →
      0 < dn.visits ∧ ∃ q : Rat, dn.value = Num.fin q ∧ |q / dn.visits| ≤ 1) :
    ∃ (k : Nat) (kn : Node G (single c ln)) (a : G.Mv) (q : Rat), k ∈ n.children ∧ st[k]? = some kn ∧ kn.action = some a ∧
      selectWinPct i st = .ok a ∧ kn.value = Num.fin q ∧ ∀ d ∈ n.children, ∀ dn : Node G (single c ln), st[d]? = some dn →
        ∀ r : Rat, dn.value = Num.fin r → r / dn.visits ≤ q / kn.visits + 1 / 2 ^ 23 := by
  obtain ⟨cs, h1, h2, h3⟩ := childNodes_spec w hi
  have hne : cs ≠ [] := by
    intro h
    rw [h] at h3
    exact hc (List.length_eq_zero_iff.1 h3.symm)
  have hmean : ∀ m ∈ cs, ∃ q r : Rat, m.value = Num.fin q ∧ m.winPct = Num.fin r ∧ |q / m.visits - r| ≤ 1 / 2 ^ 24 := by
    intro m hm
    obtain ⟨d, hd, hdm⟩ := (h2 m).1 hm
    obtain ⟨g1, q, g2, g3⟩ := hv d hd m hdm
    obtain ⟨r, g4, g5⟩ := mean_single g3 g1
    refine ⟨q, r, g2, ?_, g5⟩
    show Num.div f32 m.value (.fin m.visits) = _
    rw [g2, g4]
  obtain ⟨m, hm, he⟩ := maxBy_mem (cmp := fun a b : Node G (single c ln) => .ok (Num.cmp a.winPct b.winPct))
    (fun a _ b _ => ⟨_, rfl⟩) hne
  obtain ⟨-, g2⟩ := maxBy_le (fun a b : Node G (single c ln) => (value? a.winPct).getD 0 ≤ (value? b.winPct).getD 0)
    (fun _ => le_refl _) (fun _ _ _ => le_trans) (by
      intro a ha b hb o ho
      cases ho
      obtain ⟨-, x, -, hx, -⟩ := hmean a ha
      obtain ⟨-, y, -, hy, -⟩ := hmean b hb
      rw [hx, hy]
      show (compare x y = .gt → y ≤ x) ∧ (compare x y ≠ .gt → x ≤ y)
      exact ⟨fun h => (compare_gt_iff_gt.1 h).le, fun h => compare_le_iff_le.1 h⟩) he
  obtain ⟨k, hk1, hk2⟩ := (h2 m).1 hm
  obtain ⟨a, ms, h4, -⟩ := child_legal w hi hk1 hk2
  obtain ⟨q, x, hq, hx, hqx⟩ := hmean m hm
  refine ⟨k, m, a, q, hk1, hk2, h4, ?_, hq, ?_⟩
  · unfold selectWinPct
    rw [getNode_ok.2 hi]
    show (childNodes st n >>= _) = _
    rw [h1]
    show (maxBy _ cs >>= _) = _
    rw [show maxBy (fun a b : Node G (single c ln) => .ok ((single c ln).cmp a.winPct b.winPct)) cs = _ from he]
    simp only [bind, Except.bind]
    rw [h4]
    rfl
  · intro d hd dn hdn r hr
    have hmem := (h2 dn).2 ⟨d, hd, hdn⟩
    obtain ⟨q', y, hq', hy, hqy⟩ := hmean dn hmem
    rw [hr] at hq'
    cases hq'
    have := g2 dn hmem
    rw [hx, hy] at this
    change y ≤ x at this
    have h1 := (abs_le.1 hqx).1
    have h2 := (abs_le.1 hqy).2
    norm_num at h1 h2 ⊢
    linarith

/-- C100 for `select_win_pct`: at the root of a search in single precision it returns the action of a child whose mean is
at most `2 ^ -23` below the mean of any other. -/
theorem C100_win_pct {G : Game} {c : Rat} (hc : Usual c) {ln : Num → Num} (hln : LogOK ln) {state : G.S} {player : Int}
    {N limit : Nat} (hl : 0 < limit) (hN : N < 65536) (hw : G.winner state = none) {st : Store G (single (.fin c) ln)}
    {tr : List Nat} {t t' : Tape} (h : buildTree (single (.fin c) ln) state player N limit t = .ok ((st, tr), t'))
    {rn : Node G (single (.fin c) ln)} (hr : st[0]? = some rn) (hne : rn.children ≠ []) :
    ∃ (k : Nat) (kn : Node G (single (.fin c) ln)) (a : G.Mv) (q : Rat), k ∈ rn.children ∧ st[k]? = some kn ∧
      kn.action = some a ∧ selectWinPct 0 st = .ok a ∧ kn.value = Num.fin q ∧
      ∀ d ∈ rn.children, ∀ dn : Node G (single (.fin c) ln), st[d]? = some dn →
        ∃ r : Rat, dn.value = Num.fin r ∧ r / dn.visits ≤ q / kn.visits + 1 / 2 ^ 23 := by
  obtain ⟨race, -⟩ := buildTree_race (singleArith hc hln) (by norm_num) hl hN hw h
  have hv : ∀ d ∈ rn.children, ∀ dn : Node G (single (.fin c) ln), st[d]? = some dn →
      0 < dn.visits ∧ ∃ q : Rat, dn.value = Num.fin q ∧ |q / dn.visits| ≤ 1 := by
    intro d hd dn hdn
    obtain ⟨dn', h1, h2⟩ := race.inv.wf.down 0 rn d hr hd
    rw [hdn] at h1
    cases Option.some.inj h1
    have hb := race.inv.bound d dn hdn
    obtain ⟨q, h3, -, h4⟩ := C100_values h dn (List.mem_of_getElem? hdn) (by omega)
    exact ⟨race.inv.pos d dn hdn h2, q, h3, h4⟩
  obtain ⟨k, kn, a, q, g1, g2, g3, g4, g5, g6⟩ := win_pct_single race.inv.wf hr hne hv
  refine ⟨k, kn, a, q, g1, g2, g3, g4, g5, fun d hd dn hdn => ?_⟩
  obtain ⟨-, r, hr', -⟩ := hv d hd dn hdn
  exact ⟨r, hr', g6 d hd dn hdn r hr'⟩

/-! ## Overflow -/

section
variable {K : Type*} [Field K] [LinearOrder K] [IsStrictOrderedRing K] [FloorRing K]

/-- The middle between the largest number of a format and the next power of two. -/
def overflow (φ : Format) : Rat := 2 ^ φ.high - 2 ^ (φ.high - φ.prec - 1)

omit [IsStrictOrderedRing K] in
theorem overflow_eq (φ : Format) : ((overflow φ : Rat) : K) = (2 ^ φ.prec - 1 / 2) * 2 ^ (φ.high - φ.prec) := by
  unfold overflow
  push_cast
  rw [show φ.high - (φ.prec : Int) - 1 = (φ.high - φ.prec) - 1 by ring, zpow_sub_one₀ (two_ne_zero)]
  have : (2 : K) ^ φ.high = 2 ^ φ.prec * 2 ^ (φ.high - φ.prec) := by
    rw [← zpow_natCast, ← zpow_add₀ two_ne_zero]
    congr 1
    ring
  rw [this]
  ring

theorem overflow_place {φ : Format} (hp : 0 < φ.prec) (hl : φ.low + φ.prec ≤ φ.high) {x : K} (hx : |x| = ((overflow φ : Rat) : K)) :
    lastPlace φ x = φ.high - φ.prec := by
  have h0 : (0 : K) < 2 ^ (φ.high - φ.prec) := by positivity
  have h2 : (2 : K) ≤ 2 ^ φ.prec := by
    calc (2 : K) = 2 ^ 1 := by ring
      _ ≤ 2 ^ φ.prec := pow_le_pow_right₀ (by norm_num) hp
  have hpos : (0 : K) < |x| := by
    rw [hx, overflow_eq]
    exact mul_pos (by linarith) h0
  have hlog : Int.log 2 |x| = φ.high - 1 := by
    apply le_antisymm
    · have : Int.log 2 |x| < φ.high := by
        rw [← Int.lt_zpow_iff_log_lt (by norm_num) hpos, hx]
        unfold overflow
        push_cast
        have : (0 : K) < 2 ^ (φ.high - φ.prec - 1) := by positivity
        linarith
      omega
    · rw [← Int.zpow_le_iff_le_log (by norm_num) hpos, hx, overflow_eq]
      have : ((2 : Nat) : K) ^ (φ.high - 1) = 2 ^ φ.prec / 2 * 2 ^ (φ.high - φ.prec) := by
        rw [show φ.high - 1 = (φ.prec : Int) + (φ.high - φ.prec) - 1 by ring, Nat.cast_ofNat, zpow_sub_one₀ two_ne_zero,
          zpow_add₀ two_ne_zero, zpow_natCast]
        ring
      rw [this]
      exact mul_le_mul_of_nonneg_right (by linarith) h0.le
  unfold lastPlace
  rw [hlog]
  rw [max_eq_left (by omega)]
  ring

theorem rnd_overflow {φ : Format} (hp : 0 < φ.prec) (hl : φ.low + φ.prec ≤ φ.high) :
    rnd φ ((overflow φ : Rat) : K) = 2 ^ φ.high ∧ rnd φ (-((overflow φ : Rat) : K)) = -2 ^ φ.high := by
  have h0 : (0 : K) < 2 ^ (φ.high - φ.prec) := by positivity
  have h2 : (2 : K) ≤ 2 ^ φ.prec := by
    calc (2 : K) = 2 ^ 1 := by ring
      _ ≤ 2 ^ φ.prec := pow_le_pow_right₀ (by norm_num) hp
  have hpos : (0 : K) < ((overflow φ : Rat) : K) := by
    rw [overflow_eq]
    exact mul_pos (by linarith) h0
  have hev : Even ((2 : Int) ^ φ.prec) := (even_two).pow_of_ne_zero (by omega)
  have hz : (2 : Rat) ^ φ.high = 2 ^ φ.prec * 2 ^ (φ.high - φ.prec) := by
    rw [← zpow_natCast, ← zpow_add₀ two_ne_zero]
    congr 1
    ring
  constructor
  · unfold rnd significand
    rw [overflow_place hp hl (abs_of_pos hpos), overflow_eq, mul_div_assoc, div_self h0.ne', mul_one]
    have hf : ⌊(2 : K) ^ φ.prec - 1 / 2⌋ = 2 ^ φ.prec - 1 := by
      rw [Int.floor_eq_iff]
      push_cast
      constructor <;> linarith
    unfold nearestEven
    simp only
    rw [hf]
    push_cast
    rw [if_neg (by linarith), if_neg (by linarith), if_neg (by have := Int.even_iff.1 hev; omega)]
    rw [hz]
    ring
  · unfold rnd significand
    rw [overflow_place hp hl (by rw [abs_neg, abs_of_pos hpos]), overflow_eq, neg_div, mul_div_assoc, div_self h0.ne', mul_one]
    have hf : ⌊-((2 : K) ^ φ.prec - 1 / 2)⌋ = -2 ^ φ.prec := by
      rw [Int.floor_eq_iff]
      push_cast
      constructor <;> linarith
    unfold nearestEven
    simp only
    rw [hf]
    push_cast
    rw [if_neg (by linarith), if_neg (by linarith), if_pos (by have := Int.even_iff.1 hev; omega)]
    rw [hz]
    ring

/-- C100: results from the middle between the largest number and the next power of two on become infinite, with their
sign; all others are rounded to a nearest number. -/
theorem C100_overflow {φ : Format} (hp : 0 < φ.prec) (hl : φ.low + φ.prec ≤ φ.high) (x : K) :
    (Num.round φ x = .inf false ↔ ((overflow φ : Rat) : K) ≤ x) ∧
    (Num.round φ x = .inf true ↔ x ≤ -((overflow φ : Rat) : K)) ∧
    (∀ r, Num.round φ x = .fin r → |r| < 2 ^ φ.high ∧ Nearest φ x r) ∧ Num.round φ x ≠ .nan := by
  have h0 : (0 : K) < 2 ^ (φ.high - φ.prec) := by positivity
  have h2 : (2 : K) ≤ 2 ^ φ.prec := by
    calc (2 : K) = 2 ^ 1 := by ring
      _ ≤ 2 ^ φ.prec := pow_le_pow_right₀ (by norm_num) hp
  have hpos : (0 : K) < ((overflow φ : Rat) : K) := by
    rw [overflow_eq]
    exact mul_pos (by linarith) h0
  obtain ⟨o1, o2⟩ := rnd_overflow (K := K) hp hl
  have hz : (2 : K) ^ φ.high = 2 ^ φ.prec * 2 ^ (φ.high - φ.prec) := by
    rw [← zpow_natCast, ← zpow_add₀ two_ne_zero]
    congr 1
    ring
  have hrep : Representable φ ((2 ^ φ.prec - 1) * 2 ^ (φ.high - φ.prec)) :=
    ⟨2 ^ φ.prec - 1, φ.high - φ.prec, by
      have : (1 : Int) ≤ 2 ^ φ.prec := one_le_pow₀ (by norm_num)
      rw [abs_of_nonneg (by omega)]; omega, by omega, by push_cast; ring⟩
  have e1 := overflow_eq (K := K) φ
  have hsmall : |x| < ((overflow φ : Rat) : K) → |rnd φ x| < 2 ^ φ.high := by
    intro h
    have hcast : ((|rnd φ x| : Rat) : K) < ((2 ^ φ.high : Rat) : K) := by
      push_cast
      by_cases hle : |x| ≤ (2 ^ φ.prec - 1) * 2 ^ (φ.high - φ.prec)
      · have := abs_rnd_le hp hrep (x := x) (by push_cast; exact hle)
        have : ((|rnd φ x| : Rat) : K) ≤ (((2 ^ φ.prec - 1) * 2 ^ (φ.high - φ.prec) : Rat) : K) := by exact_mod_cast this
        push_cast at this
        rw [hz]
        nlinarith
      · push Not at hle
        have hn : |x - (rnd φ x : K)| < 1 / 2 * 2 ^ (φ.high - φ.prec) := by
          rcases abs_cases x with ⟨e, -⟩ | ⟨e, -⟩
          · have := (rnd_nearest hp x).near _ hrep
            push_cast at this
            rw [e] at hle h
            rw [abs_of_pos (show (0 : K) < x - (2 ^ φ.prec - 1) * 2 ^ (φ.high - φ.prec) by linarith)] at this
            rw [e1] at h
            nlinarith
          · have := (rnd_nearest hp x).near _ (rep_neg hrep)
            push_cast at this
            rw [e] at hle h
            rw [abs_of_neg (show x - -((2 ^ φ.prec - 1) * 2 ^ (φ.high - φ.prec) : K) < 0 by linarith)] at this
            rw [e1] at h
            nlinarith
        have h3 : |(rnd φ x : K)| ≤ |x| + |x - (rnd φ x : K)| := by
          have := abs_sub_abs_le_abs_sub (rnd φ x : K) x
          rw [abs_sub_comm] at this
          linarith
        rw [e1] at h
        rw [hz]
        nlinarith
    exact_mod_cast hcast
  have hbig : ((overflow φ : Rat) : K) ≤ x → Num.round φ x = .inf false := by
    intro h
    have := rnd_mono hp h
    rw [o1] at this
    unfold Num.round
    rw [if_neg (by rw [not_lt]; exact le_trans this (le_abs_self _)), decide_eq_false (by linarith)]
  have hlow : x ≤ -((overflow φ : Rat) : K) → Num.round φ x = .inf true := by
    intro h
    have := rnd_mono hp h
    rw [o2] at this
    unfold Num.round
    rw [if_neg (by rw [not_lt]; exact le_trans (by linarith) (neg_le_abs _)), decide_eq_true (by linarith)]
  have hmid : |x| < ((overflow φ : Rat) : K) → Num.round φ x = .fin (rnd φ x) := by
    intro h
    unfold Num.round
    rw [if_pos (hsmall h)]
  rcases le_or_gt ((overflow φ : Rat) : K) x with h | h
  · rw [hbig h]
    exact ⟨by simp [h], by simp; linarith, by simp, by simp⟩
  rcases le_or_gt x (-((overflow φ : Rat) : K)) with h' | h'
  · rw [hlow h']
    exact ⟨by simp; linarith, by simp [h'], by simp, by simp⟩
  have hm := abs_lt.2 ⟨h', h⟩
  rw [hmid hm]
  refine ⟨by simp [h], by simp [h'], ?_, by simp⟩
  intro r hr
  cases Num.fin.inj hr
  exact ⟨hsmall hm, rnd_nearest hp x⟩

/-- The formats of the program. -/
example : (0 < f32.prec ∧ f32.low + f32.prec ≤ f32.high) ∧ 0 < f64.prec ∧ f64.low + f64.prec ≤ f64.high := by decide

end

end DieE.Props.Fn
