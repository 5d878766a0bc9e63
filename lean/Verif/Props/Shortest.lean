import Verif.Text.FloatFacts
import Verif.Props.Report

/-!
# C105: a printed float is the shortest decimal number that reads back as it
-/

namespace DieE.Props.Sh
open DieE DieE.Text DieE.Fp DieE.Props.Rp
open DieE.Train (Name digits)

/-! ## Signs -/

theorem nearestEven_neg (x : Rat) : nearestEven (-x) = -nearestEven x := by
  by_contra hne
  have h1 := nearestEven_le (-x) (-nearestEven x)
  have h2 := nearestEven_le x (-nearestEven (-x))
  have e1 : |-x - ((-nearestEven x : Int) : Rat)| = |x - nearestEven x| := by
    rw [← abs_neg]; congr 1; push_cast; ring
  have e2 : |x - ((-nearestEven (-x) : Int) : Rat)| = |-x - nearestEven (-x)| := by
    rw [← abs_neg]; congr 1; push_cast; ring
  rw [e1] at h1
  rw [e2] at h2
  have h3 := le_antisymm h1 h2
  have t1 := nearestEven_tie (x := -x) (z := -nearestEven x) (fun h => hne h.symm) (by rw [e1, h3])
  have t2 := nearestEven_tie (x := x) (z := -nearestEven (-x)) (fun h => hne (by omega)) (by rw [e2, h3])
  have g1 := abs_le.1 (nearestEven_half x)
  have g2 := abs_le.1 (nearestEven_half (-x))
  obtain ⟨p, hp⟩ := t1
  obtain ⟨q, hq⟩ := t2
  have l1 : ((nearestEven x + nearestEven (-x) : Int) : Rat) ≤ 1 := by push_cast; linarith [g1.1, g2.1]
  have l2 : (-1 : Rat) ≤ ((nearestEven x + nearestEven (-x) : Int) : Rat) := by push_cast; linarith [g1.2, g2.2]
  have l3 : nearestEven x + nearestEven (-x) ≤ 1 := by exact_mod_cast l1
  have l4 : -1 ≤ nearestEven x + nearestEven (-x) := by exact_mod_cast l2
  omega

theorem rnd_neg (φ : Format) (x : Rat) : rnd φ (-x) = -rnd φ x := by
  have h : lastPlace φ (-x) = lastPlace φ x := by unfold lastPlace; rw [abs_neg]
  unfold rnd significand
  rw [h, neg_div, nearestEven_neg]
  push_cast
  ring

theorem rep_neg {φ : Format} {x : Rat} (h : Representable φ x) : Representable φ (-x) := by
  obtain ⟨m, e, h1, h2, rfl⟩ := h
  exact ⟨-m, e, by rwa [abs_neg], h2, by push_cast; ring⟩

theorem hasDigits_neg {n : Nat} {v : Rat} (h : HasDigits n v) : HasDigits n (-v) := by
  obtain ⟨m, k, h1, rfl⟩ := h
  exact ⟨-m, k, by rwa [abs_neg], by push_cast; ring⟩

theorem shortest_neg {φ : Format} {x v : Rat} (h : Shortest φ x v) : Shortest φ (-x) (-v) := by
  obtain ⟨h1, n, h2, h3⟩ := h
  refine ⟨by rw [rnd_neg, h1], n, hasDigits_neg h2, fun w hw => ?_⟩
  obtain ⟨g1, g2⟩ := h3 (-w) (by rw [rnd_neg, hw, neg_neg])
  refine ⟨fun n' hn => g1 n' (hasDigits_neg hn), fun hn => ?_⟩
  have := g2 (hasDigits_neg hn)
  rw [show -x - -v = -(x - v) by ring, abs_neg, show -x - w = -(x - -w) by ring, abs_neg, abs_neg v]
  rwa [abs_neg w] at this

theorem shortest_zero {φ : Format} (hp : 0 < φ.prec) : Shortest φ 0 0 := by
  refine ⟨rnd_zero hp, 0, ⟨0, 0, by simp, by simp⟩, fun w _ => ⟨fun _ _ => Nat.zero_le _, fun h => ?_⟩⟩
  rw [hasDigits_zero h]
  exact ⟨le_refl _, fun _ => le_refl _⟩

/-! ## Strings of digits -/

/-- The number a string of digits stands for. -/
abbrev number (l : Name) : Nat := Nat.ofDigitChars 10 l 0

def AllDigits (l : Name) : Prop := ∀ c ∈ l, c.isDigit = true

theorem number_cons (c : Char) (l : Name) : number (c :: l) = 10 ^ l.length * (c.toNat - '0'.toNat) + number l := by
  unfold number
  rw [Nat.ofDigitChars_cons, Nat.ofDigitChars_eq_ofDigitChars_zero]
  simp

theorem isDigit_range {c : Char} (h : c.isDigit = true) : 48 ≤ c.toNat ∧ c.toNat ≤ 57 := by
  rw [Char.isDigit_iff_toNat] at h
  exact h

theorem number_lt {l : Name} (h : AllDigits l) : number l < 10 ^ l.length := by
  induction l with
  | nil => simp [number]
  | cons c l ih =>
    rw [number_cons, List.length_cons, pow_succ]
    have h1 := ih fun c hc => h c (List.mem_cons_of_mem _ hc)
    have h2 := isDigit_range (h c (List.mem_cons_self ..))
    have h3 : c.toNat - '0'.toNat ≤ 9 := by show c.toNat - 48 ≤ 9; omega
    have := Nat.mul_le_mul_left (10 ^ l.length) h3
    omega

theorem number_inj {l l' : Name} (h : AllDigits l) (h' : AllDigits l') (hl : l.length = l'.length)
    (e : number l = number l') : l = l' := by
  induction l generalizing l' with
  | nil => exact (List.length_eq_zero_iff.1 hl.symm).symm
  | cons c l ih =>
    cases l' with
    | nil => cases hl
    | cons c' l' =>
      have hl' : l.length = l'.length := by simpa using hl
      rw [number_cons, number_cons, hl'] at e
      have a1 : AllDigits l := fun c hc => h c (List.mem_cons_of_mem _ hc)
      have a2 : AllDigits l' := fun c hc => h' c (List.mem_cons_of_mem _ hc)
      have n1 := number_lt a1
      have n2 := number_lt a2
      rw [hl'] at n1
      have hpos : 0 < 10 ^ l'.length := by positivity
      have hd : c.toNat - '0'.toNat = c'.toNat - '0'.toNat := by
        have := congrArg (· / 10 ^ l'.length) e
        simpa [Nat.mul_add_div hpos, Nat.div_eq_of_lt n1, Nat.div_eq_of_lt n2] using this
      have d1 := isDigit_range (h c (List.mem_cons_self ..))
      have d2 := isDigit_range (h' c' (List.mem_cons_self ..))
      have hc : c = c' := by
        apply Char.toNat_inj.1
        change c.toNat - 48 = c'.toNat - 48 at hd
        omega
      rw [hd] at e
      rw [hc, ih a1 a2 hl' (by omega)]

theorem number_digits (n : Nat) : number (digits n) = n := by simp [number, digits, Nat.ofDigitChars_toDigits]

theorem natValue_number {l : Name} (h : l ≠ []) (ha : AllDigits l) : natValue l = some (number l) := by
  unfold natValue
  rw [if_pos ⟨h, List.all_eq_true.2 ha⟩]

theorem number_ge {c : Char} {l : Name} (hc : c.isDigit = true) (h0 : c ≠ '0') : 10 ^ l.length ≤ number (c :: l) := by
  rw [number_cons]
  have h1 := isDigit_range hc
  have h2 : c.toNat ≠ 48 := fun h => h0 (Char.toNat_inj.1 (by rw [h]; rfl))
  have h3 : 1 ≤ c.toNat - '0'.toNat := by show 1 ≤ c.toNat - 48; omega
  have := Nat.mul_le_mul_left (10 ^ l.length) h3
  omega

/-- Numbers without zeros in front are equal if their values are. -/
theorem whole_inj {a a' : Name} (h : AllDigits a) (h' : AllDigits a') (hne : a ≠ []) (hne' : a' ≠ [])
    (hz : a.head? = some '0' → a = ['0']) (hz' : a'.head? = some '0' → a' = ['0']) (e : number a = number a') : a = a' := by
  have key : ∀ {a a' : Name}, AllDigits a → AllDigits a' → a ≠ [] → (a'.head? = some '0' → a' = ['0']) →
      number a = number a' → ¬ a.length < a'.length := by
    intro a a' h h' hne hz' e hlt
    have hpos := List.length_pos_iff.2 hne
    cases a' with
    | nil => simp at hlt
    | cons c l =>
      by_cases hc : c = '0'
      · have := hz' (by rw [hc]; rfl)
        rw [this, List.length_singleton] at hlt
        omega
      · have h1 := number_ge (l := l) (h' c (List.mem_cons_self ..)) hc
        have h2 := number_lt h
        have h3 : 10 ^ a.length ≤ 10 ^ l.length := Nat.pow_le_pow_right (by norm_num) (by simp at hlt; omega)
        omega
  have h1 := key h h' hne hz' e
  have h2 := key h' h hne' hz e.symm
  exact number_inj h h' (by omega) e

theorem number_snoc (l : Name) (c : Char) : number (l ++ [c]) = 10 * number l + (c.toNat - '0'.toNat) := by
  unfold number
  rw [Nat.ofDigitChars_append, Nat.ofDigitChars_cons, Nat.ofDigitChars_nil]

/-- Fractions without zeros at the end are equal if their values are. -/
theorem fraction_inj {b b' : Name} (h : AllDigits b) (h' : AllDigits b') (hz : b.getLast? ≠ some '0')
    (hz' : b'.getLast? ≠ some '0') (e : number b * 10 ^ b'.length = number b' * 10 ^ b.length) : b = b' := by
  have key : ∀ {b b' : Name}, AllDigits b → AllDigits b' → b'.getLast? ≠ some '0' →
      number b * 10 ^ b'.length = number b' * 10 ^ b.length → ¬ b.length < b'.length := by
    intro b b' h h' hz' e hlt
    obtain ⟨d, hd⟩ : ∃ d, b'.length = b.length + (d + 1) := ⟨b'.length - b.length - 1, by omega⟩
    rw [hd, pow_add, pow_succ] at e
    have hpos : 0 < 10 ^ b.length := by positivity
    have e1 : number b * (10 ^ d * 10) = number b' := by
      have : 10 ^ b.length * (number b * (10 ^ d * 10)) = 10 ^ b.length * number b' := by
        rw [show number b' * 10 ^ b.length = 10 ^ b.length * number b' by ring] at e
        rw [← e]; ring
      exact Nat.eq_of_mul_eq_mul_left hpos this
    rcases List.eq_nil_or_concat b' with hb | ⟨l, c, hb⟩
    · rw [hb] at hlt; simp at hlt
    · rw [List.concat_eq_append] at hb
      have hc := isDigit_range (h' c (by rw [hb]; simp))
      have hc0 : c ≠ '0' := fun hc => hz' (by rw [hb, hc]; simp)
      have hc1 : c.toNat ≠ 48 := fun h => hc0 (Char.toNat_inj.1 (by rw [h]; rfl))
      rw [hb, number_snoc] at e1
      change _ = 10 * number l + (c.toNat - 48) at e1
      have : (number b * (10 ^ d * 10)) % 10 = 0 := by
        rw [← mul_assoc]; exact Nat.mul_mod_left _ _
      omega
  have h1 := key h h' hz' e
  have h2 := key h' h hz e.symm
  have hl : b.length = b'.length := by omega
  rw [hl] at e
  exact number_inj h h' hl (Nat.eq_of_mul_eq_mul_right (by positivity) e)

theorem no_point {l : Name} (h : AllDigits l) : '.' ∉ l := fun hm => absurd (h _ hm) (by decide)

theorem value_whole {a : Name} (h : AllDigits a) (hne : a ≠ []) : decimalValue a = some (number a : Rat) := by
  unfold decimalValue
  rw [Pr.split_none (no_point h)]
  simp only [natValue_number hne h]
  rfl

theorem value_point {a b : Name} (ha : AllDigits a) (hb : AllDigits b) (hne : a ≠ []) (hne' : b ≠ []) :
    decimalValue (a ++ '.' :: b) = some (number a + number b / 10 ^ b.length : Rat) := by
  unfold decimalValue
  rw [show a ++ '.' :: b = a ++ ['.'] ++ b by simp, Pr.split_sep (no_point ha), Pr.split_none (no_point hb)]
  simp only [natValue_number hne ha, natValue_number hne' hb]
  rfl

/-- A neat text is determined by its value. -/
theorem neat_inj {s s' : Name} (h : Neat s) (h' : Neat s') (e : decimalValue s = decimalValue s') : s = s' := by
  have key : ∀ {s : Name}, Neat s → ∃ a b : Name, (s = a ∧ b = [] ∨ s = a ++ '.' :: b ∧ b ≠ []) ∧ a ≠ [] ∧ AllDigits a ∧
      AllDigits b ∧ (a.head? = some '0' → a = ['0']) ∧ b.getLast? ≠ some '0' ∧
      decimalValue s = some (number a + number b / 10 ^ b.length : Rat) := by
    rintro s ⟨a, b, h1, h2, h3, h4, h5⟩
    have ha : AllDigits a := fun c hc => h3 c (List.mem_append_left _ hc)
    have hb : AllDigits b := fun c hc => h3 c (List.mem_append_right _ hc)
    refine ⟨a, b, h1, h2, ha, hb, h4, h5, ?_⟩
    rcases h1 with ⟨rfl, rfl⟩ | ⟨rfl, hne⟩
    · rw [value_whole ha h2]
      simp [number]
    · exact value_point ha hb h2 hne
  obtain ⟨a, b, g1, g2, ga, gb, g3, g4, g5⟩ := key h
  obtain ⟨a', b', k1, k2, ka, kb, k3, k4, k5⟩ := key h'
  rw [g5, k5] at e
  have e := Option.some.inj e
  have hf : ∀ {b : Name}, AllDigits b → (0 : Rat) ≤ number b / 10 ^ b.length ∧ (number b : Rat) / 10 ^ b.length < 1 := by
    intro b hb
    refine ⟨by positivity, ?_⟩
    rw [div_lt_one (by positivity)]
    exact_mod_cast number_lt hb
  have f1 := hf gb
  have f2 := hf kb
  have ew : number a = number a' := by
    have l1 : (number a : Rat) < number a' + 1 := by linarith [f1.1, f2.2]
    have l2 : (number a' : Rat) < number a + 1 := by linarith [f1.2, f2.1]
    have l1 : number a < number a' + 1 := by exact_mod_cast l1
    have l2 : number a' < number a + 1 := by exact_mod_cast l2
    omega
  have hab : a = a' := whole_inj ga ka g2 k2 g3 k3 ew
  have hbb : b = b' := by
    rw [ew] at e
    have e := add_left_cancel e
    rw [div_eq_div_iff (by positivity) (by positivity)] at e
    exact fraction_inj gb kb g4 k4 (by exact_mod_cast e)
  subst hab hbb
  rcases g1 with ⟨rfl, hb⟩ | ⟨rfl, hb⟩ <;> rcases k1 with ⟨rfl, hb'⟩ | ⟨rfl, hb'⟩
  · rfl
  · exact absurd hb hb'
  · exact absurd hb' hb
  · rfl

/-! ## The text -/

theorem fraction_spec {r s : Nat} (hs : 0 < s) (hr : r < 10 ^ s) :
    ∃ j, (fraction r s).length + j = s ∧ number (fraction r s) * 10 ^ j = r ∧ AllDigits (fraction r s) ∧
      (fraction r s).getLast? ≠ some '0' := by
  unfold fraction
  dsimp only
  set p := List.replicate (s - (digits r).length) '0' ++ digits r with hp
  have hlen : p.length = s := by
    have := (Nat.length_toDigits_le_iff (b := 10) (by norm_num) hs).2 hr
    have : (digits r).length ≤ s := this
    rw [hp, List.length_append, List.length_replicate]
    omega
  have hall : AllDigits p := by
    intro c hc
    rw [hp, List.mem_append] at hc
    rcases hc with hc | hc
    · rw [List.eq_of_mem_replicate hc]; decide
    · exact digits_isDigit hc
  have hnum : number p = r := by
    rw [hp]
    unfold number
    rw [Nat.ofDigitChars_append, Nat.ofDigitChars_replicate_zero, Nat.mul_zero]
    exact number_digits r
  clear_value p
  have hsplit : p = (p.reverse.dropWhile (· == '0')).reverse ++ (p.reverse.takeWhile (· == '0')).reverse := by
    rw [← List.reverse_append, List.takeWhile_append_dropWhile, List.reverse_reverse]
  have hz : (p.reverse.takeWhile (· == '0')).reverse = List.replicate (p.reverse.takeWhile (· == '0')).length '0' := by
    rw [List.eq_replicate_iff]
    refine ⟨by simp, fun c hc => ?_⟩
    have := List.all_eq_true.1 (List.all_takeWhile (p := (· == '0')) (l := p.reverse)) c (List.mem_reverse.1 hc)
    simpa using this
  refine ⟨(p.reverse.takeWhile (· == '0')).length, ?_, ?_, ?_, ?_⟩
  · have := congrArg List.length hsplit
    rw [List.length_append, hz, List.length_replicate, hlen] at this
    exact this.symm
  · have := congrArg number hsplit
    rw [hz, hnum] at this
    unfold number at this ⊢
    rw [Nat.ofDigitChars_append, Nat.ofDigitChars_replicate_zero] at this
    rw [this]
    ring
  · intro c hc
    refine hall c ?_
    rw [hsplit]
    exact List.mem_append_left _ hc
  · rw [List.getLast?_reverse]
    intro h
    have := List.head?_dropWhile_not (fun c : Char => c == '0') p.reverse
    rw [h] at this
    simp at this

theorem digits_neat (n : Nat) : (digits n).head? = some '0' → digits n = ['0'] := by
  intro h
  rcases Nat.eq_zero_or_pos n with rfl | hp
  · decide
  · exact absurd h (digits_head hp)

theorem positional_spec (a : Nat) (k : Int) :
    Neat (positional a k) ∧ decimalValue (positional a k) = some (a * 10 ^ k : Rat) := by
  have hd : ∀ n, AllDigits (digits n) := fun n c hc => digits_isDigit hc
  unfold positional
  split
  case isTrue h =>
    refine ⟨⟨_, [], .inl ⟨rfl, rfl⟩, digits_ne_nil _, ?_, digits_neat _, by simp⟩, ?_⟩
    · intro c hc
      rw [List.append_nil] at hc
      exact hd _ c hc
    · rw [value_whole (hd _) (digits_ne_nil _), number_digits]
      have : k = (k.toNat : Int) := by omega
      conv_rhs => rw [this, zpow_natCast]
      push_cast
      rfl
  case isFalse h =>
    dsimp only
    obtain ⟨s, hs⟩ : ∃ s : Nat, k = -(s : Int) := ⟨(-k).toNat, by omega⟩
    have hs' : (-k).toNat = s := by omega
    rw [hs']
    obtain ⟨j, h1, h2, h3, h4⟩ := fraction_spec (r := a % 10 ^ s) (s := s) (by omega) (Nat.mod_lt _ (by positivity))
    have hval : (a * 10 ^ k : Rat) = number (digits (a / 10 ^ s)) + number (fraction (a % 10 ^ s) s) / 10 ^ (fraction (a % 10 ^ s) s).length := by
      have e1 : ((number (fraction (a % 10 ^ s) s) : Nat) : Rat) * 10 ^ j = ((a % 10 ^ s : Nat) : Rat) := by exact_mod_cast h2
      have e2 : (a : Rat) = 10 ^ s * ((a / 10 ^ s : Nat) : Rat) + ((a % 10 ^ s : Nat) : Rat) := by
        exact_mod_cast (Nat.div_add_mod a (10 ^ s)).symm
      have e3 : (10 : Rat) ^ s = 10 ^ (fraction (a % 10 ^ s) s).length * 10 ^ j := by rw [← pow_add, h1]
      rw [number_digits, hs, zpow_neg, zpow_natCast, e2, ← e1]
      have p1 : (0 : Rat) < 10 ^ (fraction (a % 10 ^ s) s).length := by positivity
      have p2 : (0 : Rat) < 10 ^ j := by positivity
      rw [e3]
      field_simp
    split
    case isTrue hf =>
      refine ⟨⟨digits (a / 10 ^ s), [], .inl ⟨by simp, rfl⟩, digits_ne_nil _, ?_, digits_neat _, by simp⟩, ?_⟩
      · intro c hc
        rw [List.append_nil] at hc
        exact hd _ c hc
      · rw [List.append_nil, value_whole (hd _) (digits_ne_nil _), hval, hf]
        simp [number]
    case isFalse hf =>
      refine ⟨⟨digits (a / 10 ^ s), fraction (a % 10 ^ s) s, .inr ⟨rfl, hf⟩, digits_ne_nil _, ?_, digits_neat _, h4⟩, ?_⟩
      · intro c hc
        rcases List.mem_append.1 hc with hc | hc
        · exact hd _ c hc
        · exact h3 c hc
      · rw [value_point (hd _) h3 (digits_ne_nil _) hf, hval]

theorem neat_head {s : Name} (h : Neat s) : ∃ c l, s = c :: l ∧ c ≠ '-' := by
  obtain ⟨a, b, h1, h2, h3, -⟩ := h
  cases a with
  | nil => exact absurd rfl h2
  | cons c a =>
    have hc := h3 c (by simp)
    refine ⟨c, ?_⟩
    have : c ≠ '-' := by rintro rfl; exact absurd hc (by decide)
    rcases h1 with ⟨rfl, -⟩ | ⟨rfl, -⟩
    · exact ⟨a, rfl, this⟩
    · exact ⟨_, rfl, this⟩

theorem signedValue_neat {s : Name} (h : Neat s) : signedValue s = decimalValue s := by
  obtain ⟨c, l, rfl, hc⟩ := neat_head h
  unfold signedValue
  split
  · rename_i heq
    exact absurd (List.cons.inj heq).1 hc
  · rfl

/-- What is printed for a float: a neat text, with a minus sign for negative numbers, whose value is the shortest decimal
number that reads back as the float. -/
structure Prints (φ : Format) (x : Rat) (txt : Name) : Prop where
  sign : ∃ s, Neat s ∧ txt = if x < 0 then '-' :: s else s
  value : ∃ v, signedValue txt = some v ∧ Shortest φ x v

/-- C105: every float is printed as it should be. -/
theorem C105_display {x : Rat} (h : Representable f64 x) : Prints f64 x (display64 x) := by
  have pos : ∀ {x : Rat}, 0 < x → Representable f64 x → ∃ a k, shortest |x| (Int.log 10 |x|) 17 1 = some (a, k) ∧
      Shortest f64 x (a * 10 ^ k) := by
    intro x hx hr
    rw [abs_of_pos hx]
    refine shortest_spec hx hr 17 1 (by norm_num) (by norm_num) (by norm_num) ?_
    intro n' hn w hw hd
    have : n' = 0 := by omega
    subst this
    have := pos_of_rnd (by decide) hx hw
    rw [hasDigits_zero hd] at this
    exact lt_irrefl _ this
  rcases lt_trichotomy x 0 with hx | rfl | hx
  · obtain ⟨a, k, h1, h2⟩ := pos (x := -x) (by linarith) (rep_neg h)
    rw [abs_neg] at h1
    have h3 := positional_spec a k
    have hdisp : display64 x = '-' :: positional a k := by
      unfold display64
      rw [if_neg hx.ne, h1, if_pos hx]
    have hs := shortest_neg h2
    rw [neg_neg] at hs
    refine ⟨⟨_, h3.1, by rw [if_pos hx, hdisp]⟩, _, ?_, hs⟩
    rw [hdisp]
    show (decimalValue _).map _ = _
    rw [h3.2]
    rfl
  · refine ⟨⟨['0'], ⟨['0'], [], by simp, by simp, by decide, by simp, by simp⟩, rfl⟩, 0, ?_, shortest_zero (by decide)⟩
    decide +kernel
  · obtain ⟨a, k, h1, h2⟩ := pos hx h
    have h3 := positional_spec a k
    have hdisp : display64 x = positional a k := by
      unfold display64
      rw [if_neg hx.ne', h1, if_neg hx.not_gt]
    refine ⟨⟨_, h3.1, by rw [if_neg hx.not_gt, hdisp]⟩, _, ?_, h2⟩
    rw [hdisp, signedValue_neat h3.1, h3.2]

theorem shortest_unique {φ : Format} (hp : 0 < φ.prec) {x v v' : Rat} (h : Shortest φ x v) (h' : Shortest φ x v') : v = v' := by
  obtain ⟨h1, n, h2, h3⟩ := h
  obtain ⟨h1', n', h2', h3'⟩ := h'
  have e : n = n' := le_antisymm ((h3 v' h1').1 n' h2') ((h3' v h1).1 n h2)
  subst e
  obtain ⟨a1, a2⟩ := (h3 v' h1').2 h2'
  obtain ⟨b1, b2⟩ := (h3' v h1).2 h2
  have e1 := le_antisymm a1 b1
  have e2 : |v| = |v'| := le_antisymm (b2 e1) (a2 e1.symm)
  rcases lt_trichotomy x 0 with hx | hx | hx
  · have p1 := pos_of_rnd (x := -x) (w := -v) hp (by linarith) (by rw [rnd_neg, h1])
    have p2 := pos_of_rnd (x := -x) (w := -v') hp (by linarith) (by rw [rnd_neg, h1'])
    rw [abs_of_neg (by linarith), abs_of_neg (by linarith)] at e2
    linarith
  · have hn : n = 0 := by
      have := (h3 0 (by rw [rnd_zero hp, hx])).1 0 ⟨0, 0, by simp, by simp⟩
      omega
    subst hn
    rw [hasDigits_zero h2, hasDigits_zero h2']
  · have p1 := pos_of_rnd hp hx h1
    have p2 := pos_of_rnd hp hx h1'
    rwa [abs_of_pos p1, abs_of_pos p2] at e2

/-- C105: there is one such text only. -/
theorem C105_unique {φ : Format} (hp : 0 < φ.prec) {x : Rat} {s s' : Name} (h : Prints φ x s) (h' : Prints φ x s') : s = s' := by
  obtain ⟨⟨t, ht, rfl⟩, v, hv, hs⟩ := h
  obtain ⟨⟨t', ht', rfl⟩, v', hv', hs'⟩ := h'
  have e := shortest_unique hp hs hs'
  subst e
  rw [← hv'] at hv
  have : decimalValue t = decimalValue t' := by
    by_cases hx : x < 0
    · simp only [if_pos hx] at hv
      change (decimalValue t).map _ = (decimalValue t').map _ at hv
      exact Option.map_injective neg_injective hv
    · simp only [if_neg hx] at hv
      rwa [signedValue_neat ht, signedValue_neat ht'] at hv
  rw [neat_inj ht ht' this]

/-- C105: different floats are printed differently. -/
theorem C105_injective {x y : Rat} (hx : Representable f64 x) (hy : Representable f64 y) (h : display64 x = display64 y) :
    x = y := by
  obtain ⟨-, v, h1, h2⟩ := C105_display hx
  obtain ⟨-, w, h3, h4⟩ := C105_display hy
  rw [h, h3] at h1
  cases Option.some.inj h1
  rw [← h2.reads, h4.reads]

/-- C105 for the printed result: the percentage shown, read as a float, is the product computed. -/
theorem C105_percentage (w : Rat) : Prints f64 (Versus.percentage w) (display64 (Versus.percentage w)) :=
  C105_display (rnd_representable (by decide) _)

/-- A float that is no short decimal number, and one printed with a minus sign. -/
example : Representable f64 (rnd f64 (1 / 10 : Rat)) ∧ display64 (rnd f64 (1 / 10 : Rat)) = lit "0.1" ∧
    rnd f64 (1 / 10 : Rat) ≠ 1 / 10 ∧ Representable f64 (-3 / 2) :=
  ⟨rnd_representable (by decide) _, by decide +kernel, by decide +kernel, ⟨-3, -1, by decide, by decide, by norm_num⟩⟩

end DieE.Props.Sh
