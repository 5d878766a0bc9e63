import Verif.Props.Rules
import Verif.Backgammon.Encoding

/-!
# C19 – C22: move codes
-/

namespace DieE.Props
open DieE DieE.BG DieE.Spec

/-- What the die of a checker move determines about its endpoints. -/
def Fits (s : Side) (d : Int) (a : Act) : Prop :=
  (a.2 = -1 ∧ onBoard a.1 ∧ pip s a.1 ≤ 6 ∧ pip s a.1 ≤ d) ∨
  (a.1 = -1 ∧ onBoard a.2 ∧ 25 - pip s a.2 = d) ∨
  (onBoard a.1 ∧ onBoard a.2 ∧ pip s a.1 - pip s a.2 = d)

theorem fits_of_step {s : Side} {P : Pos} {d : Int} {a : Act} (h : AlmostLegalStep s P d a) : Fits s d a := by
  have hd := h.dieUse
  unfold DieRule at hd
  rcases AlmostLegalStep_shape h with ⟨h1, h2, h3, h4⟩ | ⟨h1, h2, h3, h4⟩ | ⟨h1, h2, -⟩
  · refine .inl ⟨h1, h2, ?_, ?_⟩
    · refine Decidable.byContradiction fun hc => ?_
      have := (h.home h1).2 _ h2 (by omega)
      omega
    · rw [if_pos h1] at hd; exact hd
  · refine .inr (.inl ⟨h1, h2, ?_⟩)
    have := h2.1
    rw [if_neg (by omega), if_pos h1] at hd
    omega
  · refine .inr (.inr ⟨h1, h2, ?_⟩)
    have := h1.1
    have := h2.1
    rw [if_neg (by omega), if_neg (by omega)] at hd
    omega

/-- The distance a checker move covers. -/
def dist (a : Act) : Int :=
  if a.1 = -1 ∧ a.2 < 6 then a.2 + 1
  else if a.1 = -1 then 24 - a.2
  else if a.2 = -1 ∧ a.1 < 6 then a.1 + 1
  else if a.2 = -1 then 24 - a.1
  else (a.1 - a.2).natAbs

/-- The source digit of a code: the bar is 24. -/
def src (a : Act) : Int := if a.1 = -1 then 24 else a.1

theorem minRoll_ok (pf : Profile) {s : Side} {d : Int} {a : Act} (hd : 1 ≤ d ∧ d ≤ 6) (h : Fits s d a) :
    Trait.minRoll pf a = .ok (dist a) := by
  unfold Fits onBoard at h
  unfold Trait.minRoll dist
  cases s <;> simp only [pip_neg, pip_pos] at h <;>
  · split
    · rw [i8_ok (by omega), bind_ok, asU8_id (by omega)]; rfl
    · split
      · rw [i8_ok (by omega), bind_ok, asU8_id (by omega), if_pos (by omega)]; rfl
      · split
        · rw [i8_ok (by omega), bind_ok, asU8_id (by omega), if_neg (by omega)]
          exact congrArg Except.ok (by omega)
        · split
          · rw [i8_ok (by omega), bind_ok, asU8_id (by omega), if_neg (by omega), if_pos (by omega)]; rfl
          · rw [i8_ok (by omega), bind_ok, if_neg (by omega), if_neg (by omega)]; rfl

theorem src_range {s : Side} {d : Int} {a : Act} (h : Fits s d a) : 0 ≤ src a ∧ src a ≤ 24 := by
  unfold Fits onBoard at h
  unfold src
  split <;> omega

theorem encFirst_ok (pf : Profile) {s : Side} {d low : Int} {a : Act} (hd : 1 ≤ d ∧ d ≤ 6) (h : Fits s d a) :
    Trait.encFirst pf a (dist a) low = .ok (src a, decide (a.2 ≠ -1 ∧ dist a = low)) := by
  unfold Fits onBoard at h
  unfold Trait.encFirst dist src
  cases s <;> simp only [pip_neg, pip_pos] at h <;>
  · split
    · rw [i8_ok (by omega), bind_ok, asU8_id (by omega), if_pos (by omega)]
      refine congrArg Except.ok (Prod.ext rfl ?_)
      simp only [beq_eq_decide, decide_eq_decide]; omega
    · split
      · rw [i8_ok (by omega), bind_ok, asU8_id (by omega), if_pos (by omega), if_pos (by omega)]
        refine congrArg Except.ok (Prod.ext rfl ?_)
        simp only [beq_eq_decide, decide_eq_decide]; omega
      · split
        · rw [asU32_id (by omega), if_neg (by omega)]
          refine congrArg Except.ok (Prod.ext rfl ?_)
          simp only [false_eq_decide_iff]; omega
        · split
          · rw [asU32_id (by omega), if_neg (by omega)]
            refine congrArg Except.ok (Prod.ext rfl ?_)
            simp only [false_eq_decide_iff]; omega
          · rw [asU32_id (by omega), if_neg (by omega), if_neg (by omega), if_neg (show ¬ a.1 = -1 by omega)]
            refine congrArg Except.ok (Prod.ext rfl ?_)
            simp only [beq_eq_decide, decide_eq_decide]; omega

theorem encSecond_ok (pf : Profile) {s : Side} {d low : Int} {a : Act} (hd : 1 ≤ d ∧ d ≤ 6) (h : Fits s d a) :
    Trait.encSecond pf a (dist a) low = .ok (26 * src a, decide (a.2 ≠ -1 ∧ dist a = low)) := by
  unfold Fits onBoard at h
  unfold Trait.encSecond dist src
  cases s <;> simp only [pip_neg, pip_pos] at h <;>
  · split
    · rw [i8_ok (by omega), bind_ok, asU8_id (by omega), if_pos (by omega)]
      refine congrArg Except.ok (Prod.ext rfl ?_)
      simp only [beq_eq_decide, decide_eq_decide]; omega
    · split
      · rw [i8_ok (by omega), bind_ok, asU8_id (by omega), if_pos (by omega), if_pos (by omega)]
        refine congrArg Except.ok (Prod.ext rfl ?_)
        simp only [beq_eq_decide, decide_eq_decide]; omega
      · split
        · rw [asU32_id (by omega), u32_ok (by omega), bind_ok, if_neg (by omega)]
          refine congrArg Except.ok (Prod.ext rfl ?_)
          simp only [false_eq_decide_iff]; omega
        · split
          · rw [asU32_id (by omega), u32_ok (by omega), bind_ok, if_neg (by omega)]
            refine congrArg Except.ok (Prod.ext rfl ?_)
            simp only [false_eq_decide_iff]; omega
          · rw [asU32_id (by omega), u32_ok (by omega), bind_ok, if_neg (by omega), if_neg (by omega),
              if_neg (show ¬ a.1 = -1 by omega)]
            refine congrArg Except.ok (Prod.ext rfl ?_)
            simp only [beq_eq_decide, decide_eq_decide]; omega

/-- The lower and the higher die. -/
def lowDie (r : Int × Int) : Int := if r.1 > r.2 then r.2 else r.1
/-- The higher die. -/
def highDie (r : Int × Int) : Int := if r.1 > r.2 then r.1 else r.2

/-- Pure form of the code of two digits and a flag. -/
def code (x y : Int) (hf : Bool) : Int := x + 26 * y + (if hf then 0 else 676)

/-- The flag chosen for a one-checker move. -/
def flag1 (r : Int × Int) (a : Act) : Bool := decide (dist a > lowDie r)

/-- The flag chosen for a two-checker move. -/
def flag2 (r : Int × Int) (a b : Act) : Bool :=
  if a.2 ≠ -1 ∧ dist a = lowDie r then false
  else if b.2 ≠ -1 ∧ dist b = lowDie r then true
  else if dist b ≠ 0 then decide (dist a ≥ dist b) else decide (dist a > lowDie r)

theorem encode_one (pf : Profile) {g : State} {s : Side} {d : Int} {a : Act} (hd : 1 ≤ d ∧ d ≤ 6) (h : Fits s d a) :
    Trait.encode pf g [a] = .ok (code (src a) 25 (flag1 g.roll a)) := by
  have hr := src_range h
  unfold Trait.encode
  simp only [minRoll_ok pf hd h, encFirst_ok pf hd h, bind_ok]
  rw [u32_ok (by omega), bind_ok, u32_ok (by omega), bind_ok]
  unfold flag1 code
  have hl : (if g.roll.1 > g.roll.2 then g.roll.2 else g.roll.1) = lowDie g.roll := rfl
  simp only [hl]
  split
  · exact congrArg Except.ok (by omega)
  · rw [u32_ok (by omega)]
    exact congrArg Except.ok (by omega)

theorem encode_two (pf : Profile) {g : State} {s : Side} {d e : Int} {a b : Act} (hd : 1 ≤ d ∧ d ≤ 6) (h : Fits s d a)
    (he : 1 ≤ e ∧ e ≤ 6) (h' : Fits s e b) :
    Trait.encode pf g [a, b] = .ok (code (src a) (src b) (flag2 g.roll a b)) := by
  have hr := src_range h
  have hr' := src_range h'
  unfold Trait.encode
  simp only [minRoll_ok pf hd h, encFirst_ok pf hd h, minRoll_ok pf he h', encSecond_ok pf he h', bind_ok]
  rw [u32_ok (by omega), bind_ok, u32_ok (by omega), bind_ok]
  unfold flag2 code
  have hl : (if g.roll.1 > g.roll.2 then g.roll.2 else g.roll.1) = lowDie g.roll := rfl
  simp only [hl, decide_eq_true_eq]
  generalize (if a.2 ≠ -1 ∧ dist a = lowDie g.roll then false
    else if b.2 ≠ -1 ∧ dist b = lowDie g.roll then true
    else if dist b ≠ 0 then decide (dist a ≥ dist b) else decide (dist a > lowDie g.roll)) = hf
  split
  · exact congrArg Except.ok (by omega)
  · rw [u32_ok (by omega)]
    exact congrArg Except.ok (by omega)

/-- Destination computed by `decode` from a source digit and a die. -/
def decAct (s : Side) (x d : Int) : Act :=
  let f := if x = 24 ∧ s = .pos then -1 else x
  let t := f + d * s.sgn
  (if f = 24 then -1 else f, if t ≥ 24 ∨ t ≤ -1 then -1 else t)

theorem decode_pure (pf : Profile) {g : State} {s : Side} (hs : g.player = s.sgn) (h1 : 1 ≤ g.roll.1 ∧ g.roll.1 ≤ 6)
    (h2 : 1 ≤ g.roll.2 ∧ g.roll.2 ≤ 6) (x y : Nat) (hf : Bool) (hx : x ≤ 25) (hy : y ≤ 25)
    (hn : ¬ (x = 25 ∧ y = 25 ∧ hf = false)) :
    Trait.decode pf g (x + 26 * y + (if hf then 0 else 676)) = .ok
      (if y = 25 then [decAct s x (if hf then highDie g.roll else lowDie g.roll)]
       else [decAct s x (if hf then highDie g.roll else lowDie g.roll),
             decAct s y (if hf then lowDie g.roll else highDie g.roll)]) := by
  have hb : ∀ (z : Nat), z = x + 26 * y → z % 26 = x ∧ z / 26 = y := by intro z hz; omega
  unfold Trait.decode
  have hlo : 1 ≤ lowDie g.roll ∧ lowDie g.roll ≤ 6 := by unfold lowDie; split <;> omega
  have hhi : 1 ≤ highDie g.roll ∧ highDie g.roll ≤ 6 := by unfold highDie; split <;> omega
  rw [if_neg (by cases hf <;> simp <;> simp at hn <;> omega)]
  have hflag : decide (x + 26 * y + (if hf then 0 else 676) < 676) = hf := by
    cases hf
    · simp
    · simp; omega
  have hbase : (if hf = true then x + 26 * y + (if hf then 0 else 676) else x + 26 * y + (if hf then 0 else 676) - 676)
      = x + 26 * y := by cases hf <;> simp
  have hl : (if g.roll.1 > g.roll.2 then g.roll.2 else g.roll.1) = lowDie g.roll := rfl
  have hh : (if g.roll.1 > g.roll.2 then g.roll.1 else g.roll.2) = highDie g.roll := rfl
  simp only [hflag, hbase, (hb _ rfl).1, (hb _ rfl).2, hl, hh]
  simp only [asI8_id (x := (x : Int)) (by omega), asI8_id (x := (y : Int)) (by omega),
    asI8_id (x := lowDie g.roll) (by omega), asI8_id (x := highDie g.roll) (by omega), hs]
  unfold decAct
  have hsgn : (s.sgn = 1) = (s = .pos) := by cases s <;> simp
  simp only [hsgn]
  generalize lowDie g.roll = lo at *
  generalize highDie g.roll = hi at *
  have hD1 : 1 ≤ (if hf = true then hi else lo) ∧ (if hf = true then hi else lo) ≤ 6 := by split <;> assumption
  have hD2 : 1 ≤ (if hf = true then lo else hi) ∧ (if hf = true then lo else hi) ≤ 6 := by split <;> assumption
  generalize (if hf = true then hi else lo) = D1 at *
  generalize (if hf = true then lo else hi) = D2 at *
  have hX : -1 ≤ (if (x : Int) = 24 ∧ s = .pos then -1 else (x : Int)) ∧
      (if (x : Int) = 24 ∧ s = .pos then -1 else (x : Int)) ≤ 25 := by split <;> omega
  have hY : -1 ≤ (if (y : Int) = 24 ∧ s = .pos then -1 else (y : Int)) ∧
      (if (y : Int) = 24 ∧ s = .pos then -1 else (y : Int)) ≤ 25 := by split <;> omega
  generalize (if (x : Int) = 24 ∧ s = .pos then -1 else (x : Int)) = X at *
  generalize (if (y : Int) = 24 ∧ s = .pos then -1 else (y : Int)) = Y at *
  have hm1 : -6 ≤ D1 * s.sgn ∧ D1 * s.sgn ≤ 6 := by cases s <;> simp <;> omega
  have hm2 : -6 ≤ D2 * s.sgn ∧ D2 * s.sgn ≤ 6 := by cases s <;> simp <;> omega
  generalize D1 * s.sgn = E1 at *
  generalize D2 * s.sgn = E2 at *
  rw [i8_ok (by omega), bind_ok, i8_ok (by omega), bind_ok, i8_ok (by omega), bind_ok, i8_ok (by omega), bind_ok]
  simp only [beq_iff_eq]
  rfl

theorem decAct_fits {s : Side} {d : Int} {a : Act} (hd : 1 ≤ d) (h : Fits s d a) : decAct s (src a) d = a := by
  unfold Fits onBoard at h
  unfold decAct src
  obtain ⟨x, y⟩ := a
  simp only at h ⊢
  cases s
  · simp only [pip_neg, reduceCtorEq, and_false, if_false, sgn_neg] at h ⊢
    refine Prod.ext ?_ ?_ <;> simp only
    · split <;> split at * <;> omega
    · split <;> split at * <;> omega
  · simp only [pip_pos, and_true, sgn_pos] at h ⊢
    refine Prod.ext ?_ ?_ <;> simp only
    · (repeat' split) <;> omega
    · (repeat' split) <;> omega

theorem perm_two {d e x y : Int} (h : [d, e].Perm [x, y]) : (d = x ∧ e = y) ∨ (d = y ∧ e = x) := by
  have h1 : d ∈ [x, y] := h.mem_iff.1 (by simp)
  rcases List.mem_cons.1 h1 with rfl | h1
  · have := (List.perm_cons _).1 h
    left; simpa using this
  · simp only [List.mem_singleton] at h1
    subst h1
    have := (List.perm_cons _).1 (h.trans (List.Perm.swap _ _ _))
    right; simpa using this

/-- The flag of a one-checker move selects a die that fits. -/
theorem flag1_fits {s : Side} {r : Int × Int} {d : Int} {a : Act} (hr : d = r.1 ∨ d = r.2) (hd : 1 ≤ d ∧ d ≤ 6)
    (h : Fits s d a) :
    Fits s (if flag1 r a then highDie r else lowDie r) a := by
  have hk : (a.2 ≠ -1 ∧ dist a = d) ∨ (a.2 = -1 ∧ dist a ≤ d) := by
    unfold Fits onBoard at h
    unfold dist
    obtain ⟨x, y⟩ := a
    cases s <;> simp only [pip_neg, pip_pos] at h ⊢ <;> (repeat' split) <;> omega
  have mono : ∀ {d' : Int}, a.2 = -1 → dist a ≤ d' → Fits s d' a := by
    intro d' h1 h2
    unfold Fits onBoard at h ⊢
    unfold dist at h2
    obtain ⟨x, y⟩ := a
    cases s <;> simp only [pip_neg, pip_pos] at h h1 h2 ⊢ <;> (repeat' split at h2) <;> omega
  have goalA : ∀ (d' : Int), (d' = d ∨ (a.2 = -1 ∧ dist a ≤ d')) → Fits s d' a := by
    rintro d' (h' | ⟨h1, h2⟩); exact h' ▸ h; exact mono h1 h2
  have hlo : lowDie r ≤ highDie r ∧ (lowDie r = d ∨ highDie r = d) := by
    unfold lowDie highDie; split <;> omega
  unfold flag1
  apply goalA
  by_cases hc : dist a > lowDie r
  · simp only [hc, decide_true, if_true]; omega
  · simp only [hc, decide_false, Bool.false_eq_true, if_false]; omega

/-- The flag of a two-checker move selects an assignment of the dice that fits both. -/
theorem flag2_fits {s : Side} {r : Int × Int} {d e : Int} {a b : Act} (hr : (d = r.1 ∧ e = r.2) ∨ (d = r.2 ∧ e = r.1))
    (hd : 1 ≤ d ∧ d ≤ 6) (he : 1 ≤ e ∧ e ≤ 6) (h : Fits s d a) (h' : Fits s e b) :
    Fits s (if flag2 r a b then highDie r else lowDie r) a ∧ Fits s (if flag2 r a b then lowDie r else highDie r) b := by
  have key : ∀ {d : Int} {a : Act}, Fits s d a → 1 ≤ d ∧ d ≤ 6 → ((a.2 ≠ -1 ∧ dist a = d) ∨ (a.2 = -1 ∧ dist a ≤ d ∧ 1 ≤ dist a)) := by
    intro d a h hd
    unfold Fits onBoard at h
    unfold dist
    obtain ⟨x, y⟩ := a
    cases s <;> simp only [pip_neg, pip_pos] at h ⊢ <;> (repeat' split) <;> omega
  have mono : ∀ {d d' : Int} {a : Act}, Fits s d a → a.2 = -1 → dist a ≤ d' → Fits s d' a := by
    intro d d' a h h1 h2
    unfold Fits onBoard at h ⊢
    unfold dist at h2
    obtain ⟨x, y⟩ := a
    cases s <;> simp only [pip_neg, pip_pos] at h h1 h2 ⊢ <;> (repeat' split at h2) <;> omega
  have ka := key h hd
  have kb := key h' he
  have hl : ∀ {d' : Int}, d' = d → Fits s d' a := fun e => e ▸ h
  have hl' : ∀ {d' : Int}, d' = e → Fits s d' b := fun e => e ▸ h'
  have hlo : lowDie r ≤ highDie r ∧ ((lowDie r = d ∧ highDie r = e) ∨ (lowDie r = e ∧ highDie r = d)) := by
    unfold lowDie highDie; split <;> omega
  unfold flag2
  generalize lowDie r = lo at *
  generalize highDie r = hi at *
  have ma : ∀ {d' : Int}, a.2 = -1 → dist a ≤ d' → Fits s d' a := fun h1 h2 => mono h h1 h2
  have mb : ∀ {d' : Int}, b.2 = -1 → dist b ≤ d' → Fits s d' b := fun h1 h2 => mono h' h1 h2
  have goalA : ∀ (d' : Int), (d' = d ∨ (a.2 = -1 ∧ dist a ≤ d')) → Fits s d' a := by
    rintro d' (h | ⟨h1, h2⟩); exact hl h; exact ma h1 h2
  have goalB : ∀ (d' : Int), (d' = e ∨ (b.2 = -1 ∧ dist b ≤ d')) → Fits s d' b := by
    rintro d' (h | ⟨h1, h2⟩); exact hl' h; exact mb h1 h2
  split
  · simp only [Bool.false_eq_true, if_false]
    exact ⟨goalA _ (by omega), goalB _ (by omega)⟩
  · split
    · simp only [if_true]
      exact ⟨goalA _ (by omega), goalB _ (by omega)⟩
    · split
      · by_cases hc : dist a ≥ dist b
        · simp only [hc, decide_true, if_true]
          exact ⟨goalA _ (by omega), goalB _ (by omega)⟩
        · simp only [hc, decide_false, Bool.false_eq_true, if_false]
          exact ⟨goalA _ (by omega), goalB _ (by omega)⟩
      · exfalso; omega

/-- Everything about the code of a returned move. -/
theorem code_of_returned (pf : Profile) {g : State} (hg : StateOK g) {ms : List Actions}
    (hms : getValidMoves pf g = .ok ms) {m : Actions} (hm : m ∈ ms) :
    ∃ n : Nat, Trait.encode pf g m = .ok n ∧ n < 1351 ∧ Trait.decode pf g n = .ok m := by
  have hu := returned_uses hg hms hm
  have hne := (returned hg hms hm).1
  have h1 := hg.die1
  have h2 := hg.die2
  have hlo : 1 ≤ lowDie g.roll ∧ lowDie g.roll ≤ 6 := by unfold lowDie; split <;> omega
  have hhi : 1 ≤ highDie g.roll ∧ highDie g.roll ≤ 6 := by unfold highDie; split <;> omega
  have hD : ∀ f : Bool, 1 ≤ (if f = true then highDie g.roll else lowDie g.roll) := by
    intro f; split <;> omega
  have hD' : ∀ f : Bool, 1 ≤ (if f = true then lowDie g.roll else highDie g.roll) := by
    intro f; split <;> omega
  match m, hne with
  | [a], _ =>
    cases hu with
    | @cons _ _ d _ _ hd ha _ =>
      have hf := fits_of_step ha
      have hd' : d = g.roll.1 ∨ d = g.roll.2 := by simpa using hd
      have hdr : 1 ≤ d ∧ d ≤ 6 := by omega
      have hr := src_range hf
      refine ⟨(src a).toNat + 26 * 25 + (if flag1 g.roll a then 0 else 676), ?_, ?_, ?_⟩
      · rw [encode_one pf hdr hf]
        unfold code
        refine congrArg Except.ok ?_
        split <;> omega
      · split <;> omega
      · rw [decode_pure pf (mover_sgn hg) h1 h2 _ 25 _ (by omega) (by omega) (by omega), if_pos rfl]
        have e : (((src a).toNat : Nat) : Int) = src a := by omega
        rw [e, decAct_fits (hD _) (flag1_fits hd' hdr hf)]
  | [a, b], _ =>
    cases hu with
    | @cons _ _ d _ _ hd ha hu =>
      cases hu with
      | @cons _ _ e _ _ he hb _ =>
        have hf := fits_of_step ha
        have hf' := fits_of_step hb
        have hp : [d, e].Perm [g.roll.1, g.roll.2] := by
          have hl : ([g.roll.1, g.roll.2].erase d).length = 1 := by rw [List.length_erase_of_mem hd]; rfl
          have : [g.roll.1, g.roll.2].erase d = [e] := by
            match hE : [g.roll.1, g.roll.2].erase d, hl with
            | [z], _ => rw [hE] at he; simp only [List.mem_singleton] at he; rw [he]
          rw [← this]
          exact (List.perm_cons_erase hd).symm
        have hde := perm_two hp
        have hdr : 1 ≤ d ∧ d ≤ 6 := by omega
        have her : 1 ≤ e ∧ e ≤ 6 := by omega
        have hr := src_range hf
        have hr' := src_range hf'
        have hfit := flag2_fits hde hdr her hf hf'
        refine ⟨(src a).toNat + 26 * (src b).toNat + (if flag2 g.roll a b then 0 else 676), ?_, ?_, ?_⟩
        · rw [encode_two pf hdr hf her hf']
          unfold code
          refine congrArg Except.ok ?_
          split <;> omega
        · split <;> omega
        · rw [decode_pure pf (mover_sgn hg) h1 h2 _ _ _ (by omega) (by omega) (by omega), if_neg (by omega)]
          have e1 : (((src a).toNat : Nat) : Int) = src a := by omega
          have e2 : (((src b).toNat : Nat) : Int) = src b := by omega
          rw [e1, e2, decAct_fits (hD _) hfit.1, decAct_fits (hD' _) hfit.2]
  | a :: b :: c :: q, _ =>
    have := Uses.length_le hu
    simp at this

/-- C19: the code of a returned move is in the action space and differs from the code 1351 of the empty move. -/
theorem C19_code_range (pf : Profile) {g : State} (hg : StateOK g) {ms : List Actions}
    (hms : getValidMoves pf g = .ok ms) {m : Actions} (hm : m ∈ ms) :
    ∃ n, Trait.encode pf g m = .ok n ∧ 0 ≤ n ∧ n < 1352 ∧ n ≠ 1351 := by
  obtain ⟨n, h1, h2, -⟩ := code_of_returned pf hg hms hm
  exact ⟨n, h1, by omega, by omega, by omega⟩

/-- C19: the empty move has code 1351, which decodes to the empty move. -/
theorem C19_empty (pf : Profile) (g : State) :
    Trait.encode pf g [] = .ok 1351 ∧ Trait.decode pf g 1351 = .ok [] := ⟨rfl, rfl⟩

/-- C20: decoding the code of a returned move gives the move back, action by action. -/
theorem C20_round_trip (pf : Profile) {g : State} (hg : StateOK g) {ms : List Actions}
    (hms : getValidMoves pf g = .ok ms) {m : Actions} (hm : m ∈ ms) :
    ∃ n : Nat, Trait.encode pf g m = .ok n ∧ Trait.decode pf g n = .ok m := by
  obtain ⟨n, h1, -, h3⟩ := code_of_returned pf hg hms hm
  exact ⟨n, h1, h3⟩

/-- C20: the code does not depend on the order in which the two dice are stored. -/
theorem C20_dice_order (pf : Profile) (g : State) (m : Actions) :
    Trait.encode pf { g with roll := (g.roll.2, g.roll.1) } m = Trait.encode pf g m := by
  have e : (if g.roll.2 > g.roll.1 then g.roll.1 else g.roll.2) = (if g.roll.1 > g.roll.2 then g.roll.2 else g.roll.1) := by
    split <;> split <;> omega
  match m with
  | [] => rfl
  | [a] => simp only [Trait.encode, e]
  | [a, b] => simp only [Trait.encode, e]
  | _ :: _ :: _ :: _ => rfl

/-- C21: two different returned moves have different codes; in fact the codes of a returned list have no duplicates. -/
theorem C21_distinct_codes (pf : Profile) {g : State} (hg : StateOK g) {ms : List Actions}
    (hms : getValidMoves pf g = .ok ms) {m m' : Actions} (hm : m ∈ ms) (hm' : m' ∈ ms)
    (h : Trait.encode pf g m = Trait.encode pf g m') : m = m' := by
  obtain ⟨n, h1, h2⟩ := C20_round_trip pf hg hms hm
  obtain ⟨n', h1', h2'⟩ := C20_round_trip pf hg hms hm'
  rw [h1, h1', Except.ok.injEq] at h
  have : n = n' := by omega
  subst this
  rw [h2] at h2'
  cases h2'; rfl

/-- C21 as a statement on positions of the list. -/
theorem C21_nodup (pf : Profile) {g : State} (hg : StateOK g) {ms : List Actions}
    (hms : getValidMoves pf g = .ok ms) : (ms.map (Trait.encode pf g)).Nodup := by
  rw [List.Nodup, List.pairwise_map]
  have h := C10_distinct_boards pf g ms hms
  refine List.Pairwise.imp_of_mem ?_ h
  intro m m' hm hm' hb he
  exact hb (by rw [C21_distinct_codes pf hg hms hm hm' he])

/-- C22: the inherent and the trait methods agree on all inputs. -/
theorem C22_encode_agree (pf : Profile) (g : State) (m : Actions) : Inherent.encode pf g m = Trait.encode pf g m := rfl

/-- C22: likewise for decode. -/
theorem C22_decode_agree (pf : Profile) (g : State) (n : Nat) : Inherent.decode pf g n = Trait.decode pf g n := rfl

/-- `decode` never panics on a number of the action space (and beyond, up to any code below 1352). -/
theorem decode_total (pf : Profile) {g : State} (hg : StateOK g) (n : Nat) (hn : n < 1352) :
    ∃ m, Trait.decode pf g n = .ok m ∧ m.length ≤ 2 := by
  by_cases h : n = 1351
  · subst h; exact ⟨[], rfl, by simp⟩
  · by_cases h6 : n < 676
    · have := decode_pure pf (mover_sgn hg) hg.die1 hg.die2 (n % 26) (n / 26) true (by omega) (by omega) (by simp)
      have e : n % 26 + 26 * (n / 26) + (if true = true then 0 else 676) = n := by simp; omega
      rw [e] at this
      refine ⟨_, this, ?_⟩
      split <;> simp
    · have := decode_pure pf (mover_sgn hg) hg.die1 hg.die2 ((n - 676) % 26) ((n - 676) / 26) false (by omega) (by omega) (by omega)
      have e : (n - 676) % 26 + 26 * ((n - 676) / 26) + (if false = true then 0 else 676) = n := by simp; omega
      rw [e] at this
      refine ⟨_, this, ?_⟩
      split <;> simp

/-! Concrete cases: a two-checker bear-off, a two-checker move and an entry from the bar. -/
example : Trait.encode .debug bearState [(20, -1), (19, -1)] = .ok (20 + 26 * 19 + 676) ∧
    Trait.decode .debug bearState (20 + 26 * 19 + 676) = .ok [(20, -1), (19, -1)] := by decide +kernel
example : Trait.encode .debug shortState [(7, 2), (10, 4)] = .ok (7 + 26 * 10 + 676) ∧
    Trait.decode .debug shortState (7 + 26 * 10 + 676) = .ok [(7, 2), (10, 4)] := by decide +kernel
example : Trait.encode .debug barState [(-1, 22)] = .ok (24 + 26 * 25) ∧
    Trait.decode .debug barState (24 + 26 * 25) = .ok [(-1, 22)] := by decide +kernel

/-- The hypothesis "returned move" cannot be dropped: a non-legal action list is not recovered. -/
example : ∃ n : Nat, Trait.encode .debug opening [(12, 5)] = .ok n ∧ Trait.decode .debug opening n ≠ .ok [(12, 5)] :=
  ⟨12 + 26 * 25, by decide +kernel, by decide +kernel⟩

end DieE.Props
