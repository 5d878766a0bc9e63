import Verif.Text.Json
import Mathlib.Tactic.IntervalCases

/-!
# Reading what was written

`parse (text j) = some j` for every JSON value.
-/

namespace DieE.Text
open DieE.Train (Name digits)

/-! ## White space -/

theorem skipWs_newline (k : Nat) (s : Name) : skipWs (newline k ++ s) = skipWs s := by
  have h : ∀ m, skipWs (List.replicate m ' ' ++ s) = skipWs s := by
    intro m
    induction m with
    | zero => rfl
    | succ m ih =>
      rw [List.replicate_succ, List.cons_append]
      unfold skipWs at *
      rw [List.dropWhile_cons_of_pos (by decide), ih]
  unfold newline
  rw [List.cons_append]
  unfold skipWs at *
  rw [List.dropWhile_cons_of_pos (by decide), h]

theorem skipWs_cons {c : Char} (s : Name) (h : isWs c = false) : skipWs (c :: s) = c :: s := by
  unfold skipWs
  rw [List.dropWhile_cons_of_neg (by simp [h])]

/-! ## Strings -/

theorem escape_big {c : Char} (h1 : c ≠ '"') (h2 : c ≠ '\\') (h3 : ¬ c.toNat < 32) : escape c = [c] := by
  simp [escape, h1, h2, h3]

theorem readStr_esc {e u : Char} (r : Name) (h : e ≠ 'u') (hu : unescape e = some u) :
    readStr ('\\' :: e :: r) = (readStr r).map fun p => (u :: p.1, p.2) := by
  rw [readStr.eq_def]
  simp only
  rw [if_neg (by decide), if_pos trivial]
  simp only [if_neg h, hu, Option.bind_eq_bind, Option.bind_some]
  cases readStr r <;> rfl

theorem readStr_u {x y z w u : Char} (r : Name) (hu : hexChar x y z w = some u) :
    readStr ('\\' :: 'u' :: x :: y :: z :: w :: r) = (readStr r).map fun p => (u :: p.1, p.2) := by
  rw [readStr.eq_def]
  simp only
  rw [if_neg (by decide), if_pos trivial]
  simp only [if_true, hu, Option.bind_eq_bind]
  cases readStr r <;> rfl

/-- A pair of surrogates is read as one character. -/
theorem readStr_pair {x y z w x' y' z' w' u : Char} {m n : Nat} (r : Name) (hm : hexNat x y z w = some m)
    (hn : hexNat x' y' z' w' = some n) (hu : pairChar m n = some u) :
    readStr ('\\' :: 'u' :: x :: y :: z :: w :: '\\' :: 'u' :: x' :: y' :: z' :: w' :: r) =
      (readStr r).map fun p => (u :: p.1, p.2) := by
  have hx : hexChar x y z w = none := by
    unfold hexChar
    unfold pairChar at hu
    split at hu
    · next h =>
      rw [hm, Option.bind_eq_bind, Option.bind_some, if_pos ⟨h.1, by omega⟩]
    · exact absurd hu (by simp)
  rw [readStr.eq_def]
  simp only
  rw [if_neg (by decide), if_pos trivial]
  simp only [if_true, hx, and_self, hm, hn, hu, Option.bind_eq_bind, Option.bind_some]
  cases readStr r <;> rfl

/-- A surrogate that does not begin a pair is an error. -/
theorem readStr_lone {x y z w : Char} {m : Nat} {r : Name} (hm : hexNat x y z w = some m) (hs : 55296 ≤ m ∧ m ≤ 57343)
    (hr : 56320 ≤ m ∨ ¬ ['\\', 'u'] <+: r) : readStr ('\\' :: 'u' :: x :: y :: z :: w :: r) = none := by
  have hx : hexChar x y z w = none := by
    unfold hexChar
    rw [hm, Option.bind_eq_bind, Option.bind_some, if_pos hs]
  rw [readStr.eq_def]
  simp only
  rw [if_neg (by decide), if_pos trivial]
  simp only [if_true, hx]
  split
  · next b v x' y' z' w' r =>
    split
    · next h =>
      obtain ⟨rfl, rfl⟩ := h
      rcases hr with h1 | h1
      · rw [hm, Option.bind_eq_bind, Option.bind_some]
        cases hexNat x' y' z' w' with
        | none => rfl
        | some n =>
          have : pairChar m n = none := if_neg (by omega)
          simp [this]
      · exact absurd ⟨x' :: y' :: z' :: w' :: r, rfl⟩ h1
    · rfl
  · rfl

theorem hexVal_digit : ∀ k < 16, hexVal (hexDigit k) = some k := by decide

/-- Four hexadecimal digits stand for the number they denote. -/
theorem hexNat_digits {n : Nat} (h : n < 65536) :
    hexNat (hexDigit (n / 4096)) (hexDigit (n / 256 % 16)) (hexDigit (n / 16 % 16)) (hexDigit (n % 16)) = some n := by
  unfold hexNat
  rw [hexVal_digit _ (by omega), hexVal_digit _ (by omega), hexVal_digit _ (by omega), hexVal_digit _ (by omega)]
  simp only [Option.bind_eq_bind, Option.bind_some]
  congr 1
  omega

/-- The escape of a number with four digits. -/
def escapeOf (n : Nat) : Name :=
  ['\\', 'u', hexDigit (n / 4096), hexDigit (n / 256 % 16), hexDigit (n / 16 % 16), hexDigit (n % 16)]

/-- The characters up to U+FFFF are read from their escapes. -/
theorem readStr_bmp {c : Char} (h : c.toNat < 65536) (r : Name) :
    readStr (escapeOf c.toNat ++ r) = (readStr r).map fun p => (c :: p.1, p.2) := by
  have hv : ¬ (55296 ≤ c.toNat ∧ c.toNat ≤ 57343) := by
    have := c.valid
    unfold UInt32.isValidChar Nat.isValidChar at this
    change _ ∨ _ at this
    simp only [Char.toNat]
    omega
  refine readStr_u r ?_
  unfold hexChar
  rw [hexNat_digits h, Option.bind_eq_bind, Option.bind_some, if_neg hv, Char.ofNat_toNat]

/-- The other characters are read from the escapes of their two UTF-16 units. -/
theorem readStr_utf16 {c : Char} (h : 65536 ≤ c.toNat) (r : Name) :
    readStr (escapeOf (55296 + (c.toNat - 65536) / 1024) ++ (escapeOf (56320 + (c.toNat - 65536) % 1024) ++ r)) =
      (readStr r).map fun p => (c :: p.1, p.2) := by
  have hv : c.toNat < 1114112 := by
    have := c.valid
    unfold UInt32.isValidChar Nat.isValidChar at this
    change _ ∨ _ at this
    simp only [Char.toNat]
    omega
  refine readStr_pair r (hexNat_digits (by omega)) (hexNat_digits (by omega)) ?_
  unfold pairChar
  rw [if_pos (by omega), show 1024 * (55296 + (c.toNat - 65536) / 1024 - 55296) + (56320 + (c.toNat - 65536) % 1024 - 56320) + 65536 =
    c.toNat by omega, Char.ofNat_toNat]

/-- U+1F600 has the escapes `\ud83d\ude00`. -/
example : escapeOf (55296 + ((Char.ofNat 0x1F600).toNat - 65536) / 1024) = ['\\', 'u', 'd', '8', '3', 'd'] ∧
    escapeOf (56320 + ((Char.ofNat 0x1F600).toNat - 65536) % 1024) = ['\\', 'u', 'd', 'e', '0', '0'] := by decide

theorem readStr_plain {c : Char} (r : Name) (h1 : c ≠ '"') (h2 : c ≠ '\\') (h3 : ¬ c.toNat < 32) :
    readStr (c :: r) = (readStr r).map fun p => (c :: p.1, p.2) := by
  rw [readStr.eq_def]
  simp only
  rw [if_neg h1, if_neg h2, if_neg h3]
  cases readStr r <;> rfl

/-- `l` is an escape of `c`. -/
def escOk (l : Name) (c : Char) : Bool :=
  match l with
  | [a, e] => a == '\\' && e != 'u' && unescape e == some c
  | [a, u, x, y, z, w] => a == '\\' && u == 'u' && hexChar x y z w == some c
  | _ => false

theorem escOk_read {l : Name} {c : Char} (h : escOk l c = true) (r : Name) :
    readStr (l ++ r) = (readStr r).map fun p => (c :: p.1, p.2) := by
  unfold escOk at h
  split at h
  · simp only [Bool.and_eq_true, beq_iff_eq, bne_iff_ne] at h
    obtain ⟨⟨rfl, h1⟩, h2⟩ := h
    exact readStr_esc r h1 h2
  · simp only [Bool.and_eq_true, beq_iff_eq] at h
    obtain ⟨⟨rfl, rfl⟩, h2⟩ := h
    exact readStr_u r h2
  · exact absurd h (by simp)

theorem escOk_small : ∀ n < 32, escOk (escape (Char.ofNat n)) (Char.ofNat n) = true := by decide

theorem readStr_escape (c : Char) (r : Name) :
    readStr (escape c ++ r) = (readStr r).map fun p => (c :: p.1, p.2) := by
  by_cases h1 : c = '"'
  · subst h1; exact escOk_read (by decide) r
  by_cases h2 : c = '\\'
  · subst h2; exact escOk_read (by decide) r
  by_cases h3 : c.toNat < 32
  · have h := escOk_small c.toNat h3
    rw [Char.ofNat_toNat] at h
    exact escOk_read h r
  · rw [escape_big h1 h2 h3]
    exact readStr_plain r h1 h2 h3

theorem readStr_all (s r : Name) : readStr (s.flatMap escape ++ '"' :: r) = some (s, r) := by
  induction s with
  | nil => rw [readStr.eq_def]; simp
  | cons c s ih => rw [List.flatMap_cons, List.append_assoc, readStr_escape, ih]; rfl

/-! ## Numbers -/

/-- The text does not continue a number. -/
def Clean (r : Name) : Prop := ∀ c, r.head? = some c → c.isDigit = false ∧ c ≠ '.' ∧ c ≠ 'e' ∧ c ≠ 'E'

theorem clean_nil : Clean [] := fun c h => by simp at h

theorem clean_newline (k : Nat) (r : Name) : Clean (newline k ++ r) := by
  intro c h
  simp only [newline, List.cons_append, List.head?_cons, Option.some.injEq] at h
  subst h; decide

theorem clean_comma (r : Name) : Clean (',' :: r) := by
  intro c h
  simp only [List.head?_cons, Option.some.injEq] at h
  subst h; decide

theorem digits_isDigit {n : Nat} {c : Char} (h : c ∈ digits n) : c.isDigit = true :=
  Nat.isDigit_of_mem_toDigits (by decide) (by decide) h

theorem digits_ne_nil (n : Nat) : digits n ≠ [] := Nat.toDigits_ne_nil

theorem digits_head {n : Nat} (h : 0 < n) : (digits n).head? ≠ some '0' := by
  unfold digits
  induction n using Nat.strongRecOn with
  | ind n ih =>
    by_cases h9 : n < 10
    · rw [Nat.toDigits_of_lt_base h9]
      interval_cases n <;> decide
    · rw [Nat.toDigits_of_base_le (by decide) (by omega)]
      have := ih (n / 10) (by omega) (by omega)
      rcases hd : Nat.toDigits 10 (n / 10) with _ | ⟨c, l⟩
      · exact absurd hd Nat.toDigits_ne_nil
      · rw [hd] at this; simpa using this

theorem readNat_digits (n : Nat) {r : Name} (hr : Clean r) : readNat (digits n ++ r) = some (n, r) := by
  have h1 : (digits n ++ r).takeWhile Char.isDigit = digits n := by
    rw [List.takeWhile_append_of_pos (fun c hc => digits_isDigit hc)]
    cases r with
    | nil => simp
    | cons c r => rw [List.takeWhile_cons_of_neg (by simp [(hr c rfl).1])]; simp
  have h2 : (digits n ++ r).dropWhile Char.isDigit = r := by
    rw [List.dropWhile_append_of_pos (fun c hc => digits_isDigit hc)]
    cases r with
    | nil => simp
    | cons c r => rw [List.dropWhile_cons_of_neg (by simp [(hr c rfl).1])]
  have h3 : ¬ (1 < (digits n).length ∧ (digits n).head? = some '0') := by
    rintro ⟨h, h'⟩
    rcases Nat.eq_zero_or_pos n with rfl | hp
    · exact absurd h (by decide)
    · exact digits_head hp h'
  simp only [readNat, h1, h2]
  rw [if_neg]
  · simp [digits, Nat.ofDigitChars_toDigits]
  · rintro (h | h)
    · exact digits_ne_nil n h
    · exact h3 h

theorem readFrac_none {r : Name} (hr : Clean r) : readFrac r = some (false, r) := if_neg fun h => (hr _ h).2.1 rfl

theorem readExp_none {r : Name} (hr : Clean r) : readExp r = some (false, r) :=
  if_neg fun h => h.elim (fun h => (hr _ h).2.2.1 rfl) fun h => (hr _ h).2.2.2 rfl

theorem readMag_digits (n : Nat) {r : Name} (hr : Clean r) : readMag (digits n ++ r) = some ((n, false), r) := by
  simp only [readMag, readNat_digits n hr, readFrac_none hr, readExp_none hr, Option.bind_eq_bind, Option.bind_some, Bool.or_false]

/-- The syntax of floats. -/
example : readMag "1.5,".toList = some ((1, true), [',']) ∧ readMag "1e999".toList = some ((1, true), []) ∧
    readMag "2.5E-3".toList = some ((2, true), []) ∧ readMag "25".toList = some ((25, false), []) ∧
    ["1.", ".5", "01", "1e", "1e+", "", "+1"].all (fun s => (readMag s.toList).isNone) = true := by decide +kernel

theorem digits_cons (n : Nat) : ∃ c l, digits n = c :: l ∧ c.isDigit = true := by
  rcases hd : digits n with _ | ⟨c, l⟩
  · exact absurd hd (digits_ne_nil n)
  · exact ⟨c, l, rfl, digits_isDigit (n := n) (by rw [hd]; simp)⟩

theorem readNum_writeInt (n : Int) {r : Name} (hr : Clean r) : readNum (writeInt n ++ r) = some (.num n, r) := by
  by_cases h : n < 0
  · simp only [writeInt, if_pos h, List.cons_append, readNum, readMag_digits _ hr, Option.bind_eq_bind, Option.bind_some]
    rw [if_neg (by simp; omega), show -(n.natAbs : Int) = n by omega]
  · obtain ⟨c, l, hc, hd⟩ := digits_cons n.natAbs
    have hne : c ≠ '-' := by rintro rfl; exact absurd hd (by decide)
    have h1 : writeInt n = c :: l := by rw [writeInt, if_neg h, hc]
    have h2 := readMag_digits n.natAbs hr
    rw [hc] at h2
    rw [h1]
    unfold readNum
    split
    · next h' => cases h'; exact absurd rfl hne
    · rw [h2]
      simp only [Option.bind_eq_bind, Option.bind_some]
      rw [if_neg (by simp), show (n.natAbs : Int) = n by omega]

theorem writeInt_cons (n : Int) : ∃ c l, writeInt n = c :: l ∧ (c.isDigit = true ∨ c = '-') := by
  obtain ⟨c, l, h, hd⟩ := digits_cons n.natAbs
  unfold writeInt
  split
  · exact ⟨_, _, rfl, Or.inr rfl⟩
  · exact ⟨c, l, h, Or.inl hd⟩

/-! ## Values -/

/-- The beginning of a value: it is neither white space nor a closing bracket. -/
def Begins (s : Name) : Prop := ∃ c l, s = c :: l ∧ isWs c = false ∧ c ≠ ']' ∧ c ≠ '}'

theorem digit_begins {c : Char} (h : c.isDigit = true ∨ c = '-') :
    isWs c = false ∧ c ≠ ']' ∧ c ≠ '}' ∧ c ≠ '"' ∧ c ≠ '[' ∧ c ≠ '{' ∧ c ≠ 'n' ∧ c ≠ 't' ∧ c ≠ 'f' := by
  have hne : ∀ d : Char, d.isDigit = false → d ≠ '-' → c ≠ d := by
    rintro d h1 h2 rfl
    rcases h with h | h
    · rw [h] at h1; exact absurd h1 (by decide)
    · exact h2 h
  refine ⟨?_, hne _ (by decide) (by decide), hne _ (by decide) (by decide), hne _ (by decide) (by decide),
    hne _ (by decide) (by decide), hne _ (by decide) (by decide), hne _ (by decide) (by decide),
    hne _ (by decide) (by decide), hne _ (by decide) (by decide)⟩
  simp [isWs, hne ' ' (by decide) (by decide), hne '\n' (by decide) (by decide), hne '\t' (by decide) (by decide),
    hne '\r' (by decide) (by decide)]

theorem write_begins (k : Nat) (j : Json) : Begins (write k j) := by
  match j with
  | .null => exact ⟨_, _, rfl, by decide, by decide, by decide⟩
  | .bool true => exact ⟨_, _, rfl, by decide, by decide, by decide⟩
  | .bool false => exact ⟨_, _, rfl, by decide, by decide, by decide⟩
  | .num n =>
    obtain ⟨c, l, h, hd⟩ := writeInt_cons n
    have h' := digit_begins hd
    exact ⟨c, l, by rw [write, h], h'.1, h'.2.1, h'.2.2.1⟩
  | .float => exact ⟨_, _, by rw [write], by decide, by decide, by decide⟩
  | .str s => exact ⟨_, _, by rw [write, writeStr, List.cons_append], by decide, by decide, by decide⟩
  | .arr [] => exact ⟨_, _, by rw [write], by decide, by decide, by decide⟩
  | .arr (x :: xs) => exact ⟨_, _, by rw [write, List.cons_append, List.cons_append], by decide, by decide, by decide⟩
  | .obj [] => exact ⟨_, _, by rw [write], by decide, by decide, by decide⟩
  | .obj ((n, x) :: xs) =>
    exact ⟨'{', _, by simp only [write, List.cons_append]; rfl, by decide, by decide, by decide⟩

theorem Begins.skip {s : Name} (h : Begins s) (r : Name) : skipWs (s ++ r) = s ++ r := by
  obtain ⟨c, l, rfl, hw, -⟩ := h
  exact skipWs_cons _ hw

theorem writeStr_skip (s r : Name) : skipWs (writeStr s ++ r) = '"' :: (s.flatMap escape ++ '"' :: r) := by
  unfold writeStr
  simp only [List.cons_append, List.append_assoc, List.nil_append]
  exact skipWs_cons _ (by decide)

mutual

/-- Fuel needed to read the value. -/
def need : Json → Nat
  | .arr (x :: xs) => 1 + need x + needElems xs
  | .obj ((_, x) :: xs) => 2 + need x + needFields xs
  | _ => 1

/-- Fuel needed to read the elements after the first one. -/
def needElems : List Json → Nat
  | [] => 1
  | x :: xs => 1 + need x + needElems xs

/-- Fuel needed to read the fields after the first one. -/
def needFields : List (Name × Json) → Nat
  | [] => 1
  | (_, x) :: xs => 2 + need x + needFields xs

end

mutual

theorem need_le (k : Nat) : ∀ j, need j ≤ (write k j).length
  | .null => by simp [need, write]
  | .bool true => by simp [need, write]
  | .bool false => by simp [need, write]
  | .num n => by
    obtain ⟨c, l, h, -⟩ := writeInt_cons n
    simp [need, write, h]
  | .float => by simp [need, write]
  | .str s => by simp [need, write, writeStr]
  | .arr [] => by simp [need, write]
  | .arr (x :: xs) => by
    have h1 := need_le (k + 1) x
    have h2 := needElems_le k xs
    simp only [need, write, List.length_append, List.length_cons]
    omega
  | .obj [] => by simp [need, write]
  | .obj ((n, x) :: xs) => by
    have h1 := need_le (k + 1) x
    have h2 := needFields_le k xs
    simp only [need, write, List.length_append, List.length_cons]
    omega

theorem needElems_le (k : Nat) : ∀ l, needElems l ≤ (writeElems k l).length
  | [] => by simp [needElems, writeElems]
  | x :: xs => by
    have h1 := need_le (k + 1) x
    have h2 := needElems_le k xs
    simp only [needElems, writeElems, List.length_append, List.length_cons]
    omega

theorem needFields_le (k : Nat) : ∀ l, needFields l ≤ (writeFields k l).length
  | [] => by simp [needFields, writeFields]
  | (n, x) :: xs => by
    have h1 := need_le (k + 1) x
    have h2 := needFields_le k xs
    simp only [needFields, writeFields, List.length_append, List.length_cons]
    omega

end

theorem writeElems_clean (k : Nat) (l : List Json) (r : Name) : Clean (writeElems k l ++ r) := by
  cases l with
  | nil => rw [writeElems, List.append_assoc]; exact clean_newline _ _
  | cons x xs => simp only [writeElems, List.cons_append]; exact clean_comma _

theorem writeFields_clean (k : Nat) (l : List (Name × Json)) (r : Name) : Clean (writeFields k l ++ r) := by
  cases l with
  | nil => rw [writeFields, List.append_assoc]; exact clean_newline _ _
  | cons x xs => obtain ⟨n, x⟩ := x; simp only [writeFields, List.cons_append]; exact clean_comma _

theorem read_str (f : Nat) (s r : Name) : read (f + 1) (writeStr s ++ r) = some (.str s, r) := by
  rw [read, writeStr_skip]
  simp only [if_true, readStr_all, Option.bind_eq_bind, Option.bind_some]

theorem strip_append (p s : Name) : strip p (p ++ s) = some s := by simp [strip]

theorem Begins.not_bracket {s r : Name} {c : Char} (h : Begins s) (hc : c = ']' ∨ c = '}') : ∀ t, s ++ r ≠ c :: t := by
  obtain ⟨d, l, rfl, -, h1, h2⟩ := h
  rintro t ht
  cases ht
  rcases hc with rfl | rfl
  · exact h1 rfl
  · exact h2 rfl

theorem read_newline (f k : Nat) (s : Name) : read f (newline k ++ s) = read f s := by
  cases f with
  | zero => simp only [read]
  | succ f => rw [read, read, skipWs_newline]

theorem readField_newline (f k : Nat) (s : Name) : readField f (newline k ++ s) = readField f s := by
  cases f with
  | zero => simp only [readField]
  | succ f => rw [readField, readField, skipWs_newline]

theorem read_space (f : Nat) (s : Name) : read f (' ' :: s) = read f s := by
  cases f with
  | zero => simp only [read]
  | succ f =>
    rw [read, read]
    rw [show skipWs (' ' :: s) = skipWs s by unfold skipWs; rw [List.dropWhile_cons_of_pos (by decide)]]

theorem read_field {k : Nat} {n : Name} {x : Json} {f : Nat} {r : Name} (h : read f (write (k + 1) x ++ r) = some (x, r)) :
    readField (f + 1) (writeStr n ++ ([':', ' '] ++ (write (k + 1) x ++ r))) = some ((n, x), r) := by
  rw [readField, writeStr_skip]
  simp only [if_true, readStr_all, Option.bind_eq_bind, Option.bind_some, List.cons_append, List.nil_append]
  rw [skipWs_cons _ (by decide)]
  simp only
  rw [read_space, h]
  simp only [Option.bind_some]

mutual

theorem read_write (k : Nat) : ∀ (j : Json) (f : Nat) (r : Name), need j ≤ f → Clean r → read f (write k j ++ r) = some (j, r)
  | .null, f + 1, r, _, _ => by
    rw [read, write, List.cons_append, skipWs_cons _ (by decide)]
    simp [strip]
  | .bool true, f + 1, r, _, _ => by
    rw [read, write, List.cons_append, skipWs_cons _ (by decide)]
    simp [strip]
  | .bool false, f + 1, r, _, _ => by
    rw [read, write, List.cons_append, skipWs_cons _ (by decide)]
    simp [strip]
  | .num n, f + 1, r, _, hr => by
    obtain ⟨c, l, h, hd⟩ := writeInt_cons n
    have hb := digit_begins hd
    have h2 := readNum_writeInt n hr
    rw [h, List.cons_append] at h2
    rw [read, write, h, List.cons_append, skipWs_cons _ hb.1]
    obtain ⟨-, -, -, h3, h4, h5, h6, h7, h8⟩ := hb
    simp only [if_neg h3, if_neg h4, if_neg h5, if_neg h6, if_neg h7, if_neg h8, h2]
  | .float, f + 1, r, _, hr => by
    rw [read, write, List.cons_append, skipWs_cons _ (by decide)]
    have h1 : skipDigits ('5' :: r) = some r := by
      unfold skipDigits
      rw [List.takeWhile_cons_of_pos (by decide), if_neg (by simp), List.dropWhile_cons_of_pos (by decide)]
      cases r with
      | nil => rfl
      | cons c r => rw [List.dropWhile_cons_of_neg (by simp [(hr c rfl).1])]
    have h2 : readNat ('0' :: '.' :: '5' :: r) = some (0, '.' :: '5' :: r) := by
      simp [readNat]
      rfl
    have h3 : readFrac ('.' :: '5' :: r) = some (true, r) := by
      rw [readFrac, if_pos (by rfl), List.tail_cons, h1]
      rfl
    have h4 : readMag ('0' :: '.' :: '5' :: r) = some ((0, true), r) := by
      simp only [readMag, h2, h3, readExp_none hr, Option.bind_eq_bind, Option.bind_some, Bool.or_false]
    simp only [List.cons_append, List.nil_append, readNum]
    simp [h4]
  | .str s, f + 1, r, _, _ => by rw [write]; exact read_str f s r
  | .arr [], f + 1, r, _, _ => by
    rw [read, write, List.cons_append, skipWs_cons _ (by decide), List.cons_append, List.nil_append]
    simp [show skipWs (']' :: r) = ']' :: r from skipWs_cons _ (by decide)]
  | .arr (x :: xs), f + 1, r, hf, hr => by
    simp only [need] at hf
    have h1 := read_write (k + 1) x f (writeElems k xs ++ r) (by omega) (writeElems_clean k xs r)
    have h2 := read_elems k xs f r (by omega)
    rw [read]
    simp only [write, List.cons_append]
    rw [skipWs_cons _ (by decide)]
    have h3 : skipWs (newline (k + 1) ++ write (k + 1) x ++ writeElems k xs ++ r)
        = write (k + 1) x ++ (writeElems k xs ++ r) := by
      rw [List.append_assoc, List.append_assoc, skipWs_newline, (write_begins (k + 1) x).skip]
    simp only [h3]
    rw [if_neg (by decide), if_pos trivial]
    have hb := (write_begins (k + 1) x).not_bracket (r := writeElems k xs ++ r) (Or.inl rfl)
    split
    · next h => exact absurd h (hb _)
    · rw [h1]
      simp only [Option.bind_eq_bind, Option.bind_some, h2]
  | .obj [], f + 1, r, _, _ => by
    rw [read, write, List.cons_append, skipWs_cons _ (by decide), List.cons_append, List.nil_append]
    simp [show skipWs ('}' :: r) = '}' :: r from skipWs_cons _ (by decide)]
  | .obj ((n, x) :: xs), f + 2, r, hf, hr => by
    simp only [need] at hf
    have h1 := read_field (n := n) (read_write (k + 1) x f (writeFields k xs ++ r) (by omega) (writeFields_clean k xs r))
    have h2 := read_fields k xs (f + 1) r (by omega)
    rw [read]
    simp only [write, List.cons_append]
    rw [skipWs_cons _ (by decide)]
    have h3 : skipWs (newline (k + 1) ++ writeStr n ++ [':', ' '] ++ write (k + 1) x ++ writeFields k xs ++ r)
        = writeStr n ++ ([':', ' '] ++ (write (k + 1) x ++ (writeFields k xs ++ r))) := by
      simp only [List.append_assoc]
      rw [skipWs_newline]
      exact skipWs_cons _ (by decide)
    simp only [h3]
    rw [if_neg (by decide), if_neg (by decide), if_pos trivial]
    split
    · next h => exact absurd h (by simp [writeStr])
    · rw [h1]
      simp only [Option.bind_eq_bind, Option.bind_some, h2]
  | .obj ((n, x) :: xs), 1, r, hf, hr => by simp only [need] at hf; omega
  | .null, 0, _, hf, _ => by simp [need] at hf
  | .bool true, 0, _, hf, _ => by simp [need] at hf
  | .bool false, 0, _, hf, _ => by simp [need] at hf
  | .num _, 0, _, hf, _ => by simp [need] at hf
  | .float, 0, _, hf, _ => by simp [need] at hf
  | .str _, 0, _, hf, _ => by simp [need] at hf
  | .arr [], 0, _, hf, _ => by simp [need] at hf
  | .arr (_ :: _), 0, _, hf, _ => by simp only [need] at hf; omega
  | .obj [], 0, _, hf, _ => by simp [need] at hf
  | .obj ((_, _) :: _), 0, _, hf, _ => by simp only [need] at hf; omega

theorem read_elems (k : Nat) : ∀ (l : List Json) (f : Nat) (r : Name), needElems l ≤ f →
    readElems f (writeElems k l ++ r) = some (l, r)
  | [], f + 1, r, _ => by
    rw [readElems, writeElems, List.append_assoc, skipWs_newline, List.cons_append, skipWs_cons _ (by decide)]
    simp
  | x :: xs, f + 1, r, hf => by
    simp only [needElems] at hf
    have h1 := read_write (k + 1) x f (writeElems k xs ++ r) (by omega) (writeElems_clean k xs r)
    have h2 := read_elems k xs f r (by omega)
    rw [readElems]
    simp only [writeElems, List.cons_append, List.append_assoc]
    rw [skipWs_cons _ (by decide)]
    simp only
    rw [if_neg (by decide), if_pos trivial, read_newline, h1]
    simp only [Option.bind_eq_bind, Option.bind_some, h2]
  | [], 0, _, hf => by simp [needElems] at hf
  | _ :: _, 0, _, hf => by simp only [needElems] at hf; omega

theorem read_fields (k : Nat) : ∀ (l : List (Name × Json)) (f : Nat) (r : Name), needFields l ≤ f →
    readFields f (writeFields k l ++ r) = some (l, r)
  | [], f + 1, r, _ => by
    rw [readFields, writeFields, List.append_assoc, skipWs_newline, List.cons_append, skipWs_cons _ (by decide)]
    simp
  | (n, x) :: xs, f + 2, r, hf => by
    simp only [needFields] at hf
    have h1 := read_field (n := n) (read_write (k + 1) x f (writeFields k xs ++ r) (by omega) (writeFields_clean k xs r))
    have h2 := read_fields k xs (f + 1) r (by omega)
    rw [readFields]
    simp only [writeFields, List.cons_append, List.append_assoc]
    rw [skipWs_cons _ (by decide)]
    simp only
    rw [if_neg (by decide), if_pos trivial, readField_newline]
    simp only [List.cons_append, List.nil_append] at h1 ⊢
    rw [h1]
    simp only [Option.bind_eq_bind, Option.bind_some, h2]
  | [], 0, _, hf => by simp [needFields] at hf
  | (_, _) :: _, 0, _, hf => by simp only [needFields] at hf; omega
  | (_, _) :: _, 1, _, hf => by simp only [needFields] at hf; omega

end

/-- Every JSON value is read back from its text. -/
theorem parse_text (j : Json) : parse (text j) = some j := by
  have h := read_write 0 j (2 * (text j).length + 2) [] (by have := need_le 0 j; unfold text; omega) clean_nil
  rw [List.append_nil] at h
  unfold parse
  rw [show write 0 j = text j from rfl] at h
  rw [h]
  simp [skipWs]

end DieE.Text
