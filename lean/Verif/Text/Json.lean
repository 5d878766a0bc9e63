import Verif.Train.Data

/-!
# JSON text

The part of `serde_json` used by `save_game` and `load_game` (`src/versus.rs:54-73`): `to_string_pretty` and
`from_reader`.  A text is a list of characters.  No field of the saved structures is a float, so of a
number with a fraction or an exponent only the syntax is modelled: it can stand in fields that are skipped.  The limit of 128 nested values is not modelled.
-/

namespace DieE.Text
open DieE.Train (Name digits)

/-- A JSON value. -/
inductive Json where
  | null
  | bool (b : Bool)
  | num (n : Int)
  /-- a number with a fraction or an exponent, or `-0` -/
  | float
  | str (s : Name)
  | arr (l : List Json)
  | obj (l : List (Name × Json))

/-! ## Writing -/

/-- A lower case hexadecimal digit. -/
def hexDigit (n : Nat) : Char := ['0', '1', '2', '3', '4', '5', '6', '7', '8', '9', 'a', 'b', 'c', 'd', 'e', 'f'].getD n '0'

/-- A character of a string. -/
def escape (c : Char) : Name :=
  if c = '"' then ['\\', '"']
  else if c = '\\' then ['\\', '\\']
  else if c.toNat < 32 then
    if c.toNat = 8 then ['\\', 'b']
    else if c.toNat = 9 then ['\\', 't']
    else if c.toNat = 10 then ['\\', 'n']
    else if c.toNat = 12 then ['\\', 'f']
    else if c.toNat = 13 then ['\\', 'r']
    else ['\\', 'u', '0', '0', hexDigit (c.toNat / 16), hexDigit (c.toNat % 16)]
  else [c]

/-- A string in quotes. -/
def writeStr (s : Name) : Name := '"' :: s.flatMap escape ++ ['"']

/-- An integer. -/
def writeInt (n : Int) : Name := if n < 0 then '-' :: digits n.natAbs else digits n.natAbs

/-- A line break and the indentation of level `k`. -/
def newline (k : Nat) : Name := '\n' :: List.replicate (2 * k) ' '

mutual

/-- `to_string_pretty` of a value at indentation level `k`. -/
def write (k : Nat) : Json → Name
  | .null => ['n', 'u', 'l', 'l']
  | .bool true => ['t', 'r', 'u', 'e']
  | .bool false => ['f', 'a', 'l', 's', 'e']
  | .num n => writeInt n
  -- no saved structure has a float; some number
  | .float => ['0', '.', '5']
  | .str s => writeStr s
  | .arr [] => ['[', ']']
  | .arr (x :: xs) => '[' :: newline (k + 1) ++ write (k + 1) x ++ writeElems k xs
  | .obj [] => ['{', '}']
  | .obj ((n, x) :: xs) => '{' :: newline (k + 1) ++ writeStr n ++ [':', ' '] ++ write (k + 1) x ++ writeFields k xs

/-- The elements after the first one, and the closing bracket. -/
def writeElems (k : Nat) : List Json → Name
  | [] => newline k ++ [']']
  | x :: xs => ',' :: newline (k + 1) ++ write (k + 1) x ++ writeElems k xs

/-- The fields after the first one, and the closing brace. -/
def writeFields (k : Nat) : List (Name × Json) → Name
  | [] => newline k ++ ['}']
  | (n, x) :: xs => ',' :: newline (k + 1) ++ writeStr n ++ [':', ' '] ++ write (k + 1) x ++ writeFields k xs

end

/-! ## Reading -/

/-- White space. -/
def isWs (c : Char) : Bool := c == ' ' || c == '\n' || c == '\t' || c == '\r'

/-- White space is skipped. -/
def skipWs (s : Name) : Name := s.dropWhile isWs

/-- The value of a hexadecimal digit. -/
def hexVal (c : Char) : Option Nat :=
  if c.isDigit then some (c.toNat - 48)
  else if 97 ≤ c.toNat ∧ c.toNat ≤ 102 then some (c.toNat - 87)
  else if 65 ≤ c.toNat ∧ c.toNat ≤ 70 then some (c.toNat - 55)
  else none

/-- The character of an escape with one letter. -/
def unescape (c : Char) : Option Char :=
  if c = '"' then some '"'
  else if c = '\\' then some '\\'
  else if c = '/' then some '/'
  else if c = 'b' then some (Char.ofNat 8)
  else if c = 'f' then some (Char.ofNat 12)
  else if c = 'n' then some (Char.ofNat 10)
  else if c = 'r' then some (Char.ofNat 13)
  else if c = 't' then some (Char.ofNat 9)
  else none

/-- The number with the given hexadecimal digits. -/
def hexNat (a b c d : Char) : Option Nat := do
  let a ← hexVal a
  let b ← hexVal b
  let c ← hexVal c
  let d ← hexVal d
  some (4096 * a + 256 * b + 16 * c + d)

/-- The character with the given hexadecimal digits, unless they are a surrogate. -/
def hexChar (a b c d : Char) : Option Char := do
  let n ← hexNat a b c d
  if 55296 ≤ n ∧ n ≤ 57343 then none else some (Char.ofNat n)

/-- The character of a leading and a trailing surrogate. -/
def pairChar (m n : Nat) : Option Char :=
  if 55296 ≤ m ∧ m ≤ 56319 ∧ 56320 ≤ n ∧ n ≤ 57343 then some (Char.ofNat (1024 * (m - 55296) + (n - 56320) + 65536)) else none

/-- A string after the opening quote: the string and the remaining text. -/
def readStr : Name → Option (Name × Name)
  | [] => none
  | c :: r =>
    if c = '"' then some ([], r)
    else if c = '\\' then
      match r with
      | [] => none
      | e :: r =>
        if e = 'u' then
          match r with
          | x :: y :: z :: w :: r =>
            match hexChar x y z w with
            | some u => do
              let (s, r) ← readStr r
              some (u :: s, r)
            | none =>
              match r with
              | b :: v :: x' :: y' :: z' :: w' :: r =>
                if b = '\\' ∧ v = 'u' then do
                  let m ← hexNat x y z w
                  let n ← hexNat x' y' z' w'
                  let u ← pairChar m n
                  let (s, r) ← readStr r
                  some (u :: s, r)
                else none
              | _ => none
          | _ => none
        else do
          let u ← unescape e
          let (s, r) ← readStr r
          some (u :: s, r)
    else if c.toNat < 32 then none
    else do
      let (s, r) ← readStr r
      some (c :: s, r)

/-- The digits at the beginning of a number: no leading zeros. -/
def readNat (s : Name) : Option (Nat × Name) :=
  let ds := s.takeWhile Char.isDigit
  if ds = [] ∨ (1 < ds.length ∧ ds.head? = some '0') then none else some (Nat.ofDigitChars 10 ds 0, s.dropWhile Char.isDigit)

/-- At least one digit. -/
def skipDigits (s : Name) : Option Name := if s.takeWhile Char.isDigit = [] then none else some (s.dropWhile Char.isDigit)

/-- The fraction of a number, and whether there is one. -/
def readFrac (s : Name) : Option (Bool × Name) :=
  if s.head? = some '.' then (skipDigits s.tail).map fun r => (true, r) else some (false, s)

/-- The exponent of a number, and whether there is one. -/
def readExp (s : Name) : Option (Bool × Name) :=
  if s.head? = some 'e' ∨ s.head? = some 'E' then
    (skipDigits (if s.tail.head? = some '+' ∨ s.tail.head? = some '-' then s.tail.tail else s.tail)).map fun r => (true, r)
  else some (false, s)

/-- A number without a sign: its integer part, and whether it is a float. -/
def readMag (s : Name) : Option ((Nat × Bool) × Name) := do
  let (n, r) ← readNat s
  let (p, r) ← readFrac r
  let (q, r) ← readExp r
  some ((n, p || q), r)

/-- A number; `-0` is a float. -/
def readNum (s : Name) : Option (Json × Name) :=
  match s with
  | '-' :: s => do
    let ((n, x), r) ← readMag s
    some (if x = true ∨ n = 0 then .float else .num (-(n : Int)), r)
  | s => do
    let ((n, x), r) ← readMag s
    some (if x = true then .float else .num (n : Int), r)

/-- `s` starts with `p`: the remaining text. -/
def strip (p s : Name) : Option Name := if p.isPrefixOf s then some (s.drop p.length) else none

mutual

/-- A value; the first argument bounds the nesting. -/
def read : Nat → Name → Option (Json × Name)
  | 0, _ => none
  | f + 1, s =>
    match skipWs s with
    | [] => none
    | c :: r =>
      if c = '"' then do
        let (s, r) ← readStr r
        some (.str s, r)
      else if c = '[' then
        match skipWs r with
        | ']' :: r => some (.arr [], r)
        | r => do
          let (x, r) ← read f r
          let (xs, r) ← readElems f r
          some (.arr (x :: xs), r)
      else if c = '{' then
        match skipWs r with
        | '}' :: r => some (.obj [], r)
        | r => do
          let (e, r) ← readField f r
          let (es, r) ← readFields f r
          some (.obj (e :: es), r)
      else if c = 'n' then do
        let r ← strip ['u', 'l', 'l'] r
        some (.null, r)
      else if c = 't' then do
        let r ← strip ['r', 'u', 'e'] r
        some (.bool true, r)
      else if c = 'f' then do
        let r ← strip ['a', 'l', 's', 'e'] r
        some (.bool false, r)
      else readNum (c :: r)

/-- The elements after the first one, up to the closing bracket. -/
def readElems : Nat → Name → Option (List Json × Name)
  | 0, _ => none
  | f + 1, s =>
    match skipWs s with
    | [] => none
    | c :: r =>
      if c = ']' then some ([], r)
      else if c = ',' then do
        let (x, r) ← read f r
        let (xs, r) ← readElems f r
        some (x :: xs, r)
      else none

/-- A field of an object. -/
def readField : Nat → Name → Option ((Name × Json) × Name)
  | 0, _ => none
  | f + 1, s =>
    match skipWs s with
    | [] => none
    | c :: r =>
      if c = '"' then do
        let (n, r) ← readStr r
        match skipWs r with
        | ':' :: r => do
          let (x, r) ← read f r
          some ((n, x), r)
        | _ => none
      else none

/-- The fields after the first one, up to the closing brace. -/
def readFields : Nat → Name → Option (List (Name × Json) × Name)
  | 0, _ => none
  | f + 1, s =>
    match skipWs s with
    | [] => none
    | c :: r =>
      if c = '}' then some ([], r)
      else if c = ',' then do
        let (e, r) ← readField f r
        let (es, r) ← readFields f r
        some (e :: es, r)
      else none

end

/-- `to_string_pretty`. -/
def text (j : Json) : Name := write 0 j

/-- `from_reader`: a value followed by white space only.  A text of `n` characters has fewer than `n + 1` nested
values, elements and fields. -/
def parse (s : Name) : Option Json :=
  match read (2 * s.length + 2) s with
  | some (j, r) => if skipWs r = [] then some j else none
  | none => none

end DieE.Text
