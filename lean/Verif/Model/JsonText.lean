import Verif.Model.JsonField
import Verif.Model.ColumnType
import Verif.Model.Scan

/-!
# The text of JSON values

`encoding/json` (Go 1.24), as called by `JSONValue` and `JSONScanner` (`sequel/encoding/json.go:29, 60-65`): the text
that `Encoder.Encode` writes for a JSON value, and the value that `Decoder.Decode` finds at the start of a text.  The
package checks the syntax first and reads values afterwards; here both are one function.  Names of members are not
sorted here; the order of the entries of a map is that of the list that stands for it.
-/

namespace Verif.JsonText

open Verif.JsonField (Json Name)

/-! ## Writing (encode.go) -/

/-- A digit in base 16. -/
def hex (n : Nat) : Byte := if n < 10 then UInt8.ofNat (48 + n) else UInt8.ofNat (87 + n)

/-- `\uXXXX` -/
def escU (n : Nat) : Bytes := [92, 117, hex (n / 4096 % 16), hex (n / 256 % 16), hex (n / 16 % 16), hex (n % 16)]

/-- One character of a string (`appendString`): quotes, backslashes and control characters are escaped, as are
`<`, `>`, `&`, U+2028 and U+2029. -/
def quoteChar (c : Char) : Bytes :=
  if c.toNat = 34 ∨ c.toNat = 92 then [92, UInt8.ofNat c.toNat]
  else if c.toNat = 8 then [92, 98]
  else if c.toNat = 12 then [92, 102]
  else if c.toNat = 10 then [92, 110]
  else if c.toNat = 13 then [92, 114]
  else if c.toNat = 9 then [92, 116]
  else if c.toNat < 32 ∨ c.toNat = 60 ∨ c.toNat = 62 ∨ c.toNat = 38 ∨ c.toNat = 0x2028 ∨ c.toNat = 0x2029 then
    escU c.toNat
  else ColumnType.encodeRune c.toNat

def quote (t : List Char) : Bytes := 34 :: (t.flatMap quoteChar ++ [34])

mutual
def print : Json → Bytes
  | .null => [110, 117, 108, 108]
  | .bool true => [116, 114, 117, 101]
  | .bool false => [102, 97, 108, 115, 101]
  | .num n => intDec n
  | .frac t => t
  | .str t => quote t
  | .arr [] => [91, 93]
  | .arr (j :: js) => 91 :: (print j ++ (printElems js ++ [93]))
  | .obj [] => [123, 125]
  | .obj ((k, j) :: ms) => 123 :: (quote k ++ 58 :: (print j ++ (printMembers ms ++ [125])))
def printElems : List Json → Bytes
  | [] => []
  | j :: js => 44 :: (print j ++ printElems js)
def printMembers : List (Name × Json) → Bytes
  | [] => []
  | (k, j) :: ms => 44 :: (quote k ++ 58 :: (print j ++ printMembers ms))
end

/-! ## Reading (scanner.go, stream.go, decode.go) -/

def isSpace (b : Byte) : Bool := b = 32 || b = 9 || b = 10 || b = 13

def skip (s : Bytes) : Bytes := s.dropWhile isSpace

/-- The byte `c`, after white space; what follows it. -/
def expect (c : Byte) (s : Bytes) : Option Bytes :=
  match skip s with
  | [] => none
  | b :: r => if b = c then some r else none

def isDigit (b : Byte) : Bool := 48 ≤ b.toNat && b.toNat ≤ 57

def hexVal (b : Byte) : Option Nat :=
  if 48 ≤ b.toNat ∧ b.toNat ≤ 57 then some (b.toNat - 48)
  else if 97 ≤ b.toNat ∧ b.toNat ≤ 102 then some (b.toNat - 87)
  else if 65 ≤ b.toNat ∧ b.toNat ≤ 70 then some (b.toNat - 55)
  else none

/-- Four digits in base 16 (`getu4`, without `\u`). -/
def hex4 : Bytes → Option (Nat × Bytes)
  | a :: b :: c :: d :: r => do
    let a ← hexVal a
    let b ← hexVal b
    let c ← hexVal c
    let d ← hexVal d
    some (a * 4096 + b * 256 + c * 16 + d, r)
  | _ => none

/-- The second half of a surrogate pair, if it is there (`utf16.DecodeRune`). -/
def low : Bytes → Option (Nat × Bytes)
  | a :: b :: r =>
    if a = 92 ∧ b = 117 then
      match hex4 r with
      | some (m, r) => if 0xDC00 ≤ m ∧ m < 0xE000 then some (m, r) else none
      | none => none
    else none
  | _ => none

/-- The character for `\uXXXX` (`unquoteBytes`): half of a surrogate pair alone is read as U+FFFD. -/
def unicode (r : Bytes) : Option (Char × Bytes) :=
  match hex4 r with
  | none => none
  | some (n, r) =>
    if 0xD800 ≤ n ∧ n < 0xE000 then
      match (if n < 0xDC00 then low r else none) with
      | some (m, r') => some (Char.ofNat ((n - 0xD800) * 1024 + (m - 0xDC00) + 0x10000), r')
      | none => some ('�', r)
    else some (Char.ofNat n, r)

/-- What follows a backslash. -/
def escape : Bytes → Option (Char × Bytes)
  | [] => none
  | b :: r =>
    if b = 34 ∨ b = 92 ∨ b = 47 then some (Char.ofNat b.toNat, r)
    else if b = 98 then some (Char.ofNat 8, r)
    else if b = 102 then some (Char.ofNat 12, r)
    else if b = 110 then some (Char.ofNat 10, r)
    else if b = 114 then some (Char.ofNat 13, r)
    else if b = 116 then some (Char.ofNat 9, r)
    else if b = 117 then unicode r
    else none

/-- The characters up to the closing quote, and what follows it; at most `n` characters.  Bytes that belong to no
character are read as U+FFFD. -/
def chars : Nat → Bytes → Option (List Char × Bytes)
  | 0, _ => none
  | _, [] => none
  | n + 1, b :: r =>
    if b = 34 then some ([], r)
    else if b = 92 then
      (escape r).bind fun x => (chars n x.2).map fun y => (x.1 :: y.1, y.2)
    else if b.toNat < 32 then none
    else
      (chars n ((b :: r).drop (Scan.decodeRune (b :: r)).2)).map fun y =>
        (Char.ofNat (Scan.decodeRune (b :: r)).1 :: y.1, y.2)

/-- The part of a number before fraction and exponent, and what follows. -/
def intPart : Bytes → Option (Bytes × Bytes)
  | [] => none
  | b :: r =>
    if b = 48 then some ([48], r)
    else if isDigit b then some (b :: r.takeWhile isDigit, r.dropWhile isDigit)
    else none

/-- A fraction, if there is one; `none` for a point without digits. -/
def fracPart : Bytes → Option (Bytes × Bytes)
  | [] => some ([], [])
  | b :: r =>
    if b = 46 then
      if r.takeWhile isDigit = [] then none else some (46 :: r.takeWhile isDigit, r.dropWhile isDigit)
    else some ([], b :: r)

/-- The sign of an exponent. -/
def sign : Bytes → Bytes × Bytes
  | [] => ([], [])
  | b :: r => if b = 43 ∨ b = 45 then ([b], r) else ([], b :: r)

/-- An exponent, if there is one; `none` for an exponent without digits. -/
def expPart : Bytes → Option (Bytes × Bytes)
  | [] => some ([], [])
  | b :: r =>
    if b = 101 ∨ b = 69 then
      if (sign r).2.takeWhile isDigit = [] then none
      else some (b :: ((sign r).1 ++ (sign r).2.takeWhile isDigit), (sign r).2.dropWhile isDigit)
    else some ([], b :: r)

/-- The sign of a number. -/
def minus : Bytes → Bytes × Bytes
  | [] => ([], [])
  | b :: r => if b = 45 then ([45], r) else ([], b :: r)

/-- The number that digits stand for. -/
def digitsVal (t : Bytes) : Nat := t.foldl (fun a b => a * 10 + (b.toNat - 48)) 0

def mkNumber (m i f e : Bytes) : Json :=
  if f = [] ∧ e = [] then .num (if m = [] then (digitsVal i : Int) else -(digitsVal i : Int))
  else .frac (m ++ (i ++ (f ++ e)))

def number (s : Bytes) : Option (Json × Bytes) := do
  let i ← intPart (minus s).2
  let f ← fracPart i.2
  let e ← expPart f.2
  some (mkNumber (minus s).1 i.1 f.1 e.1, e.2)

/-- The rest of a literal. -/
def literal (j : Json) : Bytes → Bytes → Option (Json × Bytes)
  | [], s => some (j, s)
  | _ :: _, [] => none
  | a :: l, b :: s => if a = b then literal j l s else none

mutual
/-- The value at the start of a text, and what follows it; `d` is the depth that is left (`maxNestingDepth`). -/
def value : Nat → Nat → Bytes → Option (Json × Bytes)
  | 0, _, _ => none
  | n + 1, d, s =>
    match skip s with
    | [] => none
    | b :: r =>
      if b = 34 then (chars (r.length + 1) r).map fun x => (.str x.1, x.2)
      else if b = 91 then array n d r
      else if b = 123 then object n d r
      else if b = 110 then literal .null [117, 108, 108] r
      else if b = 116 then literal (.bool true) [114, 117, 101] r
      else if b = 102 then literal (.bool false) [97, 108, 115, 101] r
      else number (b :: r)
termination_by structural n => n
/-- After an opening bracket. -/
def array : Nat → Nat → Bytes → Option (Json × Bytes)
  | 0, _, _ => none
  | n + 1, d, r =>
    if d = 0 then none
    else
      match expect 93 r with
      | some r' => some (.arr [], r')
      | none => (elems n (d - 1) r).map fun x => (.arr x.1, x.2)
termination_by structural n => n
/-- After an opening brace. -/
def object : Nat → Nat → Bytes → Option (Json × Bytes)
  | 0, _, _ => none
  | n + 1, d, r =>
    if d = 0 then none
    else
      match expect 125 r with
      | some r' => some (.obj [], r')
      | none => (members n (d - 1) r).map fun x => (.obj x.1, x.2)
termination_by structural n => n
def elems : Nat → Nat → Bytes → Option (List Json × Bytes)
  | 0, _, _ => none
  | n + 1, d, s =>
    (value n d s).bind fun x =>
      match expect 44 x.2 with
      | some r => (elems n d r).map fun y => (x.1 :: y.1, y.2)
      | none => (expect 93 x.2).map fun r => ([x.1], r)
termination_by structural n => n
def members : Nat → Nat → Bytes → Option (List (Name × Json) × Bytes)
  | 0, _, _ => none
  | n + 1, d, s =>
    (expect 34 s).bind fun r =>
      (chars (r.length + 1) r).bind fun k =>
        (expect 58 k.2).bind fun r =>
          (value n d r).bind fun x =>
            match expect 44 x.2 with
            | some r => (members n d r).map fun y => ((k.1, x.1) :: y.1, y.2)
            | none => (expect 125 x.2).map fun r => ([(k.1, x.1)], r)
termination_by structural n => n
end

/-- `maxNestingDepth` (scanner.go) -/
def maxDepth : Nat := 10000

/-- The first value of a text (`Decoder.Decode`); what follows it is not looked at. -/
def parse (s : Bytes) : Option Json := (value (2 * s.length + 1) maxDepth s).map Prod.fst

/-- `encoding/json` with a way to compare names. -/
def goLib (fold : Name → Name) : JsonField.Lib := ⟨print, parse, fold⟩

end Verif.JsonText
