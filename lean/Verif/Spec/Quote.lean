import Verif.Spec.Scan

/-!
# Reading quoted identifiers (SQL) and string literals (Go)
-/

namespace Verif.Spec.Quote

open Verif.Spec.Scan

/-- After the opening quote `q`: a doubled quote stands for one, a single one ends the identifier.  The name and the text
after it. -/
def identBody (q : Byte) : Bytes → Option (Bytes × Bytes)
  | [] => none
  | [c] => if c = q then some ([], []) else none
  | c :: d :: r =>
    if c = q then
      if d = q then (identBody q r).map fun p => (q :: p.1, p.2) else some ([], d :: r)
    else (identBody q (d :: r)).map fun p => (c :: p.1, p.2)

/-- A quoted identifier of SQL: backquotes for MySQL, double quotes for PostgreSQL and SQLite.  Empty identifiers are not
allowed. -/
def identifier (q : Byte) (s : Bytes) : Option (Bytes × Bytes) :=
  match s with
  | [] => none
  | c :: r =>
    if c = q then
      match identBody q r with
      | some ([], _) => none
      | x => x
    else none

def hexValue (b : Byte) : Option Nat :=
  if 48 ≤ b.toNat ∧ b.toNat ≤ 57 then some (b.toNat - 48)
  else if 97 ≤ b.toNat ∧ b.toNat ≤ 102 then some (b.toNat - 87)
  else if 65 ≤ b.toNat ∧ b.toNat ≤ 70 then some (b.toNat - 55)
  else none

/-- The number `n` digits of this base (at most 16) stand for, and the text after them. -/
def number (base : Nat) : Nat → Nat → Bytes → Option (Nat × Bytes)
  | 0, v, r => some (v, r)
  | _ + 1, _, [] => none
  | n + 1, v, b :: r =>
    match hexValue b with
    | some x => if x < base then number base n (base * v + x) r else none
    | none => none

/-- The escape sequences of Go's interpreted string literals, after the backslash: what they stand for and the text after
them. -/
def goEscape : Bytes → Option (Bytes × Bytes)
  | [] => none
  | c :: r =>
    if c = 97 then some ([7], r)
    else if c = 98 then some ([8], r)
    else if c = 102 then some ([12], r)
    else if c = 110 then some ([10], r)
    else if c = 114 then some ([13], r)
    else if c = 116 then some ([9], r)
    else if c = 118 then some ([11], r)
    else if c = 92 ∨ c = 34 then some ([c], r)
    else if c = 120 then (number 16 2 0 r).map fun p => ([UInt8.ofNat p.1], p.2)
    else if c = 117 then
      match number 16 4 0 r with
      | some (v, r) => if v < 0xD800 ∨ 0xDFFF < v then some (utf8 (Char.ofNat v), r) else none
      | none => none
    else if c = 85 then
      match number 16 8 0 r with
      | some (v, r) => if v < 0xD800 ∨ (0xDFFF < v ∧ v < 0x110000) then some (utf8 (Char.ofNat v), r) else none
      | none => none
    else if 48 ≤ c.toNat ∧ c.toNat ≤ 55 then
      match number 8 3 0 (c :: r) with
      | some (v, r) => if v < 256 then some ([UInt8.ofNat v], r) else none
      | none => none
    else none

/-- The inside of an interpreted string literal, which must end with the quote; at most `n` characters and escapes. -/
def goInterpreted : Nat → Bytes → Option Bytes
  | 0, _ => none
  | _ + 1, [] => none
  | n + 1, c :: r =>
    if c = 34 then (if r = [] then some [] else none)
    else if c = 10 then none
    else if c = 92 then
      match goEscape r with
      | some (v, r) => (goInterpreted n r).map fun s => v ++ s
      | none => none
    else (goInterpreted n r).map fun s => c :: s

/-- The inside of a raw string literal: carriage returns are left out. -/
def goRaw : Bytes → Option Bytes
  | [] => none
  | c :: r =>
    if c = 96 then (if r = [] then some [] else none)
    else if c = 13 then goRaw r
    else (goRaw r).map fun s => c :: s

/-- The text a Go string literal stands for (Go language specification, "String literals"); Go source is UTF-8 without
NUL. -/
def goString (l : Bytes) : Option Bytes :=
  match l with
  | [] => none
  | c :: r =>
    if c = 34 then goInterpreted r.length r
    else if c = 96 then goRaw r
    else none

def goSource (l : Bytes) : Prop := ∃ t : List Char, l = utf8s t ∧ ∀ c ∈ t, c.toNat ≠ 0

end Verif.Spec.Quote
