import Verif.Model.Scan
import Verif.Spec.Numeral

/-! # What scanning should do -/

namespace Verif.Spec.Scan

open Verif.Scan

variable {α : Type}

/-- The destination, of the same kind as `d`, holding `x`. -/
def put (d : Dest α) (x : α) : Dest α :=
  match d with
  | .val _ => .val x
  | .ptr _ => .ptr (some x)

/-- The destination, of the same kind as `d`, after NULL: the zero value, or nil. -/
def putNull (z : α) (d : Dest α) : Dest α :=
  match d with
  | .val _ => .val z
  | .ptr _ => .ptr none

/-- NULL gives the zero value or nil; what is scanned successfully otherwise is stored – so a pointer field is not
nil afterwards – and does not depend on what was stored before. -/
def Faithful (z : α) (scan : Dest α → Src → Res (Dest α)) : Prop :=
  (∀ d, scan d .nil = .ok (putNull z d)) ∧
  ∀ v, v ≠ .nil → ((∀ d, scan d v = .err) ∨ ∃ x, ∀ d, scan d v = .ok (put d x))

/-- Signed integers of `w` bits. -/
def InRange (w : Nat) (n : Int) : Prop := -(2 ^ (w - 1) : Int) ≤ n ∧ n < (2 ^ (w - 1) : Int)

/-- The texts for truth values. -/
def BoolText (s : Bytes) (b : Bool) : Prop :=
  (b = true ∧ s ∈ [[49], [116], [84], [84, 82, 85, 69], [116, 114, 117, 101], [84, 114, 117, 101]]) ∨
  (b = false ∧ s ∈ [[48], [102], [70], [70, 65, 76, 83, 69], [102, 97, 108, 115, 101], [70, 97, 108, 115, 101]])

/-- What a database value means as a truth value. -/
inductive BoolMeans (strict : Bool) : Src → Bool → Prop
  | bool (b : Bool) : BoolMeans strict (.bool b) b
  | zero : BoolMeans strict (.int64 0) false
  | nonzero {n : Int} : n ≠ 0 → BoolMeans strict (.int64 n) true
  | bytes {s : Bytes} {b : Bool} : strict = false → BoolText s b → BoolMeans strict (.bytes s) b
  | str {s : Bytes} {b : Bool} : strict = false → BoolText s b → BoolMeans strict (.str s) b

/-- UTF-8 (RFC 3629). -/
def utf8 (c : Char) : Bytes :=
  let n := c.toNat
  if n < 0x80 then [UInt8.ofNat n]
  else if n < 0x800 then [UInt8.ofNat (0xC0 + n / 64), UInt8.ofNat (0x80 + n % 64)]
  else if n < 0x10000 then
    [UInt8.ofNat (0xE0 + n / 4096), UInt8.ofNat (0x80 + n / 64 % 64), UInt8.ofNat (0x80 + n % 64)]
  else
    [UInt8.ofNat (0xF0 + n / 262144), UInt8.ofNat (0x80 + n / 4096 % 64), UInt8.ofNat (0x80 + n / 64 % 64),
     UInt8.ofNat (0x80 + n % 64)]

def utf8s (t : List Char) : Bytes := (t.map utf8).flatten

end Verif.Spec.Scan
