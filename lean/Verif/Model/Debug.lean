import Verif.Model.Quote
import Verif.Model.PgQuote

/-!
# How arguments are printed when a statement is formatted for debugging

`strf` (`cmd/sqlgen/codegen/templates/db.go.tpl:1556-1609`).  Texts are valid UTF-8; of times only the second, the
fraction and the zone are kept; floating point numbers are finite.
-/

namespace Verif.Debug

open Verif.ColumnType Verif.Quote

/-- A finite floating point number, `num / 2 ^ exp`. -/
structure Flt where
  num : Int
  exp : Nat
  deriving DecidableEq, Repr

structure Time where
  sec : Int
  nano : Nat
  zone : Int
  deriving DecidableEq, Repr

/-- Arguments, as the type switch tells them apart. -/
inductive Arg where
  | null
  /-- `string`, or a type of that kind -/
  | str (t : List Char)
  /-- `[]byte` -/
  | bytes (t : List Char)
  | bool (b : Bool)
  /-- `int64`, or a signed integer type -/
  | int (n : Int)
  /-- an unsigned integer type -/
  | uint (n : Nat)
  /-- `float64`, or a type of that kind -/
  | float (f : Flt)
  | time (t : Time)
  /-- `sql.RawBytes` -/
  | raw (t : List Char)
  /-- a `driver.Valuer`, with what its `Value` returns -/
  | valuer (v : Arg)
  /-- a nil pointer to a type whose method `Value` has a value receiver -/
  | nilValuer
  /-- a pointer, slice, map, struct, ... -/
  | other

/-- What is left open: `strconv.IsPrint` and `Format(time.RFC3339)`, which depends on the second and the zone. -/
structure Lib where
  printable : Char → Bool
  rfc3339 : Int → Int → List Char

/-- Division with rounding to the nearest integer, ties to even. -/
def roundEven (p q : Nat) : Nat :=
  if 2 * (p % q) < q then p / q
  else if q < 2 * (p % q) then p / q + 1
  else if p / q % 2 = 0 then p / q else p / q + 1

/-- `k` decimal digits. -/
def fixedDigits : Nat → Nat → Bytes
  | 0, _ => []
  | k + 1, n => fixedDigits k (n / 10) ++ [UInt8.ofNat (48 + n % 10)]

/-- `10 ^ 10` -/
def scale : Nat := 10000000000

/-- `strconv.FormatFloat(f, 'f', 10, 64)`. -/
def formatFloat (f : Flt) : Bytes :=
  let n := roundEven (f.num.natAbs * scale) (2 ^ f.exp)
  (if f.num < 0 then [45] else []) ++ (natDec (n / scale) ++ 46 :: fixedDigits 10 (n % scale))

/-- Strings (db.go.tpl:1561-1571, 1590-1594). -/
def quoteText (lib : Lib) : Dialect → List Char → Bytes
  | .postgres, t => pgQuote (t.flatMap fun c => encodeRune c.toNat)
  | _, t => strconvQuote lib.printable t

def keyword (s : String) : Bytes := s.toList.map fun c => UInt8.ofNat c.toNat

/-- `strf` (db.go.tpl:1556-1609). -/
def strf (lib : Lib) (d : Dialect) : Arg → Res Bytes
  | .null => .ok (keyword "NULL")
  | .str t => .ok (quoteText lib d t)
  | .bytes t => .ok (quoteText lib d t)
  | .bool b => .ok (keyword (if b then "true" else "false"))
  | .int n => .ok (intDec n)
  | .uint n => .ok (natDec n)
  | .float f => .ok (formatFloat f)
  | .time t => .ok (strconvQuote lib.printable (lib.rfc3339 t.sec t.zone))
  | .raw t => .ok (t.flatMap fun c => encodeRune c.toNat)
  | .valuer v => strf lib d v
  | .nilValuer => .panic
  | .other => .panic

end Verif.Debug
