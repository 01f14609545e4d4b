import Verif.Base.Go
import Verif.Spec.Float
import Verif.Model.Scan
import Verif.Model.Array
import Verif.Model.Marshal

/-!
# Floating point numbers

What `sequel/encoding/float.go`, `sequel/sqltype/float_slice.go`, `sequel/driver/postgres/pgtype/float_array.go` and
`MarshalFloat64List` (`sequel/encoding/marshaler.go`) do with numbers.  `strconv.ParseFloat` and `strconv.AppendFloat` are
modelled as Go 1.24 documents them: the nearest number, ties to even; the shortest decimal that is read back.  Texts with
underscores or the letter x (digits in groups, hexadecimal numbers) are left open (`odd`).
-/

namespace Verif.Float

open Verif Verif.Spec.Float

/-- Base-2 exponent and significand of an ordinal, as a multiple of the least positive number (the layout of
`math.Float64bits`). -/
def mag (f : Format) (n : Nat) : Nat :=
  if n < f.half then n else (f.half + n % f.half) * 2 ^ (n / f.half - 1)

/-- `N / D` rounded to the nearest, ties to even (`decimal.floatBits`, `eiselLemire64` and the conversions between
types), with exponents not bounded: the ordinal. -/
def rnd (f : Format) (N D : Nat) : Nat :=
  let t := N * 2 ^ f.low
  let e := (t / D).log2 + 1 - f.prec
  let u := D * 2 ^ e
  let n := t / u + e * f.half
  if 2 * (t % u) < u then n
  else if u < 2 * (t % u) then n + 1
  else if n % 2 = 0 then n else n + 1

/-- The value of an ordinal that was rounded. -/
def clip (f : Format) (neg : Bool) (n : Nat) : Flt := .num neg (min n f.inf)

/-- Conversion between `float32` and `float64`. -/
def conv (f g : Format) : Flt → Flt
  | .nan => .nan
  | .num neg n => if n < f.inf then clip g neg (rnd g (mag f n) (2 ^ f.low)) else .num neg g.inf

/-- Conversion of an `int64`. -/
def ofInt (f : Format) (n : Int) : Flt := clip f (n < 0) (rnd f n.natAbs 1)

/-! ## `strconv.ParseFloat` -/

def isDigit (c : Byte) : Bool := 48 ≤ c.toNat && c.toNat ≤ 57

/-- Digits: the number they make after `acc`, how many, and the rest. -/
def digits (acc cnt : Nat) : Bytes → Nat × Nat × Bytes
  | [] => (acc, cnt, [])
  | c :: r => if isDigit c then digits (acc * 10 + (c.toNat - 48)) (cnt + 1) r else (acc, cnt, c :: r)

/-- The digits of an exponent, which stops growing at 10000. -/
def expDigits (e cnt : Nat) : Bytes → Nat × Nat × Bytes
  | [] => (e, cnt, [])
  | c :: r =>
    if isDigit c then expDigits (if e < 10000 then e * 10 + (c.toNat - 48) else e) (cnt + 1) r
    else (e, cnt, c :: r)

/-- An optional sign. -/
def sign : Bytes → Bool × Bytes
  | [] => (false, [])
  | c :: r => if c = 43 then (false, r) else if c = 45 then (true, r) else (false, c :: r)

/-- The optional exponent at the end of a number. -/
def exponent : Bytes → Option Int
  | [] => some 0
  | c :: r =>
    if c = 101 ∨ c = 69 then
      let (neg, r) := sign r
      match expDigits 0 0 r with
      | (e, cnt, []) => if cnt = 0 then none else some (if neg then -(e : Int) else e)
      | _ => none
    else none

/-- The digits after an optional point: the number with those before it, how many there are, and the rest. -/
def fraction (m : Nat) : Bytes → Nat × Nat × Bytes
  | [] => (m, 0, [])
  | c :: r => if c = 46 then digits m 0 r else (m, 0, c :: r)

/-- `readFloat` for decimal numbers: sign, digits, exponent (strconv/atof.go). -/
def readDecimal (s : Bytes) : Option (Bool × Nat × Int) :=
  let (neg, s) := sign s
  let (m, na, s) := digits 0 0 s
  let (m, nb, s) := fraction m s
  if na + nb = 0 then none
  else (exponent s).map fun e => (neg, m, e - nb)

/-- `m * 10 ^ e`, rounded. -/
def rndDecimal (f : Format) (m : Nat) (e : Int) : Nat := rnd f (m * 10 ^ e.toNat) (10 ^ (-e).toNat)

/-- `special` (strconv/atof.go) on whole texts. -/
def special (f : Format) (s : Bytes) : Option Flt :=
  if s.map fold = letters "nan" then some .nan
  else
    let (neg, u) := sign s
    if u.map fold = letters "inf" ∨ u.map fold = letters "infinity" then some (.num neg f.inf) else none

/-- `strconv.ParseFloat`; an error is `none`. -/
def parse (odd : Bytes → Option Flt) (f : Format) (s : Bytes) : Option Flt :=
  if ¬ Ordinary s then odd s
  else
    match special f s with
    | some y => some y
    | none =>
      match readDecimal s with
      | none => none
      | some (neg, m, e) =>
        let n := rndDecimal f m e
        if n < f.inf then some (.num neg n) else none

/-! ## `strconv.AppendFloat(b, x, 'f', -1, bits)` -/

/-- The multiples of `10 ^ q` next to the number of the ordinal that are read back; the nearer one. -/
def candidate (f : Format) (n : Nat) (q : Int) : Option Nat :=
  let N := mag f n * 10 ^ (-q).toNat
  let D := 2 ^ f.low * 10 ^ q.toNat
  let lo := N / D
  let a := rndDecimal f lo q = n
  let b := rndDecimal f (lo + 1) q = n
  if a ∧ b then some (if 2 * (N % D) ≤ D then lo else lo + 1)
  else if a then some lo
  else if b then some (lo + 1)
  else none

/-- The first exponent, from the largest down, at which there is a candidate. -/
def search (f : Format) (n : Nat) : Nat → Int → Nat × Int
  | 0, q => (mag f n * 5 ^ (-q).toNat, q)
  | fuel + 1, q =>
    match candidate f n q with
    | some c => (c, q)
    | none => search f n fuel (q - 1)

/-- The largest exponent that is tried: the number of digits of the largest finite number. -/
def Format.start (f : Format) : Nat := f.top / 2

/-- The shortest decimal `c * 10 ^ q` that is read back. -/
def shortest (f : Format) (n : Nat) : Nat × Int := search f n (Format.start f + f.low) (Format.start f)

/-- `k` decimal digits. -/
def fixedDigits : Nat → Nat → Bytes
  | 0, _ => []
  | k + 1, n => fixedDigits k (n / 10) ++ [UInt8.ofNat (48 + n % 10)]

/-- `%f` (strconv/ftoa.go: fmtF). -/
def plain (c : Nat) (q : Int) : Bytes :=
  let k := (-q).toNat
  natDec (c * 10 ^ q.toNat / 10 ^ k) ++ (if k = 0 then [] else 46 :: fixedDigits k (c * 10 ^ q.toNat % 10 ^ k))

/-- `strconv.AppendFloat(b, x, 'f', -1, bits)`, without `b`. -/
def print (f : Format) : Flt → Bytes
  | .nan => letters "NaN"
  | .num neg n =>
    if n < f.inf then
      (if neg then [45] else []) ++ (if n = 0 then [48] else plain (shortest f n).1 (shortest f n).2)
    else (if neg then [45] else [43]) ++ letters "Inf"

/-! ## `strconv.FormatFloat(x, 'f', prec, 64)` -/

/-- Division with rounding to the nearest integer, ties to even. -/
def roundEven (p q : Nat) : Nat :=
  if 2 * (p % q) < q then p / q
  else if q < 2 * (p % q) then p / q + 1
  else if p / q % 2 = 0 then p / q else p / q + 1

/-- `strconv.FormatFloat(x, 'f', prec, 64)` with `0 ≤ prec`: the exact number, rounded to `prec` digits after the point. -/
def fixed (f : Format) (prec : Nat) : Flt → Bytes
  | .nan => letters "NaN"
  | .num neg n =>
    if n < f.inf then
      (if neg then [45] else []) ++ plain (roundEven (mag f n * 10 ^ prec) (2 ^ f.low)) (-(prec : Int))
    else (if neg then [45] else [43]) ++ letters "Inf"

/-- `MarshalFloat64List` (marshaler.go:66-81): without a precision it is 0. -/
def marshal (prec : Option Nat) : List Flt → Bytes := Marshal.list (fixed double (prec.getD 0))

/-! ## Values in memory -/

/-- The type with 32 or 64 bits. -/
def fmt (w : Nat) : Format := if w = 32 then single else double

/-- The bit of the sign. -/
def signBit (f : Format) : Nat := (f.top + 1) * f.half

/-- `math.Float32bits`, `math.Float64bits`; there is one not-a-number here. -/
def bits (f : Format) : Flt → Nat
  | .nan => f.inf + f.half / 2
  | .num neg n => (if neg then signBit f else 0) + n

/-- `math.Float32frombits`, `math.Float64frombits`. -/
def ofBits (f : Format) (b : Nat) : Flt :=
  let n := b % signBit f
  if f.inf < n then .nan else .num (b / signBit f % 2 = 1) n

/-- The standard library with floating point numbers.  `strconv.ParseFloat(s, 32)` returns a `float64`. -/
def floats (odd : Nat → Bytes → Option Flt) (lib : Scan.Std) : Scan.Std :=
  { lib with
    fmtFloat := fun b => print double (ofBits double b)
    parseFloat := fun w s => (parse (odd w) (fmt w) s).map fun x => bits double (conv (fmt w) double x)
    toFloat := fun w b => bits (fmt w) (conv double (fmt w) (ofBits double b))
    intToFloat := fun w n => bits (fmt w) (ofInt (fmt w) n) }

/-- The value generated code writes for fields of type `float32` and `float64`, `(float64)(v)` (column_type.go of all three
dialects; for MySQL mysql/column_type.go:95-104). -/
def write (w : Nat) (x : Flt) : Scan.Src := .float (bits double (conv (fmt w) double x))

/-! ## Lists -/

/-- `Float32Slice.Value`, `Float64Slice.Value` (float_slice.go:16-37, 77-98), `Float32Array.Value`, `Float64Array.Value`
(float_array.go). -/
def listValue (a : Fmt) (w : Nat) : Option (List Flt) → Option Bytes := sliceValue a fun b x => b ++ print (fmt w) x

/-- The elements (float_slice.go:62-67, 123-128): `strconv.ParseFloat(v, bits)` and a conversion.  An element that is NULL
has no text. -/
def convFloat (odd : Bytes → Option Flt) (w : Nat) (e : Option Bytes) : Res Flt :=
  match parse odd (fmt w) (e.getD []) with
  | some x => .ok (conv double (fmt w) (conv (fmt w) double x))
  | none => .err

/-- `Scan` (float_slice.go:40-73, 101-133). -/
def listScan (odd : Bytes → Option Flt) (a : Fmt) (w : Nat) := scanWith a (convFloat odd w)

/-! ## Columns -/

/-- Which numbers the columns of `float32` and `float64` fields keep: `FLOAT` for both in MySQL
(mysql/column_type.go:95-104), `real` and `double precision` in PostgreSQL (postgres/column_type.go:96-105), `REAL` for
both in SQLite (sqlite/column_type.go:89-98), which is `double` there. -/
inductive Brand where
  | mysql
  | postgres
  | sqlite
  deriving DecidableEq

def columnType : Brand → Nat → String
  | .mysql, _ => "FLOAT"
  | .postgres, w => if w = 32 then "real" else "double precision"
  | .sqlite, _ => "REAL"

end Verif.Float
