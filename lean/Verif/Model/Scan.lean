import Verif.Base.Go

/-!
# Scanners of single values

`sequel/encoding/{bool,int,uint,float,string,time,text,pointer,byte_array,rune_array}.go`.  The code is generic
over the type of the field and over the two kinds of destination, `*T` and `**T`; a field of a named type is
modelled by its underlying type, `unsafe.Pointer` casts between them by nothing.

Floating point numbers and times are opaque (`Nat` tags); what the standard library does with them is given by
`Std`, about which nothing is assumed.
-/

namespace Verif.Scan

/-- A value handed to `Scan` by `database/sql`. -/
inductive Src where
  | nil
  | bytes (b : Bytes)
  | str (s : Bytes)
  | int64 (n : Int)
  | uint64 (n : Nat)
  | bool (b : Bool)
  | float (f : Nat)
  | time (t : Nat)
  | other (tag : Nat)
  deriving DecidableEq, Repr

/-- The destination of a scanner: a field (`*T`) or a pointer field (`**T`). -/
inductive Dest (α : Type) where
  | val (x : α)
  | ptr (x : Option α)
  deriving DecidableEq, Repr

/-- The functions of the standard library that are left open. -/
structure Std where
  /-- `strconv.FormatFloat(f, 'f', -1, 64)` -/
  fmtFloat : Nat → Bytes
  /-- `time.Time.String` -/
  timeString : Nat → Bytes
  /-- `time.Time.MarshalText` -/
  timeText : Nat → Option Bytes
  /-- `strconv.ParseFloat(s, bits)` -/
  parseFloat : Nat → Bytes → Option Nat
  /-- conversion of a `float64` to `float32` or `float64` -/
  toFloat : Nat → Nat → Nat
  /-- conversion of an `int64` to `float32` or `float64` -/
  intToFloat : Nat → Int → Nat
  /-- `time.Parse` with the four layouts of `parseTime` -/
  parseTime : Nat → Bytes → Option Nat
  /-- `time.Unix(n, 0)` -/
  unix : Int → Nat

variable {α : Type}

/-- `switch any(addr).(type) { case **T: *addr = &val; case *T: *addr = val }`, which ends every branch of the
scanners (for example bool.go:43-52). -/
def store : Dest α → α → Dest α
  | .val _, v => .val v
  | .ptr _, v => .ptr (some v)

/-- The same for `nil`: `*addr = nil`, or the zero value (for example bool.go:31-40). -/
def storeNil (z : α) : Dest α → Dest α
  | .val _ => .val z
  | .ptr _ => .ptr none

/-- What a parser returned: stored, or an error. -/
def storeOpt (d : Dest α) : Option α → Res (Dest α)
  | some v => .ok (store d v)
  | none => .err

/-! ## Booleans -/

/-- `strconv.ParseBool`. -/
def parseBool (s : Bytes) : Option Bool :=
  if s ∈ ["1", "t", "T", "true", "TRUE", "True"].map (fun x => x.toUTF8.toList) then some true
  else if s ∈ ["0", "f", "F", "false", "FALSE", "False"].map (fun x => x.toUTF8.toList) then some false
  else none

/-- `boolScanner.Scan` (bool.go:27-107). -/
def scanBool (strict : Bool) (d : Dest Bool) : Src → Res (Dest Bool)
  | .nil => .ok (storeNil false d)
  | .bool b => .ok (store d b)
  | .int64 n => .ok (store d (n ≠ 0))
  | .bytes s => if strict then .err else storeOpt d (parseBool s)
  | .str s => if strict then .err else storeOpt d (parseBool s)
  | _ => .err

/-! ## Integers -/

/-- `signedIntScanner.Scan` for a type of `w` bits (int.go:50-95). -/
def scanInt (w : Nat) (d : Dest Int) : Src → Res (Dest Int)
  | .nil => .ok (storeNil 0 d)
  | .bytes s => storeOpt d ((parseInt s w).map (toSigned w))
  | .int64 n => .ok (store d (toSigned w n))
  | _ => .err

/-- `unsignedIntScanner.Scan` for a type of `w` bits (uint.go:51-96). -/
def scanUint (w : Nat) (d : Dest Nat) : Src → Res (Dest Nat)
  | .nil => .ok (storeNil 0 d)
  | .bytes s => storeOpt d ((parseUint s 10 w).map fun n : Nat => toUnsigned w n)
  | .int64 n => .ok (store d (toUnsigned w n))
  | _ => .err

/-- The value generated code writes for integer fields, `(int64)(v)` (column_type.go of all three dialects,
except `uint64` for MySQL and SQLite). -/
def writeInt (n : Int) : Src := .int64 (toSigned 64 n)

/-- The value written for `uint64` fields by MySQL and SQLite (mysql/column_type.go:85-89). -/
def writeUint64 (n : Nat) : Src := .uint64 n

/-! ## Floating point numbers -/

/-- `float32Scanner.Scan` and `float64Scanner.Scan` (float.go:39-124, 126-206); `w` is 32 or 64. -/
def scanFloat (lib : Std) (z : Nat) (w : Nat) (strict : Bool) (d : Dest Nat) : Src → Res (Dest Nat)
  | .nil => .ok (storeNil z d)
  | .float f => .ok (store d (lib.toFloat w f))
  | .int64 n => .ok (store d (lib.intToFloat w n))
  | .bytes s => if strict then .err else storeOpt d ((lib.parseFloat w s).map (lib.toFloat w))
  | .str s => if strict then .err else storeOpt d ((lib.parseFloat w s).map (lib.toFloat w))
  | _ => .err

/-! ## Strings -/

/-- `strconv.FormatBool`. -/
def fmtBool (b : Bool) : Bytes := (if b then "true" else "false").toUTF8.toList

/-- `strScanner.Scan` (string.go:31-126), for fields of a string type.  For fields of type `[]byte` the bytes are
not copied, see `Verif.Model.Alias`. -/
def scanString (lib : Std) (strict : Bool) (d : Dest Bytes) : Src → Res (Dest Bytes)
  | .nil => .ok (storeNil [] d)
  | .str s => .ok (store d s)
  | .bytes s => .ok (store d s)
  | .bool b => if strict then .err else .ok (store d (fmtBool b))
  | .int64 n => if strict then .err else .ok (store d (intDec n))
  | .float f => if strict then .err else .ok (store d (lib.fmtFloat f))
  | .time t => if strict then .err else .ok (store d (lib.timeString t))
  | _ => .err

/-! ## Times -/

def isDig (b : Byte) : Bool := 48 ≤ b.toNat && b.toNat ≤ 57

/-- `\s` of the regular expressions: tab, line feed, form feed, carriage return, space. -/
def isSp (b : Byte) : Bool := b = 9 || b = 10 || b = 12 || b = 13 || b = 32

/-- A pattern in which `d` stands for a digit, `s` for white space and any other character for itself; the text
after it is returned. -/
def matchPat : List Char → Bytes → Option Bytes
  | [], r => some r
  | _ :: _, [] => none
  | 'd' :: p, b :: r => if isDig b then matchPat p r else none
  | 's' :: p, b :: r => if isSp b then matchPat p r else none
  | c :: p, b :: r => if b.toNat = c.toNat then matchPat p r else none

/-- The layout `parseTime` chooses (time.go:12-14, 98-109): 0 date, 1 date and time, 2 with fractions of a
second, 3 RFC 3339. -/
def layout (s : Bytes) : Nat :=
  if matchPat "dddd-dd-dd".toList s = some [] then 0
  else if matchPat "dddd-dd-ddsdd:dd:dd".toList s = some [] then 1
  else
    match matchPat "dddd-dd-ddsdd:dd:dd.".toList s with
    | some r => if r ≠ [] ∧ r.all isDig then 2 else 3
    | none => 3

/-- `parseTime` (time.go:98-109). -/
def parseTime (lib : Std) (s : Bytes) : Option Nat := lib.parseTime (layout s) s

/-- `tsScanner.Scan` (time.go:27-96). -/
def scanTime (lib : Std) (z : Nat) (d : Dest Nat) : Src → Res (Dest Nat)
  | .nil => .ok (storeNil z d)
  | .str s => storeOpt d (parseTime lib s)
  | .bytes s => storeOpt d (parseTime lib s)
  | .time t => .ok (store d t)
  | .int64 n => .ok (store d (lib.unix n))
  | _ => .err

/-! ## Types that read themselves -/

/-- Calls a method of the destination: through a pointer field, the method gets whatever pointer the field holds;
`onNil` says what the method does with a nil pointer. -/
def callMethod (f : α → Bytes → Res α) (onNil : Bytes → Res (Dest α)) (d : Dest α) (s : Bytes) : Res (Dest α) :=
  match d with
  | .val x => (f x s).map .val
  | .ptr (some x) => (f x s).map fun y => .ptr (some y)
  | .ptr none => onNil s

/-- `textScanner.Scan` (text.go:39-121) for a type whose `UnmarshalText` is `f`. -/
def scanText (lib : Std) (z : α) (f : α → Bytes → Res α) (onNil : Bytes → Res (Dest α)) (d : Dest α) :
    Src → Res (Dest α)
  | .nil => .ok (storeNil z d)
  | .str s => callMethod f onNil d s
  | .bytes s => callMethod f onNil d s
  | .bool b => callMethod f onNil d (if b then [1] else [0])
  | .int64 n => callMethod f onNil d (intDec n)
  | .float x => callMethod f onNil d (lib.fmtFloat x)
  | .time t =>
    match lib.timeText t with
    | some s => callMethod f onNil d s
    | none => .err
  | _ => .err

/-- `addrOfPtr.Scan` (pointer.go:28-121) for a type whose `Scan` is `f`; since the type has a method `Scan`, the
other branches are not reached.  The field is a pointer, `onNil` is what `Scan` does with a nil pointer. -/
def scanPtr (f : α → Src → Res α) (onNil : Src → Res (Option α)) (x : Option α) : Src → Res (Option α)
  | .nil => .ok none
  | .uint64 _ => .err
  | .other _ => .err
  | v =>
    match x with
    | some y => (f y v).map some
    | none => onNil v

/-! ## Arrays -/

/-- `for i := range b { s.v[i] = b[i] }` from position `i` on. -/
def writeFrom (v : List α) (i : Nat) : List α → Res (List α)
  | [] => .ok v
  | b :: bs => do
    let v ← setIdx v i b
    writeFrom v (i + 1) bs

/-- `byteArrScanner.Scan` (byte_array.go:18-46); `v` is the field, `size` the second argument of
`ByteArrayScanner`. -/
def scanByteArr (size : Nat) (v : Bytes) : Src → Res Bytes
  | .nil => writeFrom v 0 (List.replicate size 0)
  | .str b => if size < b.length then .err else writeFrom v 0 b
  | .bytes b => if size < b.length then .err else writeFrom v 0 b
  | _ => .err

/-! ## Rune arrays -/

/-- The table `first` of `unicode/utf8` for bytes from 128 on: the number of bytes of a sequence starting with
this byte, and the range of its second byte. -/
def lead (b : Nat) : Option (Nat × Nat × Nat) :=
  if b < 0xC2 then none
  else if b < 0xE0 then some (2, 0x80, 0xBF)
  else if b = 0xE0 then some (3, 0xA0, 0xBF)
  else if b = 0xED then some (3, 0x80, 0x9F)
  else if b < 0xF0 then some (3, 0x80, 0xBF)
  else if b = 0xF0 then some (4, 0x90, 0xBF)
  else if b < 0xF4 then some (4, 0x80, 0xBF)
  else if b = 0xF4 then some (4, 0x80, 0x8F)
  else none

def cont (b : Byte) : Bool := 0x80 ≤ b.toNat && b.toNat ≤ 0xBF

/-- `utf8.DecodeRune` of a non-empty text: the rune and the number of bytes; `0xFFFD` (`RuneError`) and 1 if the
text does not start with a valid encoding.  The masks of the code are written as remainders. -/
def decodeRune : Bytes → Nat × Nat
  | [] => (0xFFFD, 0)
  | b0 :: r =>
    if b0.toNat < 0x80 then (b0.toNat, 1)
    else
      match lead b0.toNat, r with
      | some (2, lo, hi), b1 :: _ =>
        if lo ≤ b1.toNat ∧ b1.toNat ≤ hi then (b0.toNat % 32 * 64 + b1.toNat % 64, 2) else (0xFFFD, 1)
      | some (3, lo, hi), b1 :: b2 :: _ =>
        if lo ≤ b1.toNat ∧ b1.toNat ≤ hi ∧ cont b2 then
          (b0.toNat % 16 * 4096 + b1.toNat % 64 * 64 + b2.toNat % 64, 3)
        else (0xFFFD, 1)
      | some (4, lo, hi), b1 :: b2 :: b3 :: _ =>
        if lo ≤ b1.toNat ∧ b1.toNat ≤ hi ∧ cont b2 ∧ cont b3 then
          (b0.toNat % 8 * 262144 + b1.toNat % 64 * 4096 + b2.toNat % 64 * 64 + b3.toNat % 64, 4)
        else (0xFFFD, 1)
      | _, _ => (0xFFFD, 1)

/-- The loop over bytes (rune_array.go:23-33); at most `n` times. -/
def runeLoop (size : Nat) : Nat → Nat → List Nat → Bytes → Res (List Nat)
  | 0, _, v, _ => .ok v
  | n + 1, i, v, s =>
    if s = [] then .ok v
    else if size ≤ i then .err
    else do
      let v ← setIdx v i (decodeRune s).1
      runeLoop size n (i + 1) v (s.drop (decodeRune s).2)

/-- `for i := range vi { s.v[i] = vi[i] }` over a string (rune_array.go:38-40): `i` runs over the positions where a
rune starts, `vi[i]` is the byte there; at most `n` times. -/
def strLoop : Nat → Nat → List Nat → Bytes → Res (List Nat)
  | 0, _, v, _ => .ok v
  | _ + 1, _, v, [] => .ok v
  | n + 1, i, v, b :: r => do
    let v ← setIdx v i b.toNat
    strLoop n (i + (decodeRune (b :: r)).2) v ((b :: r).drop (decodeRune (b :: r)).2)

/-- `runeArrScanner.Scan` (rune_array.go:18-45): the field after a successful scan.  What is left in the field after an
error is not modelled. -/
def scanRuneArr (size : Nat) (v : List Nat) : Src → Res (List Nat)
  | .nil => .ok v  -- only the slice in the scanner is replaced
  | .bytes s => runeLoop size s.length 0 v s
  | .str s => if size < s.length then .err else strLoop s.length 0 v s
  | _ => .err

end Verif.Scan
