import Verif.Model.Array

/-! # pgtype.ByteaArray — sequel/driver/postgres/pgtype/byte_array.go -/

namespace Verif

/-- Lower-case hex digit of a nibble (`encoding/hex` table). -/
def hexDigit (n : Nat) : Byte := if n < 10 then UInt8.ofNat (48 + n) else UInt8.ofNat (87 + n)

/-- `hex.Encode` output. -/
def hexEncode : Bytes → Bytes
  | [] => []
  | x :: xs => hexDigit (x.toNat / 16) :: hexDigit (x.toNat % 16) :: hexEncode xs

/-- `encoding/hex` reverse table: digits and both letter cases. -/
def hexVal (c : Byte) : Option Nat :=
  if 48 ≤ c.toNat ∧ c.toNat ≤ 57 then some (c.toNat - 48)
  else if 97 ≤ c.toNat ∧ c.toNat ≤ 102 then some (c.toNat - 87)
  else if 65 ≤ c.toNat ∧ c.toNat ≤ 70 then some (c.toNat - 55)
  else none

/-- `hex.Decode`: error on an invalid character or an odd length. -/
def hexDecode : Bytes → Option Bytes
  | [] => some []
  | [_] => none
  | a :: b :: rest =>
    match hexVal a, hexVal b with
    | some x, some y => (hexDecode rest).map (UInt8.ofNat (x * 16 + y) :: ·)
    | _, _ => none

/-- Overwrite `b` from offset `off` on, with Go's bounds check on every byte. -/
def writeAt (b : Bytes) (off : Nat) : Bytes → Res Bytes
  | [] => .ok b
  | x :: xs => do
    let b ← setIdx b off x
    writeAt b (off + 1) xs

/-- Go `copy(b[off:], v)`: copies as much as fits; returns the number of bytes copied. -/
def copyAt (b : Bytes) (off : Nat) (v : Bytes) : Bytes × Nat :=
  let n := min (b.length - off) v.length
  (b.take off ++ v.take n ++ b.drop (off + n), n)

/-- The literal `` `,"\\x` `` of byte_array.go:39. -/
def byteaPrefix : Bytes := [44, 34, 92, 92, 120]

/-- The fill loop (byte_array.go:38-43); `off` is the start of the sub-slice `s` inside `b`. -/
def byteaLoop : List Bytes → Nat → Bytes → Res Bytes
  | [], _, b => .ok b
  | x :: xs, off, b => do
    let (b, o) := copyAt b off byteaPrefix
    let b ← writeAt b (off + o) (hexEncode x)
    let o := o + 2 * x.length
    let b ← setIdx b (off + o) quote
    byteaLoop xs (off + o + 1) b

/-- `size` (byte_array.go:30-33). -/
def byteaSize (a : List Bytes) : Nat := a.foldl (fun s x => s + 2 * x.length) (1 + 6 * a.length)

/-- `ByteaArray.Value` (byte_array.go:22-51). -/
def byteaValue : Option (List Bytes) → Res (Option Bytes)
  | none => .ok none
  | some [] => .ok (some [123, 125])
  | some a => do
    let b ← byteaLoop a 0 (List.replicate (byteaSize a) 0)
    let b ← setIdx b 0 123
    let b ← setIdx b (byteaSize a - 1) 125
    .ok (some b)

/-- The escape branch of `parseBytea` (byte_array.go:101-130).  Raw runs are copied in one go by the
code; byte by byte that is the last case.  Slicing `s[1:4]` is guarded by the length test. -/
def parseByteaEsc : Bytes → Res Bytes
  | [] => .ok []
  | c :: s =>
    if c = backslash then
      match s with
      | d :: s' =>
        if d = backslash then (parseByteaEsc s').map (backslash :: ·)
        else
          match s' with
          | e :: g :: s'' =>
            match parseUint [d, e, g] 8 8 with
            | none => .err
            | some r => (parseByteaEsc s'').map (UInt8.ofNat r :: ·)
          | _ => .err
      | [] => .err
    else (parseByteaEsc s).map (c :: ·)
termination_by s => s.length

/-- `parseBytea` (byte_array.go:88-134). -/
def parseBytea (s : Bytes) : Res Bytes :=
  match s with
  | 92 :: 120 :: h =>
    match hexDecode h with
    | some r => .ok r
    | none => .err
  | _ => parseByteaEsc s

/-- A nil element is passed to `parseBytea` as the empty slice and yields an empty value. -/
def convBytea (e : Option Bytes) : Res Bytes := parseBytea (e.getD [])

/-- `ByteaArray.Scan` (byte_array.go:54-86). -/
def byteaScan := scanWith (α := Bytes) .brace convBytea

end Verif
