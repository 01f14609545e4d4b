import Verif.Base.Go
import Verif.Model.Scan

/-!
# Rendering lists

`sequel/encoding/marshaler.go`.  `strpool` gives an empty builder (C15, C54), which is not modelled here.
-/

namespace Verif.Marshal

/-- The loop `for i := 1; i < n; i++ { blr.WriteString("," + enc(list[i])) }`. -/
def rest {α : Type} (enc : α → Bytes) : List α → Bytes
  | [] => []
  | x :: xs => 44 :: (enc x ++ rest enc xs)

/-- The shape shared by all functions of the file (for example marshaler.go:24-36). -/
def list {α : Type} (enc : α → Bytes) : List α → Bytes
  | [] => [91, 93]
  | x :: xs => 91 :: (enc x ++ (rest enc xs ++ [93]))

/-- `MarshalIntSlice` (marshaler.go:24-36). -/
def ints : List Int → Bytes := list intDec

/-- `MarshalUintSlice` (marshaler.go:38-50). -/
def uints : List Nat → Bytes := list natDec

/-- `MarshalBoolSlice` (marshaler.go:52-64). -/
def bools : List Bool → Bytes := list Scan.fmtBool

def hexDigit (n : Nat) : Byte := if n < 10 then UInt8.ofNat (48 + n) else UInt8.ofNat (87 + n)

/-- `strconv.Quote`, for one byte of ASCII text (what it does with other text depends on Unicode tables and is
not modelled). -/
def quoteByte (c : Byte) : Bytes :=
  if c = 34 ∨ c = 92 then [92, c]
  else if 32 ≤ c.toNat ∧ c.toNat ≤ 126 then [c]
  else if c = 7 then [92, 97]
  else if c = 8 then [92, 98]
  else if c = 12 then [92, 102]
  else if c = 10 then [92, 110]
  else if c = 13 then [92, 114]
  else if c = 9 then [92, 116]
  else if c = 11 then [92, 118]
  else [92, 120, hexDigit (c.toNat / 16), hexDigit (c.toNat % 16)]

def quoteAll : Bytes → Bytes
  | [] => []
  | c :: cs => quoteByte c ++ quoteAll cs

/-- `strconv.Quote` of ASCII text. -/
def goQuote (s : Bytes) : Bytes := 34 :: (quoteAll s ++ [34])

/-- `MarshalStringSlice` of ASCII texts (marshaler.go:10-22). -/
def strings : List Bytes → Bytes := list goQuote

end Verif.Marshal
