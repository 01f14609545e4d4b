import Verif.Model.Scan
import Verif.Model.ColumnType

/-!
# Quoting

Identifiers in SQL (`QuoteIdentifier` of the dialects) and string literals in the generated Go file
(`Generator.Quote`).  Names are lists of characters, texts their UTF-8 forms.
-/

namespace Verif.Quote

open Verif.ColumnType

def hexDigit (n : Nat) : Byte := if n % 16 < 10 then UInt8.ofNat (48 + n % 16) else UInt8.ofNat (87 + n % 16)

/-- `n` hexadecimal digits. -/
def hexDigits : Nat → Nat → Bytes
  | 0, _ => []
  | n + 1, x => hexDigits n (x / 16) ++ [hexDigit x]

/-- `strconv.Quote`, one character of valid text (`appendEscapedRune`); `printable` is `strconv.IsPrint`. -/
def quoteChar (printable : Char → Bool) (c : Char) : Bytes :=
  if c = '"' ∨ c = '\\' then [92, UInt8.ofNat c.toNat]
  else if printable c then encodeRune c.toNat
  else if c.toNat = 7 then [92, 97]
  else if c.toNat = 8 then [92, 98]
  else if c.toNat = 12 then [92, 102]
  else if c.toNat = 10 then [92, 110]
  else if c.toNat = 13 then [92, 114]
  else if c.toNat = 9 then [92, 116]
  else if c.toNat = 11 then [92, 118]
  else if c.toNat < 32 ∨ c.toNat = 127 then [92, 120] ++ hexDigits 2 c.toNat
  else if c.toNat < 0x10000 then [92, 117] ++ hexDigits 4 c.toNat
  else [92, 85] ++ hexDigits 8 c.toNat

/-- `strconv.Quote` of valid text. -/
def strconvQuote (printable : Char → Bool) (s : List Char) : Bytes := 34 :: (s.flatMap (quoteChar printable) ++ [34])

/-- `QuoteIdentifier` (mysql/mysql.go:31-33, postgres/postgres.go:36-38, sqlite/sqlite.go:35-37). -/
def quoteIdent (printable : Char → Bool) : Dialect → List Char → Bytes
  | .mysql, s => 96 :: (s.flatMap (fun c => encodeRune c.toNat) ++ [96])
  | .postgres, s => strconvQuote printable s
  | .sqlite, s => strconvQuote printable s

/-- `QuoteRune` of the dialects (mysql.go:35-37, postgres.go:40-42, sqlite.go:39-41). -/
def quoteRune : Dialect → Byte
  | .mysql => 96
  | _ => 34

/-- The quote of Go literals, `quoteRune` of the generator (generate.go:54-61): the other one. -/
def goQuoteRune (d : Dialect) : Byte := if quoteRune d = 34 then 96 else 34

/-- `for i := range str { buf = append(buf, byte(str[i])) }` (generate.go:98-100): `i` runs over the positions where a
character starts, so one byte of each character is taken; at most `n` times. -/
def starts : Nat → Bytes → Bytes
  | 0, _ => []
  | _ + 1, [] => []
  | n + 1, b :: r => b :: starts n ((b :: r).drop (Scan.decodeRune (b :: r)).2)

/-- `Generator.Quote` (generate.go:95-103). -/
def goLiteral (d : Dialect) (s : Bytes) : Bytes := goQuoteRune d :: (starts s.length s ++ [goQuoteRune d])

end Verif.Quote
