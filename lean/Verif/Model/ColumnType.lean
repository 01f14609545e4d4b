import Verif.Model.Scan

/-!
# Column types of integer fields

`cmd/sqlgen/codegen/dialect/{mysql,postgres,sqlite}/column_type.go`: the SQL type, the value written and the
scanner for fields of integer types (`int` and `uint` have 64 bits).
-/

namespace Verif.ColumnType

inductive Dialect where
  | mysql
  | postgres
  | sqlite
  deriving DecidableEq, Repr

/-- Integer types of Go, under the names `types.Basic.String` gives them. -/
inductive GoInt where
  | int | int8 | int16 | int32 | int64
  | uint | uint8 | uint16 | uint32 | uint64
  | byte
  deriving DecidableEq, Repr

/-- The SQL types used for them. -/
inductive SqlType where
  | int2 | int4 | bigint   -- PostgreSQL
  | mysqlInteger
  | sqliteInteger
  | char1
  | blob
  deriving DecidableEq, Repr

/-- `DataType` of the entries (mysql/column_type.go:23-27,44-93, postgres/column_type.go:24-28,45-94, sqlite/column_type.go:23-27,38-87), without
constraints and defaults; `serial` types hold the same numbers.  They appear in the statements `Migrate` writes. -/
def columnType : Dialect → GoInt → SqlType
  | .mysql, .byte => .char1
  | .mysql, _ => .mysqlInteger
  | .sqlite, .byte => .blob
  | .sqlite, _ => .sqliteInteger
  | .postgres, .byte => .char1
  | .postgres, .int => .int4
  | .postgres, .int8 => .int2
  | .postgres, .int16 => .int2
  | .postgres, .int32 => .int4
  | .postgres, .int64 => .bigint
  | .postgres, .uint => .int4
  | .postgres, .uint8 => .int2
  | .postgres, .uint16 => .int2
  | .postgres, .uint32 => .int4
  | .postgres, .uint64 => .bigint

/-- The number the database receives (`Valuer` of the same entries): `(int64)(v)`, or the number itself (`byte`, and `uint64` for MySQL and SQLite). -/
def written : Dialect → GoInt → Int → Int
  | _, .byte, n => n
  | .mysql, .uint64, n => n
  | .sqlite, .uint64, n => n
  | _, _, n => toSigned 64 n

/-! ## Runes -/

/-- The character `(string)(r)` stands for: U+FFFD if the number is not a Unicode scalar value. -/
def runeOf (r : Int) : Nat :=
  if 0 ≤ r ∧ (r < 0xD800 ∨ (0xDFFF < r ∧ r < 0x110000)) then r.toNat else 0xFFFD

/-- Its UTF-8 form. -/
def encodeRune (n : Nat) : Bytes :=
  if n < 0x80 then [UInt8.ofNat n]
  else if n < 0x800 then [UInt8.ofNat (0xC0 + n / 64), UInt8.ofNat (0x80 + n % 64)]
  else if n < 0x10000 then
    [UInt8.ofNat (0xE0 + n / 4096), UInt8.ofNat (0x80 + n / 64 % 64), UInt8.ofNat (0x80 + n % 64)]
  else
    [UInt8.ofNat (0xF0 + n / 262144), UInt8.ofNat (0x80 + n / 4096 % 64), UInt8.ofNat (0x80 + n / 64 % 64),
     UInt8.ofNat (0x80 + n % 64)]

/-- `(string)(r)` for a field of type `rune` (mysql/column_type.go:18-22, postgres/column_type.go:19-23, sqlite/column_type.go:18-22). -/
def runeValue (r : Int) : Bytes := encodeRune (runeOf r)

/-- `string(v[:])` for a field of type `[n]rune` (mysql/column_type.go:119-125, postgres/column_type.go:120-126, sqlite/column_type.go:113-117). -/
def runesValue (v : List Int) : Bytes := v.flatMap runeValue

/-- Scanning text into `&v.F`, where `F` is a `rune`: `database/sql` parses a number (`convertAssign`). -/
def scanRune (s : Bytes) : Option Int := parseInt s 32

end Verif.ColumnType
