import Verif.Model.ColumnType
import Verif.Model.Migrate

/-!
# Types of columns in migrations for PostgreSQL

`cmd/sqlgen/codegen/dialect/postgres/column_type.go:17-285`, the SQL type of every Go type of the table there, and
`postgres/column.go:11-37`, the SQL type of a column of an existing table.
-/

namespace Verif.PgType

open Verif.ColumnType (GoInt)
open Verif.Migrate (lit)

/-- The entries of `ColumnDataTypes` (postgres/column_type.go:18-234). -/
inductive Entry where
  | rune
  | int (k : GoInt)        -- also `"byte"`
  | string
  | bool
  | float32 | float64
  | time
  | rawBytes
  | rawMessage
  | arrayRune | arrayByte | arrayString | arrayBool
  | sliceString | sliceRune | sliceBool | sliceBytes
  | sliceInt (k : GoInt)   -- `.byte` is `"[]byte"`
  | sliceFloat32 | sliceFloat64
  | other                  -- `"*"`
  deriving DecidableEq, Repr

/-- `strings.ReplaceAll(str, "int", "serial")`. -/
def replaceInt : Bytes → Bytes
  | 105 :: 110 :: 116 :: r => lit "serial" ++ replaceInt r
  | b :: r => b :: replaceInt r
  | [] => []

/-- `intDataType` (postgres/column_type.go:238-267).  None of the names it is given is `integer`. -/
def intDataType (name : Bytes) (auto : Bool) : Bytes := if auto then replaceInt name else name

/-- `DataType` of an entry for a column of this `Size()` and `AutoIncr()` (postgres/column_type.go:18-234, 269-285). -/
def Entry.dataType (size : Int) (auto : Bool) : Entry → Bytes
  | .rune => lit "char(1)"
  | .int .byte => lit "char(1)"
  | .string => lit "varchar(" ++ intDec (if size > 0 then size else 255) ++ lit ")"
  | .bool => lit "bool"
  | .int .int => intDataType (lit "int4") auto
  | .int .int8 => intDataType (lit "int2") auto
  | .int .int16 => intDataType (lit "int2") auto
  | .int .int32 => intDataType (lit "int4") auto
  | .int .int64 => lit "bigint"
  | .int .uint => intDataType (lit "int4") auto
  | .int .uint8 => intDataType (lit "int2") auto
  | .int .uint16 => intDataType (lit "int2") auto
  | .int .uint32 => intDataType (lit "int4") auto
  | .int .uint64 => intDataType (lit "bigint") auto
  | .float32 => lit "real"
  | .float64 => lit "double precision"
  | .time => lit "timestamptz(6)"
  | .rawBytes => lit "text"
  | .rawMessage => lit "json"
  | .arrayRune => lit "varchar(" ++ intDec size ++ lit ")"
  | .arrayByte => lit "varchar(" ++ intDec size ++ lit ")"
  | .arrayString => lit "text[{{len}}]"
  | .arrayBool => lit "bool[{{len}}]"
  | .sliceString => lit "text[]"
  | .sliceRune => lit "text"
  | .sliceBool => lit "bool[]"
  | .sliceBytes => lit "bytea"
  | .sliceInt .int => lit "int4[]"
  | .sliceInt .int8 => lit "int2[]"
  | .sliceInt .int16 => lit "int2[]"
  | .sliceInt .int32 => lit "int4[]"
  | .sliceInt .int64 => lit "int8[]"
  | .sliceInt .uint => lit "int4[]"
  | .sliceInt .uint8 => lit "int2[]"
  | .sliceInt .uint16 => lit "int2[]"
  | .sliceInt .uint32 => lit "int4[]"
  | .sliceInt .uint64 => lit "int8[]"
  | .sliceInt .byte => lit "blob"
  | .sliceFloat32 => lit "double[]"
  | .sliceFloat64 => lit "double[]"
  | .other => lit "json"

/-- A column of the model before its type is looked up (`dialect.GoColumn`, dialect.go:77-119). -/
structure Field where
  name : Bytes
  entry : Entry
  size : Int
  auto : Bool
  nullable : Bool
  dflt : Option Bytes
  deriving DecidableEq, Repr

/-- What `Migrate` gets to know about it. -/
def Field.col (f : Field) : Migrate.GoCol := ⟨f.name, f.entry.dataType f.size f.auto, f.nullable, f.dflt⟩

/-- What is read from `information_schema.columns` about the type of a column (postgres/column.go:11-20, 39-79): `udt_name`,
`character_maximum_length`, `datetime_precision`. -/
structure CatCol where
  udt : Bytes
  charLen : Option Int
  prec : Option Int
  deriving DecidableEq, Repr

/-- `ColumnDataType()` (postgres/column.go:27-37). -/
def CatCol.dataType (c : CatCol) : Bytes :=
  match c.charLen, c.prec with
  | some n, p =>
    if n > 0 then c.udt ++ lit "(" ++ intDec n ++ lit ")"
    else match p with
      | some k => if k > 0 then c.udt ++ lit "(" ++ intDec k ++ lit ")" else c.udt
      | none => c.udt
  | none, some k => if k > 0 then c.udt ++ lit "(" ++ intDec k ++ lit ")" else c.udt
  | none, none => c.udt

end Verif.PgType
