import Verif.Model.PgType

/-!
# Types of columns in migrations for MySQL

`cmd/sqlgen/codegen/dialect/mysql/column_type.go:16-231`, the SQL type of every Go type of the table there; except for strings, with
`NOT NULL` and perhaps a default in it.
-/

namespace Verif.MyType

open Verif.ColumnType (GoInt)
open Verif.PgType (Entry Field)
open Verif.Migrate (lit)

/-- `columnDataType` (mysql/column_type.go:217-231); `d` is the default, formatted. -/
def columnDataType (ty : Bytes) (d : Option String) (nullable : Bool) : Bytes :=
  ty ++ ((if nullable then [] else lit " NOT NULL") ++
    (match d with
     | some d => lit " DEFAULT " ++ lit d
     | none => []))

/-- `DataType` of the entry for a column of this `Size()` and `GoNullable()` (mysql/column_type.go:17-214).  `AutoIncr()` is not asked
for.  Types that have no entry there have that of `"*"`: arrays of strings and truth values, `[]rune` and `[][]byte`. -/
def dataType (size : Int) (nullable : Bool) : Entry → Bytes
  | .rune => columnDataType (lit "CHAR(1)") none nullable
  | .int .byte => columnDataType (lit "CHAR(1)") none nullable
  | .string => lit "VARCHAR(" ++ intDec (if size > 0 then size else 255) ++ lit ")"
  | .bool => columnDataType (lit "BOOL") (some "false") nullable
  | .int _ => columnDataType (lit "INTEGER") (some "false") nullable
  | .float32 | .float64 => columnDataType (lit "FLOAT") (some "0") nullable
  | .time => columnDataType (lit "TIMESTAMP") (some "CURRENT_TIMESTAMP") nullable
  | .rawBytes => columnDataType (lit "TEXT") none nullable
  | .rawMessage => columnDataType (lit "JSON") none nullable
  | .arrayRune => columnDataType (lit "VARCHAR(" ++ intDec size ++ lit ")") none nullable
  | .arrayByte => columnDataType (lit "CHAR(" ++ intDec size ++ lit ")") none nullable
  | .sliceInt .byte => columnDataType (lit "BLOB") none nullable
  | .arrayString | .arrayBool | .sliceString | .sliceRune | .sliceBool | .sliceBytes | .sliceInt _ | .sliceFloat32 | .sliceFloat64 | .other =>
    columnDataType (lit "JSON") none nullable

/-- What `Migrate` gets to know about a column. -/
def col (f : Field) : Migrate.GoCol := ⟨f.name, dataType f.size f.nullable f.entry, f.nullable, f.dflt⟩

end Verif.MyType
