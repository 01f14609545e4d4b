import Verif.Model.Migrate

/-!
# The columns `Migrate` compares with

`tableColumns` (cmd/sqlgen/codegen/dialect/postgres/column.go:39-79, cmd/sqlgen/codegen/dialect/mysql/column.go:22-64): which rows of
`information_schema.columns` are asked for.
-/

namespace Verif.Catalog

open Verif.Migrate (DbCol)

/-- A row of `information_schema.columns`: `table_catalog`, `table_schema`, `table_name`, `ordinal_position`, and what is read of the column. -/
structure CatRow where
  catalog : Bytes
  schema : Bytes
  table : Bytes
  pos : Nat
  col : DbCol
  deriving DecidableEq, Repr

/-- `WHERE table_catalog = $1 AND table_name = $2` with `CURRENT_DATABASE()` and `TableName()` (postgres/column.go:51-53, migration.go:29-34). -/
def pgWhere (db table : Bytes) (r : CatRow) : Bool := r.catalog = db && r.table = table

/-- `WHERE TABLE_SCHEMA = ? AND TABLE_NAME = ?` with `DATABASE()` and `TableName()` (mysql/column.go:35-37, migration.go:23-28). -/
def myWhere (db table : Bytes) (r : CatRow) : Bool := r.schema = db && r.table = table

end Verif.Catalog
