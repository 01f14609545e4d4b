import Verif.Base.Go

/-!
# Migrations

`cmd/sqlgen/codegen/dialect/{mysql,postgres}/migration.go`: the statements `Migrate` writes.  Connecting, asking for the
existing columns and the text of names, types and defaults are not modelled: names, types and
defaults are byte strings as they come from the database and the model (`ColumnDataType`, postgres/column.go:27-37;
`format`, postgres/column_type.go).  `dialect.Dialect` does not list `Migrate`; it is reached through the concrete drivers.
-/

namespace Verif.Migrate

/-- A column of the existing table (postgres/column.go:11-20), `type` being `ColumnDataType()`. -/
structure DbCol where
  name : Bytes
  type : Bytes
  nullable : Bool
  dflt : Option Bytes
  deriving DecidableEq, Repr

/-- A column of the model (`dialect.GoColumn`, dialect.go:77-119). -/
structure GoCol where
  name : Bytes
  type : Bytes
  nullable : Bool
  dflt : Option Bytes
  deriving DecidableEq, Repr

/-- One clause of `ALTER TABLE`. -/
inductive Action where
  | setType (name type : Bytes)
  | setNotNull (name : Bytes)
  | setDefault (name : Bytes) (dflt : Bytes)
  | add (name : Bytes) (type : Option Bytes) (notNull : Bool) (dflt : Option Bytes)
  | drop (name : Bytes)
  deriving DecidableEq, Repr

/-- `newCols`, `updatedCols` and what is left of `existingCols`. -/
structure Diff where
  new : List GoCol
  updated : List (DbCol × GoCol)
  rest : List DbCol
  deriving DecidableEq, Repr

/-- The loop over the columns of the model (postgres/migration.go:45-63): `lo.FindIndexOf` finds the first column of that name,
`slices.Delete` removes it. -/
def diff : List GoCol → List DbCol → Diff
  | [], ex => ⟨[], [], ex⟩
  | m :: ms, ex =>
    match ex.find? (fun c => c.name = m.name) with
    | some c =>
      let d := diff ms (ex.eraseP (fun c => c.name = m.name))
      if m.type = c.type ∧ m.nullable = c.nullable then d
      else { d with updated := (c, m) :: d.updated }
    | none =>
      let d := diff ms ex
      { d with new := m :: d.new }

/-- The clauses of `up` (postgres/migration.go:119-120, 129-137, 140-141). -/
def upActions (d : Diff) : List Action :=
  d.updated.map (fun p => .setType p.2.name p.2.type) ++
  d.new.map (fun m => .add m.name (some m.type) (!m.nullable) m.dflt) ++
  d.rest.map (fun c => .drop c.name)

/-- What `down` says about one altered column (postgres/migration.go:121-127). -/
def restore (c : DbCol) : List Action :=
  [.setType c.name c.type] ++
  (if c.nullable then [] else [.setNotNull c.name]) ++
  (match c.dflt with
   | some v => [.setDefault c.name v]
   | none => [])

/-- The clauses of `down` (postgres/migration.go:119-150). -/
def downActions (d : Diff) : List Action :=
  d.updated.flatMap (fun p => restore p.1) ++
  d.new.map (fun m => .drop m.name) ++
  d.rest.map (fun c => .add c.name none (!c.nullable) c.dflt)

/-- What is written: `CREATE TABLE IF NOT EXISTS` with these columns, then one `ALTER TABLE`; and one `ALTER TABLE` to go
back.  The primary key is left out. -/
structure Script where
  create : List GoCol
  up : List Action
  down : List Action
  deriving DecidableEq, Repr

/-- `Migrate` for PostgreSQL (postgres/migration.go:18-173); `none` is `ErrNoNewMigration`. -/
def pgMigrate (ms : List GoCol) (ex : List DbCol) : Option Script :=
  let d := diff ms ex
  if d.new = [] ∧ d.updated = [] then none
  else some ⟨ms, upActions d, downActions d⟩

/-- `Migrate` for MySQL (mysql/migration.go:12-167): the comparison is commented out, `newCols` stays empty and `existingCols` whole. -/
def mysqlMigrate (ms : List GoCol) (ex : List DbCol) : Script :=
  let d : Diff := ⟨[], [], ex⟩
  ⟨ms, upActions d, downActions d⟩

/-! ## Text -/

def lit (s : String) : Bytes := s.toUTF8.toList

/-- The text of a clause without `",\n"` (postgres/migration.go:120-150); `q` is `QuoteIdentifier`. -/
def Action.text (q : Bytes → Bytes) : Action → Bytes
  | .setType n t => lit "\tALTER " ++ q n ++ lit " SET DATA TYPE " ++ t
  | .setNotNull n => lit "\tALTER " ++ q n ++ lit " SET NOT NULL"
  | .setDefault n v => lit "\tALTER " ++ q n ++ lit " SET DEFAULT " ++ v
  | .add n t nn v =>
    lit "\tADD COLUMN " ++ q n ++
    (match t with
     | some t => lit " " ++ t
     | none => []) ++
    (if nn then lit " NOT NULL" else []) ++
    (match v with
     | some v => lit " DEFAULT " ++ v
     | none => [])
  | .drop n => lit "\tDROP COLUMN " ++ q n

/-- The builder before the comma is cut off: every clause ends with `",\n"`. -/
def alterText (q : Bytes → Bytes) (table : Bytes) (as : List Action) : Bytes :=
  lit "\nALTER TABLE " ++ q table ++ [10] ++ as.flatMap (fun a => a.text q ++ [44, 10])

/-- `if query[len(query)-2] == ',' { query = query[:len(query)-2] }` and `";"` (postgres/migration.go:158-162, 167-171). -/
def statement (q : Bytes → Bytes) (table : Bytes) (as : List Action) : Bytes :=
  let s := alterText q table as
  (if s[s.length - 2]? = some 44 then s.take (s.length - 2) else s) ++ [59]

end Verif.Migrate
