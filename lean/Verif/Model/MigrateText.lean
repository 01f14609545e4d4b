import Verif.Model.Migrate
import Verif.Model.Bytea
import Verif.Model.Scan

/-!
# The text of a migration

`cmd/sqlgen/codegen/dialect/{postgres,mysql}/migration.go`: the whole script that `Migrate` writes; the clauses of `ALTER TABLE` are those of
`Model/Migrate.lean`.  `q` is `QuoteIdentifier`.
-/

namespace Verif.Migrate

/-- What `Default()` of a column gives (dialect.go:95-97); numbers with a fraction by their text (`strconv.FormatFloat`). -/
inductive Default where
  | str (s : Bytes)
  | bool (b : Bool)
  | int (n : Int)
  | float (t : Bytes)
  | raw (t : Bytes)
  /-- `[]byte` -/
  | bytes (b : Bytes)
  deriving DecidableEq, Repr

/-- `format` (postgres/column_type.go:287-308, mysql/column_type.go:233-254): `[]byte` is not among the cases. -/
def format : Default → Res Bytes
  | .str s => .ok (39 :: (s ++ [39]))
  | .bool b => .ok (lit (if b then "true" else "false"))
  | .int n => .ok (intDec n)
  | .float t => .ok t
  | .raw t => .ok t
  | .bytes _ => .panic

/-- `strings.Join(columns, ",")`. -/
def joined : List Bytes → Bytes
  | [] => []
  | [c] => c
  | c :: cs => c ++ 44 :: joined cs

/-- `indexName(columns, pk)` (postgres/index.go:65-77, mysql/index.go:18-30). -/
def keyName (md5 : Bytes → Bytes) (pks : List Bytes) : Bytes := lit "PK_" ++ hexEncode (md5 (joined pks))

/-- One column of `CREATE TABLE` (postgres/migration.go:76-83, mysql/migration.go:72-79). -/
def columnText (q : Bytes → Bytes) (m : GoCol) : Bytes :=
  9 :: (q m.name ++ 32 :: (m.type ++ ((if m.nullable then [] else lit " NOT NULL") ++
    (match m.dflt with
     | some v => lit " DEFAULT " ++ v
     | none => []))))

/-- The loop over the columns: `",\n"` between them. -/
def columnsText (q : Bytes → Bytes) : List GoCol → Bytes
  | [] => []
  | [m] => columnText q m
  | m :: ms => columnText q m ++ 44 :: 10 :: columnsText q ms

/-- The loop over the key: `","` between the names. -/
def namesText (q : Bytes → Bytes) : List Bytes → Bytes
  | [] => []
  | [n] => q n
  | n :: ns => q n ++ 44 :: namesText q ns

/-- The key (postgres/migration.go:86-97, mysql/migration.go:82-93). -/
def keyText (q : Bytes → Bytes) (md5 : Bytes → Bytes) (pks : List Bytes) : Bytes :=
  if pks = [] then []
  else lit ",\n\tCONSTRAINT " ++ (q (keyName md5 pks) ++ (lit " PRIMARY KEY (" ++ (namesText q pks ++ [41])))

/-- `CREATE TABLE` (postgres/migration.go:71-114, mysql/migration.go:67-110). -/
def createText (q : Bytes → Bytes) (md5 : Bytes → Bytes) (table : Bytes) (ms : List GoCol) (pks : List Bytes) : Bytes :=
  lit "\nCREATE TABLE IF NOT EXISTS " ++ (q table ++ (lit " (\n" ++ (columnsText q ms ++ (keyText q md5 pks ++ lit "\n);"))))

/-- All that is written. -/
def scriptText (q : Bytes → Bytes) (md5 : Bytes → Bytes) (table : Bytes) (pks : List Bytes) (s : Script) : Bytes :=
  lit "-- +migrate Up" ++ (lit "\n-- SQL in section 'Up' is executed when this migration is applied" ++
    (createText q md5 table s.create pks ++ (statement q table s.up ++
      (lit "\n\n-- +migrate Down" ++ (lit "\n-- SQL section 'Down' is executed when this migration is rolled back" ++
        statement q table s.down)))))

end Verif.Migrate
