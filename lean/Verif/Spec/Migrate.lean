import Verif.Model.Migrate

/-!
# What a database does with the statements of a migration

Only the columns of the table are looked at: no rows, no indexes.  A statement is carried out as a whole or rejected.
-/

namespace Verif.Spec.Migrate

open Verif.Migrate

/-- How the catalogue spells types and defaults. -/
structure Server where
  type : Bytes → Bytes
  dflt : Bytes → Bytes

def names (t : List DbCol) : List Bytes := t.map (·.name)

/-- A new column as the catalogue shows it. -/
def shown (sv : Server) (n t : Bytes) (notNull : Bool) (d : Option Bytes) : DbCol := ⟨n, sv.type t, !notNull, d.map sv.dflt⟩

/-- Changes the column of this name. -/
def alter (n : Bytes) (f : DbCol → DbCol) (t : List DbCol) : Option (List DbCol) :=
  if n ∈ names t then some (t.map fun c => if c.name = n then f c else c) else none

/-- One clause of `ALTER TABLE`; `none` if it is rejected.  A column cannot be added without a type. -/
def exec (sv : Server) (t : List DbCol) : Action → Option (List DbCol)
  | .setType n ty => alter n (fun c => { c with type := sv.type ty }) t
  | .setNotNull n => alter n (fun c => { c with nullable := false }) t
  | .setDefault n d => alter n (fun c => { c with dflt := some (sv.dflt d) }) t
  | .add _ none _ _ => none
  | .add n (some ty) nn d => if n ∈ names t then none else some (t ++ [shown sv n ty nn d])
  | .drop n => if n ∈ names t then some (t.filter fun c => c.name ≠ n) else none

/-- `ALTER TABLE` with several clauses. -/
def execAll (sv : Server) : List DbCol → List Action → Option (List DbCol)
  | t, [] => some t
  | t, a :: as => (exec sv t a).bind fun t => execAll sv t as

/-- `CREATE TABLE IF NOT EXISTS`. -/
def create (sv : Server) (ms : List GoCol) : Option (List DbCol) → List DbCol
  | none => ms.map fun m => shown sv m.name m.type (!m.nullable) m.dflt
  | some t => t

/-- A script applied to a database in which the table may be missing. -/
def applyUp (sv : Server) (s : Script) (db : Option (List DbCol)) : Option (List DbCol) :=
  execAll sv (create sv s.create db) s.up

/-- A clause of PostgreSQL's `ALTER TABLE` as a sequence of words (`ALTER [COLUMN] name SET DATA TYPE type`,
`ADD COLUMN name type [NOT NULL] [DEFAULT value]`, ...); `q` quotes names. -/
def clause (q : Bytes → Bytes) : Action → List Bytes
  | .setType n t => ["ALTER".toUTF8.toList, q n, "SET".toUTF8.toList, "DATA".toUTF8.toList, "TYPE".toUTF8.toList, t]
  | .setNotNull n => ["ALTER".toUTF8.toList, q n, "SET".toUTF8.toList, "NOT".toUTF8.toList, "NULL".toUTF8.toList]
  | .setDefault n v => ["ALTER".toUTF8.toList, q n, "SET".toUTF8.toList, "DEFAULT".toUTF8.toList, v]
  | .add n t nn v =>
    ["ADD".toUTF8.toList, "COLUMN".toUTF8.toList, q n] ++ t.toList ++
    (if nn then ["NOT".toUTF8.toList, "NULL".toUTF8.toList] else []) ++
    v.toList.flatMap fun v => ["DEFAULT".toUTF8.toList, v]
  | .drop n => ["DROP".toUTF8.toList, "COLUMN".toUTF8.toList, q n]

/-- The table has exactly the columns of the model, each with its type and nullability. -/
def Describes (sv : Server) (ms : List GoCol) (t : List DbCol) : Prop :=
  (names t).Nodup ∧
  (∀ m ∈ ms, ∃ c ∈ t, c.name = m.name ∧ c.type = sv.type m.type ∧ c.nullable = m.nullable) ∧
  ∀ c ∈ t, ∃ m ∈ ms, m.name = c.name

/-- A table as the catalogue shows it: spelled the way the server spells types and defaults. -/
def FromServer (sv : Server) (t : List DbCol) : Prop :=
  (names t).Nodup ∧ ∀ c ∈ t, sv.type c.type = c.type ∧ ∀ d, c.dflt = some d → sv.dflt d = d

end Verif.Spec.Migrate
