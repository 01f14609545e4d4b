import Verif.Spec.MyTable
import Verif.Spec.Typed

/-!
# Records in tables that were made by scripts

The columns are those of the script as the database reads it, not those of the model.
-/

namespace Verif.Spec.MadeTable

open Verif Verif.Spec.Ddl Verif.Typed Verif.Spec.Typed Verif.Spec.Columns
open Verif.PgType (Entry Field)

/-- Types that are written without a number. -/
def plainNames : List String := ["BOOL", "INTEGER", "FLOAT", "bool", "int2", "int4", "bigint", "real", "double precision"]

/-- Types that are written with one. -/
def sizedNames : List String := ["VARCHAR", "varchar"]

/-- The first result for a name. -/
def first {α : Type} (g : String → Option α) : List String → Option α
  | [] => none
  | s :: l => (g s).or (first g l)

/-- The column that a database makes of the words of a type. -/
def colOf (S : Server) (db : Db) : List Ddl.Sym → Option Columns.Col
  | [.word w, .mark 40, .word n, .mark 41] =>
    (parseUint n 10 64).bind fun n => first (fun s => if Ddl.kw s = .word w then Columns.meaning db (s, some n) else none) sizedNames
  | ts => first (fun s => if symbols S (Migrate.lit s) = some ts then Columns.meaning db (s, none) else none) plainNames

variable {F : Type}

/-- The database keeps in these columns what their types are for, and NULL unless the column is NOT NULL; the driver hands it over. -/
structure Obeys (S : Server) (W : World F) (name : F → Bytes) (cols : List Ddl.Col) : Prop where
  keeps : ∀ f, ∀ c ∈ cols, c.name = name f → ∀ col, colOf S (dbOf W.dialect) c.type = some col →
    ∀ s x, Columns.Keeps col s x → (s = .nil → c.notNull = false) → Columns.Keeps col s (W.keep f s)
  hands : ∀ f, ∀ c ∈ cols, c.name = name f → ∀ col, colOf S (dbOf W.dialect) c.type = some col →
    ∀ s x, Columns.Keeps col s x → Hands col x (W.hand f x)

/-- The table was made by the script, and the database obeys it. -/
def ObeysScript (S : Server) (W : World F) (name : F → Bytes) (text : Bytes) : Prop :=
  ∀ table cols key rest, (script S text).bind (·.1) = some (.create table cols key :: rest) → Obeys S W name cols

/-- The entries of the tables of types. -/
def entryOf : Kind → Entry
  | .bool => .bool
  | .int k => .int k
  | .float w => if w = 32 then .float32 else .float64
  | .string => .string

/-- The field for `Migrate`: pointers may be without a value. -/
def IsField (W : World F) (name : F → Bytes) (f : F) (x : Field) : Prop :=
  x.name = name f ∧ x.size = W.size f ∧ (isPtr (W.ty f) = true → x.nullable = true) ∧ ∀ k, Scalar W.decls W.facts (W.ty f) k → x.entry = entryOf k

/-- The column for a field on PostgreSQL, as it is declared. -/
def IsColumn (W : World F) (name : F → Bytes) (f : F) (c : Ddl.Col) : Prop :=
  c.name = name f ∧ (isPtr (W.ty f) = true → c.notNull = false) ∧ ∀ k, Scalar W.decls W.facts (W.ty f) k → W.size f < 2 ^ 64 ∧
    ∃ nn v, ColOf postgres (name f) ((entryOf k).dataType (W.size f) false) nn v c

end Verif.Spec.MadeTable
