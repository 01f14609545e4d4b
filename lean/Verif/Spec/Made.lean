import Verif.Model.MyType
import Verif.Spec.PgType
import Verif.Spec.MigrateText
import Verif.Spec.Keyed

/-!
# What tables that were made by a script put into columns that are not given

MySQL 8.4, sections 13.6 and 15.1.20; PostgreSQL 17, sections 5.2 and 8.1.4.  Keys that the database makes up are such columns: the generated
`INSERT` does not name them.
-/

namespace Verif.Spec.Made

open Verif Verif.Spec.Ddl Verif.Store Verif.Spec.Store Verif.Gen Verif.Migrate

/-- What a column gets that is not given: a number that no row has, a value, or nothing. -/
inductive Made where
  | counts
  | value (d : List Ddl.Sym)
  | nothing
  deriving DecidableEq

/-- MySQL: columns count up if they are declared so.  The reader of `Spec/MigrateText.lean` has the word with the type or the default. -/
def mysqlMade (c : Col) : Made :=
  if kw "AUTO_INCREMENT" ∈ c.type ∨ kw "AUTO_INCREMENT" ∈ c.dflt.getD [] then .counts
  else match c.dflt with
    | some d => .value d
    | none => .nothing

/-- PostgreSQL: columns count up if their type is one of the words for that. -/
def isSerial : List Ddl.Sym → Bool
  | [.word w] => (PgType.serial w).isSome
  | _ => false

def pgMade (c : Col) : Made :=
  if isSerial c.type then .counts
  else match c.dflt with
    | some d => .value d
    | none => .nothing

variable {F X V : Type}

/-- The database does so for keys that are not given. -/
def Follows (E : Env F X V) (t : Table F) (Ok : F → X → Prop) (c : GCol F) (value : List Ddl.Sym → V) : Made → Prop
  | .counts => MadeUp E t Ok c
  | .value d => ∀ T, E.gen T = value d
  | .nothing => ∀ T, E.gen T = E.null

/-- The columns of a model of whose types and defaults `Migrate` writes the texts. -/
def Readable (S : Server) (f : Verif.PgType.Field) : Prop := ∀ v, f.dflt = some v → ∃ ss, Value S v ss

/-- The record with the key `x`. -/
def withKey [DecidableEq F] (c : GCol F) (x : X) (r : F → X) : F → X := fun f => if f = c.field then x else r f

end Verif.Spec.Made
