import Verif.Model.PgType
import Verif.Spec.Migrate

/-!
# Types of PostgreSQL

Which texts PostgreSQL reads as types, and how its catalogue shows a column of such a type.  Names are in lower case, as sqlgen
writes them; types sqlgen never writes nor reads back are left out.
-/

namespace Verif.Spec.PgType

open Verif.Migrate
open Verif.PgType (CatCol)
open Verif.Spec.Migrate (Server applyUp)

/-- Names of types and the names the catalogue shows (`udt_name`). -/
def names : List (Bytes × Bytes) :=
  [(lit "bool", lit "bool"), (lit "boolean", lit "bool"),
   (lit "int2", lit "int2"), (lit "smallint", lit "int2"),
   (lit "int4", lit "int4"), (lit "int", lit "int4"), (lit "integer", lit "int4"),
   (lit "int8", lit "int8"), (lit "bigint", lit "int8"),
   (lit "float4", lit "float4"), (lit "real", lit "float4"),
   (lit "float8", lit "float8"), (lit "double precision", lit "float8"),
   (lit "text", lit "text"), (lit "json", lit "json"), (lit "jsonb", lit "jsonb"), (lit "bytea", lit "bytea"),
   (lit "varchar", lit "varchar"), (lit "bpchar", lit "bpchar"),
   (lit "_bool", lit "_bool"), (lit "_int2", lit "_int2"), (lit "_int4", lit "_int4"), (lit "_int8", lit "_int8"),
   (lit "_float4", lit "_float4"), (lit "_float8", lit "_float8"), (lit "_text", lit "_text")]

/-- Names of types with a length. -/
def sized : List (Bytes × Bytes) := [(lit "varchar", lit "varchar"), (lit "char", lit "bpchar"), (lit "bpchar", lit "bpchar")]

/-- A type without parentheses or brackets. -/
def plain (name : Bytes) : Option CatCol :=
  if name = lit "timestamptz" then some ⟨name, none, some 6⟩
  else if name = lit "char" then some ⟨lit "bpchar", some 1, none⟩
  else (names.lookup name).map fun u => ⟨u, none, none⟩

/-- The longest length of `varchar` and `char`. -/
def maxLen : Nat := 10485760

/-- A type with a number in parentheses; `r` is the text after `(`. -/
def bracketed (name r : Bytes) : Option CatCol :=
  if r.getLast? = some 41 then
    match parseUint r.dropLast 10 64 with
    | some n =>
      match sized.lookup name with
      | some u => if 1 ≤ n ∧ n ≤ maxLen then some ⟨u, some n, none⟩ else none
      | none => if name = lit "timestamptz" ∧ n ≤ 6 then some ⟨name, none, some n⟩ else none
    | none => none
  else none

/-- A list type; `r` is the text after `[`.  The length may be given but is not kept, and neither is the number of dimensions. -/
def list (name r : Bytes) : Option CatCol :=
  if r = [93] ∨ r.getLast? = some 93 ∧ (parseUint r.dropLast 10 64).isSome then
    (names.lookup name).map fun u => ⟨if u.head? = some 95 then u else 95 :: u, none, none⟩
  else none

/-- How the catalogue shows a column of the type written as `t`; `none` if there is no such type. -/
def shownAs (t : Bytes) : Option CatCol :=
  let stop : UInt8 → Bool := fun b => b ≠ 40 && b ≠ 91
  match t.dropWhile stop with
  | [] => plain (t.takeWhile stop)
  | b :: r => if b = 40 then bracketed (t.takeWhile stop) r else list (t.takeWhile stop) r

/-- The words that are allowed in place of a type where a column is made (`CREATE TABLE`, `ADD COLUMN`), not where the type of a column is changed. -/
def serial : Bytes → Option CatCol := fun t =>
  ([(lit "serial2", lit "int2"), (lit "smallserial", lit "int2"), (lit "serial4", lit "int4"), (lit "serial", lit "int4"),
    (lit "serial8", lit "int8"), (lit "bigserial", lit "int8")].lookup t).map fun u => ⟨u, none, none⟩

/-- A column of the type written as `t`, as `Migrate` gets to see it. -/
def server (dflt : Bytes → Bytes) : Server :=
  ⟨fun t => match shownAs t with
    | some c => c.dataType
    | none => match serial t with
      | some c => c.dataType
      | none => t, dflt⟩

/-- PostgreSQL knows the type a clause names. -/
def known : Action → Bool
  | .setType _ t => (shownAs t).isSome
  | .add _ (some t) _ _ => (shownAs t).isSome || (serial t).isSome
  | _ => true

/-- A script applied to an existing table: with a type that does not exist it is rejected.  (`CREATE TABLE IF NOT EXISTS` looks at no
types if there is the table.) -/
def apply (dflt : Bytes → Bytes) (s : Script) (t : List DbCol) : Option (List DbCol) :=
  if s.up.all known then applyUp (server dflt) s (some t) else none

/-- Migrating again and again: `n` scripts are written and applied; `none` if one is rejected or if there is nothing left to write. -/
def rounds (dflt : Bytes → Bytes) (ms : List GoCol) : Nat → List DbCol → Option (List DbCol)
  | 0, t => some t
  | n + 1, t => (pgMigrate ms t).bind fun s => (apply dflt s t).bind (rounds dflt ms n)

end Verif.Spec.PgType
