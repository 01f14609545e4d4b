import Verif.Spec.MigrateText

/-!
# Many tables in one schema

What a schema of PostgreSQL has after the statements of several scripts; a single statement is `createIn` of `Spec/MigrateText.lean`.
-/

namespace Verif.Spec.Ddl

/-- Statements one after the other, in a schema with these tables and indexes; `none` if one is refused. -/
def createAll (rels : List Bytes) : List Stmt → Option (List Bytes)
  | [] => some rels
  | x :: xs => (createIn rels x).bind fun rels' => createAll rels' xs

end Verif.Spec.Ddl
