import Verif.Model.Catalog
import Verif.Spec.Migrate

/-!
# Tables in schemas

A database with tables in several schemas, and what its catalogue says.
-/

namespace Verif.Spec.Catalog

open Verif.Migrate (DbCol)
open Verif.Catalog (CatRow)

/-- A table.  The positions of its columns increase; where columns were dropped there are gaps. -/
structure Tab where
  schema : Bytes
  name : Bytes
  cols : List (Nat × DbCol)
  deriving DecidableEq, Repr

/-- The columns in their order. -/
def Tab.columns (T : Tab) : List DbCol := T.cols.map (·.2)

/-- The rows of the catalogue about one table; `cat` is the catalog of all rows. -/
def rowsOf (cat : Bytes) (T : Tab) : List CatRow := T.cols.map fun p => ⟨cat, T.schema, T.name, p.1, p.2⟩

/-- No two tables of a schema have the same name, and positions increase. -/
def Sound (tabs : List Tab) : Prop :=
  tabs.Pairwise (fun T T' => (T.schema, T.name) ≠ (T'.schema, T'.name)) ∧ ∀ T ∈ tabs, (T.cols.map (·.1)).Pairwise (· < ·)

/-- An answer to `SELECT … FROM information_schema.columns WHERE … ORDER BY ordinal_position`: which of two rows with the same position
comes first is not settled. -/
def Answers (cat : Bytes) (tabs : List Tab) (w : CatRow → Bool) (ans : List DbCol) : Prop :=
  ∃ l : List CatRow, l.Perm ((tabs.flatMap (rowsOf cat)).filter w) ∧ l.Pairwise (fun a b => a.pos ≤ b.pos) ∧ ans = l.map (·.col)

end Verif.Spec.Catalog
