import Verif.Model.Store
import Verif.Spec.Upkeep

/-!
# The helpers at work on a database that fills in columns

`InsertOne`, `FindByPK`, `UpdateByPK` and `DeleteByPK` (see `Model/Store.lean`) on the database of `Spec/Upkeep.lean`.  The
columns of fields with the tag option `readonly` (`cmd/sqlgen/internal/compiler/parser.go:431`) are left out by `InsertColumns`
(`cmd/sqlgen/internal/compiler/compiler.go:87-91`) and `ColumnsWithoutPK` (48-61).
-/

namespace Verif.Upkeep

open Verif Verif.Gen Verif.Spec Verif.Spec.Sql Verif.Spec.Store Verif.Spec.Upkeep

variable {F X V : Type} [DecidableEq F] [DecidableEq V] (E : Store.Env F X V) (K : Keeper V)

/-- One operation at a given time. -/
def perform (t : Table F) (now : Nat) (o : Store.Op F X) (σ : Sql.Store V) : Out (F → X) × Sql.Store V :=
  Store.performVia E (run E.null E.gen K now) t o σ

/-- One operation after the other, at the times from `now` on. -/
def performs (t : Table F) : Nat → List (Store.Op F X) → Sql.Store V → List (Out (F → X)) × Sql.Store V
  | _, [], σ => ([], σ)
  | now, o :: os, σ =>
    let a := perform E K t now o σ
    let b := performs t (now + 1) os a.2
    (a.1 :: b.1, b.2)

end Verif.Upkeep
