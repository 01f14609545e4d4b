import Verif.Model.Store

/-!
# Models, databases and codings that fit together
-/

namespace Verif.Store

open Verif Verif.Gen Verif.Spec Verif.Spec.Gen Verif.Spec.Sql Verif.Spec.Store

variable {F X V : Type}

/-- What is assumed of the model, the database and the codings of fields. -/
structure Setup (E : Env F X V) (t : Table F) (Ok : F → X → Prop) : Prop where
  wf : WF t
  key : t.hasPK = true
  named : Named E.g E.D t
  bare : BareNames E.g E.D t
  plain : NoTemplates t
  /-- no two columns have the same name for the database -/
  names : (t.columns.map (colName E.D)).Nodup
  /-- if the database makes up the key, there is no other -/
  single : ∀ i, t.auto = some i → ∀ k ∈ t.keys, k = i
  /-- what is written is what is read -/
  back : ∀ c ∈ t.columns, ∀ x old, Ok c.field x → E.dec c.field (E.enc c.field x) old = some x
  /-- keys are not NULL -/
  keyed : ∀ c ∈ pick t (keyPos t), ∀ x, Ok c.field x → E.enc c.field x ≠ E.null

/-- The same, for models of which every column is written. -/
structure FullSetup (E : Env F X V) (t : Table F) (Ok : F → X → Prop) : Prop extends Setup E t Ok where
  writable : AllWritten t

instance (E : Env F X V) (t : Table F) (Ok : F → X → Prop) : Coe (FullSetup E t Ok) (Setup E t Ok) := ⟨FullSetup.toSetup⟩

/-- What is assumed of keys made up by the database: they are new, and `ScanAutoIncr` gives the value that is written as
the key. -/
def MadeUp (E : Env F X V) (t : Table F) (Ok : F → X → Prop) (c : GCol F) : Prop :=
  ∀ rows, ∃ x, Ok c.field x ∧ E.enc c.field x = E.gen (tableOf E.D t rows) ∧
    E.toId (E.gen (tableOf E.D t rows)) = some x ∧ ∀ row ∈ rows, row (colName E.D c) ≠ E.gen (tableOf E.D t rows)

/-- The database has the table of the model, with the rows of these records. -/
def Keeps (E : Env F X V) (Ok : F → X → Prop) (t : Table F) (m : Map F X) (σ : Sql.Store V) : Prop :=
  ∃ rows, σ (tableName E.D t) = some (tableOf E.D t rows) ∧ Holds E.enc E.D Ok t m rows

/-- Operations on good records; updates only if there is something to update (without, no such method is generated,
generate.go:254-256). -/
def Fine (Ok : F → X → Prop) (t : Table F) (o : Op F X) : Prop :=
  Good Ok t o.record ∧ ∀ r, o = .update r → pick t (updatePos t) ≠ []

end Verif.Store
