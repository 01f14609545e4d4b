import Verif.Model.Wrap

/-!
# Records in columns wrapped in functions

What is assumed of models, templates and functions.
-/

namespace Verif.Wrap

open Verif Verif.Gen Verif.Spec Verif.Spec.Gen Verif.Spec.Sql Verif.Spec.Store Verif.Spec.Wrap Verif.Store

variable {F X V : Type} (E : Env F X V) (B : Funs V)

/-- Fields as the database keeps them: written with one function and read with another. -/
def through (val scan : F → Ex Unit) : Env F X V :=
  { E with
    enc := fun f x => (apply B (val f) (E.enc f x)).getD E.null
    dec := fun f v old => (apply B (scan f) v).bind fun w => E.dec f w old }

/-- A column without templates. -/
def bareCol (c : GCol F) : GCol F := { c with sqlVal := none, sqlScan := none }

/-- The model with columns that are written and read as they are. -/
def strip (t : Table F) : Table F := { t with columns := t.columns.map bareCol }

/-- What is assumed of the model and the templates. -/
structure Texts (val scan : F → Ex Unit) (t : Table F) : Prop where
  wf : WF t
  key : t.hasPK = true
  named : Named E.g E.D t
  bare : BareNames E.g E.D t
  /-- the templates for values say these expressions, and the value occurs, once if parameters have no numbers -/
  vals : ∀ c ∈ t.columns, Means E.D c.sqlVal (val c.field) ∧ ∀ u, c.sqlVal = some u → Usable E.g.style u
  /-- the templates for reading say these -/
  scans : ∀ c ∈ t.columns, Means E.D c.sqlScan (scan c.field)
  names : (t.columns.map (colName E.D)).Nodup
  single : ∀ i, t.auto = some i → ∀ k ∈ t.keys, k = i

/-- What is assumed besides of the functions and the codings of fields. -/
structure Wrapped (val scan : F → Ex Unit) (t : Table F) (Ok : F → X → Prop) : Prop extends Texts E val scan t where
  /-- keys are written as they are -/
  keys : ∀ c ∈ pick t (keyPos t), c.sqlVal = none
  /-- the functions read what they wrote -/
  back : ∀ c ∈ t.columns, ∀ x, Ok c.field x → ∃ v w, apply B (val c.field) (E.enc c.field x) = some v ∧
    apply B (scan c.field) v = some w ∧ ∀ old, E.dec c.field w old = some x
  keyed : ∀ c ∈ pick t (keyPos t), ∀ x, Ok c.field x → E.enc c.field x ≠ E.null

end Verif.Wrap
