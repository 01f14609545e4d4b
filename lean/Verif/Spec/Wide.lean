import Verif.Model.Cond
import Verif.Spec.Keyed

/-!
# Conditions, queries and changes that fit a model
-/

namespace Verif.Store

open Verif Verif.Gen Verif.Spec Verif.Spec.Gen Verif.Spec.Sql Verif.Spec.Store

variable {F X V : Type}

/-- The columns can be written as the accessors do: in quotes if so configured. -/
def Spelled (g : Cfg) (D : Spec.Sql.Dialect) (t : Table F) : Prop := ∀ c ∈ t.columns, g.quoteNames = true ∨ Bare D c.name

/-- A condition, if there is one, that is proper. -/
def ProperWhere (Ok : F → X → Prop) (t : Table F) (w : Option (Cond F X)) : Prop := ∀ c, w = some c → c.Proper Ok t

/-- Columns of the table and a proper condition. -/
structure ProperQuery (Ok : F → X → Prop) (t : Table F) (q : Query F X) : Prop where
  select : ∀ c ∈ q.select, c ∈ t.columns
  where_ : ProperWhere Ok t q.where_
  order : ∀ p ∈ q.orderBy, p.1 ∈ t.columns

/-- Columns of the table, good values and a proper condition. -/
structure ProperChange (Ok : F → X → Prop) (t : Table F) (u : Change F X) : Prop where
  set : ∀ p ∈ u.set, p.1 ∈ t.columns ∧ Ok p.1.field p.2
  where_ : ProperWhere Ok t u.where_
  order : ∀ p ∈ u.orderBy, p.1 ∈ t.columns

structure ProperRemoval (Ok : F → X → Prop) (t : Table F) (u : Removal F X) : Prop where
  where_ : ProperWhere Ok t u.where_
  order : ∀ p ∈ u.orderBy, p.1 ∈ t.columns

/-- The first `n`; all, if `n` is 0. -/
def firstOf {A : Type} (n : Nat) (l : List A) : List A := if n = 0 then l else l.take n

/-- Updates and deletes with an order or a limit are for MySQL. -/
def Allowed (br : Brand) (o : List (GCol F × Bool)) (n : Nat) : Prop := br = .mysql ∨ o = [] ∧ n = 0

end Verif.Store
