import Verif.Spec.Program
import Verif.Model.Bulk
import Verif.Model.Cond

/-!
# Programs that use the helpers

Clients that call the helpers of `cmd/sqlgen/codegen/templates/db.go.tpl` (see `Model/Store.lean`, `Model/Bulk.lean` and
`Model/Cond.lean`) on several models in one database.  Each call sends at most one statement, which the database runs as a
whole; so calls at the same time come one after the other in some order, the schedule.  The helpers take a `*sql.DB`, so no
call is part of a transaction of the program.
-/

namespace Verif.Program

open Verif Verif.Gen Verif.Spec Verif.Spec.Sql Verif.Spec.Store Verif.Store Verif.Spec.Program

variable {F X V : Type} [DecidableEq F] [DecidableEq X] [DecidableEq V] (E : Env F X V) (br : Brand) (K : Compare V)

/-- The rules of a database for conflicts. -/
def rules : Brand → Rules
  | .mysql => .onDuplicate
  | _ => .onConflict

/-- One call (db.go.tpl:13-195, 230-673, 729-756, 1141-1397). -/
def call (t : Table F) (zero : F → X) : Call F X → Sql.Store V → Reply F X × Sql.Store V
  | .one o, σ => ((perform E t o σ).map Reply.one id)
  | .insert rs, σ => (insertMany E (rules br) t rs σ).map Reply.many id
  | .upsert w rs, σ => (upsertMany E (rules br) t w rs σ).map Reply.many id
  | .upsertOne w r, σ => (upsertOne E (rules br) t w r σ).map Reply.one id
  | .query q, σ => (queryAll E br K t zero q σ).map Reply.list id
  | .first q, σ => (queryOne E br K t zero q σ).map Reply.record id
  | .change u, σ => (updateAll E br K t u σ).map Reply.done id
  | .remove u, σ => (deleteAll E br K t u σ).map Reply.done id

variable {I C : Type} [DecidableEq C]

/-- The calls of several clients, in the order given by the list. -/
def play (t : I → Table F) (zero : I → F → X) (clients : C → Client I F X) :
    List C → Histories C F X → Sql.Store V → Histories C F X × Sql.Store V
  | [], h, σ => (h, σ)
  | c :: cs, h, σ =>
    match clients c (h c) with
    | none => play t zero clients cs h σ
    | some (i, a) =>
      let x := call E br K (t i) (zero i) a σ
      play t zero clients cs (heard h c x.1) x.2

end Verif.Program
