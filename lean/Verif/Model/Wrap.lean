import Verif.Spec.Wrap
import Verif.Spec.Keyed

/-!
# The helpers at work on columns wrapped in functions

`cmd/sqlgen/codegen/templates/db.go.tpl`: `InsertOne` (13-69), `FindByPK` (639-666), `UpdateByPK` (669-673) and
`DeleteByPK` (729-756), as in `Model/Store.lean`, for models with columns whose type has `sql_scan` or `sql_value` in the configuration
(generate.go:746-772).  The database is that of `Spec/Wrap.lean`.
-/

namespace Verif.Wrap

open Verif Verif.Gen Verif.Spec Verif.Spec.Sql Verif.Spec.Store Verif.Spec.Wrap Verif.Store

variable {F X V : Type} [DecidableEq F] [DecidableEq V] (E : Env F X V) (B : Funs V)

/-- A statement with its arguments, sent to the database. -/
def sendEx (q : Txt × List V) (σ : Sql.Store V) : Ans V × Sql.Store V :=
  match (Spec.bind E.g.style q.1 q.2).bind (Spec.Wrap.read E.D) with
  | some s => execute B E.null E.gen s σ
  | none => (.refused, σ)

/-- `InsertOne` (db.go.tpl:13-69). -/
def insertOne (t : Table F) (r : F → X) (σ : Sql.Store V) : Out (F → X) × Sql.Store V :=
  match E.g.genInsertOne t with
  | .ok (text, fs) =>
    let a := sendEx E B (text, args E r fs) σ
    (if E.g.postgres then queryRow E t r a.1 else
      match t.autoCol with
      | some c => execAuto E c r a.1
      | none => execOnly r a.1, a.2)
  | _ => (.failed, σ)

/-- `FindByPK` (db.go.tpl:639-666). -/
def findByPK (t : Table F) (r : F → X) (σ : Sql.Store V) : Out (F → X) × Sql.Store V :=
  match E.g.genFindByPK t with
  | .ok (text, fs) =>
    let a := sendEx E B (text, args E r fs) σ
    (queryRow E t r a.1, a.2)
  | _ => (.failed, σ)

/-- `UpdateByPK` (db.go.tpl:669-673). -/
def updateByPK (t : Table F) (r : F → X) (σ : Sql.Store V) : Out (F → X) × Sql.Store V :=
  match E.g.genUpdateByPK t with
  | .ok (text, fs) =>
    let a := sendEx E B (text, args E r fs) σ
    (execOnly r a.1, a.2)
  | _ => (.failed, σ)

/-- `DeleteByPK` (db.go.tpl:729-756). -/
def deleteByPK (t : Table F) (r : F → X) (σ : Sql.Store V) : Out (F → X) × Sql.Store V :=
  match Helpers.deleteByPK E.g.style (Helpers.ofTable E.g t : Helpers.Mdl (F → V) V) (fun f => E.enc f (r f)) with
  | .ok q =>
    let a := sendEx E B q σ
    (execOnly r a.1, a.2)
  | _ => (.failed, σ)

def perform (t : Table F) : Op F X → Sql.Store V → Out (F → X) × Sql.Store V
  | .insert r, σ => insertOne E B t r σ
  | .find r, σ => findByPK E B t r σ
  | .update r, σ => updateByPK E B t r σ
  | .delete r, σ => deleteByPK E B t r σ

def performs (t : Table F) : List (Op F X) → Sql.Store V → List (Out (F → X)) × Sql.Store V
  | [], σ => ([], σ)
  | o :: os, σ =>
    let a := perform E B t o σ
    let b := performs t os a.2
    (a.1 :: b.1, b.2)

end Verif.Wrap
