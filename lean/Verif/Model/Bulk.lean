import Verif.Spec.Bulk
import Verif.Model.Store

/-!
# Batch inserts and upserts at work on a database

`cmd/sqlgen/codegen/templates/db.go.tpl`: `Insert` (71-195), `UpsertOne` (230-313, 448-532) and `Upsert` (316-446,
535-635), called with a model that has the generated methods.  The statements are those of `Model/Helpers.lean`; the
database is that of `Spec/Bulk.lean`.  The other dialects' branches of the templates are also those for SQLite.  Conflict
columns given by the caller (`WithDuplicateKeys`), hand-written `DuplicateKeys` and `OnUpsertOmitColumns` are left out here
(see C27), and so are the results with the number of rows (C82).
-/

namespace Verif.Store

open Verif Verif.Gen Verif.Spec Verif.Spec.Sql Verif.Spec.Store

variable {F X V : Type} [DecidableEq F] [DecidableEq V] (E : Env F X V) (ru : Rules)

/-- A statement with its arguments, sent to the database. -/
def sendBulk (q : Txt × List V) (σ : Sql.Store V) : Ans V × Sql.Store V :=
  match (Spec.bind E.g.style q.1 q.2).bind (Sql.readBulk ru E.D) with
  | some b => execBulk E.null E.gen ru b σ
  | none => (.refused, σ)

/-- `for rows.Next() { rows.Scan(Ptr(&data[i]).Addrs()...); i++ }` (db.go.tpl:108-115, 131-138, 436-443); with more rows than
records, `data[i]` panics. -/
def scanRows (t : Table F) : List (List V) → List (F → X) → Option (List (F → X))
  | [], rs => some rs
  | v :: vs, r :: rs => (scan E (genAddrs t) v r).bind fun r' => (scanRows t vs rs).map (r' :: ·)
  | _ :: _, [] => none

/-- `db.QueryContext(…)` and the loop. -/
def queryRows (t : Table F) (rs : List (F → X)) : Ans V → Out (List (F → X))
  | .rows l =>
    match scanRows E t l rs with
    | some rs' => .ok rs'
    | none => .failed
  | .done _ => .ok rs
  | .duplicate => .duplicate
  | .refused => .failed

/-- `db.ExecContext(…)`. -/
def execMany (rs : List (F → X)) : Ans V → Out (List (F → X))
  | .rows _ => .ok rs
  | .done _ => .ok rs
  | .duplicate => .duplicate
  | .refused => .failed

/-- The model as the helpers see it. -/
abbrev mdl (t : Table F) : Helpers.Mdl (F → V) V := Helpers.ofTable E.g t

/-- The values of a record. -/
def vals (r : F → X) : F → V := fun f => E.enc f (r f)

/-- What a batch helper does with its statement. -/
def runMany (t : Table F) (rs : List (F → X)) (q : Res (Option (Txt × List V))) (σ : Sql.Store V) :
    Out (List (F → X)) × Sql.Store V :=
  match q with
  | .ok (some q) =>
    let a := sendBulk E ru q σ
    (if E.g.postgres then queryRows E t rs a.1 else execMany rs a.1, a.2)
  | .ok none => (.ok rs, σ)
  | _ => (.failed, σ)

/-- `Insert` (db.go.tpl:71-195). -/
def insertMany (t : Table F) (rs : List (F → X)) (σ : Sql.Store V) : Out (List (F → X)) × Sql.Store V :=
  runMany E ru t rs (if E.g.postgres then Helpers.insertPg (mdl E t) (rs.map (vals E))
    else Helpers.insertMy (mdl E t) (rs.map (vals E))) σ

/-- `Upsert` (db.go.tpl:316-446, 535-635): `WithDoNothing(true)` or `override = false` keep what exists. -/
def upsertMany (t : Table F) (w : Wish) (rs : List (F → X)) (σ : Sql.Store V) : Out (List (F → X)) × Sql.Store V :=
  runMany E ru t rs (if E.g.postgres then Helpers.upsertPg (mdl E t) { doNothing := w.keep, omitted := w.omitted } (rs.map (vals E))
    else Helpers.upsertMy (mdl E t) (!w.keep) w.omitted (rs.map (vals E))) σ

/-- `UpsertOne` (db.go.tpl:230-313, 448-532), for keys that the database does not make up. -/
def upsertOne (t : Table F) (w : Wish) (r : F → X) (σ : Sql.Store V) : Out (F → X) × Sql.Store V :=
  match if E.g.postgres then Helpers.upsertOnePg (mdl E t) { doNothing := w.keep, omitted := w.omitted } (vals E r)
    else Helpers.upsertOneMy (mdl E t) (!w.keep) w.omitted (vals E r) with
  | .ok q =>
    let a := sendBulk E ru q σ
    (if E.g.postgres then queryRow E t r a.1 else execOnly r a.1, a.2)
  | _ => (.failed, σ)

end Verif.Store
