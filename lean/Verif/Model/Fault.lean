import Verif.Spec.Fault
import Verif.Model.Program

/-!
# The helpers over connections that fail

The helpers of `Model/Store.lean`, `Model/Bulk.lean` and `Model/Cond.lean`, with what `database/sql` hands them when a
connection fails.  `ExecContext` and `QueryContext` return the error (db.go.tpl:49-52, 104-107, 1209-1213, 1396).  `Row.Scan`
(db.go.tpl:23-28, 661-665, 1292) also returns an error that comes in place of a row or after it: it asks `Rows.Err` if there is
no row and returns what `Rows.Close` says after the row; drivers are taken to report errors in one of these two ways.  The loops
`for rows.Next()` (db.go.tpl:109-115, 132-138, 436-443, 1217-1226) end at such an error as at the end of the rows, since
`Rows.Next` has then closed the rows itself, `rows.Close()` returns nil, and `rows.Err()` is not called.
-/

namespace Verif.Program

open Verif Verif.Gen Verif.Spec Verif.Spec.Sql Verif.Spec.Store Verif.Store Verif.Spec.Program

variable {F X V : Type} [DecidableEq F] [DecidableEq X] [DecidableEq V] (E : Env F X V) (br : Brand) (K : Compare V)

/-- What `ExecContext` and `Row.Scan` get, where the database gives `x` and had `σ` before. -/
def single (f : Fault) (σ : Sql.Store V) (x : Ans V × Sql.Store V) : Ans V × Sql.Store V :=
  match f with
  | .fine => x
  | .before => (.refused, σ)
  | .after => (.refused, x.2)
  | .cut _ kept => (.refused, if kept then x.2 else σ)

/-- What the loops get. -/
def looped (f : Fault) (σ : Sql.Store V) (x : Ans V × Sql.Store V) : Ans V × Sql.Store V :=
  match f with
  | .cut n kept =>
    match x.1 with
    | .rows l => (.rows (l.take n), if kept then x.2 else σ)
    | _ => (.refused, if kept then x.2 else σ)
  | f => single f σ x

/-- `InsertOne`, `FindByPK`, `UpdateByPK` and `DeleteByPK`: see `performVia`. -/
def performOn (f : Fault) (t : Table F) (o : Spec.Store.Op F X) (σ : Sql.Store V) : Out (F → X) × Sql.Store V :=
  performVia E (fun s σ => single f σ (exec E.null E.gen s σ)) t o σ

/-- `Insert` and `Upsert`: see `runMany`. -/
def runManyOn (ru : Rules) (f : Fault) (t : Table F) (rs : List (F → X)) (q : Res (Option (Txt × List V))) (σ : Sql.Store V) :
    Out (List (F → X)) × Sql.Store V :=
  match q with
  | .ok (some q) =>
    let x := sendBulk E ru q σ
    if E.g.postgres then
      let a := looped f σ x
      (queryRows E t rs a.1, a.2)
    else
      let a := single f σ x
      (execMany rs a.1, a.2)
  | .ok none => (.ok rs, σ)
  | _ => (.failed, σ)

/-- `Insert` (db.go.tpl:71-195). -/
def insertManyOn (ru : Rules) (f : Fault) (t : Table F) (rs : List (F → X)) (σ : Sql.Store V) : Out (List (F → X)) × Sql.Store V :=
  runManyOn E ru f t rs (if E.g.postgres then Helpers.insertPg (mdl E t) (rs.map (vals E))
    else Helpers.insertMy (mdl E t) (rs.map (vals E))) σ

/-- `Upsert` (db.go.tpl:316-446, 535-635). -/
def upsertManyOn (ru : Rules) (f : Fault) (t : Table F) (w : Wish) (rs : List (F → X)) (σ : Sql.Store V) :
    Out (List (F → X)) × Sql.Store V :=
  runManyOn E ru f t rs
    (if E.g.postgres then Helpers.upsertPg (mdl E t) { doNothing := w.keep, omitted := w.omitted } (rs.map (vals E))
    else Helpers.upsertMy (mdl E t) (!w.keep) w.omitted (rs.map (vals E))) σ

/-- `UpsertOne` (db.go.tpl:230-313, 448-532). -/
def upsertOneOn (ru : Rules) (f : Fault) (t : Table F) (w : Wish) (r : F → X) (σ : Sql.Store V) : Out (F → X) × Sql.Store V :=
  match if E.g.postgres then Helpers.upsertOnePg (mdl E t) { doNothing := w.keep, omitted := w.omitted } (vals E r)
    else Helpers.upsertOneMy (mdl E t) (!w.keep) w.omitted (vals E r) with
  | .ok q =>
    let a := single f σ (sendBulk E ru q σ)
    (if E.g.postgres then queryRow E t r a.1 else execOnly r a.1, a.2)
  | _ => (.failed, σ)

/-- What a helper does with the statement it has built, over a connection: see `runStmt`. -/
def runStmtOn {A : Type} (on : Sql.Store V → Ans V × Sql.Store V → Ans V × Sql.Store V) (get : Ans V → Ret A) (s : Res (Verif.Stmt V))
    (σ : Sql.Store V) : Ret A × Sql.Store V :=
  match s with
  | .ok s =>
    let a := on σ (sendWide E br K s σ)
    (get a.1, a.2)
  | .err => (.failed, σ)
  | .panic => (.panicked, σ)

/-- One call over a connection (db.go.tpl:13-195, 230-673, 729-756, 1141-1397). -/
def callOn (f : Fault) (t : Table F) (zero : F → X) : Call F X → Sql.Store V → Reply F X × Sql.Store V
  | .one o, σ => ((performOn E f t o σ).map Reply.one id)
  | .insert rs, σ => (insertManyOn E (rules br) f t rs σ).map Reply.many id
  | .upsert w rs, σ => (upsertManyOn E (rules br) f t w rs σ).map Reply.many id
  | .upsertOne w r, σ => (upsertOneOn E (rules br) f t w r σ).map Reply.one id
  | .query q, σ => (runStmtOn E br K (looped f) (rowsOf E t zero) (queryStmt E.g.style (info E t) (selectOf E q)) σ).map Reply.list id
  | .first q, σ =>
    (runStmtOn E br K (single f) (rowOf E t zero) (queryOneStmt E.g.style (info E t) (selectOf E q)) σ).map Reply.record id
  | .change u, σ => (runStmtOn E br K (single f) doneOf (execUpdate E.g.style (info E t) (updateOf E u)) σ).map Reply.done id
  | .remove u, σ => (runStmtOn E br K (single f) doneOf (execDelete E.g.style (info E t) (deleteOf E u)) σ).map Reply.done id

variable {I C : Type} [DecidableEq C]

/-- The calls of several clients, in the order given by the list, with what happens to each of them on the way. -/
def playOn (t : I → Table F) (zero : I → F → X) (clients : C → Client I F X) :
    List (C × Fault) → Histories C F X → Sql.Store V → Histories C F X × Sql.Store V
  | [], h, σ => (h, σ)
  | (c, f) :: cs, h, σ =>
    match clients c (h c) with
    | none => playOn t zero clients cs h σ
    | some (i, a) =>
      let x := callOn E br K f (t i) (zero i) a σ
      playOn t zero clients cs (heard h c x.1) x.2

end Verif.Program
