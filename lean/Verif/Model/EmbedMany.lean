import Verif.Model.Embed
import Verif.Model.Bulk
import Verif.Model.Cond

/-!
# Batches, upserts and queries with Go structs

`Insert`, `Upsert`, `UpsertOne`, `QueryStmt`, `QueryOneStmt` and `ExecStmt` (`cmd/sqlgen/codegen/templates/db.go.tpl:71-195, 230-635,
1141-1397`) called with structs in memory, as in `Model/Embed.lean`: `Values` reads the fields of each struct, and rows are scanned into
the structs of the batch one after the other, or into new ones.  Structs of a batch do not share what they point to.
-/

namespace Verif.Embed

open Verif Verif.Addrs Verif.Gen Verif.Spec Verif.Spec.Sql Verif.Spec.Store

variable {X V : Type} [DecidableEq V] (G : Values X) (E : Store.Env Path X V)

/-- `rows.Scan(Ptr(&v).Addrs()...)`. -/
def load (t : Table Path) (r : Obj X) (v : List V) : End × Obj X :=
  match addrs G (genAddrs t) r with
  | .ok r' =>
    match scan E (genAddrs t) v r' with
    | (true, r'') => (.ok, r'')
    | (false, r'') => (.failed, r'')
  | _ => (.panics, r)

/-! ## Batches -/

/-- `for rows.Next() { rows.Scan(Ptr(&data[i]).Addrs()...); i++ }` (db.go.tpl:108-115, 131-138, 436-443): up to the first error; with more
rows than structs, `data[i]` panics. -/
def loadRows (t : Table Path) : List (List V) → List (Obj X) → End × List (Obj X)
  | [], rs => (.ok, rs)
  | v :: vs, r :: rs =>
    match load G E t r v with
    | (.ok, r') =>
      let a := loadRows t vs rs
      (a.1, r' :: a.2)
    | (e, r') => (e, r' :: rs)
  | _ :: _, [] => (.panics, [])

/-- `db.QueryContext(…)` and the loop. -/
def queryRows (t : Table Path) (rs : List (Obj X)) : Ans V → End × List (Obj X)
  | .rows l => loadRows G E t l rs
  | .done _ => (.ok, rs)
  | .duplicate => (.duplicate, rs)
  | .refused => (.failed, rs)

/-- `db.ExecContext(…)`. -/
def execMany (rs : List (Obj X)) : Ans V → End × List (Obj X)
  | .rows _ => (.ok, rs)
  | .done _ => (.ok, rs)
  | .duplicate => (.duplicate, rs)
  | .refused => (.failed, rs)

/-- `Values` does not panic (generate.go:263-290). -/
def readable (t : Table Path) (r : Obj X) : Bool :=
  match args G E (genAddrs t) r (genValues t) with
  | .ok _ => true
  | _ => false

/-- What a batch helper does with the statement for the values of the structs. -/
def runMany (ru : Rules) (t : Table Path) (rs : List (Obj X)) (q : Res (Option (Txt × List V))) (σ : Sql.Store V) :
    (End × List (Obj X)) × Sql.Store V :=
  if rs.all (readable G E t) then
    match q with
    | .ok (some q) =>
      let a := Store.sendBulk E ru q σ
      (if E.g.postgres then queryRows G E t rs a.1 else execMany rs a.1, a.2)
    | .ok none => ((.ok, rs), σ)
    | .err => ((.failed, rs), σ)
    | .panic => ((.panics, rs), σ)
  else ((.panics, rs), σ)

/-- `Insert` (db.go.tpl:71-195). -/
def insertMany (ru : Rules) (t : Table Path) (rs : List (Obj X)) (σ : Sql.Store V) : (End × List (Obj X)) × Sql.Store V :=
  runMany G E ru t rs (if E.g.postgres then Helpers.insertPg (Store.mdl E t) (rs.map (keyArg G E (genAddrs t)))
    else Helpers.insertMy (Store.mdl E t) (rs.map (keyArg G E (genAddrs t)))) σ

/-- `Upsert` (db.go.tpl:316-446, 535-635), as in `Model/Bulk.lean`. -/
def upsertMany (ru : Rules) (t : Table Path) (w : Wish) (rs : List (Obj X)) (σ : Sql.Store V) : (End × List (Obj X)) × Sql.Store V :=
  runMany G E ru t rs (if E.g.postgres
    then Helpers.upsertPg (Store.mdl E t) { doNothing := w.keep, omitted := w.omitted } (rs.map (keyArg G E (genAddrs t)))
    else Helpers.upsertMy (Store.mdl E t) (!w.keep) w.omitted (rs.map (keyArg G E (genAddrs t)))) σ

/-- `UpsertOne` (db.go.tpl:230-313, 448-532), for keys that the database does not make up. -/
def upsertOne (ru : Rules) (t : Table Path) (w : Wish) (r : Obj X) (σ : Sql.Store V) : (End × Obj X) × Sql.Store V :=
  if readable G E t r then
    match if E.g.postgres
        then Helpers.upsertOnePg (Store.mdl E t) { doNothing := w.keep, omitted := w.omitted } (keyArg G E (genAddrs t) r)
        else Helpers.upsertOneMy (Store.mdl E t) (!w.keep) w.omitted (keyArg G E (genAddrs t) r) with
    | .ok q =>
      let a := Store.sendBulk E ru q σ
      (if E.g.postgres then queryRow G E t r a.1 else execOnly r a.1, a.2)
    | .err => ((.failed, r), σ)
    | .panic => ((.panics, r), σ)
  else ((.panics, r), σ)

/-! ## Queries -/

/-- `var v T`: all pointers are nil. -/
def blank : Obj X where
  mem _ := false
  val := G.zero

/-- The loop over the rows (db.go.tpl:1215-1226): each is scanned into a new struct, and none is returned with an error. -/
def newRows (t : Table Path) : List (List V) → Store.Ret (List (Obj X))
  | [] => .ok []
  | v :: vs =>
    match load G E t (blank G) v with
    | (.ok, r) =>
      match newRows t vs with
      | .ok rs => .ok (r :: rs)
      | e => e
    | (.panics, _) => .panicked
    | _ => .failed

/-- `QueryStmt` (db.go.tpl:1151-1227), after the statement was sent. -/
def rowsOf (t : Table Path) : Ans V → Store.Ret (List (Obj X))
  | .rows l => newRows G E t l
  | .done _ => .ok []
  | .duplicate => .failed
  | .refused => .failed

/-- `db.QueryRowContext(…).Scan(Ptr(&v).Addrs()...)` (db.go.tpl:1287-1292). -/
def rowOf (t : Table Path) (a : Ans V) : Store.Ret (Obj X) :=
  match queryRow G E t (blank G) a with
  | (.ok, r) => .ok r
  | (.noRows, _) => .noRows
  | (.panics, _) => .panicked
  | _ => .failed

variable (br : Brand) (K : Compare V)

/-- `QueryStmt` (db.go.tpl:1151-1227). -/
def queryAll (t : Table Path) (q : Store.Query Path X) (σ : Sql.Store V) : Store.Ret (List (Obj X)) × Sql.Store V :=
  Store.runStmt E br K (rowsOf G E t) (queryStmt E.g.style (Store.info E t) (Store.selectOf E q)) σ

/-- `QueryOneStmt` (db.go.tpl:1237-1293). -/
def queryOne (t : Table Path) (q : Store.Query Path X) (σ : Sql.Store V) : Store.Ret (Obj X) × Sql.Store V :=
  Store.runStmt E br K (rowOf G E t) (queryOneStmt E.g.style (Store.info E t) (Store.selectOf E q)) σ

/-! ## Calls -/

/-- A call with structs. -/
inductive Move (X : Type) where
  | one (o : Call X)
  | insert (rs : List (Obj X))
  | upsert (w : Wish) (rs : List (Obj X))
  | upsertOne (w : Wish) (r : Obj X)
  | query (q : Store.Query Path X)
  | queryOne (q : Store.Query Path X)
  | update (u : Store.Change Path X)
  | delete (u : Store.Removal Path X)

/-- What it returns, and the structs it was given. -/
inductive Result (X : Type) where
  | one (a : End × Obj X)
  | many (a : End × List (Obj X))
  | list (a : Store.Ret (List (Obj X)))
  | first (a : Store.Ret (Obj X))
  | done (a : Store.Ret Unit)

/-- One call. -/
def move (ru : Rules) (t : Table Path) : Move X → Sql.Store V → Result X × Sql.Store V
  | .one o, σ => (perform G E t o σ).map .one id
  | .insert rs, σ => (insertMany G E ru t rs σ).map .many id
  | .upsert w rs, σ => (upsertMany G E ru t w rs σ).map .many id
  | .upsertOne w r, σ => (upsertOne G E ru t w r σ).map .one id
  | .query q, σ => (queryAll G E br K t q σ).map .list id
  | .queryOne q, σ => (queryOne G E br K t q σ).map .first id
  | .update u, σ => (Store.updateAll E br K t u σ).map .done id
  | .delete u, σ => (Store.deleteAll E br K t u σ).map .done id

/-- One call after the other. -/
def moves (ru : Rules) (t : Table Path) : List (Move X) → Sql.Store V → List (Result X) × Sql.Store V
  | [], σ => ([], σ)
  | o :: os, σ =>
    let a := move G E br K ru t o σ
    let b := moves ru t os a.2
    (a.1 :: b.1, b.2)

end Verif.Embed
