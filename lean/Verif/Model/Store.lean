import Verif.Spec.Store
import Verif.Model.Helpers

/-!
# The helpers at work on a database

`cmd/sqlgen/codegen/templates/db.go.tpl`: `InsertOne` (13-69), `FindByPK` (639-666), `UpdateByPK` (669-673) and
`DeleteByPK` (729-756), called with a model that has the generated methods.  The statements are those of `Model/Gen.lean` and
`Model/Helpers.lean`; the database is that of `Spec/Sql.lean`.  Other sessions are in
`Model/Program.lean`, connections that fail in `Model/Fault.lean`.
-/

namespace Verif.Store

open Verif Verif.Gen Verif.Spec Verif.Spec.Sql Verif.Spec.Store

/-- The generator, the database, and how fields are written and read. -/
structure Env (F X V : Type) where
  g : Cfg
  D : Dialect
  null : V
  gen : Tbl V → V
  /-- What `Values()` has for a field, as the database keeps it. -/
  enc : F → X → V
  /-- What is in a field after a value was scanned into it, `none` if there is an error. -/
  dec : F → V → X → Option X
  /-- The conversion in `ScanAutoIncr` (generate.go:158-162). -/
  toId : V → Option X

variable {F X V : Type} [DecidableEq F] [DecidableEq V] (E : Env F X V)

/-- How a database runs statements. -/
abbrev Runs (V : Type) := Stmt V → Sql.Store V → Ans V × Sql.Store V

/-- A statement with its arguments, sent to a database. -/
def sendTo (db : Runs V) (q : Txt × List V) (σ : Sql.Store V) : Ans V × Sql.Store V :=
  match (Spec.bind E.g.style q.1 q.2).bind (Sql.read E.D) with
  | some s => db s σ
  | none => (.refused, σ)

/-- The same, to the database of `Spec/Sql.lean`. -/
def send (q : Txt × List V) (σ : Sql.Store V) : Ans V × Sql.Store V := sendTo E (exec E.null E.gen) q σ

def setField (r : F → X) (f : F) (x : X) : F → X := fun f' => if f' = f then x else r f'

/-- `Scan(model.Addrs()...)`. -/
def scan : List F → List V → (F → X) → Option (F → X)
  | [], [], r => some r
  | f :: fs, v :: vs, r => (E.dec f v (r f)).bind fun x => scan fs vs (setField r f x)
  | _, _, _ => none

/-- `db.QueryRowContext(…).Scan(model.Addrs()...)`. -/
def queryRow (t : Table F) (r : F → X) : Ans V → Out (F → X)
  | .rows (v :: _) =>
    match scan E (genAddrs t) v r with
    | some r' => .ok r'
    | none => .failed
  | .rows [] => .noRows
  | .done _ => .noRows
  | .duplicate => .duplicate
  | .refused => .failed

/-- `db.ExecContext(…)`. -/
def execOnly (r : F → X) : Ans V → Out (F → X)
  | .rows _ => .ok r
  | .done _ => .ok r
  | .duplicate => .duplicate
  | .refused => .failed

/-- `db.ExecContext(…)`, `LastInsertId` and `ScanAutoIncr` (db.go.tpl:48-57). -/
def execAuto (c : GCol F) (r : F → X) : Ans V → Out (F → X)
  | .done (some v) =>
    match E.toId v with
    | some x => .ok (setField r c.field x)
    | none => .failed
  | .done none => .failed
  | .rows _ => .failed
  | .duplicate => .duplicate
  | .refused => .failed

/-- The arguments of a generated statement. -/
def args (r : F → X) (fs : List F) : List V := fs.map fun f => E.enc f (r f)

/-- `InsertOne` (db.go.tpl:13-69). -/
def insertVia (db : Runs V) (t : Table F) (r : F → X) (σ : Sql.Store V) : Out (F → X) × Sql.Store V :=
  match E.g.genInsertOne t with
  | .ok (text, fs) =>
    let a := sendTo E db (text, args E r fs) σ
    (if E.g.postgres then queryRow E t r a.1 else
      match t.autoCol with
      | some c => execAuto E c r a.1
      | none => execOnly r a.1, a.2)
  | _ => (.failed, σ)

/-- `FindByPK` (db.go.tpl:639-666). -/
def findVia (db : Runs V) (t : Table F) (r : F → X) (σ : Sql.Store V) : Out (F → X) × Sql.Store V :=
  match E.g.genFindByPK t with
  | .ok (text, fs) =>
    let a := sendTo E db (text, args E r fs) σ
    (queryRow E t r a.1, a.2)
  | _ => (.failed, σ)

/-- `UpdateByPK` (db.go.tpl:669-673). -/
def updateVia (db : Runs V) (t : Table F) (r : F → X) (σ : Sql.Store V) : Out (F → X) × Sql.Store V :=
  match E.g.genUpdateByPK t with
  | .ok (text, fs) =>
    let a := sendTo E db (text, args E r fs) σ
    (execOnly r a.1, a.2)
  | _ => (.failed, σ)

/-- `DeleteByPK` (db.go.tpl:729-756). -/
def deleteVia (db : Runs V) (t : Table F) (r : F → X) (σ : Sql.Store V) : Out (F → X) × Sql.Store V :=
  match Helpers.deleteByPK E.g.style (Helpers.ofTable E.g t : Helpers.Mdl (F → V) V) (fun f => E.enc f (r f)) with
  | .ok q =>
    let a := sendTo E db q σ
    (execOnly r a.1, a.2)
  | _ => (.failed, σ)

/-- One of the four on a database. -/
def performVia (db : Runs V) (t : Table F) : Op F X → Sql.Store V → Out (F → X) × Sql.Store V
  | .insert r, σ => insertVia E db t r σ
  | .find r, σ => findVia E db t r σ
  | .update r, σ => updateVia E db t r σ
  | .delete r, σ => deleteVia E db t r σ

/-! ### On the database of `Spec/Sql.lean` -/

def insertOne (t : Table F) (r : F → X) (σ : Sql.Store V) : Out (F → X) × Sql.Store V := insertVia E (exec E.null E.gen) t r σ
def findByPK (t : Table F) (r : F → X) (σ : Sql.Store V) : Out (F → X) × Sql.Store V := findVia E (exec E.null E.gen) t r σ
def updateByPK (t : Table F) (r : F → X) (σ : Sql.Store V) : Out (F → X) × Sql.Store V := updateVia E (exec E.null E.gen) t r σ
def deleteByPK (t : Table F) (r : F → X) (σ : Sql.Store V) : Out (F → X) × Sql.Store V := deleteVia E (exec E.null E.gen) t r σ

def perform (t : Table F) : Op F X → Sql.Store V → Out (F → X) × Sql.Store V
  | .insert r, σ => insertOne E t r σ
  | .find r, σ => findByPK E t r σ
  | .update r, σ => updateByPK E t r σ
  | .delete r, σ => deleteByPK E t r σ

def performs (t : Table F) : List (Op F X) → Sql.Store V → List (Out (F → X)) × Sql.Store V
  | [], σ => ([], σ)
  | o :: os, σ =>
    let a := perform E t o σ
    let b := performs t os a.2
    (a.1 :: b.1, b.2)

end Verif.Store
