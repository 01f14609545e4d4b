import Verif.Spec.Cond
import Verif.Model.Store
import Verif.Model.Query

/-!
# Queries, updates and deletes with conditions at work on a database

`cmd/sqlgen/codegen/templates/db.go.tpl`: `QueryStmt` (1141-1227), `QueryOneStmt` (1229-1293) and `ExecStmt` (1295-1397),
called for a model that has the generated methods, with the operators of
`cmd/sqlgen/codegen/templates/operator.go.tpl` applied to the generated column accessors.  The statements are those of
`Model/Query.lean` and `Model/Stmt.lean`; the database is that of `Spec/Cond.lean`.  Left out here: `GroupBy`, `FromTable`,
text other than column names in `Select`, and `WhereClause` functions that are not built with these operators.
-/

namespace Verif.Store

open Verif Verif.Gen Verif.Spec Verif.Spec.Sql Verif.Spec.Store

variable {F X V : Type} [DecidableEq F] [DecidableEq V] (E : Env F X V)

/-- What the type switches see of a model with the generated methods (generate.go:143-194, 420-441). -/
def info (t : Table F) : ModelInfo where
  table := some (E.g.genTableName t)
  columns := some (E.g.genColumns t)
  sqlColumns := (E.g.genSqlColumns t).map fun l => l.map Helpers.txString

/-- The accessor of a column (generate.go:286-335): the name, in quotes if so configured.  Its conversion is part of
`clause` and `setItem`. -/
def accessor (c : GCol F) : Col V := ⟨E.g.ident c.name, id⟩

mutual
/-- The condition as it is given to the statement builder (operator.go.tpl:3-213): values are converted as those of
the column (generate.go:316-331). -/
def clause : Cond F X → Clause V
  | .and cs => .and (clauses cs)
  | .or cs => .or (clauses cs)
  | .cmp op c x => .cmp op (accessor E c) (E.enc c.field x)
  | .isIn neg c xs => .isIn neg (accessor E c) (xs.map (E.enc c.field))
  | .null neg c => .null neg (accessor E c)
  | .between neg c a b => .between neg (accessor E c) (E.enc c.field a) (E.enc c.field b)
def clauses : List (Cond F X) → List (Clause V)
  | [] => []
  | c :: cs => clause c :: clauses cs
end

/-- `Set` (operator.go.tpl:215-226). -/
def setItem (p : GCol F × X) : SetItem V := ⟨accessor E p.1, E.enc p.1.field p.2⟩

/-- `Asc`, `Desc` (operator.go.tpl:228-234). -/
def ordering (p : GCol F × Bool) : Order := ⟨E.g.ident p.1.name, p.2⟩

/-- `SelectStmt` (db.go.tpl:1141-1149). -/
structure Query (F X : Type) where
  select : List (GCol F) := []
  where_ : Option (Cond F X) := none
  orderBy : List (GCol F × Bool) := []
  offset : Nat := 0
  limit : Nat := 0

/-- `UpdateStmt` (db.go.tpl:1295-1304); `Limit` exists except for PostgreSQL. -/
structure Change (F X : Type) where
  set : List (GCol F × X) := []
  where_ : Option (Cond F X) := none
  orderBy : List (GCol F × Bool) := []
  limit : Nat := 0

/-- `DeleteStmt` (db.go.tpl:1306-1314). -/
structure Removal (F X : Type) where
  where_ : Option (Cond F X) := none
  orderBy : List (GCol F × Bool) := []
  limit : Nat := 0

def selectOf (q : Query F X) : Select V where
  select := q.select.map fun c => E.g.ident c.name
  where_ := q.where_.map (clause E)
  orderBy := q.orderBy.map (ordering E)
  offset := q.offset
  limit := q.limit

def updateOf (u : Change F X) : Update V where
  set := u.set.map (setItem E)
  where_ := u.where_.map (clause E)
  orderBy := u.orderBy.map (ordering E)
  limit := u.limit

def deleteOf (u : Removal F X) : Delete V where
  where_ := u.where_.map (clause E)
  orderBy := u.orderBy.map (ordering E)
  limit := u.limit

/-- What a call returns. -/
inductive Ret (A : Type) where
  | ok (a : A)
  | noRows
  | failed
  | panicked

variable (br : Brand) (K : Compare V)

/-- A statement with its arguments, sent to the database. -/
def sendWide (s : Verif.Stmt V) (σ : Sql.Store V) : Ans V × Sql.Store V :=
  match (Spec.bind E.g.style s.text s.args).bind (Sql.readWide br E.D) with
  | some w => execWide K E.null w σ
  | none => (.refused, σ)

/-- The loop over the rows (db.go.tpl:1215-1226), each scanned into a new value; `zero` is the zero value of the model.
That the rows can end with an error is left out here (C59). -/
def rowsOf (t : Table F) (zero : F → X) : Ans V → Ret (List (F → X))
  | .rows l =>
    match l.mapM fun v => scan E (genAddrs t) v zero with
    | some rs => .ok rs
    | none => .failed
  | .done _ => .ok []
  | .duplicate => .failed
  | .refused => .failed

/-- `db.QueryRowContext(…).Scan(…)` (db.go.tpl:1287-1292). -/
def rowOf (t : Table F) (zero : F → X) : Ans V → Ret (F → X)
  | .rows (v :: _) =>
    match scan E (genAddrs t) v zero with
    | some r => .ok r
    | none => .failed
  | .rows [] => .noRows
  | .done _ => .noRows
  | .duplicate => .failed
  | .refused => .failed

/-- `db.ExecContext(…)` (db.go.tpl:1396). -/
def doneOf : Ans V → Ret Unit
  | .rows _ => .ok ()
  | .done _ => .ok ()
  | .duplicate => .failed
  | .refused => .failed

/-- What a helper does with the statement it has built. -/
def runStmt {A : Type} (get : Ans V → Ret A) (s : Res (Verif.Stmt V)) (σ : Sql.Store V) : Ret A × Sql.Store V :=
  match s with
  | .ok s =>
    let a := sendWide E br K s σ
    (get a.1, a.2)
  | .err => (.failed, σ)
  | .panic => (.panicked, σ)

/-- `QueryStmt` (db.go.tpl:1151-1227). -/
def queryAll (t : Table F) (zero : F → X) (q : Query F X) (σ : Sql.Store V) : Ret (List (F → X)) × Sql.Store V :=
  runStmt E br K (rowsOf E t zero) (queryStmt E.g.style (info E t) (selectOf E q)) σ

/-- `QueryOneStmt` (db.go.tpl:1237-1293); `SelectOneStmt` has neither offset nor limit. -/
def queryOne (t : Table F) (zero : F → X) (q : Query F X) (σ : Sql.Store V) : Ret (F → X) × Sql.Store V :=
  runStmt E br K (rowOf E t zero) (queryOneStmt E.g.style (info E t) (selectOf E q)) σ

/-- `ExecStmt` with an `UpdateStmt` (db.go.tpl:1325-1362, 1395-1396). -/
def updateAll (t : Table F) (u : Change F X) (σ : Sql.Store V) : Ret Unit × Sql.Store V :=
  runStmt E br K doneOf (execUpdate E.g.style (info E t) (updateOf E u)) σ

/-- `ExecStmt` with a `DeleteStmt` (db.go.tpl:1364-1396). -/
def deleteAll (t : Table F) (u : Removal F X) (σ : Sql.Store V) : Ret Unit × Sql.Store V :=
  runStmt E br K doneOf (execDelete E.g.style (info E t) (deleteOf E u)) σ

end Verif.Store
