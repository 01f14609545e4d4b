import Verif.Model.Stmt

/-!
# `QueryStmt`, `QueryOneStmt`, `ExecStmt`, `Format`

`cmd/sqlgen/codegen/templates/db.go.tpl:1141-1397, 1481-1525`.
-/

namespace Verif

variable {V : Type}

/-- What the type switches on the model value find out about it: which of `Tabler`, `Databaser`,
`Columner`, `SQLColumner` (sequel/sequel.go) it implements and what they return. -/
structure ModelInfo where
  table : Option String := none
  database : Option String := none
  columns : Option (List String) := none
  sqlColumns : Option (List String) := none

/-- `DbTable` (db.go.tpl:1533-1538) applied to a model whose `TableName()` is `t`. -/
def dbTable (m : ModelInfo) (t : String) : String :=
  match m.database with
  | some d => d ++ "." ++ t
  | none => t

/-- `TableColumns` (db.go.tpl:1540-1545) applied to a model whose `Columns()` is `cs`. -/
def tableColumns (m : ModelInfo) (cs : List String) : List String :=
  match m.sqlColumns with
  | some l => l
  | none => cs

/-- `dbName` (db.go.tpl:1547-1552). -/
def dbName (m : ModelInfo) : String :=
  match m.database with
  | some d => d ++ "."
  | none => ""

/-- `strings.Join`. -/
def joinStr (sep : String) : List String → String
  | [] => ""
  | [x] => x
  | x :: y :: r => x ++ sep ++ joinStr sep (y :: r)

/-- `OrderByColumn` (sequel/clause.go:35-40): column and `Asc()`. -/
structure Order where
  col : String
  asc : Bool

structure Select (V : Type) where
  select : List String := []
  fromTable : String := ""
  where_ : Option (Clause V) := none
  orderBy : List Order := []
  groupBy : List String := []
  offset : Nat := 0
  limit : Nat := 0

namespace Stmt

def writeS (s : Stmt V) (x : String) : Stmt V := s.write (tx x)

/-- The select list (db.go.tpl:1155-1165, 1241-1251). -/
def selectList (m : ModelInfo) (sel : List String) (s : Stmt V) : Stmt V :=
  if sel.length > 0 then s.writeS (joinStr "," sel)
  else
    match m.columns with
    | some cs => s.writeS (joinStr "," (tableColumns m cs))
    | none => s.writeS "*"

/-- The table (db.go.tpl:1166-1176, 1252-1261). -/
def fromClause (m : ModelInfo) (from_ : String) (s : Stmt V) : Res (Stmt V) :=
  if from_ ≠ "" then .ok (s.writeS (" FROM " ++ dbName m ++ from_))
  else
    match m.table with
    | some t => .ok (s.writeS (" FROM " ++ dbTable m t))
    | none => .err

/-- The condition (db.go.tpl:1177-1180 and alike). -/
def whereClause (st : Style) (w : Option (Clause V)) (s : Stmt V) : Res (Stmt V) :=
  match w with
  | some c => c.run st (s.writeS " WHERE ")
  | none => .ok s

def groupLoop : List String → Stmt V → Stmt V
  | [], s => s
  | g :: gs, s => groupLoop gs (s.writeS ("," ++ g))

/-- Grouping (db.go.tpl:1181-1186). -/
def groupByClause (gs : List String) (s : Stmt V) : Stmt V :=
  match gs with
  | [] => s
  | g :: gs => groupLoop gs (s.writeS (" GROUP BY " ++ g))

def orderLoop : List Order → Stmt V → Stmt V
  | [], s => s
  | o :: os, s =>
    orderLoop os (if o.asc then s.writeS ("," ++ o.col ++ " ASC") else s.writeS ("," ++ o.col ++ " DESC"))

/-- Ordering (db.go.tpl:1187-1200 and alike). -/
def orderByClause (os : List Order) (s : Stmt V) : Stmt V :=
  match os with
  | [] => s
  | o :: os =>
    orderLoop os (if o.asc then s.writeS (" ORDER BY " ++ o.col)
      else s.writeS (" ORDER BY " ++ o.col ++ " DESC"))

/-- `" LIMIT " + strconv.Itoa(limit)` when positive (db.go.tpl:1201-1203). -/
def limitClause (n : Nat) (s : Stmt V) : Stmt V :=
  if n > 0 then s.writeS (" LIMIT " ++ toString n) else s

/-- `" OFFSET " + ...` when positive (db.go.tpl:1204-1206). -/
def offsetClause (n : Nat) (s : Stmt V) : Stmt V :=
  if n > 0 then s.writeS (" OFFSET " ++ toString n) else s

end Stmt

/-- The statement of `QueryStmt` (db.go.tpl:1151-1207). -/
def queryStmt (st : Style) (m : ModelInfo) (q : Select V) : Res (Stmt V) := do
  let s : Stmt V := {}
  let s := (s.writeS "SELECT ").selectList m q.select
  let s ← s.fromClause m q.fromTable
  let s ← s.whereClause st q.where_
  let s := (s.groupByClause q.groupBy).orderByClause q.orderBy
  let s := (s.limitClause q.limit).offsetClause q.offset
  .ok (s.writeS ";")

/-- The statement of `QueryOneStmt` (db.go.tpl:1237-1286). -/
def queryOneStmt (st : Style) (m : ModelInfo) (q : Select V) : Res (Stmt V) := do
  let s : Stmt V := {}
  let s := (s.writeS "SELECT ").selectList m q.select
  let s ← s.fromClause m q.fromTable
  let s ← s.whereClause st q.where_
  let s := (s.groupByClause q.groupBy).orderByClause q.orderBy
  .ok (s.writeS " LIMIT 1;")

structure Update (V : Type) where
  table : String := ""
  set : List (SetItem V) := []
  where_ : Option (Clause V) := none
  orderBy : List Order := []
  limit : Nat := 0

structure Delete (V : Type) where
  fromTable : String := ""
  where_ : Option (Clause V) := none
  orderBy : List Order := []
  limit : Nat := 0

namespace Stmt

def setLoop (st : Style) : List (SetItem V) → Stmt V → Stmt V
  | [], s => s
  | c :: cs, s => setLoop st cs (c.run st (s.writeS ","))

/-- Assignments (db.go.tpl:1331-1338). -/
def setClause (st : Style) (cs : List (SetItem V)) (s : Stmt V) : Stmt V :=
  match cs with
  | [] => s
  | c :: cs => setLoop st cs (c.run st (s.writeS " SET "))

end Stmt

/-- `LIMIT` exists only in the templates for mysql and sqlite (db.go.tpl:1357-1362, 1388-1393). -/
def execLimit (st : Style) (n : Nat) (s : Stmt V) : Stmt V :=
  match st with
  | .anon => s.limitClause n
  | .numbered => s

/-- `ExecStmt` for `UpdateStmt` (db.go.tpl:1325-1362, 1395). -/
def execUpdate (st : Style) (m : ModelInfo) (u : Update V) : Res (Stmt V) := do
  let s : Stmt V := {}
  let s := match m.table with
    | some t => s.writeS ("UPDATE " ++ dbTable m t)
    | none => s.writeS ("UPDATE " ++ dbName m ++ u.table)
  let s := s.setClause st u.set
  let s ← s.whereClause st u.where_
  let s := s.orderByClause u.orderBy
  let s := execLimit st u.limit s
  .ok (s.writeS ";")

/-- `ExecStmt` for `DeleteStmt` (db.go.tpl:1364-1395). -/
def execDelete (st : Style) (m : ModelInfo) (u : Delete V) : Res (Stmt V) := do
  let s : Stmt V := {}
  let s := match m.table with
    | some t => s.writeS ("DELETE FROM " ++ dbTable m t)
    | none => s.writeS ("DELETE FROM " ++ dbName m ++ u.fromTable)
  let s ← s.whereClause st u.where_
  let s := s.orderByClause u.orderBy
  let s := execLimit st u.limit s
  .ok (s.writeS ";")

/-! ### Reading the rows -/

/-- A result set as `database/sql` presents it: the rows delivered by `Next`, the error that made
`Next` return false (available only through `rows.Err`), and the result of `Close`. -/
structure Rows (R : Type) where
  rows : List R
  nextErr : Bool := false
  closeErr : Bool := false

/-- The loop of `QueryStmt` (db.go.tpl:1215-1226).  `rows.Err` is never consulted. -/
def scanRows {R T : Type} (scan : R → Option T) (r : Rows R) : Res (List T) :=
  match r.rows.mapM scan with
  | none => .err
  | some ts => if r.closeErr then .err else .ok ts

/-! ### `Format` -/

/-- Text of one symbol. -/
def Sym.chars : Sym → List Char
  | .ch c => [c]
  | .anon => ['?']
  | .num n => '$' :: (toString n).toList

/-- The statement as the string given to the database (`Query`, db.go.tpl:1473-1475). -/
def renderTxt (t : Txt) : List Char := t.flatMap Sym.chars

/-- `strings.Index` together with the two slices around the match. -/
def cut (pat : List Char) : List Char → Option (List Char × List Char)
  | [] => if pat = [] then some ([], []) else none
  | c :: s =>
    if pat.isPrefixOf (c :: s) then some ([], (c :: s).drop pat.length)
    else (cut pat s).map fun (a, b) => (c :: a, b)

/-- The loop of `Format` (db.go.tpl:1502-1524); `strf` renders a value. -/
def formatLoop (st : Style) (strf : V → List Char) : Nat → List V → List Char → Res (List Char)
  | i, args, str =>
    match cut (st.var i).chars str with
    | none => .ok str
    | some (a, b) =>
      match args with
      | [] => .panic
      | v :: args => do
        let r ← formatLoop st strf (i + 1) args b
        .ok (a ++ strf v ++ r)
  termination_by _ args _ => args.length

/-- `Format` with `%#v` or `%+v` (db.go.tpl:1481-1525). -/
def Stmt.format (st : Style) (strf : V → List Char) (s : Stmt V) : Res (List Char) :=
  formatLoop st strf 1 s.args (renderTxt s.text)

end Verif
