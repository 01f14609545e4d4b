import Verif.Model.Query
import Verif.Model.Helpers

/-!
# `Paginate`, `Pager.Next` and `Pager.Prev`

`cmd/sqlgen/codegen/templates/db.go.tpl:805-1139`.

The statement comes from the pool and is reset after every query, so each round starts from an empty
statement (the pool is modelled in `Verif.Model.Pool`).  Failing `rows.Scan` calls and failing queries
are one outcome of the database here; `rows.Err` is not consulted by the code.  The start record is
looked up with the statement of `findByPK`, that is, for models without generated `FindOneByPKStmt`.
-/

namespace Verif.Pager

open Verif Verif.Helpers

variable {R V : Type}

/-- `Next` or `Prev`. -/
inductive Dir where
  | next | prev
  deriving DecidableEq, Repr

/-- `PaginateStmt` (db.go.tpl:805-811); `Select` and `FromTable` are never read. `Limit` is a `uint16`. -/
structure PStmt (V : Type) where
  where_ : Option (Clause V) := none
  orderBy : List Order := []
  limit : UInt16 := 0

/-- `Paginate` (db.go.tpl:813-821). -/
def paginate (p : PStmt V) : PStmt V := if p.limit = 0 then { p with limit := 100 } else p

/-- `colDict[name]`: the last position of the name, 0 if there is none (db.go.tpl:855-860, 1006-1011). -/
def colIdxFrom : Nat → Nat → List String → String → Nat
  | found, _, [], _ => found
  | found, i, c :: cs, name => colIdxFrom (if c = name then i else found) (i + 1) cs name

def colIdx (cols : List String) (name : String) : Nat := colIdxFrom 0 0 cols name

/-- `values[colDict[name]]`. -/
def cursorVal (m : Mdl R V) (r : R) (name : String) : Res V := getIdx (m.values r) (colIdx m.columns name)

/-- One of the two loops of `Next` over the order (db.go.tpl:1013-1026, 1028-1041). -/
def nextLoop (st : Style) (val : String → Res V) (sep up down : String) :
    Nat → List Order → Stmt V → Res (Stmt V)
  | _, [], s => .ok s
  | i, o :: os, s => do
    let v ← val o.col
    let s := if i > 0 then s.writeS sep else s
    let (s, p) := s.var st v
    nextLoop st val sep up down (i + 1) os
      (s.write (tx o.col ++ tx (if o.asc then up else down) ++ p))

/-- The loop of `Prev` over the order; the second half goes to a buffer (db.go.tpl:863-876). -/
def prevLoop (st : Style) (val : String → Res V) : List Order → Stmt V → Txt → Res (Stmt V × Txt)
  | [], s, buf => .ok (s, buf)
  | o :: os, s, buf => do
    let v ← val o.col
    let (s, p) := s.var st v
    let s := s.write (tx o.col ++ tx (if o.asc then " <= " else " >= ") ++ p ++ tx " AND ")
    let (s, q) := s.var st v
    prevLoop st val os s (buf ++ tx o.col ++ tx (if o.asc then " < " else " > ") ++ q ++ tx " OR ")

/-- The conditions on the ordered columns (db.go.tpl:854-880, 1005-1044). -/
def orderCond (st : Style) (m : Mdl R V) (d : Dir) (os : List Order) (r : R) (s : Stmt V) : Res (Stmt V) :=
  match os with
  | [] => .ok s
  | os =>
    match d with
    | .next => do
      let s ← nextLoop st (cursorVal m r) " AND " " >= " " <= " 0 os s
      let s ← nextLoop st (cursorVal m r) " OR " " > " " < " 0 os (s.writeS " AND (")
      .ok (s.writeS " OR ")
    | .prev => do
      let (s, buf) ← prevLoop st (cursorVal m r) os s []
      .ok (s.write (tx "(" ++ buf))

/-- Comparison with the key of the cursor (db.go.tpl:882-894, 1046-1058). -/
def keyCmp (st : Style) (m : Mdl R V) (d : Dir) (r : R) (s : Stmt V) : Res (Stmt V) :=
  let op := match d with | .next => " >= " | .prev => " <= "
  match m.key with
  | .comp names _ vals => do
    let (s, p) ← s.vars st (vals r)
    .ok (s.write (tx ("((" ++ joinStr "," names ++ ")" ++ op) ++ p ++ tx ")"))
  | .single _ name _ val =>
    let (s, p) := s.var st (val r)
    .ok (s.write (tx ("(" ++ name ++ op) ++ p ++ tx ")"))
  | .none => .panic

def orderLoop : List Order → Stmt V → Stmt V
  | [], s => s
  | o :: os, s => orderLoop os (s.writeS (o.col ++ (if o.asc then " ASC," else " DESC,")))

/-- The key in the `ORDER BY` clause with a direction. -/
def keyOrder (m : Mdl R V) (single comp : String) (s : Stmt V) : Res (Stmt V) :=
  match m.key with
  | .comp names _ _ => .ok (s.writeS ("(" ++ joinStr "," names ++ ")" ++ comp))
  | .single _ name _ _ => .ok (s.writeS (name ++ single))
  | .none => .panic

/-- `ORDER BY` (db.go.tpl:897-936, 1060-1099).  Without order columns `Next` leaves the direction of a
single key to the database's default. -/
def orderPart (m : Mdl R V) (d : Dir) (os : List Order) (s : Stmt V) : Res (Stmt V) :=
  let s := s.writeS " ORDER BY "
  match os.getLast? with
  | some o =>
    let suffix := if o.asc then " ASC" else " DESC"
    keyOrder m suffix suffix (orderLoop os s)
  | none =>
    match d with
    | .next => keyOrder m "" " ASC" s
    | .prev => keyOrder m " DESC" " DESC" s

def whereCond (st : Style) (w : Option (Clause V)) (s : Stmt V) : Res (Stmt V) :=
  match w with
  | some c => c.run st s
  | none => .ok s

def cursorCond (st : Style) (m : Mdl R V) (d : Dir) (hasCursor : Bool) (r : R) (s : Stmt V) : Res (Stmt V) :=
  if hasCursor then keyCmp st m d r s else .ok s

/-- The query of one round (db.go.tpl:849-938, 1000-1101).  `r.stmt.Limit+1` is computed in `uint16`. -/
def pageQuery (st : Style) (m : Mdl R V) (d : Dir) (p : PStmt V) (hasCursor : Bool) (r : R) :
    Res (Stmt V) := do
  let s : Stmt V := {}
  let s := s.writeS ("SELECT " ++ joinStr "," m.sqlColumns ++ " FROM " ++ m.table ++ " WHERE ")
  let s ← whereCond st p.where_ s
  let s ← orderCond st m d p.orderBy r s
  let s ← cursorCond st m d hasCursor r s
  let s ← orderPart m d p.orderBy s
  .ok (s.writeS (" LIMIT " ++ toString (p.limit + 1).toNat ++ ";"))

/-- What the consumer of the iterator is given. -/
inductive Ev (R : Type) where
  | page (rows : List R)
  | error
  deriving DecidableEq, Repr

/-- How the iteration ended; `running` when it did not within the given number of rounds. -/
inductive End where
  | finished | panicked | running
  deriving DecidableEq, Repr

structure Run (R : Type) where
  evs : List (Ev R)
  fin : End
  deriving DecidableEq, Repr

/-- `FindByPK(ctx, db, &v)`: the record read, an error if there is none (db.go.tpl:842-847, 993-998). -/
def lookup (st : Style) (m : Mdl R V) (db : Txt → List V → Option (List R)) (hasCursor : Bool) (v : R) : Res R :=
  if hasCursor then do
    let (t, as) ← findByPK st m v
    match db t as with
    | some (r :: _) => .ok r
    | _ => .err
  else .ok v

/-- The loop of `Next` and `Prev` (db.go.tpl:841-974, 992-1137), at most `fuel` rounds.  `keep i` is the
answer of the consumer to the `i`-th page. -/
def loop (st : Style) (m : Mdl R V) (d : Dir) (p : PStmt V) (db : Txt → List V → Option (List R))
    (keep : Nat → Bool) : Nat → Nat → Bool → R → Run R
  | 0, _, _, _ => ⟨[], .running⟩
  | fuel + 1, i, hasCursor, v =>
    match lookup st m db hasCursor v with
    | .panic => ⟨[], .panicked⟩
    | .err => ⟨[.error], .finished⟩
    | .ok v =>
      match pageQuery st m d p hasCursor v with
      | .panic => ⟨[], .panicked⟩
      | .err => ⟨[.error], .finished⟩
      | .ok s =>
        match db s.text s.args with
        | none => ⟨[.error], .finished⟩
        | some data =>
          if data.length.toUInt16 ≤ p.limit then ⟨[.page data], .finished⟩
          else
            match data.getLast? with
            | none => ⟨[], .panicked⟩
            | some v' =>
              if keep i then
                let r := loop st m d p db keep fuel (i + 1) true v'
                ⟨.page data.dropLast :: r.evs, r.fin⟩
              else ⟨[.page data.dropLast], .finished⟩

/-- `Paginate(stmt).Next(ctx, db, cursor...)` resp. `Prev`; `zero` is the zero record. -/
def run (st : Style) (m : Mdl R V) (d : Dir) (p : PStmt V) (db : Txt → List V → Option (List R))
    (keep : Nat → Bool) (fuel : Nat) (zero : R) (cursor : Option R) : Run R :=
  match cursor with
  | some c => loop st m d (paginate p) db keep fuel 0 true c
  | none => loop st m d (paginate p) db keep fuel 0 false zero

end Verif.Pager
