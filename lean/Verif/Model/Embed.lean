import Verif.Model.Store
import Verif.Model.Addrs

/-!
# Records as Go structs, with embedded pointers

`InsertOne`, `FindByPK`, `UpdateByPK` and `DeleteByPK` (`cmd/sqlgen/codegen/templates/db.go.tpl:13-69, 639-756`) called with a struct
in memory: the arguments are read through the generated getters (`cmd/sqlgen/codegen/generate.go:263-290, 672-678`), rows are scanned
into the struct after `Addrs` has allocated its pointers (generate.go:460-474), and the key made up by the database is assigned to the
promoted field (generate.go:158-162).  In `Model/Store.lean` records are functions from fields to values; here some of the fields may
be behind a nil pointer, and a call may panic or leave a record behind that differs from the one it was given.
-/

namespace Verif.Embed

open Verif Verif.Addrs Verif.Gen Verif.Spec Verif.Spec.Sql Verif.Spec.Store

variable {X V : Type}

/-- A struct in memory: which of its embedded pointers are non-nil, and what is in the fields of columns.  (What is said of fields
behind a nil pointer is without meaning.) -/
structure Obj (X : Type) where
  mem : Mem
  val : Path → X

/-- The values of fields: which of them is the nil pointer, the zero value of a field, and `new(T)` for a field of type `*T`. -/
structure Values (X : Type) where
  isNil : X → Bool
  zero : Path → X
  fresh : Path → X

/-- The field itself is a pointer. -/
def lastPtr (p : Path) : Bool := (p.getLast?.map Seg.ptr).getD false

/-- Which pointers of a struct with these columns are non-nil. -/
def nonNil (G : Values X) (cols : List Path) (r : Obj X) : Mem := fun q =>
  match cols.find? fun c => lastPtr c && decide (names c = q) with
  | some c => !G.isNil (r.val c)
  | none => r.mem q

/-- `v.p = new(T)`: the fields of an embedded struct have their zero values, a field of type `*T` points to one. -/
def allocate (G : Values X) (r : Obj X) (p : Path) : Obj X where
  mem := alloc r.mem (names p)
  val c := if c = p then G.fresh c else if p <+: c then G.zero c else r.val c

/-- The statements `if v.p == nil { v.p = new(T) }` of `Addrs` (generate.go:462-466). -/
def init (G : Values X) (cols : List Path) : Obj X → List Path → Res (Obj X)
  | r, [] => .ok r
  | r, p :: ps =>
    if canReach (nonNil G cols r) p then
      if nonNil G cols r (names p) then init G cols r ps else init G cols (allocate G r p) ps
    else .panic

/-- `Addrs` (generate.go:460-474): the struct afterwards; its result are the addresses of the columns. -/
def addrs (G : Values X) (cols : List Path) (r : Obj X) : Res (Obj X) := do
  let r' ← init G cols r (tablePtrPaths cols)
  if cols.all (canReach (nonNil G cols r')) then .ok r' else .panic

variable [DecidableEq V] (G : Values X) (E : Store.Env Path X V)

/-- The argument for a column (generate.go:672-678). -/
def arg (cols : List Path) (r : Obj X) (c : Path) : Res V :=
  match getOrValue (nonNil G cols r) c with
  | .ok (some c) => .ok (E.enc c (r.val c))
  | .ok none => .ok E.null
  | _ => .panic

/-- The arguments of a statement. -/
def args (cols : List Path) (r : Obj X) : List Path → Res (List V)
  | [] => .ok []
  | c :: cs => do
    let v ← arg G E cols r c
    let vs ← args cols r cs
    .ok (v :: vs)

/-- `v.c = x` -/
def Obj.set (r : Obj X) (c : Path) (x : X) : Obj X where
  mem := r.mem
  val c' := if c' = c then x else r.val c'

/-- `Scan` into the addresses: columns are set one after the other, up to the first error. -/
def scan : List Path → List V → Obj X → Bool × Obj X
  | [], [], r => (true, r)
  | c :: cs, v :: vs, r =>
    match E.dec c v (r.val c) with
    | some x => scan cs vs (r.set c x)
    | none => (false, r)
  | _, _, r => (false, r)

/-- How a call ends. -/
inductive End where
  | ok
  | noRows
  | duplicate
  | failed
  | panics
  deriving DecidableEq

/-- `db.QueryRowContext(…).Scan(model.Addrs()...)`: `Addrs` is called whatever the database answers. -/
def queryRow (t : Table Path) (r : Obj X) (a : Ans V) : End × Obj X :=
  match addrs G (genAddrs t) r with
  | .ok r' =>
    match a with
    | .rows (v :: _) =>
      match scan E (genAddrs t) v r' with
      | (true, r'') => (.ok, r'')
      | (false, r'') => (.failed, r'')
    | .rows [] => (.noRows, r')
    | .done _ => (.noRows, r')
    | .duplicate => (.duplicate, r')
    | .refused => (.failed, r')
  | _ => (.panics, r)

/-- `db.ExecContext(…)`. -/
def execOnly (r : Obj X) : Ans V → End × Obj X
  | .rows _ => (.ok, r)
  | .done _ => (.ok, r)
  | .duplicate => (.duplicate, r)
  | .refused => (.failed, r)

/-- `db.ExecContext(…)`, `LastInsertId` and `ScanAutoIncr` (db.go.tpl:48-59), which assigns to the field without a look at the pointers
before it (generate.go:159-162).  That its name denotes this field is assumed (C83). -/
def execAuto (cols : List Path) (c : GCol Path) (r : Obj X) : Ans V → End × Obj X
  | .done (some v) =>
    match E.toId v with
    | some x => if canReach (nonNil G cols r) c.field then (.ok, r.set c.field x) else (.panics, r)
    | none => (.failed, r)
  | .done none => (.failed, r)
  | .rows _ => (.failed, r)
  | .duplicate => (.duplicate, r)
  | .refused => (.failed, r)

/-- `InsertOne` (db.go.tpl:13-69). -/
def insertOne (t : Table Path) (r : Obj X) (σ : Sql.Store V) : (End × Obj X) × Sql.Store V :=
  match E.g.genInsertOne t with
  | .ok (text, fs) =>
    match args G E (genAddrs t) r fs with
    | .ok vs =>
      let a := Store.send E (text, vs) σ
      (if E.g.postgres then queryRow G E t r a.1 else
        match t.autoCol with
        | some c => execAuto G E (genAddrs t) c r a.1
        | none => execOnly r a.1, a.2)
    | _ => ((.panics, r), σ)
  | _ => ((.failed, r), σ)

/-- `FindByPK` (db.go.tpl:639-666). -/
def findByPK (t : Table Path) (r : Obj X) (σ : Sql.Store V) : (End × Obj X) × Sql.Store V :=
  match E.g.genFindByPK t with
  | .ok (text, fs) =>
    match args G E (genAddrs t) r fs with
    | .ok vs =>
      let a := Store.send E (text, vs) σ
      (queryRow G E t r a.1, a.2)
    | _ => ((.panics, r), σ)
  | _ => ((.failed, r), σ)

/-- `UpdateByPK` (db.go.tpl:669-673). -/
def updateByPK (t : Table Path) (r : Obj X) (σ : Sql.Store V) : (End × Obj X) × Sql.Store V :=
  match E.g.genUpdateByPK t with
  | .ok (text, fs) =>
    match args G E (genAddrs t) r fs with
    | .ok vs =>
      let a := Store.send E (text, vs) σ
      (execOnly r a.1, a.2)
    | _ => ((.panics, r), σ)
  | _ => ((.failed, r), σ)

/-- The value of a key. -/
def keyArg (cols : List Path) (r : Obj X) (c : Path) : V :=
  match arg G E cols r c with
  | .ok v => v
  | _ => E.null

/-- The fields that `PK` or `CompositeKey` read (generate.go:156-176). -/
def keyFields (t : Table Path) : List Path :=
  match t.autoCol with
  | some c => [c.field]
  | none => t.keyCols.map (·.field)

/-- `DeleteByPK` (db.go.tpl:729-756). -/
def deleteByPK (t : Table Path) (r : Obj X) (σ : Sql.Store V) : (End × Obj X) × Sql.Store V :=
  match args G E (genAddrs t) r (keyFields t) with
  | .ok _ =>
    match Helpers.deleteByPK E.g.style (Helpers.ofTable E.g t : Helpers.Mdl (Path → V) V) (keyArg G E (genAddrs t) r) with
    | .ok q =>
      let a := Store.send E q σ
      (execOnly r a.1, a.2)
    | _ => ((.failed, r), σ)
  | _ => ((.panics, r), σ)

/-- One of the four, with a struct. -/
inductive Call (X : Type) where
  | insert (r : Obj X)
  | find (r : Obj X)
  | update (r : Obj X)
  | delete (r : Obj X)

def perform (t : Table Path) : Call X → Sql.Store V → (End × Obj X) × Sql.Store V
  | .insert r, σ => insertOne G E t r σ
  | .find r, σ => findByPK G E t r σ
  | .update r, σ => updateByPK G E t r σ
  | .delete r, σ => deleteByPK G E t r σ

def performs (t : Table Path) : List (Call X) → Sql.Store V → List (End × Obj X) × Sql.Store V
  | [], σ => ([], σ)
  | o :: os, σ =>
    let a := perform G E t o σ
    let b := performs t os a.2
    (a.1 :: b.1, b.2)

end Verif.Embed
