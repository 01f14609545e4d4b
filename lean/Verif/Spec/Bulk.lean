import Verif.Spec.Store

/-!
# How a database reads and runs inserts of several rows and upserts

`INSERT INTO t (…) VALUES (…),(…)` with what is to be done about rows whose key exists: `ON CONFLICT(…) DO NOTHING`,
`ON CONFLICT(…) DO UPDATE SET c = EXCLUDED.c,…` (PostgreSQL, SQLite), `INSERT IGNORE`, `ON DUPLICATE KEY UPDATE
c = VALUES(c),…` (MySQL).
-/

namespace Verif.Spec.Sql

open Verif Verif.Spec

variable {V : Type}

/-- Whose rules: of PostgreSQL and SQLite, or of MySQL. -/
inductive Rules where
  | onConflict
  | onDuplicate
  deriving DecidableEq

/-- What is to be done about a row whose key exists. -/
inductive Conflict where
  | error
  /-- nothing; `target` are the columns named -/
  | skip (target : Option (List Name))
  /-- give these columns the values of the row that could not be inserted -/
  | update (target : Option (List Name)) (cols : List Name)
  deriving DecidableEq

structure Bulk (V : Type) where
  table : Name
  cols : List Name
  rows : List (List V)
  conflict : Conflict
  ret : List Name
  deriving DecidableEq

/-- `(value, …)` -/
def valueRow (ts : List (Tok V)) : Option (List V × List (Tok V)) := do
  let r ← sym '(' ts
  let (vs, r) ← many1 value r
  let r ← sym ')' r
  some (vs, r)

/-- `c = EXCLUDED.c` -/
def excluded (D : Dialect) (ts : List (Tok V)) : Option (Name × List (Tok V)) := do
  let (n, r) ← name D ts
  let r ← sym '=' r
  let r ← kw "EXCLUDED" r
  let r ← sym '.' r
  let (m, r) ← name D r
  if n = m then some (n, r) else none

/-- `c = VALUES(c)` -/
def valuesOf (D : Dialect) (ts : List (Tok V)) : Option (Name × List (Tok V)) := do
  let (n, r) ← name D ts
  let r ← sym '=' r
  let r ← kw "VALUES" r
  let r ← sym '(' r
  let (m, r) ← name D r
  let r ← sym ')' r
  if n = m then some (n, r) else none

/-- After the rows. -/
def conflict? (ru : Rules) (D : Dialect) (ignore : Bool) (ts : List (Tok V)) : Option (Conflict × List (Tok V)) :=
  match kw "ON" ts, ru with
  | none, _ => some (if ignore then .skip none else .error, ts)
  | some r, .onConflict => do
    let r ← kw "CONFLICT" r
    let r ← sym '(' r
    let (ns, r) ← many1 (name D) r
    let r ← sym ')' r
    let r ← kw "DO" r
    match kw "NOTHING" r with
    | some r => some (.skip (some ns), r)
    | none => do
      let r ← kw "UPDATE" r
      let r ← kw "SET" r
      let (cs, r) ← many1 (excluded D) r
      some (.update (some ns) cs, r)
  | some r, .onDuplicate => do
    let r ← kw "DUPLICATE" r
    let r ← kw "KEY" r
    let r ← kw "UPDATE" r
    let (cs, r) ← many1 (valuesOf D) r
    some (.update none cs, r)

/-- `IGNORE` is only known to MySQL. -/
def ignore? (ru : Rules) (ts : List (Tok V)) : Bool × List (Tok V) :=
  match kw "IGNORE" ts, ru with
  | some r, .onDuplicate => (true, r)
  | _, _ => (false, ts)

/-- Only PostgreSQL and SQLite return rows. -/
def returning? (ru : Rules) (D : Dialect) (ts : List (Tok V)) : Option (List Name × List (Tok V)) :=
  match kw "RETURNING" ts, ru with
  | some r, .onConflict => many1 (name D) r
  | _, _ => some ([], ts)

/-- The end of a statement; the semicolon may be missing. -/
def finish (ts : List (Tok V)) : Option Unit := if ts = [] then some () else done ts

def bulk? (ru : Rules) (D : Dialect) (ts : List (Tok V)) : Option (Bulk V) := do
  let r ← kw "INSERT" ts
  let (ign, r) := ignore? ru r
  let r ← kw "INTO" r
  let (t, r) ← name D r
  let r ← sym '(' r
  let (cs, r) ← many1 (name D) r
  let r ← sym ')' r
  let r ← kw "VALUES" r
  let (rows, r) ← many1 valueRow r
  let (c, r) ← conflict? ru D ign r
  let (ret, r) ← returning? ru D r
  finish r
  some ⟨t, cs, rows, c, ret⟩

/-- What a statement says; nothing if the database refuses it. -/
def readBulk (ru : Rules) (D : Dialect) (b : List (BSym V)) : Option (Bulk V) := (lex D.quote .idle b).bind (bulk? ru D)

/-! ## Running -/

variable [DecidableEq V]

/-- Rows with the same key. -/
def sameKey (key : List Name) (a b : Row V) : Bool := key.all fun k => decide (a k = b k)

/-- One row; `none` if there is an error.  The second part is the row returned, if any. -/
def putRow (key : List Name) (c : Conflict) (row : Row V) (rows : List (Row V)) : Option (List (Row V) × Option (Row V)) :=
  match rows.find? (sameKey key row) with
  | none => some (rows ++ [row], some row)
  | some old =>
    match c with
    | .error => none
    | .skip _ => some (rows, none)
    | .update _ cs =>
      some (rows.map fun r => if sameKey key row r then assign (cs.map fun n => (n, row n)) r else r,
        some (assign (cs.map fun n => (n, row n)) old))

def putRows (key : List Name) (c : Conflict) : List (Row V) → List (Row V) → Option (List (Row V) × List (Row V))
  | [], rows => some (rows, [])
  | row :: new, rows => do
    let (rows, x) ← putRow key c row rows
    let (rows, xs) ← putRows key c new rows
    some (rows, x.toList ++ xs)

/-- Some two rows have the same key. -/
def repeated (key : List Name) : List (Row V) → Bool
  | [] => false
  | r :: rs => rs.any (sameKey key r) || repeated key rs

/-- A conflict target must be the key. -/
def targetOk (key : List Name) : Conflict → Bool
  | .skip (some ns) => decide (ns.Perm key)
  | .update (some ns) _ => decide (ns.Perm key)
  | _ => true

def updated : Conflict → List Name
  | .update _ cs => cs
  | _ => []

/-- A statement has all its effect or none.  PostgreSQL and SQLite differ from MySQL in one respect: `DO UPDATE` must not
be given the same key twice (of SQLite this is not true, but nothing here depends on it). -/
def execBulk (null : V) (gen : Tbl V → V) (ru : Rules) (b : Bulk V) (σ : Store V) : Ans V × Store V :=
  match σ b.table with
  | none => (.refused, σ)
  | some t =>
    let new : List (Row V) := b.rows.map fun vs => assign (b.cols.zip vs) (blank null gen t)
    if known t b.cols = false ∨ (b.rows.any fun vs => vs.length ≠ b.cols.length) ∨
        (b.ret.all fun n => t.cols.contains n) = false ∨ targetOk t.key b.conflict = false ∨
        known t (updated b.conflict) = false ∨ (new.any fun row => t.key.any fun k => decide (row k = null)) ∨
        (ru = .onConflict ∧ updated b.conflict ≠ [] ∧ repeated t.key new = true) then (.refused, σ)
    else
      match putRows t.key b.conflict new t.rows with
      | none => (.duplicate, σ)
      | some (rows, out) =>
        (if b.ret = [] then .done none else .rows (out.map fun row => b.ret.map row), σ.put b.table { t with rows := rows })

end Verif.Spec.Sql

namespace Verif.Spec.Store

open Verif Verif.Gen Verif.Spec Verif.Spec.Gen Verif.Spec.Sql

variable {F X : Type} [DecidableEq F] [DecidableEq X]

/-- What is to be done with a record whose key exists. -/
inductive Existing where
  | error
  | keep
  /-- replace the columns in the list, keep the others -/
  | replace
  deriving DecidableEq

/-- Stores a record; `upd` are the fields to be replaced.  The second part is the record that is then stored, if anything
was done. -/
def store (t : Table F) (e : Existing) (upd : List F) (r : F → X) (m : Map F X) : Option (Map F X × Option (F → X)) :=
  match m (keyOf t r), e with
  | none, _ => some (put m (keyOf t r) (some r), some r)
  | some _, .error => none
  | some _, .keep => some (m, none)
  | some s, .replace =>
    some (put m (keyOf t r) (some fun f => if f ∈ upd then r f else s f), some fun f => if f ∈ upd then r f else s f)

/-- Stores several records, one after the other; nothing if one of them cannot be stored. -/
def storeAll (t : Table F) (e : Existing) (upd : List F) : List (F → X) → Map F X → Option (Map F X × List (F → X))
  | [], m => some (m, [])
  | r :: rs, m =>
    (store t e upd r m).bind fun a => (storeAll t e upd rs a.1).map fun b => (b.1, a.2.toList ++ b.2)

/-- The first record with a key. -/
def withKey (t : Table F) (rs : List (F → X)) (k : List X) : Option (F → X) := rs.find? fun r => decide (keyOf t r = k)

/-- The record that is stored for `r`, given the existing ones. -/
def storedFor (t : Table F) (upd : List F) (m : Map F X) (r : F → X) : F → X :=
  match m (keyOf t r) with
  | some s => fun f => if f ∈ upd then r f else s f
  | none => r

/-- Records read from rows, one after the other. -/
def into (t : Table F) : List (F → X) → List (F → X) → List (F → X)
  | s :: ss, r :: rs => load t s r :: into t ss rs
  | _, rs => rs

/-- What the caller wants done with existing records. -/
structure Wish where
  /-- keep them -/
  keep : Bool := false
  /-- do not replace these columns, named as in the statements of the helpers -/
  omitted : List String := []

/-- The columns replaced: neither of the key nor to be left out. -/
def replaced (g : Cfg) (t : Table F) (w : Wish) : List (GCol F) :=
  t.columns.filter fun c => decide (c.name ∉ (pick t (keyPos t)).map (·.name)) && decide (g.ident c.name ∉ w.omitted)

/-- The names of all columns can be written as the helpers do: in quotes if so configured. -/
def HelperNames (g : Cfg) (D : Dialect) (t : Table F) : Prop :=
  (∀ c ∈ t.columns, g.quoteNames = true ∨ Bare D c.name) ∧ (g.quoteNames = false ∨ (pick t (keyPos t)).length = 1)

end Verif.Spec.Store
