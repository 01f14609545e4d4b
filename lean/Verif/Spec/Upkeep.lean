import Verif.Spec.Keyed

/-!
# Columns that the database fills in

Defaults, generated columns and triggers, for models in which such columns are read-only (tag option `readonly`).
-/

namespace Verif.Spec.Upkeep

open Verif Verif.Gen Verif.Spec Verif.Spec.Gen Verif.Spec.Sql Verif.Spec.Store

/-- What a database does besides what statements say. -/
structure Keeper (V : Type) where
  /-- columns of a table that statements are not allowed to assign (generated columns, missing rights) -/
  guarded : Name → Name → Bool
  /-- what is stored at a given time in place of a row that is inserted (without a row before) or updated: table, time, row
  before, row -/
  touch : Name → Nat → Option (Row V) → Row V → Row V

variable {F X V : Type} [DecidableEq V]

/-- Runs a statement at a given time: as `Sql.exec`, but columns can be guarded, and rows are touched before they are
stored. -/
def run (null : V) (gen : Tbl V → V) (K : Keeper V) (now : Nat) : Stmt V → Sql.Store V → Ans V × Sql.Store V
  | .insert n cs vs ret, σ =>
    match σ n with
    | none => (.refused, σ)
    | some t =>
      let row : Row V := K.touch n now none (assign (cs.zip vs) (blank null gen t))
      if known t cs = false ∨ cs.length ≠ vs.length ∨ cs.any (K.guarded n) = true ∨
          (ret.all fun n => t.cols.contains n) = false ∨ t.key.any (fun k => decide (row k = null)) then (.refused, σ)
      else if t.rows.any fun r => t.key.all fun k => decide (r k = row k) then (.duplicate, σ)
      else (if ret = [] then .done (t.auto.map row) else .rows [ret.map row],
        σ.put n { t with rows := t.rows ++ [row] })
  | .update n s c, σ =>
    match σ n with
    | none => (.refused, σ)
    | some t =>
      if known t (s.map (·.1)) = false ∨ (s.map (·.1)).any (K.guarded n) = true ∨
          (c.all fun p => t.cols.contains p.1) = false then (.refused, σ)
      else (.done none, σ.put n { t with
        rows := t.rows.map fun row => if holds null c row then K.touch n now (some row) (assign s row) else row })
  | .select cs n c, σ => exec null gen (.select cs n c) σ
  | .delete n c, σ => exec null gen (.delete n c) σ

/-! ## Records -/

/-- The database at the level of records: what it stores at a given time for a record that is inserted (without a record
before) or updated. -/
abbrev Care (F X : Type) := Nat → Option (F → X) → (F → X) → F → X

variable [DecidableEq F] [DecidableEq X]

/-- The fields of columns that are only read. -/
def readFields (t : Table F) : List F := (t.columns.filter (·.readonly)).map (·.field)

/-- The fields that are only read as in `s`, all others as in `r`. -/
def keep (t : Table F) (s r : F → X) : F → X := fun f => if f ∈ readFields t then s f else r f

/-- What an operation is to do: inserts and updates leave the fields that are only read to the database.  After an insert in
PostgreSQL (`back`) the record has what is stored; otherwise it is as it was. -/
def act (back : Bool) (t : Table F) (u : Care F X) (now : Nat) : Store.Op F X → Map F X → Out (F → X) × Map F X
  | .insert r, m =>
    if (m (keyOf t r)).isSome then (.duplicate, m)
    else (.ok (if back then load t (u now none r) r else r), put m (keyOf t r) (some (u now none r)))
  | .update r, m =>
    match m (keyOf t r) with
    | some s => (.ok r, put m (keyOf t r) (some (u now (some s) (keep t s r))))
    | none => (.ok r, m)
  | o, m => Store.act t o m

/-- With a key made up by the database, which the record then has. -/
def Act (back : Bool) (t : Table F) (u : Care F X) (now : Nat) (o : Store.Op F X) (m : Map F X) (out : Out (F → X))
    (m' : Map F X) : Prop :=
  match o, t.autoCol with
  | .insert r, some c => ∃ x, m [x] = none ∧
      (out, m') = act back t u now (.insert fun f => if f = c.field then x else r f) m
  | _, _ => (out, m') = act back t u now o m

/-- One operation after the other, at the times from `now` on. -/
inductive Acts (back : Bool) (t : Table F) (u : Care F X) :
    Nat → List (Store.Op F X) → Map F X → List (Out (F → X)) → Map F X → Prop where
  | nil {now m} : Acts back t u now [] m [] m
  | cons {now o os m out m' outs m''} : Act back t u now o m out m' → Acts back t u (now + 1) os m' outs m'' →
      Acts back t u now (o :: os) m (out :: outs) m''

/-- Models of which every field has one column and keys are written (the tag option `readonly` on a key is an error,
cmd/sqlgen/internal/compiler/parser.go:444-446). -/
structure Kept (t : Table F) : Prop where
  fields : (t.columns.map (·.field)).Nodup
  keys : ∀ c ∈ pick t (keyPos t), c.readonly = false

/-- The database cares for the columns that are only read, and for no others. -/
structure Cares (enc : F → X → V) (null : V) (D : Dialect) (Ok : F → X → Prop) (K : Keeper V) (u : Care F X) (t : Table F) :
    Prop where
  /-- columns that the program writes can be written -/
  guarded : ∀ c ∈ t.columns, c.readonly = false → K.guarded (tableName D t) (colName D c) = false
  /-- other fields stay as they are -/
  others : ∀ now s r f, f ∉ readFields t → u now s r f = r f
  good : ∀ now s r, (∀ s', s = some s' → Good Ok t s') → Good Ok t r → Good Ok t (u now s r)
  /-- a new row, of which the columns that are only read are empty -/
  new : ∀ now r row, Good Ok t r → (∀ c ∈ t.columns, row (colName D c) = if c.readonly then null else enc c.field (r c.field)) →
    Rep enc D t (u now none r) (K.touch (tableName D t) now none row)
  changed : ∀ now s r old row, Good Ok t s → Good Ok t r → Rep enc D t s old → Rep enc D t r row →
    Rep enc D t (u now (some s) r) (K.touch (tableName D t) now (some old) row)

end Verif.Spec.Upkeep
