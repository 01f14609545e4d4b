import Verif.Spec.Sql
import Verif.Spec.Gen

/-!
# Records by key

What inserting, finding, updating and deleting records by key is to mean, and when the names in the generated statements
denote what the model declares.
-/

namespace Verif.Spec.Store

open Verif Verif.Gen Verif.Spec Verif.Spec.Gen Verif.Spec.Sql

variable {F X V : Type}

/-! ## Names -/

/-- The generator's quoting of `n` denotes `n`. -/
def Quoted (g : Cfg) (D : Dialect) (n : String) : Prop :=
  (g.quoteId n).toList = D.quote :: (n.toList ++ [D.quote]) ∧ D.quote ∉ n.toList ∧ n ≠ ""

/-- Without quotes, `n` denotes the same as with quotes. -/
def Bare (D : Dialect) (n : String) : Prop := Sql.Plain D n.toList ∧ D.fold false n.toList = D.fold true n.toList

/-- Text that is one word, possibly a reserved one. -/
def Wordy (D : Dialect) (s : String) : Prop := s ≠ "" ∧ ∀ c ∈ s.toList, isWord c = true ∧ c ≠ D.quote ∧ c ≠ ' '

/-- What the name of a column denotes. -/
def colName (D : Dialect) (c : GCol F) : Name := D.fold true c.name.toList

/-- What the name of a table denotes: that of a hand-written method stands without quotes. -/
def tableName (D : Dialect) (t : Table F) : Name :=
  match t.ownTable with
  | some n => D.fold false n.toList
  | none => D.fold true t.name.toList

/-- The names of a table can be written as the generated statements do. -/
structure Named (g : Cfg) (D : Dialect) (t : Table F) : Prop where
  quote : IsQuote D.quote
  table : match t.ownTable with
    | some n => Sql.Plain D n.toList
    | none => Quoted g D t.name
  cols : ∀ c ∈ t.columns, Quoted g D c.name

/-- The names of a table can also be written as the helpers do: in quotes if so configured, except for keys of several
columns. -/
structure BareNames (g : Cfg) (D : Dialect) (t : Table F) : Prop where
  table : t.ownTable = none → g.quoteNames = true ∨ Bare D t.name
  keys : ∀ c ∈ pick t (keyPos t), g.quoteNames = true ∧ (pick t (keyPos t)).length = 1 ∨ Bare D c.name

/-- Tables whose columns are written and read as they are. -/
def NoTemplates (t : Table F) : Prop := ∀ c ∈ t.columns, c.sqlVal = none ∧ c.sqlScan = none

/-- Tables without columns that only the database writes. -/
def AllWritten (t : Table F) : Prop := ∀ c ∈ t.columns, c.readonly = false

/-! ## Records by key -/

/-- The key of a record. -/
def keyOf (t : Table F) (r : F → X) : List X := (pick t (keyPos t)).map fun c => r c.field

/-- Records by key. -/
abbrev Map (F X : Type) := List X → Option (F → X)

inductive Op (F X : Type) where
  | insert (r : F → X)
  | find (r : F → X)
  | update (r : F → X)
  | delete (r : F → X)

/-- The record given. -/
def Op.record : Op F X → F → X
  | .insert r => r
  | .find r => r
  | .update r => r
  | .delete r => r

/-- The outcome of an operation. -/
inductive Out (R : Type) where
  /-- the record afterwards -/
  | ok (r : R)
  | noRows
  | duplicate
  | failed

variable [DecidableEq F] [DecidableEq X]

def put (m : Map F X) (k : List X) (s : Option (F → X)) : Map F X := fun k' => if k' = k then s else m k'

/-- The columns of `s`, everything else as in `r`. -/
def load (t : Table F) (s r : F → X) : F → X := fun f => if f ∈ t.columns.map (·.field) then s f else r f

/-- What an operation is to do. -/
def act (t : Table F) : Op F X → Map F X → Out (F → X) × Map F X
  | .insert r, m => if (m (keyOf t r)).isSome then (.duplicate, m) else (.ok r, put m (keyOf t r) (some r))
  | .find r, m =>
    match m (keyOf t r) with
    | some s => (.ok (load t s r), m)
    | none => (.noRows, m)
  | .update r, m => (.ok r, if (m (keyOf t r)).isSome then put m (keyOf t r) (some r) else m)
  | .delete r, m => (.ok r, put m (keyOf t r) none)

def acts (t : Table F) : List (Op F X) → Map F X → List (Out (F → X)) × Map F X
  | [], m => ([], m)
  | o :: os, m =>
    let a := act t o m
    let b := acts t os a.2
    (a.1 :: b.1, b.2)

/-- With a key made up by the database: an insert stores the record under a new key, which it then has. -/
def Act (t : Table F) (o : Op F X) (m : Map F X) (out : Out (F → X)) (m' : Map F X) : Prop :=
  match o, t.autoCol with
  | .insert r, some c => ∃ x, m [x] = none ∧
      (out, m') = (Out.ok (fun f => if f = c.field then x else r f),
        put m [x] (some fun f => if f = c.field then x else r f))
  | _, _ => (out, m') = act t o m

inductive Acts (t : Table F) : List (Op F X) → Map F X → List (Out (F → X)) → Map F X → Prop where
  | nil {m} : Acts t [] m [] m
  | cons {o os m out m' outs m''} : Act t o m out m' → Acts t os m' outs m'' → Acts t (o :: os) m (out :: outs) m''

/-! ## Tables that hold records -/

/-- A row has the values of a record. -/
def Rep (enc : F → X → V) (D : Dialect) (t : Table F) (s : F → X) (row : Row V) : Prop :=
  ∀ c ∈ t.columns, row (colName D c) = enc c.field (s c.field)

/-- All values of a record are in a given set. -/
def Good (Ok : F → X → Prop) (t : Table F) (s : F → X) : Prop := ∀ c ∈ t.columns, Ok c.field (s c.field)

/-- The table of the model, with some rows. -/
def tableOf (D : Dialect) (t : Table F) (rows : List (Row V)) : Tbl V where
  cols := t.columns.map (colName D)
  key := (pick t (keyPos t)).map (colName D)
  auto := t.autoCol.map (colName D)
  rows := rows

/-- Rows that differ in the key. -/
def Apart (D : Dialect) (t : Table F) (a b : Row V) : Prop := ∃ c ∈ pick t (keyPos t), a (colName D c) ≠ b (colName D c)

/-- The rows are those of the records, each under its key and once. -/
structure Holds (enc : F → X → V) (D : Dialect) (Ok : F → X → Prop) (t : Table F) (m : Map F X) (rows : List (Row V)) :
    Prop where
  stored : ∀ k s, m k = some s → keyOf t s = k ∧ Good Ok t s ∧ ∃ row ∈ rows, Rep enc D t s row
  only : ∀ row ∈ rows, ∃ s, m (keyOf t s) = some s ∧ Rep enc D t s row
  once : rows.Pairwise (Apart D t)

end Verif.Spec.Store
