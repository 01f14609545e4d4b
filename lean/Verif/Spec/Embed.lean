import Verif.Model.Embed
import Verif.Props.Addrs
import Verif.Spec.Keyed
import Verif.Spec.Parser

/-!
# Records as Go structs

What calls with structs are to do, in terms of the rows of the table.
-/

namespace Verif.Spec.Embed

open Verif Verif.Addrs Verif.Gen Verif.Embed Verif.Props Verif.Spec.Store Verif.Spec.Gen

variable {X V : Type}

/-- The paths of the columns of a struct: the same names are the same fields, fields of columns do not contain others, and no field has
two columns. -/
structure Struct (cols : List Path) : Prop where
  same : SameStruct cols
  leaves : ∀ c ∈ cols, ∀ d ∈ cols, c <+: d → c = d
  once : cols.Nodup

/-- The names a declaration adds to a struct. -/
def declNames : Parser.Decl → List String
  | .named ns _ _ => (ns.map fun n => String.ofList n.1).filter (· ≠ "_")
  | .embed n _ _ _ _ => [String.ofList n]

/-- The blank field is not exported. -/
def BlankHidden : Parser.Decl → Prop
  | .named ns _ _ => ∀ n ∈ ns, String.ofList n.1 = "_" → n.2 = false
  | .embed _ _ _ _ _ => True

/-- Go's rule for struct declarations: the fields of a struct, embedded ones included, have different names, except for blank ones. -/
def Declared (env : Parser.Env) : Prop := ∀ id, ((env id).flatMap declNames).Nodup ∧ ∀ d ∈ env id, BlankHidden d

/-- The zero value of a pointer is nil, `new(T)` is not. -/
def Lawful (G : Values X) (cols : List Path) : Prop :=
  ∀ c ∈ cols, lastPtr c = true → G.isNil (G.zero c) = true ∧ G.isNil (G.fresh c) = false

/-- No embedded pointer on the way to the field is nil. -/
def Reached (r : Obj X) (c : Path) : Prop := ∀ p, PtrOn p c → p ≠ c → r.mem (names p) = true

/-- There is a value: the field can be reached and is no nil pointer. -/
def Present (G : Values X) (r : Obj X) (c : Path) : Prop := Reached r c ∧ ¬ (lastPtr c = true ∧ G.isNil (r.val c) = true)

/-- All fields of columns can be reached. -/
def Whole (cols : List Path) (r : Obj X) : Prop := ∀ c ∈ cols, Reached r c

open Classical in
/-- What is written for a column: NULL if there is no value. -/
noncomputable def cells (G : Values X) (E : Store.Env Path X V) (r : Obj X) (c : Path) : V :=
  if Present G r c then E.enc c (r.val c) else E.null

open Classical in
/-- What is in a field when rows are scanned into the struct: where there was nothing, a zero value, or a pointer to one. -/
noncomputable def start (G : Values X) (r : Obj X) (c : Path) : X :=
  if Present G r c then r.val c else if lastPtr c = true then G.fresh c else G.zero c

/-- The struct after its pointers were allocated. -/
def Opened (G : Values X) (cols : List Path) (r r' : Obj X) : Prop :=
  ∀ c ∈ cols, Reached r' c ∧ r'.val c = start G r c

/-- A row read into a struct: every column is, or there is an error because one cannot be. -/
def Loads (G : Values X) (E : Store.Env Path X V) (cols : List Path) (s : Path → V) (r : Obj X) (a : End × Obj X) : Prop :=
  a.1 = .ok ∧ (∀ c ∈ cols, Reached a.2 c ∧ E.dec c (s c) (start G r c) = some (a.2.val c)) ∨
  a.1 = .failed ∧ ∃ c ∈ cols, E.dec c (s c) (start G r c) = none

/-- The values of the database, as they are. -/
def raw (E : Store.Env Path X V) : Store.Env Path V V where
  g := E.g
  D := E.D
  null := E.null
  gen := E.gen
  enc _ v := v
  dec _ v _ := some v
  toId v := some v

/-- Keys are not NULL. -/
def KeyCell (E : Store.Env Path X V) (t : Table Path) (f : Path) (v : V) : Prop :=
  f ∈ (pick t (keyPos t)).map (·.field) → v ≠ E.null

/-- The struct of a call. -/
def record : Call X → Obj X
  | .insert r => r
  | .find r => r
  | .update r => r
  | .delete r => r

/-- The key made up by the database, assigned to its field: if there is an embedded pointer before it that is nil, Go panics. -/
def Assigns (E : Store.Env Path X V) (c : Path) (k : V) (r : Obj X) (a : End × Obj X) : Prop :=
  match E.toId k with
  | some x => Reached r c ∧ a = (.ok, r.set c x) ∨ ¬ Reached r c ∧ a = (.panics, r)
  | none => a = (.failed, r)

/-- Keys made up by the database are new. -/
def Makes (E : Store.Env Path X V) (t : Table Path) (c : GCol Path) : Prop :=
  ∀ rows, E.gen (tableOf E.D t rows) ≠ E.null ∧ ∀ row ∈ rows, row (colName E.D c) ≠ E.gen (tableOf E.D t rows)

/-- A row with another value for a column. -/
def keyed (s : Path → V) (c : Path) (k : V) : Path → V := fun f => if f = c then k else s f

variable [DecidableEq V]

/-- What a call does with the rows by key `m`, and with the struct. -/
def Step (G : Values X) (E : Store.Env Path X V) (t : Table Path) : Call X → Map Path V → End × Obj X → Map Path V → Prop
  | .insert r, m, a, m' =>
    match t.autoCol with
    | some c => ∃ k, k ≠ E.null ∧ m [k] = none ∧ m' = put m [k] (some (keyed (cells G E r) c.field k)) ∧
      (if E.g.postgres then Loads G E (genAddrs t) (keyed (cells G E r) c.field k) r a else Assigns E c.field k r a)
    | none =>
      if (m (keyOf t (cells G E r))).isSome then
        m' = m ∧ a.1 = .duplicate ∧ (if E.g.postgres then Opened G (genAddrs t) r a.2 else a.2 = r)
      else
        m' = put m (keyOf t (cells G E r)) (some (cells G E r)) ∧
          (if E.g.postgres then Loads G E (genAddrs t) (cells G E r) r a else a = (.ok, r))
  | .find r, m, a, m' => m' = m ∧
    match m (keyOf t (cells G E r)) with
    | some s => Loads G E (genAddrs t) s r a
    | none => a.1 = .noRows ∧ Opened G (genAddrs t) r a.2
  | .update r, m, a, m' => a = (.ok, r) ∧
      m' = if (m (keyOf t (cells G E r))).isSome then put m (keyOf t (cells G E r)) (some (cells G E r)) else m
  | .delete r, m, a, m' => a = (.ok, r) ∧ m' = put m (keyOf t (cells G E r)) none

inductive Steps (G : Values X) (E : Store.Env Path X V) (t : Table Path) :
    List (Call X) → Map Path V → List (End × Obj X) → Map Path V → Prop where
  | nil {m} : Steps G E t [] m [] m
  | cons {o os m a m' as m''} : Step G E t o m a m' → Steps G E t os m' as m'' → Steps G E t (o :: os) m (a :: as) m''

/-- Calls whose key is given, if the database does not make it up; updates only if there is something to update. -/
def Given (G : Values X) (E : Store.Env Path X V) (t : Table Path) (o : Call X) : Prop :=
  ((∀ c ∈ pick t (keyPos t), cells G E (record o) c.field ≠ E.null) ∨ t.auto.isSome ∧ ∃ r, o = .insert r) ∧
    ∀ r, o = .update r → pick t (updatePos t) ≠ []

/-! ## Structs without nil embedded pointers -/

/-- The call with the values of the fields. -/
def opOf : Call X → Spec.Store.Op Path X
  | .insert r => .insert r.val
  | .find r => .find r.val
  | .update r => .update r.val
  | .delete r => .delete r.val

/-- A call ends as an operation does: the fields have the values of the record, and no embedded pointer is nil. -/
def EndsAs (cols : List Path) (a : End × Obj X) : Out (Path → X) → Prop
  | .ok s => a.1 = .ok ∧ Whole cols a.2 ∧ ∀ c ∈ cols, a.2.val c = s c
  | .noRows => a.1 = .noRows
  | .duplicate => a.1 = .duplicate
  | .failed => a.1 = .failed

/-- Calls with structs that can be stored. -/
def Solid (Ok : Path → X → Prop) (t : Table Path) (o : Call X) : Prop :=
  Whole (genAddrs t) (record o) ∧ Store.Fine Ok t (opOf o)

end Verif.Spec.Embed
