import Verif.Spec.Keyed
import Verif.Spec.Cond

/-!
# How a database reads and runs the statements of pagination

`SELECT … FROM t [WHERE …] [ORDER BY …] [LIMIT n]`, where the whole condition may also be a comparison of rows in
parentheses, `((a, b) >= (x, y))`, and rows `(a, b)` may be among what is ordered by.  Conditions are otherwise those of
`Spec/Cond.lean`.  Left out: comparisons of rows within larger conditions, and other comparisons of rows than `<=` and `>=`.
-/

namespace Verif.Spec.Sql

open Verif Verif.Spec

variable {V : Type}

/-! ## Reading -/

/-- A condition: columns at or after (`up`) resp. at or before some values, or any other. -/
inductive PCond (V : Type) where
  | rows (up : Bool) (cols : List Name) (vals : List V)
  | plain (a : Ast V)

/-- `((a, …) >= (x, …))` -/
def rowCond (D : Dialect) (ts : List (Tok V)) : Option (PCond V × List (Tok V)) := do
  let r ← sym '(' ts
  let r ← sym '(' r
  let (ns, r) ← many1 (name D) r
  let r ← sym ')' r
  let (op, r) ← compare? r
  let r ← sym '(' r
  let (vs, r) ← many1 value r
  let r ← sym ')' r
  let r ← sym ')' r
  if ns.length ≠ vs.length then none
  else if op = ['>', '='] then some (.rows true ns vs, r)
  else if op = ['<', '='] then some (.rows false ns vs, r)
  else none

def pageWhere (D : Dialect) (ts : List (Tok V)) : Option (Option (PCond V) × List (Tok V)) :=
  match kw "WHERE" ts with
  | some r =>
    match expr D r with
    | some (a, r) => some (some (.plain a), r)
    | none => (rowCond D r).map fun x => (some x.1, x.2)
  | none => some (none, ts)

/-- `ASC`, `DESC` or nothing. -/
def direction (ts : List (Tok V)) : Bool × List (Tok V) :=
  match kw "DESC" ts with
  | some r => (false, r)
  | none =>
    match kw "ASC" ts with
    | some r => (true, r)
    | none => (true, ts)

/-- A column or a row, with a direction.  Only PostgreSQL orders by rows of several columns. -/
def pageOrderItem (br : Brand) (D : Dialect) (ts : List (Tok V)) : Option (List (Name × Bool) × List (Tok V)) :=
  match sym '(' ts with
  | some r => do
    let (ns, r) ← many1 (name D) r
    let r ← sym ')' r
    if 1 < ns.length ∧ br ≠ .postgres then none
    else some (ns.map fun n => (n, (direction r).1), (direction r).2)
  | none => do
    let (n, r) ← name D ts
    some ([(n, (direction r).1)], (direction r).2)

def pageOrder (br : Brand) (D : Dialect) (ts : List (Tok V)) : Option (List (Name × Bool) × List (Tok V)) :=
  match kw "ORDER" ts with
  | some r => ((kw "BY" r).bind (many1 (pageOrderItem br D))).map fun x => (x.1.flatten, x.2)
  | none => some ([], ts)

/-- The columns, the table, the condition, the order and the limit. -/
structure PageStmt (V : Type) where
  cols : List Name
  table : Name
  cond : Option (PCond V)
  order : List (Name × Bool)
  limit : Option Nat

def page? (br : Brand) (D : Dialect) (ts : List (Tok V)) : Option (PageStmt V) := do
  let r ← kw "SELECT" ts
  let (cs, r) ← many1 (name D) r
  let r ← kw "FROM" r
  let (t, r) ← name D r
  let (c, r) ← pageWhere D r
  let (o, r) ← pageOrder br D r
  let (l, r) ← count? "LIMIT" r
  done r
  some ⟨cs, t, c, o, l⟩

/-- What a statement says; nothing if the database refuses it. -/
def readPage (br : Brand) (D : Dialect) (b : List (BSym V)) : Option (PageStmt V) := (lex D.quote .idle b).bind (page? br D)

/-! ## Running -/

variable [DecidableEq V]

/-- Rows are compared column by column, as far as they are equal. -/
def rowTruth (K : Compare V) (null : V) (up : Bool) : List (V × V) → TV
  | [] => .t
  | (x, y) :: r =>
    if x = null ∨ y = null then .u
    else if (if up then K.lt y x else K.lt x y) then .t
    else if K.eq x y then rowTruth K null up r
    else .f

/-- The rows for which a condition is true. -/
def pageSelects (K : Compare V) (null : V) (c : Option (PCond V)) (row : Row V) : Bool :=
  match c with
  | none => true
  | some (.plain a) => selects K null (some a) row
  | some (.rows up ns vs) => decide (rowTruth K null up ((ns.map row).zip vs) = .t)

def pcols : Option (PCond V) → List Name
  | none => []
  | some (.plain a) => a.cols
  | some (.rows _ ns _) => ns

/-- Runs a statement. -/
def execPage (K : Compare V) (null : V) (s : PageStmt V) (σ : Store V) : Ans V :=
  match σ s.table with
  | none => .refused
  | some t =>
    if hasCols t (s.cols ++ (pcols s.cond ++ s.order.map (·.1))) = false then .refused
    else .rows ((limitTo s.limit (K.arrange s.order (t.rows.filter (pageSelects K null s.cond)))).map fun row => s.cols.map row)

end Verif.Spec.Sql

/-! ## Records in the order of their keys -/

namespace Verif.Spec.Store

open Verif Verif.Gen Verif.Spec Verif.Spec.Gen Verif.Spec.Sql

variable {F X V : Type}

/-- The columns of the key. -/
def keyCols (t : Table F) : List (GCol F) := pick t (keyPos t)

/-- The order of the keys. -/
def keyDir (t : Table F) (up : Bool) : List (GCol F × Bool) := (keyCols t).map fun c => (c, up)

/-- Values of the key are in a total order, by which the database also sorts. -/
structure Ordered (O : Comp F X) (Ok : F → X → Prop) (t : Table F) : Prop where
  eq : ∀ c ∈ keyCols t, ∀ x y, Ok c.field x → Ok c.field y → (O.eq c.field x y = true ↔ x = y)
  before : ∀ c ∈ keyCols t, ∀ x y, Ok c.field x → Ok c.field y → O.before c.field x y = O.lt c.field x y
  irrefl : ∀ c ∈ keyCols t, ∀ x, Ok c.field x → O.lt c.field x x = false
  trans : ∀ c ∈ keyCols t, ∀ x y z, Ok c.field x → Ok c.field y → Ok c.field z →
    O.lt c.field x y = true → O.lt c.field y z = true → O.lt c.field x z = true
  total : ∀ c ∈ keyCols t, ∀ x y, Ok c.field x → Ok c.field y → x = y ∨ O.lt c.field x y = true ∨ O.lt c.field y x = true

/-- The key of `b` is after that of `a`, upwards or downwards. -/
def Beyond (O : Comp F X) (t : Table F) (up : Bool) (a b : F → X) : Prop := O.earlier (keyDir t up) a b = true

/-- The key of `b` is that of `a` or after it. -/
def From (O : Comp F X) (t : Table F) (up : Bool) (a b : F → X) : Prop := keyOf t b = keyOf t a ∨ Beyond O t up a b

/-- `l` are the stored records with a property, in the order of their keys. -/
structure Listed (O : Comp F X) (t : Table F) (up : Bool) (m : Map F X) (P : (F → X) → Prop) (l : List (F → X)) : Prop where
  exactly : ∀ s, s ∈ l ↔ m (keyOf t s) = some s ∧ P s
  sorted : l.Pairwise (Beyond O t up)

/-- Pages of at most `n` records, from `c` on, read one after the other while others change the table: `mF j` and `mQ j` are
what is stored when the cursor of page `j` is looked up and when page `j` is read.  `lost`: it ended because a cursor was
gone; `more`: it has not ended. -/
structure Tour (O : Comp F X) (t : Table F) (up : Bool) (n : Nat) (mF mQ : Nat → Map F X) (c : F → X)
    (pages : List (List (F → X))) (lost more : Bool) : Prop where
  /-- each record is as it was stored when its page was read -/
  stored : ∀ (j : Nat) page, pages[j]? = some page → ∀ s ∈ page, mQ j (keyOf t s) = some s
  ahead : ∀ s ∈ pages.flatten, From O t up c s
  /-- in the order of the keys, in particular no key twice -/
  sorted : pages.flatten.Pairwise (Beyond O t up)
  sizes : ∀ page ∈ pages, page.length ≤ n
  full : ∀ (j : Nat) page, pages[j]? = some page → (j + 1 < pages.length ∨ lost = true ∨ more = true) → page.length = n
  /-- keys that are there all the time are not passed over -/
  gapless : ∀ k, (∀ j < pages.length, ∃ s, mQ j k = some s ∧ From O t up c s) →
    k ∈ pages.flatten.map (keyOf t) ∨ ∀ s ∈ pages.flatten, ∀ r, keyOf t r = k → Beyond O t up s r
  /-- and at the end all have been read -/
  complete : lost = false → more = false → ∀ k, (∀ j < pages.length, ∃ s, mQ j k = some s ∧ From O t up c s) →
    k ∈ pages.flatten.map (keyOf t)
  /-- a cursor that is gone is the first one, or was the next record to come when the last page was read -/
  gone : lost = true → ∃ v, mF pages.length (keyOf t v) = none ∧
    match pages.length with
    | 0 => v = c
    | j + 1 => mQ j (keyOf t v) = some v ∧ ∀ s ∈ pages.flatten, Beyond O t up s v

/-- The number of records on a page: 100 if nothing is said. -/
def pageSize (limit : UInt16) : Nat := if limit = 0 then 100 else limit.toNat

/-- An order column for which the generated model has no value where it is looked for: `Values()` has as many as there are
columns that the program writes, so the last columns of a model with a key made up by the database or with columns that are only
read are out of range. -/
def Overrun (t : Table F) (os : List (GCol F × Bool)) : Prop :=
  ∃ p ∈ os, ∃ j, t.columns[j]? = some p.1 ∧ (insertPos t).length ≤ j

end Verif.Spec.Store
