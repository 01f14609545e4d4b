import Verif.Spec.Helpers
import Verif.Spec.Query
import Verif.Model.Pager
import Mathlib.Order.Defs.LinearOrder

/-!
# What pagination should do

The database is a function from statements to rows about which only the two kinds of statements
pagination should send are specified (`Serves`); a table is a list of rows in ascending key order.
-/

namespace Verif.Spec.Pager

open Verif Verif.Spec Verif.Spec.Gen Verif.Helpers Verif.Spec.Helpers Verif.Pager

variable {R V K : Type}

/-- `SELECT columns FROM table WHERE `. -/
def headB (m : Mdl R V) : List (BSym V) :=
  bs "SELECT " ++ namesB m.sqlColumns ++ bs " FROM " ++ bs m.table ++ bs " WHERE "

/-- Comparison of the key with that of a record. -/
def cursorB (m : Mdl R V) (d : Dir) (r : R) : List (BSym V) :=
  let op := match d with | .next => bs " >= " | .prev => bs " <= "
  match m.key with
  | .single _ n _ val => bs "(" ++ bs n ++ op ++ [.val (val r)] ++ bs ")"
  | .comp names _ vals => bs "((" ++ namesB names ++ bs ")" ++ op ++ rowB (vals r) ++ bs ")"
  | .none => []

/-- The key as order, ascending resp. descending; ascending is the default of SQL. -/
def keyOrderB (m : Mdl R V) (d : Dir) : List (BSym V) :=
  match m.key, d with
  | .single _ n _ _, .next => bs n
  | .single _ n _ _, .prev => bs n ++ bs " DESC"
  | .comp names _ _, .next => bs "(" ++ namesB names ++ bs ")" ++ bs " ASC"
  | .comp names _ _, .prev => bs "(" ++ namesB names ++ bs ")" ++ bs " DESC"
  | .none, _ => []

def limitB (n : Nat) : List (BSym V) := bs " LIMIT " ++ bs (toString n) ++ bs ";"

/-- Reading one row by key. -/
def lookupB (m : Mdl R V) (c : R) : List (BSym V) := headB m ++ keyB m c ++ bs " LIMIT 1;"

/-- Reading the `n` rows from a record on. -/
def pageB (m : Mdl R V) (d : Dir) (c : R) (n : Nat) : List (BSym V) :=
  headB m ++ cursorB m d c ++ bs " ORDER BY " ++ keyOrderB m d ++ limitB n

/-- The rows in the order of travel. -/
def travel (d : Dir) (rows : List R) : List R :=
  match d with
  | .next => rows
  | .prev => rows.reverse

/-- At or after `a` in the direction of travel. -/
def fromOn [LinearOrder K] (d : Dir) (a b : K) : Bool :=
  match d with
  | .next => decide (a ≤ b)
  | .prev => decide (b ≤ a)

/-- The rows at or after (before) a key, in order. -/
def rest [LinearOrder K] (d : Dir) (key : R → K) (rows : List R) (k : K) : List R :=
  (travel d rows).filter fun r => fromOn d k (key r)

/-- A database holding the table `rows` and answering the two kinds of queries; `n` is the number in
the `LIMIT` clause. -/
structure Serves [LinearOrder K] (st : Style) (m : Mdl R V) (d : Dir) (key : R → K) (rows : List R) (n : Nat)
    (db : Txt → List V → Option (List R)) : Prop where
  sorted : rows.Pairwise fun a b => key a < key b
  find : ∀ t as c, bind st t as = some (lookupB m c) →
    db t as = some (rows.filter fun r => decide (key r = key c))
  page : ∀ t as c, bind st t as = some (pageB m d c n) →
    db t as = some ((rest d key rows (key c)).take n)

/-! ### Well-formedness -/

/-- Opening minus closing parentheses. -/
def depth : List (BSym V) → Int
  | [] => 0
  | .ch c :: t => (if c = '(' then 1 else if c = ')' then -1 else 0) + depth t
  | .val _ :: t => depth t

/-- Names in which parentheses balance. -/
def Flat (s : String) : Prop := depth (bs s : List (BSym Unit)) = 0

instance (s : String) : Decidable (Flat s) := inferInstanceAs (Decidable (_ = _))

/-- The order clause: the columns asked for with their directions, then the key; without columns the
key in the direction of travel. -/
def orderB (m : Mdl R V) (d : Dir) (os : List Order) : List (BSym V) :=
  match os.getLast? with
  | none => keyOrderB m d
  | some o =>
    (os.flatMap fun o => bs o.col ++ bs (if o.asc then " ASC," else " DESC,")) ++
      (match m.key with
        | .single _ n _ _ => bs n
        | .comp names _ _ => bs "(" ++ namesB names ++ bs ")"
        | .none => []) ++ bs (if o.asc then " ASC" else " DESC")

def tailB (m : Mdl R V) (d : Dir) (os : List Order) (n : Nat) : List (BSym V) :=
  bs " ORDER BY " ++ orderB m d os ++ limitB n

/-- The text of an optional filter. -/
def filterB : Option (Clause V) → List (BSym V)
  | some c => meaning c
  | none => []

/-- Something that can stand as a condition: an expression of comparisons joined by AND and OR, or a
comparison of the (possibly composite) key with that of the record. -/
def Condition (m : Mdl R V) (d : Dir) (r : R) (x : List (BSym V)) : Prop :=
  (parseCond (lex x)).isSome = true ∨ x = cursorB m d r

/-- The statement the database gets for `t` and `as` is a `SELECT` with a condition. -/
def QueryOk (st : Style) (m : Mdl R V) (d : Dir) (os : List Order) (n : Nat) (r : R) (t : Txt) (as : List V) :
    Prop :=
  ∃ x, bind st t as = some (headB m ++ x ++ tailB m d os n) ∧ Condition m d r x

/-- Key names are plain words; other names may contain balanced parentheses. -/
def NamesOk (m : Mdl R V) (os : List Order) : Prop :=
  (∀ c ∈ m.sqlColumns, Flat c) ∧ Flat m.table ∧ (∀ o ∈ os, Flat o.col) ∧
    match m.key with
    | .single _ n _ _ => SimpleName n
    | .comp names _ _ => ∀ n ∈ names, SimpleName n
    | .none => True

end Verif.Spec.Pager
