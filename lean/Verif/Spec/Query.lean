import Verif.Spec.Where
import Verif.Model.Query
import Mathlib.Data.List.Forall2

/-!
# The intended text of SELECT, UPDATE and DELETE statements
-/

namespace Verif.Spec

variable {V : Type}

/-- Strings separated by commas. -/
def commaStrs (l : List String) : List (BSym V) := List.intercalate (bs ",") (l.map bs)

/-- Qualified table name. -/
def qualified (m : ModelInfo) (t : String) : List (BSym V) :=
  match m.database with
  | some d => bs d ++ bs "." ++ bs t
  | none => bs t

/-- One item of an ORDER BY list: ascending is the default of SQL and may be spelled out. -/
inductive OrderItem : List (BSym V) → Order → Prop
  | plain (c : String) : OrderItem (bs c) ⟨c, true⟩
  | asc (c : String) : OrderItem (bs c ++ bs " ASC") ⟨c, true⟩
  | desc (c : String) : OrderItem (bs c ++ bs " DESC") ⟨c, false⟩

/-- An ORDER BY clause listing the columns in the order given. -/
inductive OrderText : List (BSym V) → List Order → Prop
  | none : OrderText [] []
  | some (items : List (List (BSym V))) (os : List Order) (hne : os ≠ [])
      (h : List.Forall₂ OrderItem items os) :
      OrderText (bs " ORDER BY " ++ List.intercalate (bs ",") items) os

/-- The columns to be selected: those asked for, else those of the model, else all. -/
def selectCols (m : ModelInfo) (sel : List String) : List (BSym V) :=
  if sel ≠ [] then commaStrs sel
  else match m.sqlColumns, m.columns with
    | some l, some _ => commaStrs l
    | none, some l => commaStrs l
    | _, none => bs "*"

/-- The table of a query: the one asked for, else that of the model. -/
def queryTable (m : ModelInfo) (from_ : String) : Option String :=
  if from_ = "" then m.table else some from_

def whereText : Option (Clause V) → List (BSym V)
  | none => []
  | some c => bs " WHERE " ++ meaning c

def groupText (gs : List String) : List (BSym V) :=
  if gs = [] then [] else bs " GROUP BY " ++ commaStrs gs

def countText (k : String) (n : Nat) : List (BSym V) :=
  if n = 0 then [] else bs k ++ bs (toString n)

/-- The text of a query from table `t`. -/
def SelectText (m : ModelInfo) (q : Select V) (t : String) (b : List (BSym V)) : Prop :=
  ∃ o, OrderText o q.orderBy ∧
    b = bs "SELECT " ++ selectCols m q.select ++ bs " FROM " ++ qualified m t ++
      whereText q.where_ ++ groupText q.groupBy ++ o ++
      countText " LIMIT " q.limit ++ countText " OFFSET " q.offset ++ bs ";"

/-- The text of a single row query from table `t`. -/
def SelectOneText (m : ModelInfo) (q : Select V) (t : String) (b : List (BSym V)) : Prop :=
  ∃ o, OrderText o q.orderBy ∧
    b = bs "SELECT " ++ selectCols m q.select ++ bs " FROM " ++ qualified m t ++
      whereText q.where_ ++ groupText q.groupBy ++ o ++ bs " LIMIT 1;"

def setText (cs : List (SetItem V)) : List (BSym V) :=
  if cs.isEmpty then []
  else bs " SET " ++ List.intercalate (bs ",")
    (cs.map fun c => bs c.col.name ++ bs " = " ++ [BSym.val (c.col.conv c.val)])

/-- `LIMIT` on data changing statements exists for mysql and sqlite. -/
def execLimitText (st : Style) (n : Nat) : List (BSym V) :=
  match st with
  | .anon => countText " LIMIT " n
  | .numbered => []

def UpdateText (st : Style) (m : ModelInfo) (u : Update V) (b : List (BSym V)) : Prop :=
  ∃ o, OrderText o u.orderBy ∧
    b = bs "UPDATE " ++ qualified m (m.table.getD u.table) ++ setText u.set ++
      whereText u.where_ ++ o ++ execLimitText st u.limit ++ bs ";"

def DeleteText (st : Style) (m : ModelInfo) (u : Delete V) (b : List (BSym V)) : Prop :=
  ∃ o, OrderText o u.orderBy ∧
    b = bs "DELETE FROM " ++ qualified m (m.table.getD u.fromTable) ++
      whereText u.where_ ++ o ++ execLimitText st u.limit ++ bs ";"

/-- Dialects of the generator. -/
inductive Dialect where
  | mysql | sqlite | postgres
  deriving DecidableEq, Repr

/-- Whether `OFFSET` may be given without `LIMIT`. -/
def offsetAlone : Dialect → Bool
  | .postgres => true
  | _ => false

end Verif.Spec
