import Verif.Spec.Bulk
import Verif.Spec.Where

/-!
# How a database reads and runs statements with conditions

`SELECT … FROM t [WHERE …] [ORDER BY …] [LIMIT n] [OFFSET n]`, `UPDATE t SET … [WHERE …] [ORDER BY …] [LIMIT n]` and
`DELETE FROM t [WHERE …] [ORDER BY …] [LIMIT n]`.  Conditions are those of `Spec/Where.lean`; here they are read from the
tokens of `Spec/Sql.lean`, so that names may be quoted.  Simplified: `< =` is read as `<=`; numbers are words of digits.
-/

namespace Verif.Spec

variable {V : Type}

def TV.ofBool (b : Bool) : TV := if b then .t else .f

def TV.not : TV → TV
  | .t => .f
  | .f => .t
  | .u => .u

def TV.flip (neg : Bool) (x : TV) : TV := if neg then TV.not x else x

/-- The column of an elementary condition. -/
def Pred.col : Pred V → List Char
  | .cmp _ _ n _ => n
  | .isIn _ n _ => n
  | .null _ n => n
  | .between _ n _ _ => n

/-- The columns of a condition. -/
def Ast.cols : Ast V → List (List Char)
  | .pred p => [p.col]
  | .and a b => a.cols ++ b.cols
  | .or a b => a.cols ++ b.cols

end Verif.Spec

namespace Verif.Spec.Sql

open Verif Verif.Spec

variable {V : Type}

/-! ## Reading -/

/-- Comparison operators. -/
def compare? : List (Tok V) → Option (List Char × List (Tok V))
  | .sym '<' :: .sym '>' :: r => some (['<', '>'], r)
  | .sym '<' :: .sym '=' :: r => some (['<', '='], r)
  | .sym '>' :: .sym '=' :: r => some (['>', '='], r)
  | .sym '=' :: r => some (['='], r)
  | .sym '<' :: r => some (['<'], r)
  | .sym '>' :: r => some (['>'], r)
  | _ => none

/-- `NOT` or nothing. -/
def not? (ts : List (Tok V)) : Bool × List (Tok V) :=
  match kw "NOT" ts with
  | some r => (true, r)
  | none => (false, ts)

/-- What follows the name of a column. -/
def predTail (col : Name) (ts : List (Tok V)) : Option (Pred V × List (Tok V)) :=
  match compare? ts with
  | some (op, r) => do
    let (v, r) ← value r
    some (.cmp op false col v, r)
  | none =>
    match kw "IS" ts with
    | some r => do
      let (neg, r) := not? r
      let r ← kw "NULL" r
      some (.null neg col, r)
    | none =>
      let (neg, r) := not? ts
      match kw "IN" r with
      | some r => do
        let r ← sym '(' r
        let (vs, r) ← many1 value r
        let r ← sym ')' r
        some (.isIn neg col vs, r)
      | none =>
        match kw "BETWEEN" r with
        | some r => do
          let (a, r) ← value r
          let r ← kw "AND" r
          let (b, r) ← value r
          some (.between neg col a b, r)
        | none => do
          let r ← kw "LIKE" r
          let (v, r) ← value r
          some (.cmp ['L', 'I', 'K', 'E'] neg col v, r)

/-- An elementary condition. -/
def pred (D : Dialect) (ts : List (Tok V)) : Option (Pred V × List (Tok V)) :=
  (name D ts).bind fun x => predTail x.1 x.2

/- `OR` lowest, then `AND`, then parentheses and elementary conditions.  The number bounds the depth of calls. -/
mutual
def orExpr (D : Dialect) : Nat → List (Tok V) → Option (Ast V × List (Tok V))
  | 0, _ => none
  | n + 1, ts =>
    match andExpr D n ts with
    | some (a, r) =>
      match kw "OR" r with
      | some r' => (orExpr D n r').map fun x => (.or a x.1, x.2)
      | none => some (a, r)
    | none => none
def andExpr (D : Dialect) : Nat → List (Tok V) → Option (Ast V × List (Tok V))
  | 0, _ => none
  | n + 1, ts =>
    match primary D n ts with
    | some (a, r) =>
      match kw "AND" r with
      | some r' => (andExpr D n r').map fun x => (.and a x.1, x.2)
      | none => some (a, r)
    | none => none
def primary (D : Dialect) : Nat → List (Tok V) → Option (Ast V × List (Tok V))
  | 0, _ => none
  | n + 1, ts =>
    match sym '(' ts with
    | some r =>
      match orExpr D n r with
      | some (a, r') => (sym ')' r').map fun r'' => (a, r'')
      | none => none
    | none => (pred D ts).map fun x => (.pred x.1, x.2)
end

/-- A condition. -/
def expr (D : Dialect) (ts : List (Tok V)) : Option (Ast V × List (Tok V)) := orExpr D (3 * ts.length + 3) ts

/-- `WHERE …`, if present. -/
def where? (D : Dialect) (ts : List (Tok V)) : Option (Option (Ast V) × List (Tok V)) :=
  match kw "WHERE" ts with
  | some r => (expr D r).map fun x => (some x.1, x.2)
  | none => some (none, ts)

/-- A column with `ASC`, `DESC` or nothing; the second part is whether the order is ascending. -/
def orderItem (D : Dialect) (ts : List (Tok V)) : Option ((Name × Bool) × List (Tok V)) := do
  let (n, r) ← name D ts
  match kw "DESC" r with
  | some r => some ((n, false), r)
  | none =>
    match kw "ASC" r with
    | some r => some ((n, true), r)
    | none => some ((n, true), r)

/-- `ORDER BY …`, if present. -/
def order? (D : Dialect) (ts : List (Tok V)) : Option (List (Name × Bool) × List (Tok V)) :=
  match kw "ORDER" ts with
  | some r => (kw "BY" r).bind (many1 (orderItem D))
  | none => some ([], ts)

/-- The number written with these digits. -/
def number? (w : Name) : Option Nat :=
  if w ≠ [] ∧ w.all Char.isDigit then some (w.foldl (fun n c => 10 * n + (c.toNat - 48)) 0) else none

/-- A keyword and a number, if the keyword is present. -/
def count? (k : String) (ts : List (Tok V)) : Option (Option Nat × List (Tok V)) :=
  match kw k ts with
  | some (.word w :: r) => (number? w).map fun n => (some n, r)
  | some _ => none
  | none => some (none, ts)

/-- Statements with conditions. -/
inductive Wide (V : Type) where
  | select (cols : List Name) (table : Name) (cond : Option (Ast V)) (order : List (Name × Bool)) (limit offset : Option Nat)
  | update (table : Name) (sets : List (Name × V)) (cond : Option (Ast V)) (order : List (Name × Bool)) (limit : Option Nat)
  | delete (table : Name) (cond : Option (Ast V)) (order : List (Name × Bool)) (limit : Option Nat)

/-- PostgreSQL knows `OFFSET` without `LIMIT`; only MySQL knows `ORDER BY` and `LIMIT` in updates and deletes. -/
inductive Brand where
  | postgres | mysql | sqlite
  deriving DecidableEq

def wideSelect? (br : Brand) (D : Dialect) (ts : List (Tok V)) : Option (Wide V) := do
  let r ← kw "SELECT" ts
  let (cs, r) ← many1 (name D) r
  let r ← kw "FROM" r
  let (t, r) ← name D r
  let (c, r) ← where? D r
  let (o, r) ← order? D r
  let (l, r) ← count? "LIMIT" r
  let (f, r) ← count? "OFFSET" r
  done r
  if l = none ∧ f ≠ none ∧ br ≠ .postgres then none else some (.select cs t c o l f)

/-- What may follow the condition of an update or a delete. -/
def limited? (br : Brand) (D : Dialect) (ts : List (Tok V)) : Option (List (Name × Bool) × Option Nat) := do
  let (o, r) ← order? D ts
  let (l, r) ← count? "LIMIT" r
  done r
  if br ≠ .mysql ∧ (o ≠ [] ∨ l ≠ none) then none else some (o, l)

def wideUpdate? (br : Brand) (D : Dialect) (ts : List (Tok V)) : Option (Wide V) := do
  let r ← kw "UPDATE" ts
  let (t, r) ← name D r
  let r ← kw "SET" r
  let (s, r) ← many1 (equal D) r
  let (c, r) ← where? D r
  let (o, l) ← limited? br D r
  some (.update t s c o l)

def wideDelete? (br : Brand) (D : Dialect) (ts : List (Tok V)) : Option (Wide V) := do
  let r ← kw "DELETE" ts
  let r ← kw "FROM" r
  let (t, r) ← name D r
  let (c, r) ← where? D r
  let (o, l) ← limited? br D r
  some (.delete t c o l)

def wide? (br : Brand) (D : Dialect) (ts : List (Tok V)) : Option (Wide V) :=
  wideSelect? br D ts <|> wideUpdate? br D ts <|> wideDelete? br D ts

/-- What a statement says; nothing if the database refuses it. -/
def readWide (br : Brand) (D : Dialect) (b : List (BSym V)) : Option (Wide V) := (lex D.quote .idle b).bind (wide? br D)

/-! ## Running -/

/-- Strictly earlier in the order of some columns, the first one being the most significant. -/
def precedes (before : V → V → Bool) : List (Name × Bool) → Row V → Row V → Bool
  | [], _, _ => false
  | (n, asc) :: ks, a, b =>
    if (if asc then before (a n) (b n) else before (b n) (a n)) then true
    else if (if asc then before (b n) (a n) else before (a n) (b n)) then false
    else precedes before ks a b

/-- How a database compares and arranges values that are not NULL; `before` is for sorting and covers NULL.  Rows are
arranged in some way that respects the order asked for. -/
structure Compare (V : Type) where
  eq : V → V → Bool
  lt : V → V → Bool
  like : V → V → Bool
  before : V → V → Bool
  arrange : List (Name × Bool) → List (Row V) → List (Row V)
  perm : ∀ ks rows, (arrange ks rows).Perm rows
  sorted : ∀ ks rows, (arrange ks rows).Pairwise fun a b => precedes before ks b a = false

variable [DecidableEq V]

/-- A comparison; with NULL its outcome is unknown. -/
def known3 (null : V) (x y : V) (b : Bool) : TV := if x = null ∨ y = null then .u else TV.ofBool b

/-- The comparisons. -/
def compare3 (K : Compare V) (null : V) (op : List Char) (x y : V) : TV :=
  known3 null x y <|
    if op = ['='] then K.eq x y
    else if op = ['<', '>'] then !K.eq x y
    else if op = ['<'] then K.lt x y
    else if op = ['>'] then K.lt y x
    else if op = ['<', '='] then K.lt x y || K.eq x y
    else if op = ['>', '='] then K.lt y x || K.eq x y
    else K.like x y

/-- The truth of an elementary condition in a row. -/
def predTruth (K : Compare V) (null : V) (row : Row V) : Pred V → TV
  | .cmp op neg n v => TV.flip neg (compare3 K null op (row n) v)
  | .isIn neg n vs => TV.flip neg (vs.foldr (fun v x => (compare3 K null ['='] (row n) v).or x) .f)
  | .null neg n => TV.flip neg (TV.ofBool (decide (row n = null)))
  | .between neg n a b =>
    TV.flip neg ((compare3 K null ['>', '='] (row n) a).and (compare3 K null ['<', '='] (row n) b))

/-- A statement applies to the rows for which its condition is true: not false, and not unknown. -/
def selects (K : Compare V) (null : V) (c : Option (Ast V)) (row : Row V) : Bool :=
  match c with
  | none => true
  | some a => decide (a.eval (predTruth K null row) = .t)

/-- The first `n`, if there is a limit. -/
def limitTo {α : Type} (n : Option Nat) (l : List α) : List α :=
  match n with
  | some n => l.take n
  | none => l

/-- The rows to which a statement applies, in order. -/
def chosen (K : Compare V) (null : V) (c : Option (Ast V)) (o : List (Name × Bool)) (n : Option Nat) (rows : List (Row V)) :
    List (Row V) :=
  limitTo n (K.arrange o (rows.filter (selects K null c)))

/-- All these are columns. -/
def hasCols (t : Tbl V) (ns : List Name) : Bool := ns.all fun n => t.cols.contains n

def namesIn (c : Option (Ast V)) (o : List (Name × Bool)) : List Name :=
  (match c with
    | some a => a.cols
    | none => []) ++ o.map (·.1)

/-- Runs a statement.  That an update leaves keys unique is not checked. -/
def execWide (K : Compare V) (null : V) : Wide V → Store V → Ans V × Store V
  | .select cs n c o l f, σ =>
    match σ n with
    | none => (.refused, σ)
    | some t =>
      if hasCols t (cs ++ namesIn c o) = false then (.refused, σ)
      else (.rows ((limitTo l ((chosen K null c o none t.rows).drop (f.getD 0))).map fun row => cs.map row), σ)
  | .update n s c o l, σ =>
    match σ n with
    | none => (.refused, σ)
    | some t =>
      if known t (s.map (·.1)) = false ∨ hasCols t (namesIn c o) = false then (.refused, σ)
      else
        let hit := chosen K null c o l t.rows
        (.done none, σ.put n { t with rows := t.rows.map fun row => if hit.any (sameKey t.key row) then assign s row else row })
  | .delete n c o l, σ =>
    match σ n with
    | none => (.refused, σ)
    | some t =>
      if hasCols t (namesIn c o) = false then (.refused, σ)
      else
        let hit := chosen K null c o l t.rows
        (.done none, σ.put n { t with rows := t.rows.filter fun row => !hit.any (sameKey t.key row) })

end Verif.Spec.Sql

/-! ## Conditions on records -/

namespace Verif.Spec.Store

open Verif Verif.Gen Verif.Spec Verif.Spec.Gen Verif.Spec.Sql

/-- A condition on the columns of a model. -/
inductive Cond (F X : Type) where
  | and (cs : List (Cond F X))
  | or (cs : List (Cond F X))
  | cmp (op : Verif.Op) (c : GCol F) (x : X)
  | isIn (neg : Bool) (c : GCol F) (xs : List X)
  | null (neg : Bool) (c : GCol F)
  | between (neg : Bool) (c : GCol F) (a b : X)

/-- How values of fields compare, and which are nil. -/
structure Comp (F X : Type) where
  isNil : F → X → Bool
  eq : F → X → X → Bool
  lt : F → X → X → Bool
  like : F → X → X → Bool
  before : F → X → X → Bool

variable {F X V : Type}

/-- What an operator says of two values. -/
def Comp.says (O : Comp F X) (f : F) : Verif.Op → X → X → Bool
  | .eq, x, y => O.eq f x y
  | .ne, x, y => !O.eq f x y
  | .lt, x, y => O.lt f x y
  | .gt, x, y => O.lt f y x
  | .le, x, y => O.lt f x y || O.eq f x y
  | .ge, x, y => O.lt f y x || O.eq f x y
  | .like, x, y => O.like f x y
  | .notLike, x, y => !O.like f x y

/-- What an operator says of two values in SQL: with nil, nothing. -/
def Comp.says3 (O : Comp F X) (f : F) (op : Verif.Op) (x y : X) : TV :=
  if O.isNil f x || O.isNil f y then .u else TV.ofBool (O.says f op x y)

mutual
/-- The meaning of a condition to someone who thinks of records and not of NULL. -/
def Cond.plain (O : Comp F X) (s : F → X) : Cond F X → Bool
  | .and cs => plainAll O s cs
  | .or cs => plainAny O s cs
  | .cmp op c x => O.says c.field op (s c.field) x
  | .isIn neg c xs => neg != xs.any fun x => O.says c.field .eq (s c.field) x
  | .null neg c => neg != O.isNil c.field (s c.field)
  | .between neg c a b => neg != (O.says c.field .ge (s c.field) a && O.says c.field .le (s c.field) b)
def plainAll (O : Comp F X) (s : F → X) : List (Cond F X) → Bool
  | [] => true
  | c :: cs => c.plain O s && plainAll O s cs
def plainAny (O : Comp F X) (s : F → X) : List (Cond F X) → Bool
  | [] => false
  | c :: cs => c.plain O s || plainAny O s cs
end

mutual
/-- The meaning of a condition in SQL. -/
def Cond.truth (O : Comp F X) (s : F → X) : Cond F X → TV
  | .and cs => truthAll O s cs
  | .or cs => truthAny O s cs
  | .cmp op c x => O.says3 c.field op (s c.field) x
  | .isIn neg c xs => TV.flip neg (xs.foldr (fun x y => (O.says3 c.field .eq (s c.field) x).or y) .f)
  | .null neg c => TV.ofBool (neg != O.isNil c.field (s c.field))
  | .between neg c a b =>
    TV.flip neg ((O.says3 c.field .ge (s c.field) a).and (O.says3 c.field .le (s c.field) b))
def truthAll (O : Comp F X) (s : F → X) : List (Cond F X) → TV
  | [] => .t
  | c :: cs => (c.truth O s).and (truthAll O s cs)
def truthAny (O : Comp F X) (s : F → X) : List (Cond F X) → TV
  | [] => .f
  | c :: cs => (c.truth O s).or (truthAny O s cs)
end

/-- The record satisfies the condition, if there is one. -/
def Meets (O : Comp F X) (c : Option (Cond F X)) (s : F → X) : Prop := ∀ a, c = some a → a.truth O s = .t

mutual
/-- Groups and lists are not empty; columns are of the table; values are good. -/
def Cond.Proper (Ok : F → X → Prop) (t : Table F) : Cond F X → Prop
  | .and cs => cs ≠ [] ∧ AllProper Ok t cs
  | .or cs => cs ≠ [] ∧ AllProper Ok t cs
  | .cmp _ c x => c ∈ t.columns ∧ Ok c.field x
  | .isIn _ c xs => c ∈ t.columns ∧ xs ≠ [] ∧ ∀ x ∈ xs, Ok c.field x
  | .null _ c => c ∈ t.columns
  | .between _ c a b => c ∈ t.columns ∧ Ok c.field a ∧ Ok c.field b
def AllProper (Ok : F → X → Prop) (t : Table F) : List (Cond F X) → Prop
  | [] => True
  | c :: cs => c.Proper Ok t ∧ AllProper Ok t cs
end

mutual
/-- Columns are of the table and values are good, but groups and lists may be empty. -/
def Cond.Fits (Ok : F → X → Prop) (t : Table F) : Cond F X → Prop
  | .and cs => AllFits Ok t cs
  | .or cs => AllFits Ok t cs
  | .cmp _ c x => c ∈ t.columns ∧ Ok c.field x
  | .isIn _ c xs => c ∈ t.columns ∧ ∀ x ∈ xs, Ok c.field x
  | .null _ c => c ∈ t.columns
  | .between _ c a b => c ∈ t.columns ∧ Ok c.field a ∧ Ok c.field b
def AllFits (Ok : F → X → Prop) (t : Table F) : List (Cond F X) → Prop
  | [] => True
  | c :: cs => c.Fits Ok t ∧ AllFits Ok t cs
end

mutual
/-- Somewhere in the condition there is an empty group or an empty list. -/
def Cond.hollow : Cond F X → Bool
  | .and cs => cs.isEmpty || anyHollow cs
  | .or cs => cs.isEmpty || anyHollow cs
  | .isIn _ _ xs => xs.isEmpty
  | _ => false
def anyHollow : List (Cond F X) → Bool
  | [] => false
  | c :: cs => c.hollow || anyHollow cs
end

mutual
/-- Nothing that is compared is nil. -/
def Cond.Definite (O : Comp F X) (s : F → X) : Cond F X → Prop
  | .and cs => AllDefinite O s cs
  | .or cs => AllDefinite O s cs
  | .cmp _ c x => O.isNil c.field (s c.field) = false ∧ O.isNil c.field x = false
  | .isIn _ c xs => O.isNil c.field (s c.field) = false ∧ ∀ x ∈ xs, O.isNil c.field x = false
  | .null _ _ => True
  | .between _ c a b => O.isNil c.field (s c.field) = false ∧ O.isNil c.field a = false ∧ O.isNil c.field b = false
def AllDefinite (O : Comp F X) (s : F → X) : List (Cond F X) → Prop
  | [] => True
  | c :: cs => c.Definite O s ∧ AllDefinite O s cs
end

/-- Strictly earlier in the order of some columns. -/
def Comp.earlier (O : Comp F X) : List (GCol F × Bool) → (F → X) → (F → X) → Bool
  | [], _, _ => false
  | (c, asc) :: ks, a, b =>
    let x := O.before c.field (a c.field) (b c.field)
    let y := O.before c.field (b c.field) (a c.field)
    if (if asc then x else y) then true else if (if asc then y else x) then false else O.earlier ks a b

variable [DecidableEq F] [DecidableEq X]

/-- `l` are the stored records that meet the condition, each once, in the order asked for. -/
structure Found (O : Comp F X) (t : Table F) (m : Map F X) (c : Option (Cond F X)) (o : List (GCol F × Bool))
    (l : List (F → X)) : Prop where
  exactly : ∀ s, s ∈ l ↔ m (keyOf t s) = some s ∧ Meets O c s
  once : (l.map (keyOf t)).Nodup
  sorted : l.Pairwise fun a b => O.earlier o b a = false

/-- Records with some columns set. -/
def setAll (sets : List (GCol F × X)) (s : F → X) : F → X :=
  sets.foldl (fun r p f => if f = p.1.field then p.2 else r f) s

/-- The map after the records of a list got these values. -/
def setIn (t : Table F) (sets : List (GCol F × X)) (l : List (F → X)) (m : Map F X) : Map F X :=
  fun k => (m k).map fun s => if (l.map (keyOf t)).contains k then setAll sets s else s

/-- The map without the records of a list. -/
def removeFrom (t : Table F) (l : List (F → X)) (m : Map F X) : Map F X :=
  fun k => if (l.map (keyOf t)).contains k then none else m k

/-- The database compares and sorts what is stored for values as the values compare. -/
structure Agrees (K : Compare V) (null : V) (enc : F → X → V) (Ok : F → X → Prop) (t : Table F) (O : Comp F X) : Prop where
  isNil : ∀ c ∈ t.columns, ∀ x, Ok c.field x → (enc c.field x = null ↔ O.isNil c.field x = true)
  eq : ∀ c ∈ t.columns, ∀ x y, Ok c.field x → Ok c.field y → K.eq (enc c.field x) (enc c.field y) = O.eq c.field x y
  lt : ∀ c ∈ t.columns, ∀ x y, Ok c.field x → Ok c.field y → K.lt (enc c.field x) (enc c.field y) = O.lt c.field x y
  like : ∀ c ∈ t.columns, ∀ x y, Ok c.field x → Ok c.field y → K.like (enc c.field x) (enc c.field y) = O.like c.field x y
  before : ∀ c ∈ t.columns, ∀ x y, Ok c.field x → Ok c.field y →
    K.before (enc c.field x) (enc c.field y) = O.before c.field x y

end Verif.Spec.Store
