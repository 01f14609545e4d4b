import Verif.Spec.Bind
import Verif.Model.Stmt

/-!
# What a condition means

Two independent readings of the conditions a user builds:

* `Meaning`: the text with values in place that the condition should produce;
* a lexer and a precedence parser for SQL boolean expressions (`AND` binds tighter than `OR`), and a
  three valued evaluation of the parsed tree, to be compared with the tree the user wrote.

Only the data type of conditions is shared with the model.
-/

namespace Verif.Spec

variable {V : Type}

/-! ### Intended text -/

def opText : Op → String
  | .eq => " = " | .ne => " <> " | .gt => " > " | .ge => " >= " | .lt => " < " | .le => " <= "
  | .like => " LIKE " | .notLike => " NOT LIKE "

/-- A comma separated list of values in parentheses. -/
def tuple (vs : List V) : List (BSym V) :=
  bs "(" ++ List.intercalate (bs ",") (vs.map fun v => [BSym.val v]) ++ bs ")"

/-- Parenthesised group; an empty group is no text at all. -/
def paren (sep : String) : List (List (BSym V)) → List (BSym V)
  | [] => []
  | xs => bs "(" ++ List.intercalate (bs sep) xs ++ bs ")"

mutual
/-- The text, with values in place, of a condition. -/
def meaning : Clause V → List (BSym V)
  | .and cs => paren " AND " (meanings cs)
  | .or cs => paren " OR " (meanings cs)
  | .cmp op c v => bs c.name ++ bs (opText op) ++ [.val (c.conv v)]
  | .isIn false c vs => bs c.name ++ bs " IN " ++ tuple (vs.map c.conv)
  | .isIn true c vs => bs c.name ++ bs " NOT IN " ++ tuple (vs.map c.conv)
  | .null false c => bs c.name ++ bs " IS NULL"
  | .null true c => bs c.name ++ bs " IS NOT NULL"
  | .between false c a b =>
    bs c.name ++ bs " BETWEEN " ++ [.val (c.conv a)] ++ bs " AND " ++ [.val (c.conv b)]
  | .between true c a b =>
    bs c.name ++ bs " NOT BETWEEN " ++ [.val (c.conv a)] ++ bs " AND " ++ [.val (c.conv b)]
def meanings : List (Clause V) → List (List (BSym V))
  | [] => []
  | c :: cs => meaning c :: meanings cs
end

mutual
/-- All value lists of `IN` conditions are non-empty. -/
def inNonempty : Clause V → Bool
  | .and cs => insNonempty cs
  | .or cs => insNonempty cs
  | .isIn _ _ vs => !vs.isEmpty
  | _ => true
def insNonempty : List (Clause V) → Bool
  | [] => true
  | c :: cs => inNonempty c && insNonempty cs
end

/-! ### Three valued logic -/

/-- Truth values of SQL. -/
inductive TV where
  | t | f | u
  deriving DecidableEq, Repr

def TV.and : TV → TV → TV
  | .t, x => x
  | .f, _ => .f
  | .u, .f => .f
  | .u, _ => .u

def TV.or : TV → TV → TV
  | .f, x => x
  | .t, _ => .t
  | .u, .t => .t
  | .u, _ => .u

/-- Elementary conditions as the database understands them. -/
inductive Pred (V : Type) where
  | cmp (op : List Char) (neg : Bool) (col : List Char) (v : V)
  | isIn (neg : Bool) (col : List Char) (vs : List V)
  | null (neg : Bool) (col : List Char)
  | between (neg : Bool) (col : List Char) (a b : V)
  deriving DecidableEq, Repr

def opPred (op : Op) (col : List Char) (v : V) : Pred V :=
  match op with
  | .eq => .cmp ['='] false col v
  | .ne => .cmp ['<', '>'] false col v
  | .gt => .cmp ['>'] false col v
  | .ge => .cmp ['>', '='] false col v
  | .lt => .cmp ['<'] false col v
  | .le => .cmp ['<', '='] false col v
  | .like => .cmp ['L', 'I', 'K', 'E'] false col v
  | .notLike => .cmp ['L', 'I', 'K', 'E'] true col v

mutual
/-- The truth value the user means, for a given truth value of every elementary condition. -/
def sem (I : Pred V → TV) : Clause V → TV
  | .and cs => semAll I cs
  | .or cs => semAny I cs
  | .cmp op c v => I (opPred op c.name.toList (c.conv v))
  | .isIn neg c vs => I (.isIn neg c.name.toList (vs.map c.conv))
  | .null neg c => I (.null neg c.name.toList)
  | .between neg c a b => I (.between neg c.name.toList (c.conv a) (c.conv b))
def semAll (I : Pred V → TV) : List (Clause V) → TV
  | [] => .t
  | c :: cs => (sem I c).and (semAll I cs)
def semAny (I : Pred V → TV) : List (Clause V) → TV
  | [] => .f
  | c :: cs => (sem I c).or (semAny I cs)
end

/-! ### Lexer -/

inductive WTok (V : Type) where
  | word (w : List Char)
  | lp | rp | comma
  | val (v : V)
  deriving DecidableEq, Repr

def flush (w : List Char) : List (WTok V) := if w = [] then [] else [.word w]

/-- Splits bound text into words, parentheses, commas and values; `w` is the word being read. -/
def lexFrom (w : List Char) : List (BSym V) → List (WTok V)
  | [] => flush w
  | .val v :: t => flush w ++ .val v :: lexFrom [] t
  | .ch c :: t =>
    if c = ' ' then flush w ++ lexFrom [] t
    else if c = '(' then flush w ++ .lp :: lexFrom [] t
    else if c = ')' then flush w ++ .rp :: lexFrom [] t
    else if c = ',' then flush w ++ .comma :: lexFrom [] t
    else lexFrom (w ++ [c]) t

def lex (t : List (BSym V)) : List (WTok V) := lexFrom [] t

/-! ### Parser -/

/-- Parsed boolean expression. -/
inductive Ast (V : Type) where
  | pred (p : Pred V)
  | and (a b : Ast V)
  | or (a b : Ast V)

def Ast.eval (I : Pred V → TV) : Ast V → TV
  | .pred p => I p
  | .and a b => (a.eval I).and (b.eval I)
  | .or a b => (a.eval I).or (b.eval I)

def kw (s : String) : List Char := s.toList

/-- Remaining values of an `IN` list, up to the closing parenthesis. -/
def pVals : List (WTok V) → Option (List V × List (WTok V))
  | .val v :: .rp :: r => some ([v], r)
  | .val v :: .comma :: r => (pVals r).map fun (vs, r') => (v :: vs, r')
  | _ => none

/-- What follows the column name of an elementary condition. -/
def pTail (col : List Char) (neg : Bool) : List (WTok V) → Option (Pred V × List (WTok V))
  | .word w :: .val v :: r =>
    if w = kw "BETWEEN" then
      match r with
      | .word a :: .val v' :: r' => if a = kw "AND" then some (.between neg col v v', r') else none
      | _ => none
    else if w = kw "LIKE" then some (.cmp w neg col v, r)
    else if neg = false ∧ w ∈ [kw "=", kw "<>", kw ">", kw ">=", kw "<", kw "<="] then
      some (.cmp w false col v, r)
    else none
  | .word w :: .lp :: r =>
    if w = kw "IN" then (pVals r).map fun (vs, r') => (.isIn neg col vs, r') else none
  | _ => none

/-- Words that are not column names. -/
def reserved : List (List Char) :=
  [kw "AND", kw "OR", kw "NOT", kw "IN", kw "IS", kw "NULL", kw "LIKE", kw "BETWEEN"]

/-- Elementary condition. -/
def pPred : List (WTok V) → Option (Pred V × List (WTok V))
  | .word c :: .word w :: r =>
    if c ∈ reserved then none
    else if w = kw "IS" then
      match r with
      | .word n :: r' =>
        if n = kw "NULL" then some (.null false c, r')
        else if n = kw "NOT" then
          match r' with
          | .word n' :: r'' => if n' = kw "NULL" then some (.null true c, r'') else none
          | _ => none
        else none
      | _ => none
    else if w = kw "NOT" then pTail c true r
    else pTail c false (.word w :: r)
  | _ => none

/- Recursive descent: `OR` lowest, then `AND`, then parentheses and elementary conditions.  The
first argument bounds the number of calls. -/
mutual
def pOr : Nat → List (WTok V) → Option (Ast V × List (WTok V))
  | 0, _ => none
  | n + 1, ts =>
    match pAnd n ts with
    | some (a, .word w :: r) =>
      if w = kw "OR" then (pOr n r).map fun (b, r') => (.or a b, r') else some (a, .word w :: r)
    | x => x
def pAnd : Nat → List (WTok V) → Option (Ast V × List (WTok V))
  | 0, _ => none
  | n + 1, ts =>
    match pPrim n ts with
    | some (a, .word w :: r) =>
      if w = kw "AND" then (pAnd n r).map fun (b, r') => (.and a b, r') else some (a, .word w :: r)
    | x => x
def pPrim : Nat → List (WTok V) → Option (Ast V × List (WTok V))
  | 0, _ => none
  | n + 1, .lp :: r =>
    match pOr n r with
    | some (a, .rp :: r') => some (a, r')
    | _ => none
  | _ + 1, ts => (pPred ts).map fun (p, r) => (.pred p, r)
end

/-- Parses a complete condition. -/
def parseCond (ts : List (WTok V)) : Option (Ast V) :=
  match pOr (3 * ts.length + 3) ts with
  | some (a, []) => some a
  | _ => none

/-- Column names that the lexer reads as one word other than a keyword. -/
def SimpleName (s : String) : Prop :=
  (s.toList ≠ [] ∧ ∀ c ∈ s.toList, c ≠ ' ' ∧ c ≠ '(' ∧ c ≠ ')' ∧ c ≠ ',') ∧ s.toList ∉ reserved

mutual
/-- No empty group, no empty value list, simple column names. -/
def WellFormed : Clause V → Prop
  | .and cs => cs ≠ [] ∧ AllWF cs
  | .or cs => cs ≠ [] ∧ AllWF cs
  | .cmp _ c _ => SimpleName c.name
  | .isIn _ c vs => SimpleName c.name ∧ vs ≠ []
  | .null _ c => SimpleName c.name
  | .between _ c _ _ => SimpleName c.name
def AllWF : List (Clause V) → Prop
  | [] => True
  | c :: cs => WellFormed c ∧ AllWF cs
end

end Verif.Spec
