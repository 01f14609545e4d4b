import Verif.Base.Sql

/-!
# The statement builder `SqlStmt` and the clause operators

`cmd/sqlgen/codegen/templates/db.go.tpl:1419-1531` and
`cmd/sqlgen/codegen/templates/operator.go.tpl:3-234`.

A Go value that is bound as an argument is an element of an arbitrary type `V`.
-/

namespace Verif

variable {V : Type}

/-- `SqlStmt` (db.go.tpl:1419-1423). -/
structure Stmt (V : Type) where
  text : Txt := []
  pos : Nat := 0
  args : List V := []
  deriving DecidableEq, Repr

namespace Stmt

/-- `WriteString` / `WriteByte` (db.go.tpl:1461-1471). -/
def write (s : Stmt V) (t : Txt) : Stmt V := { s with text := s.text ++ t }

/-- `Var` (db.go.tpl:1429-1437): returns the text of the placeholder. -/
def var (st : Style) (s : Stmt V) (v : V) : Stmt V × Txt :=
  ({ s with pos := s.pos + 1, args := s.args ++ [v] }, [st.var (s.pos + 1)])

/-- The loop of `Vars` for numbered placeholders (db.go.tpl:1449-1455). -/
def varsLoop : Nat → Nat → Txt
  | _, 0 => []
  | i, n + 1 =>
    if n + 1 > 1 then .num (i + 1) :: tx "," ++ varsLoop (i + 1) n
    else .num (i + 1) :: varsLoop (i + 1) n

/-- `strings.Repeat(",?", n)`. -/
def repeatVar : Nat → Txt
  | 0 => []
  | n + 1 => tx "," ++ .anon :: repeatVar n

/-- `Vars` (db.go.tpl:1439-1459).  In the anonymous style the slice expression `[1:]` of an empty
string panics, and `pos` is not advanced. -/
def vars (st : Style) (s : Stmt V) (vs : List V) : Res (Stmt V × Txt) :=
  let s' : Stmt V := { s with args := s.args ++ vs }
  match st with
  | .anon =>
    match repeatVar vs.length with
    | [] => .panic
    | _ :: t => .ok (s', tx "(" ++ t ++ tx ")")
  | .numbered =>
    .ok ({ s' with pos := s.pos + vs.length }, tx "(" ++ varsLoop s.pos vs.length ++ tx ")")

/-- `Reset` (db.go.tpl:1527-1531). -/
def reset (_ : Stmt V) : Stmt V := {}

end Stmt

/-- A column clause: its name and the conversion applied to values before binding.  The three cases
of the type switch in every operator (operator.go.tpl:33-40) differ only in the conversion, which is
the identity for plain columns. -/
structure Col (V : Type) where
  name : String
  conv : V → V

/-- Binary comparison operators (operator.go.tpl:31-55, 99-175). -/
inductive Op where
  | eq | ne | gt | ge | lt | le | like | notLike
  deriving DecidableEq, Repr

def Op.text : Op → String
  | .eq => " = "
  | .ne => " <> "
  | .gt => " > "
  | .ge => " >= "
  | .lt => " < "
  | .le => " <= "
  | .like => " LIKE "
  | .notLike => " NOT LIKE "

/-- Conditions built with the operators of operator.go.tpl. -/
inductive Clause (V : Type) where
  | and (cs : List (Clause V))
  | or (cs : List (Clause V))
  | cmp (op : Op) (c : Col V) (v : V)
  | isIn (neg : Bool) (c : Col V) (vs : List V)
  | null (neg : Bool) (c : Col V)
  | between (neg : Bool) (c : Col V) (a b : V)

mutual
/-- Running a clause against a statement (operator.go.tpl:3-213).  Go evaluates the operands of `+`
from left to right, so `Between` calls `Var(from)` before `Var(to)`. -/
def Clause.run (st : Style) : Clause V → Stmt V → Res (Stmt V)
  | .and cs, s => runGroup st " AND " cs s
  | .or cs, s => runGroup st " OR " cs s
  | .cmp op c v, s =>
    let (s, p) := s.var st (c.conv v)
    .ok (s.write (tx c.name ++ tx op.text ++ p))
  | .isIn neg c vs, s => do
    let (s, p) ← s.vars st (vs.map c.conv)
    .ok (s.write (tx c.name ++ tx (if neg then " NOT IN " else " IN ") ++ p))
  | .null neg c, s => .ok (s.write (tx c.name ++ tx (if neg then " IS NOT NULL" else " IS NULL")))
  | .between neg c a b, s =>
    let (s, p) := s.var st (c.conv a)
    let (s, q) := s.var st (c.conv b)
    .ok (s.write (tx c.name ++ tx (if neg then " NOT BETWEEN " else " BETWEEN ") ++ p ++ tx " AND " ++ q))

/-- `And` / `Or` bodies (operator.go.tpl:3-29). -/
def runGroup (st : Style) (sep : String) : List (Clause V) → Stmt V → Res (Stmt V)
  | [], s => .ok s
  | c :: cs, s => do
    let s ← c.run st (s.write (tx "("))
    let s ← runRest st sep cs s
    .ok (s.write (tx ")"))

/-- The loop over the remaining clauses. -/
def runRest (st : Style) (sep : String) : List (Clause V) → Stmt V → Res (Stmt V)
  | [], s => .ok s
  | c :: cs, s => do
    let s ← c.run st (s.write (tx sep))
    runRest st sep cs s
end

/-- `Set` (operator.go.tpl:215-226). -/
structure SetItem (V : Type) where
  col : Col V
  val : V

def SetItem.run (st : Style) (c : SetItem V) (s : Stmt V) : Stmt V :=
  let (s, p) := s.var st (c.col.conv c.val)
  s.write (tx c.col.name ++ tx " = " ++ p)

end Verif
