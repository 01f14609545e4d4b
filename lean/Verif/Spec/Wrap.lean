import Verif.Spec.Store

/-!
# Statements with functions

A reader and an evaluator for the statements of `Spec/Sql.lean` in which columns to be read and values are expressions: names, parameters,
whole numbers, and calls of functions of the database (PostgreSQL 17, section 4.2.6; MySQL 8.4, section 11.2.5; SQLite, `lang_expr`).  Left
out: operators, string literals, casts.
-/

namespace Verif.Spec.Wrap

open Verif Verif.Gen Verif.Spec Verif.Spec.Gen Verif.Spec.Sql

variable {V : Type}

/-! ## Expressions -/

inductive Ex (V : Type) where
  | name (n : Name)
  | val (v : V)
  | num (w : Name)
  | call (f : Name) (args : List (Ex V))

/-- A parenthesis that opens follows. -/
def opens : List (Tok V) → Bool
  | .sym c :: _ => c == '('
  | _ => false

def startsDigit (w : Name) : Bool := (w.head?.map Char.isDigit).getD false

/-- A name, a parameter or a number. -/
def atom (D : Dialect) : List (Tok V) → Option (Ex V × List (Tok V))
  | .val v :: r => some (.val v, r)
  | .word w :: r =>
    if startsDigit w then (if w.all Char.isDigit then some (.num w, r) else none)
    else (name D (.word w :: r)).map fun x => (.name x.1, x.2)
  | ts => (name D ts).map fun x => (.name x.1, x.2)

/-- The name of a function, and the parenthesis; cases are not told apart. -/
def call? : List (Tok V) → Option (Name × List (Tok V))
  | .word w :: .sym c :: r => if c = '(' ∧ startsDigit w = false then some (upper w, r) else none
  | _ => none

/-- An expression, nested at most `n` deep. -/
def expr (D : Dialect) : Nat → List (Tok V) → Option (Ex V × List (Tok V))
  | 0, _ => none
  | n + 1, ts =>
    match call? ts with
    | some (f, r) =>
      match many (expr D n) n r with
      | some (as, r) => (sym ')' r).map fun r => (.call f as, r)
      | none => none
    | none =>
      match atom D ts with
      | some (e, r) => if opens r then none else some (e, r)
      | none => none

def item (D : Dialect) (ts : List (Tok V)) : Option (Ex V × List (Tok V)) := expr D ts.length ts

/-! ## Statements -/

inductive Stmt (V : Type) where
  | insert (table : Name) (cols : List Name) (vals : List (Ex V)) (ret : List (Ex V))
  | select (cols : List (Ex V)) (table : Name) (cond : List (Name × Ex V))
  | update (table : Name) (sets : List (Name × Ex V)) (cond : List (Name × Ex V))
  | delete (table : Name) (cond : List (Name × Ex V))

/-- `name = expression` -/
def equal (D : Dialect) (ts : List (Tok V)) : Option ((Name × Ex V) × List (Tok V)) := do
  let (n, r) ← name D ts
  let r ← sym '=' r
  let (e, r) ← item D r
  some ((n, e), r)

/-- `name = expression` or `(name, …) = (expression, …)` -/
def cond (D : Dialect) (ts : List (Tok V)) : Option (List (Name × Ex V) × List (Tok V)) :=
  match sym '(' ts with
  | some r => do
    let (ns, r) ← many1 (name D) r
    let r ← sym ')' r
    let r ← sym '=' r
    let r ← sym '(' r
    let (es, r) ← many1 (item D) r
    let r ← sym ')' r
    if ns.length = es.length then some (ns.zip es, r) else none
  | none => (equal D ts).map fun x => ([x.1], x.2)

def insert? (D : Dialect) (ts : List (Tok V)) : Option (Stmt V) := do
  let r ← kw "INSERT" ts
  let r ← kw "INTO" r
  let (t, r) ← name D r
  let r ← sym '(' r
  let (cs, r) ← many1 (name D) r
  let r ← sym ')' r
  let r ← kw "VALUES" r
  let r ← sym '(' r
  let (es, r) ← many1 (item D) r
  let r ← sym ')' r
  match kw "RETURNING" r with
  | some r => do
    let (ret, r) ← many1 (item D) r
    done r
    some (.insert t cs es ret)
  | none => do
    done r
    some (.insert t cs es [])

def select? (D : Dialect) (ts : List (Tok V)) : Option (Stmt V) := do
  let r ← kw "SELECT" ts
  let (es, r) ← many1 (item D) r
  let r ← kw "FROM" r
  let (t, r) ← name D r
  let r ← kw "WHERE" r
  let (c, r) ← cond D r
  let r ← kw "LIMIT" r
  let r ← kw "1" r
  done r
  some (.select es t c)

def update? (D : Dialect) (ts : List (Tok V)) : Option (Stmt V) := do
  let r ← kw "UPDATE" ts
  let (t, r) ← name D r
  let r ← kw "SET" r
  let (s, r) ← many1 (equal D) r
  let r ← kw "WHERE" r
  let (c, r) ← cond D r
  done r
  some (.update t s c)

def delete? (D : Dialect) (ts : List (Tok V)) : Option (Stmt V) := do
  let r ← kw "DELETE" ts
  let r ← kw "FROM" r
  let (t, r) ← name D r
  let r ← kw "WHERE" r
  let (c, r) ← cond D r
  done r
  some (.delete t c)

def stmt (D : Dialect) (ts : List (Tok V)) : Option (Stmt V) :=
  insert? D ts <|> select? D ts <|> update? D ts <|> delete? D ts

/-- What a statement says; nothing if the database refuses it. -/
def read (D : Dialect) (b : List (BSym V)) : Option (Stmt V) := (lex D.quote .idle b).bind (stmt D)

/-! ## Running statements -/

/-- The functions of a database, which may fail, and its numbers. -/
structure Funs (V : Type) where
  fn : Name → List V → Option V
  num : Name → V

mutual
/-- The value of an expression for a row; without a row there are no columns. -/
def eval (B : Funs V) (row : Name → Option V) : Ex V → Option V
  | .name n => row n
  | .val v => some v
  | .num w => some (B.num w)
  | .call f as => (evals B row as).bind (B.fn f)
def evals (B : Funs V) (row : Name → Option V) : List (Ex V) → Option (List V)
  | [] => some []
  | a :: as => (eval B row a).bind fun v => (evals B row as).map (v :: ·)
end

/-- The columns of a row of the table. -/
def at_ (t : Tbl V) (row : Row V) : Name → Option V := fun n => if t.cols.contains n then some (row n) else none

variable [DecidableEq V]

/-- Names with values for expressions without columns. -/
def pairs (B : Funs V) (c : List (Name × Ex V)) : Option (List (Name × V)) :=
  (evals B (fun _ => none) (c.map (·.2))).map ((c.map (·.1)).zip ·)

/-- Runs a statement: as `Sql.exec`, after the values have been computed.  If a function fails, so does the statement.  Right sides of
assignments and comparisons are without columns. -/
def execute (B : Funs V) (null : V) (gen : Tbl V → V) : Stmt V → Sql.Store V → Ans V × Sql.Store V
  | .insert n cs es ret, σ =>
    match σ n, evals B (fun _ => none) es with
    | some t, some vs =>
      let a := exec null gen (.insert n cs vs []) σ
      match a.1, ret with
      | .done id, [] => (.done id, a.2)
      | .done _, ret =>
        match evals B (at_ t (assign (cs.zip vs) (blank null gen t))) ret with
        | some l => (.rows [l], a.2)
        | none => (.refused, σ)
      | x, _ => (x, σ)
    | _, _ => (.refused, σ)
  | .select es n c, σ =>
    match σ n, pairs B c with
    | some t, some c =>
      if (c.all fun p => t.cols.contains p.1) = false then (.refused, σ)
      else
        match ((t.rows.filter (holds null c)).take 1).mapM fun row => evals B (at_ t row) es with
        | some l => (.rows l, σ)
        | none => (.refused, σ)
    | _, _ => (.refused, σ)
  | .update n s c, σ =>
    match pairs B s, pairs B c with
    | some s, some c => exec null gen (.update n s c) σ
    | _, _ => (.refused, σ)
  | .delete n c, σ =>
    match pairs B c with
    | some c => exec null gen (.delete n c) σ
    | none => (.refused, σ)

/-! ## Templates -/

mutual
/-- An expression with a hole, and something in place of it. -/
def Ex.subst (x : Ex V) : Ex Unit → Ex V
  | .name n => .name n
  | .val _ => x
  | .num w => .num w
  | .call f as => .call f (Ex.substs x as)
def Ex.substs (x : Ex V) : List (Ex Unit) → List (Ex V)
  | [] => []
  | a :: as => Ex.subst x a :: Ex.substs x as
end

mutual
/-- An expression without columns. -/
def Ex.closed : Ex V → Bool
  | .name _ => false
  | .val _ => true
  | .num _ => true
  | .call _ as => Ex.closeds as
def Ex.closeds : List (Ex V) → Bool
  | [] => true
  | a :: as => Ex.closed a && Ex.closeds as
end

/-- The text of a template, with a hole as a parameter, is an expression. -/
def shape (D : Dialect) (t : Tmpl) : Option (Ex Unit) :=
  match lex D.quote .idle (fill t [.val ()]) with
  | some ts =>
    match item D ts with
    | some (e, []) => some e
    | _ => none
  | none => none

/-- A name in the hole ends where the hole ends: the text ends there, or goes on with a character that belongs to no name. -/
def ends (q : Char) : Tmpl → Bool
  | [] => true
  | [.hole] => true
  | .hole :: .lit s :: r =>
    (match s.toList with
      | c :: _ => c != q && !isWord c
      | [] => false) && ends q r
  | .hole :: _ => false
  | _ :: r => ends q r

/-- A template says: this expression of what is put in. -/
structure Says (D : Dialect) (t : Tmpl) (e : Ex Unit) : Prop where
  fine : Piece.bad ∉ t
  shape : shape D t = some e
  closed : e.closed = true
  ends : ends D.quote t = true

/-- An optional template says: this expression, or nothing but what is put in. -/
def Means (D : Dialect) : Option Tmpl → Ex Unit → Prop
  | some t, e => Says D t e
  | none, e => e = .val ()

/-- The value of an expression with a hole for a value. -/
def apply (B : Funs V) (e : Ex Unit) (v : V) : Option V := eval B (fun _ => none) (Ex.subst (.val v) e)

end Verif.Spec.Wrap
