import Verif.Spec.Bind

/-!
# How a database reads and runs statements

A reader and an evaluator for the statements `INSERT`, `SELECT … LIMIT 1`, `UPDATE` and `DELETE` by equality of columns
with parameters.  Text has values in place of parameters (`Spec.Bind`).
-/

namespace Verif.Spec.Sql

open Verif Verif.Spec

abbrev Name := List Char

/-- How a database reads names: the quote of identifiers, what a name with or without quotes stands for (PostgreSQL
turns names without quotes into lower case, MySQL and SQLite do not tell cases apart), and the reserved words, in upper
case. -/
structure Dialect where
  quote : Char
  fold : Bool → Name → Name
  reserved : Name → Bool

def lower (n : Name) : Name := n.map Char.toLower
def upper (n : Name) : Name := n.map Char.toUpper

/-! ## Tokens -/

inductive Tok (V : Type) where
  | word (w : Name)
  /-- a quoted identifier -/
  | ident (s : Name)
  | sym (c : Char)
  | val (v : V)
  deriving DecidableEq

inductive St where
  | idle
  | word (w : Name)
  /-- within quotes -/
  | quoted (s : Name)
  /-- after a quote that ends an identifier unless another one follows -/
  | closed (s : Name)
  deriving DecidableEq

variable {V : Type}

def isWord (c : Char) : Bool := c.isAlphanum || c == '_' || 128 ≤ c.toNat

/-- The first character of a token. -/
def start (q c : Char) : List (Tok V) × St :=
  if c = q then ([], .quoted [])
  else if c = ' ' then ([], .idle)
  else if isWord c then ([], .word [c])
  else ([.sym c], .idle)

/-- The token that ends here.  An identifier must not be empty, and a quote must be closed. -/
def flush : St → Option (List (Tok V))
  | .idle => some []
  | .word w => some [.word w]
  | .closed s => if s = [] then none else some [.ident s]
  | .quoted _ => none

/-- A character that ends the token before it. -/
def next (q : Char) (t : List (Tok V)) (c : Char) : List (Tok V) × St :=
  let x := start (V := V) q c
  (t ++ x.1, x.2)

/-- One symbol.  A parameter cannot follow a name directly, and there are none within quotes. -/
def step (q : Char) : St → BSym V → Option (List (Tok V) × St)
  | .quoted s, .ch c => some ([], if c = q then .closed s else .quoted (s ++ [c]))
  | .closed s, .ch c =>
    if c = q then some ([], .quoted (s ++ [q]))
    else (flush (.closed s)).map fun t => next q t c
  | .word w, .ch c =>
    if isWord c ∧ c ≠ q then some ([], .word (w ++ [c]))
    else some (next q [.word w] c)
  | .idle, .ch c => some (start q c)
  | .idle, .val v => some ([.val v], .idle)
  | _, .val _ => none

def lex (q : Char) : St → List (BSym V) → Option (List (Tok V))
  | s, [] => flush s
  | s, b :: r =>
    match step q s b with
    | some (t, s') => (lex q s' r).map (t ++ ·)
    | none => none

/-! ## Statements -/

/-- Statements; a condition is a list of columns and the values they must have. -/
inductive Stmt (V : Type) where
  | insert (table : Name) (cols : List Name) (vals : List V) (ret : List Name)
  | select (cols : List Name) (table : Name) (cond : List (Name × V))
  | update (table : Name) (sets : List (Name × V)) (cond : List (Name × V))
  | delete (table : Name) (cond : List (Name × V))
  deriving DecidableEq

def kw (k : String) : List (Tok V) → Option (List (Tok V))
  | .word w :: r => if upper w = k.toList then some r else none
  | _ => none

def sym (c : Char) : List (Tok V) → Option (List (Tok V))
  | .sym d :: r => if d = c then some r else none
  | _ => none

def value : List (Tok V) → Option (V × List (Tok V))
  | .val v :: r => some (v, r)
  | _ => none

/-- A name: quoted, or a word that is not reserved and does not begin with a digit. -/
def name (D : Dialect) : List (Tok V) → Option (Name × List (Tok V))
  | .ident s :: r => some (D.fold true s, r)
  | .word w :: r =>
    if D.reserved (upper w) ∨ (w.head?.map Char.isDigit).getD false then none else some (D.fold false w, r)
  | _ => none

/-- The quotes of identifiers of the three databases. -/
def IsQuote (q : Char) : Prop := q = '`' ∨ q = '"'

/-- A name that can stand without quotes. -/
def Plain (D : Dialect) (n : Name) : Prop :=
  n ≠ [] ∧ (∀ c ∈ n, isWord c = true ∧ c ≠ D.quote ∧ c ≠ ' ') ∧ D.reserved (upper n) = false ∧
    (n.head?.map Char.isDigit).getD false = false

/-- One or more, separated by commas; at most `n`. -/
def many {α : Type} (p : List (Tok V) → Option (α × List (Tok V))) : Nat → List (Tok V) → Option (List α × List (Tok V))
  | 0, _ => none
  | n + 1, ts =>
    match p ts with
    | none => none
    | some (a, r) =>
      match sym ',' r with
      | some r' => (many p n r').map fun x => (a :: x.1, x.2)
      | none => some ([a], r)

def many1 {α : Type} (p : List (Tok V) → Option (α × List (Tok V))) (ts : List (Tok V)) : Option (List α × List (Tok V)) :=
  many p ts.length ts

/-- `name = value` -/
def equal (D : Dialect) (ts : List (Tok V)) : Option ((Name × V) × List (Tok V)) := do
  let (n, r) ← name D ts
  let r ← sym '=' r
  let (v, r) ← value r
  some ((n, v), r)

/-- `name = value` or `(name, …) = (value, …)` -/
def cond (D : Dialect) (ts : List (Tok V)) : Option (List (Name × V) × List (Tok V)) :=
  match sym '(' ts with
  | some r => do
    let (ns, r) ← many1 (name D) r
    let r ← sym ')' r
    let r ← sym '=' r
    let r ← sym '(' r
    let (vs, r) ← many1 value r
    let r ← sym ')' r
    if ns.length = vs.length then some (ns.zip vs, r) else none
  | none => (equal D ts).map fun x => ([x.1], x.2)

/-- The end of a statement. -/
def done (ts : List (Tok V)) : Option Unit :=
  match sym ';' ts with
  | some [] => some ()
  | _ => none

def insert? (D : Dialect) (ts : List (Tok V)) : Option (Stmt V) := do
  let r ← kw "INSERT" ts
  let r ← kw "INTO" r
  let (t, r) ← name D r
  let r ← sym '(' r
  let (cs, r) ← many1 (name D) r
  let r ← sym ')' r
  let r ← kw "VALUES" r
  let r ← sym '(' r
  let (vs, r) ← many1 value r
  let r ← sym ')' r
  match kw "RETURNING" r with
  | some r => do
    let (ret, r) ← many1 (name D) r
    done r
    some (.insert t cs vs ret)
  | none => do
    done r
    some (.insert t cs vs [])

def select? (D : Dialect) (ts : List (Tok V)) : Option (Stmt V) := do
  let r ← kw "SELECT" ts
  let (cs, r) ← many1 (name D) r
  let r ← kw "FROM" r
  let (t, r) ← name D r
  let r ← kw "WHERE" r
  let (c, r) ← cond D r
  let r ← kw "LIMIT" r
  let r ← kw "1" r
  done r
  some (.select cs t c)

def update? (D : Dialect) (ts : List (Tok V)) : Option (Stmt V) := do
  let r ← kw "UPDATE" ts
  let (t, r) ← name D r
  let r ← kw "SET" r
  let (s, r) ← many1 (equal D) r
  let r ← kw "WHERE" r
  let (c, r) ← cond D r
  done r
  some (.update t s c)

def delete? (D : Dialect) (ts : List (Tok V)) : Option (Stmt V) := do
  let r ← kw "DELETE" ts
  let r ← kw "FROM" r
  let (t, r) ← name D r
  let r ← kw "WHERE" r
  let (c, r) ← cond D r
  done r
  some (.delete t c)

def stmt (D : Dialect) (ts : List (Tok V)) : Option (Stmt V) :=
  insert? D ts <|> select? D ts <|> update? D ts <|> delete? D ts

/-- What a statement says; nothing if the database refuses it. -/
def read (D : Dialect) (b : List (BSym V)) : Option (Stmt V) := (lex D.quote .idle b).bind (stmt D)

/-! ## Running statements -/

abbrev Row (V : Type) := Name → V

structure Tbl (V : Type) where
  cols : List Name
  key : List Name
  /-- the column for which the database makes up values -/
  auto : Option Name
  rows : List (Row V)

/-- Tables by name. -/
abbrev Store (V : Type) := Name → Option (Tbl V)

inductive Ans (V : Type) where
  /-- with the value that was made up -/
  | done (id : Option V)
  | rows (l : List (List V))
  /-- a row with this key exists -/
  | duplicate
  /-- unknown names, wrong number of values, a key without value -/
  | refused

variable [DecidableEq V]

/-- Equality of SQL: never true of NULL. -/
def holds (null : V) (c : List (Name × V)) (row : Row V) : Bool :=
  c.all fun p => decide (row p.1 = p.2 ∧ p.2 ≠ null)

/-- Assignments to columns; the last one counts. -/
def assign (sets : List (Name × V)) (row : Row V) : Row V :=
  sets.foldl (fun r p n => if n = p.1 then p.2 else r n) row

def Store.put (σ : Store V) (n : Name) (t : Tbl V) : Store V := fun m => if m = n then some t else σ m

/-- Names that occur once and are columns. -/
def known (t : Tbl V) (ns : List Name) : Bool := decide ns.Nodup && ns.all (fun n => t.cols.contains n)

/-- A row with no values but the one made up for its table by `gen`. -/
def blank (null : V) (gen : Tbl V → V) (t : Tbl V) : Row V := fun n => if t.auto = some n then gen t else null

/-- Runs a statement.  Columns that are not given get `null` or a value made up by the database.  That an update leaves
keys unique is not checked. -/
def exec (null : V) (gen : Tbl V → V) : Stmt V → Store V → Ans V × Store V
  | .insert n cs vs ret, σ =>
    match σ n with
    | none => (.refused, σ)
    | some t =>
      let row : Row V := assign (cs.zip vs) (blank null gen t)
      if known t cs = false ∨ cs.length ≠ vs.length ∨ (ret.all fun n => t.cols.contains n) = false ∨
          t.key.any (fun k => decide (row k = null)) then (.refused, σ)
      else if t.rows.any fun r => t.key.all fun k => decide (r k = row k) then (.duplicate, σ)
      else (if ret = [] then .done (t.auto.map row) else .rows [ret.map row],
        σ.put n { t with rows := t.rows ++ [row] })
  | .select cs n c, σ =>
    match σ n with
    | none => (.refused, σ)
    | some t =>
      if (cs.all fun n => t.cols.contains n) = false ∨ (c.all fun p => t.cols.contains p.1) = false then (.refused, σ)
      else (.rows (((t.rows.filter (holds null c)).take 1).map fun row => cs.map row), σ)
  | .update n s c, σ =>
    match σ n with
    | none => (.refused, σ)
    | some t =>
      if known t (s.map (·.1)) = false ∨ (c.all fun p => t.cols.contains p.1) = false then (.refused, σ)
      else (.done none, σ.put n { t with rows := t.rows.map fun row => if holds null c row then assign s row else row })
  | .delete n c, σ =>
    match σ n with
    | none => (.refused, σ)
    | some t =>
      if (c.all fun p => t.cols.contains p.1) = false then (.refused, σ)
      else (.done none, σ.put n { t with rows := t.rows.filter fun row => !holds null c row })

end Verif.Spec.Sql
