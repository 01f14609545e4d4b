import Verif.Spec.Migrate

/-!
# How the script of a migration is read

By the tool that runs it, which looks for the lines `-- +migrate Up` and `-- +migrate Down`, and by a database.  Simplified: brackets and
colons belong to words, the expressions of defaults are sequences of symbols, and keywords are in capital letters.
-/

namespace Verif.Spec.Ddl

/-! ## Symbols -/

inductive Sym where
  | word (w : Bytes)
  | name (n : Bytes)
  | text (s : Bytes)
  | mark (b : Byte)
  | comment (c : Bytes)
  deriving DecidableEq, Repr

/-- A database: the quote of names (`"` or a backquote), whether a backslash has a meaning in texts, and whether a column may have two
defaults, of which the last counts, and `ALTER TABLE` no clauses. -/
structure Server where
  quote : Byte
  escapes : Bool
  lax : Bool

def postgres : Server := ⟨34, false, false⟩
def mysql : Server := ⟨96, true, true⟩

/-- Where the reader is: between symbols, in a word, a name or a text (or after a quote, which may be the first of two), after `-`, or
in a comment. -/
inductive At where
  | ready
  | word (w : Bytes)
  | name (n : Bytes)
  | nameEnd (n : Bytes)
  | text (s : Bytes)
  | textEnd (s : Bytes)
  | textEsc (s : Bytes)
  | dash
  | comment (c : Bytes)
  | bad
  deriving DecidableEq, Repr

def isSpace (b : Byte) : Bool := b = 32 || b = 9 || b = 10 || b = 13
/-- `(`, `)`, `,` and `;` -/
def isMark (b : Byte) : Bool := b = 40 || b = 41 || b = 44 || b = 59
/-- What words are made of: no spaces, no marks, no quotes and no `-`. -/
def inWord (b : Byte) : Bool := !isSpace b && !isMark b && b ≠ 34 && b ≠ 39 && b ≠ 96 && b ≠ 45

variable (S : Server)

/-- The first byte of something. -/
def start (b : Byte) : List Sym × At :=
  if isSpace b then ([], .ready)
  else if isMark b then ([.mark b], .ready)
  else if b = S.quote then ([], .name [])
  else if b = 39 then ([], .text [])
  else if b = 45 then ([], .dash)
  else if inWord b then ([], .word [b])
  else ([], .bad)

def after (s : Sym) (p : List Sym × At) : List Sym × At := (s :: p.1, p.2)

/-- The next byte. -/
def next : At → Byte → List Sym × At
  | .ready, b => start S b
  | .word w, b => if inWord b then ([], .word (w ++ [b])) else after (.word w) (start S b)
  | .name n, b => if b = S.quote then ([], .nameEnd n) else ([], .name (n ++ [b]))
  | .nameEnd n, b => if b = S.quote then ([], .name (n ++ [b])) else after (.name n) (start S b)
  | .text s, b => if b = 39 then ([], .textEnd s) else if S.escapes ∧ b = 92 then ([], .textEsc s) else ([], .text (s ++ [b]))
  | .textEnd s, b => if b = 39 then ([], .text (s ++ [b])) else after (.text s) (start S b)
  | .textEsc s, b => ([], .text (s ++ [b]))
  | .dash, b => if b = 45 then ([], .comment []) else if inWord b then ([], .word [45, b]) else after (.word [45]) (start S b)
  | .comment c, b => if b = 10 then ([.comment c], .ready) else ([], .comment (c ++ [b]))
  | .bad, _ => ([], .bad)

/-- All bytes of a text. -/
def scan : At → Bytes → List Sym × At
  | a, [] => ([], a)
  | a, b :: bs =>
    let p := next S a b
    let r := scan p.2 bs
    (p.1 ++ r.1, r.2)

/-- What is left at the end. -/
def finish : At → Option (List Sym)
  | .ready => some []
  | .word w => some [.word w]
  | .nameEnd n => some [.name n]
  | .textEnd s => some [.text s]
  | .comment c => some [.comment c]
  | .dash => some [.word [45]]
  | _ => none

/-- The symbols of a text, `none` if a name or a text does not end. -/
def symbols (t : Bytes) : Option (List Sym) :=
  let r := scan S .ready t
  (finish r.2).map (r.1 ++ ·)

/-! ## Statements -/

/-- A column, with the symbols of its type and of its default. -/
structure Col where
  name : Bytes
  type : List Sym
  notNull : Bool
  dflt : Option (List Sym)
  deriving DecidableEq, Repr

inductive Clause where
  | setType (n : Bytes) (t : List Sym)
  | setNotNull (n : Bytes)
  | setDefault (n : Bytes) (d : List Sym)
  | add (c : Col)
  | drop (n : Bytes)
  deriving DecidableEq, Repr

inductive Stmt where
  | create (table : Bytes) (cols : List Col) (key : Option (Bytes × List Bytes))
  | alter (table : Bytes) (cs : List Clause)
  deriving DecidableEq, Repr

def kw (s : String) : Sym := .word s.toUTF8.toList

/-- Splits at a mark, outside of parentheses. -/
def split (m : Byte) : Nat → List Sym → List (List Sym)
  | _, [] => [[]]
  | d, s :: ss =>
    if d = 0 ∧ s = .mark m then [] :: split m 0 ss
    else
      let d' := if s = .mark 40 then d + 1 else if s = .mark 41 then d - 1 else d
      match split m d' ss with
      | [] => [[s]]
      | p :: ps => (s :: p) :: ps

/-- Begins an attribute of a column. -/
def isAttr (s : Sym) : Bool := s = kw "NOT" || s = kw "DEFAULT"

/-- `NOT NULL` and `DEFAULT value`, any number of them; at most `n`. -/
def attrs : Nat → Col → List Sym → Option Col
  | _, c, [] => some c
  | 0, _, _ => none
  | n + 1, c, s :: ss =>
    if s = kw "NOT" then
      match ss with
      | s' :: ss => if s' = kw "NULL" then attrs n { c with notNull := true } ss else none
      | [] => none
    else if s = kw "DEFAULT" then
      let v := ss.takeWhile fun s => !isAttr s
      if v = [] ∨ (c.dflt.isSome ∧ S.lax = false) then none
      else attrs n { c with dflt := some v } (ss.dropWhile fun s => !isAttr s)
    else none

/-- `name type [NOT NULL] [DEFAULT value]`. -/
def column (n : Bytes) (ss : List Sym) : Option Col :=
  let ty := ss.takeWhile fun s => !isAttr s
  if ty = [] then none else attrs S ss.length ⟨n, ty, false, none⟩ (ss.dropWhile fun s => !isAttr s)

/-- `name, name, ...` -/
def names : List Sym → Option (List Bytes)
  | [.name n] => some [n]
  | .name n :: .mark m :: ss => if m = 44 then (names ss).map (n :: ·) else none
  | _ => none

/-- What stands in the parentheses of `CREATE TABLE`: columns and then perhaps the key. -/
def elements : List (List Sym) → Option (List Col × Option (Bytes × List Bytes))
  | [] => some ([], none)
  | (.name n :: ss) :: es => do
    let c ← column S n ss
    let r ← elements es
    some (c :: r.1, r.2)
  | [.word w :: .name k :: .word p :: .word y :: .mark o :: ss] =>
    if .word w = kw "CONSTRAINT" ∧ .word p = kw "PRIMARY" ∧ .word y = kw "KEY" ∧ o = 40 ∧ ss.getLast? = some (.mark 41) then
      (names ss.dropLast).map fun ns => ([], some (k, ns))
    else none
  | _ => none

/-- A clause of `ALTER TABLE`. -/
def clause : List Sym → Option Clause
  | s :: .name n :: t :: u :: v :: ss =>
    if s = kw "ALTER" ∧ t = kw "SET" ∧ u = kw "DATA" ∧ v = kw "TYPE" ∧ ss ≠ [] ∧ ss.any isAttr = false then some (.setType n ss)
    else if s = kw "ALTER" ∧ t = kw "SET" ∧ u = kw "NOT" ∧ v = kw "NULL" ∧ ss = [] then some (.setNotNull n)
    else if s = kw "ALTER" ∧ t = kw "SET" ∧ u = kw "DEFAULT" then some (.setDefault n (v :: ss))
    else none
  | s :: t :: .name n :: ss =>
    if s = kw "ADD" ∧ t = kw "COLUMN" then (column S n ss).map .add
    else if s = kw "DROP" ∧ t = kw "COLUMN" ∧ ss = [] then some (.drop n)
    else none
  | _ => none

/-- A statement, without `;`. -/
def stmt : List Sym → Option Stmt
  | .word a :: .word b :: .name t :: ss =>
    if .word a = kw "ALTER" ∧ .word b = kw "TABLE" then
      if ss = [] then if S.lax then some (.alter t []) else none else ((split 44 0 ss).mapM (clause S)).map (.alter t)
    else none
  | .word a :: .word b :: .word c :: .word d :: .word e :: .name t :: .mark o :: ss =>
    if .word a = kw "CREATE" ∧ .word b = kw "TABLE" ∧ .word c = kw "IF" ∧ .word d = kw "NOT" ∧ .word e = kw "EXISTS" ∧ o = 40 ∧
        ss.getLast? = some (.mark 41) then
      (elements S (split 44 0 ss.dropLast)).map fun r => .create t r.1 r.2
    else none
  | _ => none

/-- Statements, each with `;` at its end. -/
def stmts (ss : List Sym) : Option (List Stmt) :=
  let ps := split 59 0 ss
  if ps.getLast? = some [] then ps.dropLast.mapM (stmt S) else none

/-! ## Scripts -/

def isComment : Sym → Bool
  | .comment _ => true
  | _ => false

/-- The line at which the way back begins. -/
def downMark : Sym := .comment " +migrate Down".toUTF8.toList
def upMark : Sym := .comment " +migrate Up".toUTF8.toList

/-- The statements to apply the migration and to go back, `none` if there is an error in them; comments are left out. -/
def script (t : Bytes) : Option (Option (List Stmt) × Option (List Stmt)) :=
  (symbols S t).bind fun ss =>
    if ss.head? = some upMark then
      some (stmts S ((ss.takeWhile (· ≠ downMark)).filter (!isComment ·)), stmts S ((ss.dropWhile (· ≠ downMark)).filter (!isComment ·)))
    else none

/-! ## What is meant -/

open Verif.Migrate (GoCol Action)

/-- A database with a quote that is not also a mark, a space or the quote of texts. -/
structure Sound : Prop where
  quote : S.quote = 34 ∨ S.quote = 96

/-- A name that `q` (`QuoteIdentifier`) puts between quotes as it is, and that has none itself. -/
def NameOk (q : Bytes → Bytes) (n : Bytes) : Prop := q n = S.quote :: (n ++ [S.quote]) ∧ S.quote ∉ n

/-- The column of a clause. -/
def target : Action → Bytes
  | .setType n _ | .setNotNull n | .setDefault n _ | .add n _ _ _ | .drop n => n

/-- Symbols that belong together: parentheses in pairs, commas only in them (`deep`), no semicolons and no comments. -/
inductive Whole : Bool → List Sym → Prop
  | nil {deep} : Whole deep []
  | sym {deep s ss} : (∀ b, s ≠ .mark b) → isComment s = false → Whole deep ss → Whole deep (s :: ss)
  | paren {deep xs ss} : Whole true xs → Whole deep ss → Whole deep (.mark 40 :: (xs ++ .mark 41 :: ss))
  | comma {ss} : Whole true ss → Whole true (.mark 44 :: ss)

/-- A text that stands for a value. -/
def Value (v : Bytes) (ss : List Sym) : Prop := symbols S v = some ss ∧ ss ≠ [] ∧ Whole false ss ∧ ∀ s ∈ ss, isAttr s = false

/-- A text that stands for a type, perhaps with attributes (`VARCHAR(255) NOT NULL DEFAULT ''`). -/
def TypeOf (t : Bytes) (ty : List Sym) (notNull : Bool) (d : Option (List Sym)) : Prop :=
  ∃ ss, symbols S t = some ss ∧ Whole false ss ∧ column S [] ss = some ⟨[], ty, notNull, d⟩

/-- The default of a column, and no second one where that is an error. -/
def DefaultOf (d₀ : Option (List Sym)) : Option Bytes → Option (List Sym) → Prop
  | none, d => d = d₀
  | some v, d => ∃ ss, Value S v ss ∧ d = some ss ∧ (S.lax = true ∨ d₀ = none)

/-- The column of a model. -/
def ColOf (n t : Bytes) (notNull : Bool) (v : Option Bytes) (c : Col) : Prop :=
  ∃ nn d₀, TypeOf S t c.type nn d₀ ∧ c.name = n ∧ c.notNull = (nn || notNull) ∧ DefaultOf S d₀ v c.dflt

/-- A clause. -/
def Says : Action → Clause → Prop
  | .setType n t, .setType n' ty => n' = n ∧ Value S t ty
  | .setNotNull n, .setNotNull n' => n' = n
  | .setDefault n v, .setDefault n' d => n' = n ∧ symbols S v = some d ∧ d ≠ [] ∧ Whole false d
  | .add n (some t) nn v, .add c => ColOf S n t nn v c
  | .drop n, .drop n' => n' = n
  | _, _ => False

/-! ## Names of keys -/

/-- PostgreSQL: a key has an index, and tables and indexes of a schema share their names.  `CREATE TABLE IF NOT EXISTS` in a schema with
these tables and indexes; `none` if it is refused. -/
def createIn (rels : List Bytes) : Stmt → Option (List Bytes)
  | .create t _ key =>
    if t ∈ rels then some rels
    else match key with
      | none => some (t :: rels)
      | some (k, _) => if k = t ∨ k ∈ rels then none else some (t :: k :: rels)
  | .alter t _ => if t ∈ rels then some rels else none

end Verif.Spec.Ddl
