import Verif.Spec.Bind
import Verif.Model.Gen

/-!
# What the generated statements should say

Statements are described as the database sees them (`BSym`): text with the values of the record's
fields in place of parameters.
-/

namespace Verif.Spec.Gen

open Verif Verif.Spec Verif.Gen

variable {F V : Type}

/-- A template applied to a piece of bound text. -/
def fill (t : Tmpl) (x : List (BSym V)) : List (BSym V) :=
  t.flatMap fun
    | .lit s => bs s
    | .hole => x
    | .bad => []

def wrap (t : Option Tmpl) (x : List (BSym V)) : List (BSym V) :=
  match t with
  | some t => fill t x
  | none => x

def holes (t : Tmpl) : Nat := t.countP (· == .hole)

/-- Templates that make sense for values: execution succeeds and the value occurs (exactly once when
placeholders are anonymous). -/
def Usable (st : Style) (t : Tmpl) : Prop :=
  Piece.bad ∉ t ∧ match st with
    | .anon => holes t = 1
    | .numbered => 1 ≤ holes t

/-- All templates of a table make sense. -/
def TemplatesOk (st : Style) (t : Table F) : Prop :=
  ∀ c ∈ t.columns, (∀ u, c.sqlVal = some u → Usable st u) ∧ (∀ u, c.sqlScan = some u → Piece.bad ∉ u)

/-- Tables as produced by the parser (see C34, C37). -/
structure WF (t : Table F) : Prop where
  names : (t.columns.map (·.name)).Nodup
  pos : ∀ (i : Nat) (c : GCol F), t.columns[i]? = some c → c.pos = i
  keys : ∀ k ∈ t.keys, k < t.columns.length
  sorted : t.keys.Pairwise (· < ·)
  auto : ∀ i, t.auto = some i → i < t.columns.length

/-- The columns at given positions. -/
def pick (t : Table F) (is : List Nat) : List (GCol F) := is.filterMap fun i => t.columns[i]?

def isReadonly (t : Table F) (i : Nat) : Bool := (t.columns[i]?.map (·.readonly)).getD false

/-- Positions of the columns to be inserted: all but the readonly and the auto-increment ones. -/
def insertPos (t : Table F) : List Nat :=
  (List.range t.columns.length).filter fun i => !isReadonly t i && t.auto != some i

/-- Positions of the columns identifying a row. -/
def keyPos (t : Table F) : List Nat :=
  match t.auto with
  | some i => [i]
  | none => t.keys

/-- Positions of the columns to be updated: neither readonly, nor auto-increment, nor key. -/
def updatePos (t : Table F) : List Nat :=
  (List.range t.columns.length).filter fun i =>
    !isReadonly t i && t.auto != some i && !t.keys.contains i

def comma (l : List (List (BSym V))) : List (BSym V) := List.intercalate (bs ",") l

/-- One row of values. -/
def rowB (vs : List V) : List (BSym V) := bs "(" ++ comma (vs.map fun v => [.val v]) ++ bs ")"

def identB (g : Cfg) (c : GCol F) : List (BSym V) := bs (g.quoteId c.name)

/-- A column as it is to be read. -/
def readB (g : Cfg) (c : GCol F) : List (BSym V) := wrap c.sqlScan (identB g c)

/-- The value of a column as it is to be written or compared. -/
def valB (rec : F → V) (c : GCol F) : List (BSym V) := wrap c.sqlVal [.val (rec c.field)]

def tableB (g : Cfg) (t : Table F) : List (BSym V) :=
  match t.ownTable with
  | some n => bs n
  | none => bs (g.quoteId t.name)

/-- Comparison of columns with given texts: a plain comparison for one column, tuples otherwise. -/
def equalB (g : Cfg) (val : GCol F → List (BSym V)) : List (GCol F) → List (BSym V)
  | [c] => identB g c ++ bs " = " ++ val c
  | cs => bs "(" ++ comma (cs.map (identB g)) ++ bs ") = (" ++ comma (cs.map val) ++ bs ")"

/-- The intended INSERT. -/
def insertB (g : Cfg) (t : Table F) (rec : F → V) : List (BSym V) :=
  let cols := pick t (insertPos t)
  bs "INSERT INTO " ++ tableB g t ++ bs " (" ++ comma (cols.map (identB g)) ++ bs ") VALUES (" ++
    comma (cols.map (valB rec)) ++ bs ")" ++
    (if g.postgres then bs " RETURNING " ++ comma (t.columns.map (readB g)) else []) ++ bs ";"

/-- The intended SELECT by key, given how key values are written. -/
def findB (g : Cfg) (t : Table F) (val : GCol F → List (BSym V)) : List (BSym V) :=
  bs "SELECT " ++ comma (t.columns.map (readB g)) ++ bs " FROM " ++ tableB g t ++ bs " WHERE " ++
    equalB g val (pick t (keyPos t)) ++ bs " LIMIT 1;"

/-- The intended UPDATE by key, given how key values are written. -/
def updateB (g : Cfg) (t : Table F) (rec : F → V) (val : GCol F → List (BSym V)) : List (BSym V) :=
  bs "UPDATE " ++ tableB g t ++ bs " SET " ++
    comma ((pick t (updatePos t)).map fun c => identB g c ++ bs " = " ++ valB rec c) ++
    bs " WHERE " ++ equalB g val (pick t (keyPos t)) ++ bs ";"

end Verif.Spec.Gen
