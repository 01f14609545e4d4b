import Verif.Model.MyType
import Verif.Spec.MigrateText

/-!
# Which tables MySQL makes

MySQL 8.4, sections 11.7 (character sets: utf8mb4, four bytes a character), 13.3 and 13.6 (types and defaults), 15.1.20 (CREATE TABLE),
10.4.7 (columns and row size) and 17.22 (InnoDB).  Left out: how long names may be, how many columns there may be, and pages of InnoDB.
-/

namespace Verif.Spec.MyTable

open Verif Verif.Spec.Ddl
open Verif.PgType (Entry Field)

/-- Types of columns; texts with the number of characters. -/
inductive Kind where
  | number (bytes : Nat)
  | moment
  | char (n : Nat)
  | varchar (n : Nat)
  | blob
  | json
  deriving DecidableEq, Repr

/-- The type that is written so, `none` if there is none or if it is too long. -/
def kind : List Sym → Option Kind
  | [s] =>
    if s = kw "INTEGER" ∨ s = kw "FLOAT" then some (.number 4)
    else if s = kw "BOOL" then some (.number 1)
    else if s = kw "TIMESTAMP" then some .moment
    else if s = kw "TEXT" ∨ s = kw "BLOB" then some .blob
    else if s = kw "JSON" then some .json
    else none
  | [s, o, .word n, c] =>
    if o = .mark 40 ∧ c = .mark 41 then
      match parseUint n 10 64 with
      | some n =>
        if s = kw "CHAR" ∧ n ≤ 255 then some (.char n)
        else if s = kw "VARCHAR" ∧ n ≤ 16383 then some (.varchar n)
        else none
      | none => none
    else none
  | _ => none

/-- What a column takes in a row. -/
def Kind.bytes : Kind → Nat
  | .number b => b
  | .moment => 4
  | .char n => 4 * n
  | .varchar n => 4 * n + if 4 * n ≤ 255 then 1 else 2
  | .blob => 10
  | .json => 12

/-- What it takes in a key; texts without an end and texts without characters cannot be in one. -/
def Kind.inKey : Kind → Option Nat
  | .number b => some b
  | .moment => some 4
  | .char n | .varchar n => if n = 0 then none else some (4 * n)
  | .blob | .json => none

/-- A default that is not NULL is right for a type, by `fits`; those of `BLOB`, `TEXT` and `JSON` have to be in parentheses. -/
def dfltOk (fits : Kind → List Sym → Bool) (k : Kind) (notNull : Bool) (d : List Sym) : Bool :=
  if d = [kw "NULL"] then !notNull
  else fits k d && (!(k = .blob || k = .json) || d.head? = some (.mark 40))

/-- A column with the name, whether its value may be missing, its type and its default. -/
structure Column where
  name : Bytes
  notNull : Bool
  kind : Kind
  dflt : Option (List Sym)

/-- The column, `none` if there is no such type. -/
def Column.read (c : Col) : Option Column := (MyTable.kind c.type).map fun k => ⟨c.name, c.notNull, k, c.dflt⟩

/-- Names are the same if they are so in small letters. -/
def fold (n : Bytes) : Bytes := n.map fun b => if 65 ≤ b ∧ b ≤ 90 then b + 32 else b

/-- What a key takes, `none` if it cannot be. -/
def keySize (cs : List Column) (ns : List Bytes) : Option Nat :=
  (ns.mapM fun n => (cs.find? fun c => fold c.name = fold n).bind fun c => if c.dflt = some [kw "NULL"] then none else c.kind.inKey).map List.sum

/-- Columns that may be without a value; those of the key may not. -/
def nullable (cs : List Column) (ns : List Bytes) : Nat := (cs.filter fun c => !c.notNull && decide (fold c.name ∉ ns.map fold)).length

/-- The table can be made: columns of different names, defaults that are right, a row of at most 65535 bytes and a key, if there is one, of
columns of the table of at most 3072 bytes. -/
structure TableOk (fits : Kind → List Sym → Bool) (cs : List Column) (ns : List Bytes) : Prop where
  names : (cs.map fun c => fold c.name).Nodup
  dflts : ∀ c ∈ cs, ∀ d, c.dflt = some d → dfltOk fits c.kind c.notNull d = true
  row : (cs.map fun c => c.kind.bytes).sum + (nullable cs ns + 7) / 8 ≤ 65535
  distinct : (ns.map fold).Nodup
  key : ∃ n, keySize cs ns = some n ∧ n ≤ 3072

/-- MySQL makes the table of a script where there is none of the name. -/
def Makes (fits : Kind → List Sym → Bool) (text table : Bytes) : Prop :=
  ∃ cols key rest, (script mysql text).bind (·.1) = some (.create table cols key :: rest) ∧
    ∃ cs, cols.mapM Column.read = some cs ∧ TableOk fits cs ((key.map (·.2)).getD [])

/-! ## Fields -/

/-- How a Go type is to be kept in MySQL, `none` if it does not fit into any column of its kind. -/
def meant (size : Int) : Entry → Option Kind
  | .rune | .int .byte => some (.char 1)
  | .int _ | .float32 | .float64 => some (.number 4)
  | .bool => some (.number 1)
  | .time => some .moment
  | .string => if size ≤ 0 then some (.varchar 255) else if size ≤ 16383 then some (.varchar size.toNat) else none
  | .arrayRune => if 0 ≤ size ∧ size ≤ 16383 then some (.varchar size.toNat) else none
  | .arrayByte => if 0 ≤ size ∧ size ≤ 255 then some (.char size.toNat) else none
  | .rawBytes | .sliceInt .byte => some .blob
  | _ => some .json

/-- The default of a column without one in the tag. -/
def usual : Entry → Option (List Sym)
  | .int .byte => none
  | .int _ | .bool => some [kw "false"]
  | .float32 | .float64 => some [kw "0"]
  | .time => some [kw "CURRENT_TIMESTAMP"]
  | _ => none

/-- The defaults of columns without one in the tag are right. -/
structure Knows (fits : Kind → List Sym → Bool) : Prop where
  false4 : fits (.number 4) [kw "false"] = true
  false1 : fits (.number 1) [kw "false"] = true
  zero : fits (.number 4) [kw "0"] = true
  now : fits .moment [kw "CURRENT_TIMESTAMP"] = true

/-- Numbers, truth values, times and characters, and texts of at most 255 of them; without a default in the tag. -/
def Plain (f : Field) : Prop :=
  f.dflt = none ∧ match f.entry with
    | .string => f.size ≤ 255
    | .rune | .int _ | .bool | .float32 | .float64 | .time => True
    | _ => False

/-- The column for a field. -/
def column (f : Field) : Option Column :=
  (meant f.size f.entry).map fun k => ⟨f.name, !f.nullable, k, (f.dflt.bind (symbols mysql)).or (usual f.entry)⟩

end Verif.Spec.MyTable
