import Verif.Spec.Scan
import Verif.Model.Float

/-!
# What columns of SQL types keep, and what drivers hand back

MySQL 8.4 (chapter 13, with strict mode), PostgreSQL 17 (chapter 8), SQLite (datatype3).
-/

namespace Verif.Spec.Columns

open Verif Verif.Scan Verif.Spec.Scan Verif.Spec.Float

inductive Db where
  | mysql
  | postgres
  | sqlite
  deriving DecidableEq, Repr

/-- Columns: whole numbers of so many bits, floating point numbers, texts of at most so many characters, truth values. -/
inductive Col where
  | bool
  | int (w : Nat)
  | float (f : Format)
  | text (limit : Option Nat)
  deriving DecidableEq

/-- The column that a declared type makes: the name of the type, and the number in parentheses. -/
def meaning : Db → String × Option Nat → Option Col
  | .mysql, ("BOOL", none) => some .bool
  | .mysql, ("INTEGER", none) => some (.int 32)
  | .mysql, ("FLOAT", none) => some (.float single)
  | .mysql, ("VARCHAR", some n) => some (.text (some n))
  | .postgres, ("bool", none) => some .bool
  | .postgres, ("int2", none) => some (.int 16)
  | .postgres, ("int4", none) => some (.int 32)
  | .postgres, ("bigint", none) => some (.int 64)
  | .postgres, ("real", none) => some (.float single)
  | .postgres, ("double precision", none) => some (.float double)
  | .postgres, ("varchar", some n) => some (.text (some n))
  | .sqlite, ("BOOL", none) => some .bool
  | .sqlite, ("INTEGER", none) => some (.int 64)
  | .sqlite, ("REAL", none) => some (.float double)
  | .sqlite, ("TEXT", none) => some (.text none)
  | _, _ => none

/-- What is in a column of a row. -/
inductive Cell where
  | null
  | bool (b : Bool)
  | num (n : Int)
  | flt (y : Flt)
  | text (s : Bytes)
  deriving DecidableEq

/-- Texts that all databases take: characters, none of them NUL, and not too many. -/
def Proper (limit : Option Nat) (s : Bytes) : Prop :=
  ∃ cs : List Char, s = utf8s cs ∧ Char.ofNat 0 ∉ cs ∧ ∀ n, limit = some n → cs.length ≤ n

/-- Numbers that all databases take: not the negative zero, of which SQLite does not keep the sign. -/
def Common (neg : Bool) (n : Nat) : Prop := ¬ (neg = true ∧ n = 0)

/-- `Keeps col s c`: of the parameter `s`, the column keeps `c`.  All databases do at least that. -/
inductive Keeps : Col → Src → Cell → Prop
  | null {c} : Keeps c .nil .null
  | bool {b} : Keeps .bool (.bool b) (.bool b)
  | int {w n} : InRange w n → Keeps (.int w) (.int64 n) (.num n)
  | uint {w} {n : Nat} : InRange w n → Keeps (.int w) (.uint64 n) (.num n)
  | float {f neg n y} : n < double.inf → Common neg n → Becomes f neg (val double n) y → y.Finite f →
      Keeps (.float f) (.float (Float.bits double (.num neg n))) (.flt y)
  | text {l s} : Proper l s → Keeps (.text l) (.str s) (.text s)

/-- `Hands col c s`: for what is in a column, a driver may hand `s` to `Scan`. -/
inductive Hands : Col → Cell → Src → Prop
  | null {c} : Hands c .null .nil
  | bool {b} : Hands .bool (.bool b) (.bool b)
  | boolNumber {b} : Hands .bool (.bool b) (.int64 (if b then 1 else 0))
  | boolText {b s} : BoolText s b → Hands .bool (.bool b) (.bytes s)
  | int {w n} : Hands (.int w) (.num n) (.int64 n)
  | intText {w n} : Hands (.int w) (.num n) (.bytes (intDec n))
  | float {f neg k n} : k < f.inf → n < double.inf → val double n = val f k →
      Hands (.float f) (.flt (.num neg k)) (.float (Float.bits double (.num neg n)))
  | floatText {f y t} : Ordinary t → t.length ≤ 5000 → Reads f t y → Hands (.float f) (.flt y) (.bytes t)
  | text {l s} : Hands (.text l) (.text s) (.str s)
  | textBytes {l s} : Hands (.text l) (.text s) (.bytes s)

/-! ## Values of fields -/

/-- Values of fields; those behind a pointer stand for the pointer. -/
inductive Val where
  | nil
  | bool (b : Bool)
  | int (n : Int)
  | flt (x : Flt)
  | str (s : Bytes)
  deriving DecidableEq

/-- Go types of fields. -/
inductive Go where
  | bool
  | int (w : Nat)
  | uint (w : Nat)
  | float (w : Nat)
  | string
  deriving DecidableEq, Repr

/-- `Fits T col v`: `v` is a value of the type `T`, and the column is one for it: it keeps the number or the text as it is.
A column of a floating point type is to have at least the precision of the field. -/
inductive Fits : Go → Col → Val → Prop
  | bool {b} : Fits .bool .bool (.bool b)
  | int {w c n} : InRange w n → InRange c n → Fits (.int w) (.int c) (.int n)
  | uint {w c} {n : Nat} : n < 2 ^ w → InRange c n → Fits (.uint w) (.int c) (.int n)
  | float {w f neg n} : n < (Float.fmt w).inf → Common neg n → f = Float.fmt w ∨ f = double →
      Fits (.float w) (.float f) (.flt (.num neg n))
  | string {l s} : Proper l s → Fits .string (.text l) (.str s)

end Verif.Spec.Columns
