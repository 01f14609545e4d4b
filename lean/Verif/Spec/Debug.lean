import Verif.Spec.Numeral
import Verif.Spec.Bytea
import Verif.Model.Debug

/-!
# Literals of SQL
-/

namespace Verif.Debug.Spec

open Verif Verif.Spec

/-- The argument under all layers of valuers. -/
def core : Arg → Arg
  | .valuer v => core v
  | a => a

/-- What a backslash and the byte after it stand for in a string literal of MySQL (reference manual, 11.1.1). -/
def mysqlEscape (d : Byte) : Bytes :=
  if d = 48 then [0]
  else if d = 98 then [8]
  else if d = 110 then [10]
  else if d = 114 then [13]
  else if d = 116 then [9]
  else if d = 90 then [26]
  else if d = 37 then [92, 37]
  else if d = 95 then [92, 95]
  else [d]

/-- After the opening double quote of a string literal of MySQL: its contents and the text after it. -/
def mysqlBody : Bytes → Option (Bytes × Bytes)
  | [] => none
  | [c] => if c = 34 then some ([], []) else none
  | c :: d :: r =>
    if c = 34 then
      if d = 34 then (mysqlBody r).map fun p => (34 :: p.1, p.2) else some ([], d :: r)
    else if c = 92 then (mysqlBody r).map fun p => (mysqlEscape d ++ p.1, p.2)
    else (mysqlBody (d :: r)).map fun p => (c :: p.1, p.2)

/-- A string literal of MySQL in double quotes (without `ANSI_QUOTES` and `NO_BACKSLASH_ESCAPES`). -/
def mysqlString : Bytes → Option (Bytes × Bytes)
  | [] => none
  | c :: r => if c = 34 then mysqlBody r else none

/-- Decimal literals: `Decimal t n k` means that `t` has `k` digits after the point and denotes `n / 10 ^ k`. -/
inductive Decimal : Bytes → Int → Nat → Prop
  | plain {a b : Bytes} {x y : Nat} : Numeral 10 a x → Numeral 10 b y →
      Decimal (a ++ 46 :: b) ((x * 10 ^ b.length + y : Nat) : Int) b.length
  | minus {t : Bytes} {n : Int} {k : Nat} : (∃ c r, t = c :: r ∧ c ≠ 45) → Decimal t n k → Decimal (45 :: t) (-n) k

/-- The text denotes `num / 2 ^ exp`. -/
def DecimalOf (t : Bytes) (num : Int) (exp : Nat) : Prop := ∃ n k, Decimal t n k ∧ n * 2 ^ exp = num * 10 ^ k

/-- What PostgreSQL makes of the text of a string literal that stands for a value of type `bytea`. -/
def ByteaOf (t v : Bytes) : Prop :=
  (∃ r, t = 92 :: 120 :: r ∧ HexText r v) ∨ ((∀ r, t ≠ 92 :: 120 :: r) ∧ EscText t v)

end Verif.Debug.Spec
