import Verif.Base.Go
import Verif.Spec.Numeral
import Mathlib.Algebra.Order.Field.Rat
import Mathlib.Data.Rat.Cast.Order
import Mathlib.Algebra.Order.Ring.Abs

/-!
# Binary floating point numbers (IEEE 754)

A number is its sign and its ordinal, the bits without the sign.  Ordinals count the numbers of one sign from zero on.
-/

namespace Verif.Spec.Float

open Verif Verif.Spec

/-- Formats: bits of the significand with the leading one, the negated exponent of the least positive number, and the
exponent field of infinity. -/
structure Format where
  prec : Nat
  low : Nat
  top : Nat
  deriving DecidableEq

/-- `float32` -/
def single : Format := ⟨24, 149, 255⟩

/-- `float64` -/
def double : Format := ⟨53, 1074, 2047⟩

/-- The number of significands per exponent. -/
def Format.half (f : Format) : Nat := 2 ^ (f.prec - 1)

/-- The ordinal of infinity. -/
def Format.inf (f : Format) : Nat := f.top * f.half

/-- What the bits of an exponent field and a fraction mean, for all ordinals: exponents are not bounded here. -/
def val (f : Format) (n : Nat) : ℚ :=
  if n / f.half = 0 then (n % f.half : Nat) / 2 ^ f.low
  else ((f.half + n % f.half : Nat) : ℚ) * 2 ^ (n / f.half - 1) / 2 ^ f.low

/-- The ordinal whose number is nearest to `r`; the even one, if two are. -/
def Nearest (f : Format) (r : ℚ) (n : Nat) : Prop :=
  ∀ k, k ≠ n → |r - val f n| < |r - val f k| ∨ (|r - val f n| = |r - val f k| ∧ n % 2 = 0)

/-- Values of a floating point type: not a number, or a sign and an ordinal up to that of infinity. -/
inductive Flt where
  | nan
  | num (neg : Bool) (n : Nat)
  deriving DecidableEq, Repr

/-- A value of the type with the format. -/
def Flt.Of (f : Format) : Flt → Prop
  | .nan => True
  | .num _ n => n ≤ f.inf

instance (f : Format) (x : Flt) : Decidable (x.Of f) := by
  cases x <;> unfold Flt.Of <;> infer_instance

/-- A finite value. -/
def Flt.Finite (f : Format) : Flt → Prop
  | .nan => False
  | .num _ n => n < f.inf

instance (f : Format) (x : Flt) : Decidable (x.Finite f) := by
  cases x <;> unfold Flt.Finite <;> infer_instance

def signed (neg : Bool) (r : ℚ) : ℚ := if neg then -r else r

/-- The number a finite value is. -/
def Flt.number (f : Format) : Flt → ℚ
  | .nan => 0
  | .num neg n => signed neg (val f n)

/-- `y` is what `r`, with the sign `neg`, becomes in the format: the nearest number, infinity if that is too large. -/
def Becomes (f : Format) (neg : Bool) (r : ℚ) (y : Flt) : Prop :=
  ∃ n, Nearest f r n ∧ y = .num neg (min n f.inf)

/-! ## Texts -/

/-- An optional sign. -/
def Sgn (s : Bytes) (neg : Bool) : Prop := s = [] ∧ neg = false ∨ s = [43] ∧ neg = false ∨ s = [45] ∧ neg = true

/-- Digits after a point, or nothing. -/
def Frac (p b : Bytes) : Prop := p = [] ∧ b = [] ∨ p = 46 :: b

/-- An exponent, or nothing. -/
def Expo (x : Bytes) (e : Int) : Prop :=
  x = [] ∧ e = 0 ∨ ∃ c u, (c = 101 ∨ c = 69) ∧ x = c :: u ∧ SignedNumeral u e

/-- `Written t neg r e`: the text is a decimal number with the sign, the absolute value `r` and the exponent `e`: digits
with at most one point, then perhaps the letter e and a whole number. -/
def Written (t : Bytes) (neg : Bool) (r : ℚ) (e : Int) : Prop :=
  ∃ s a p b x m, t = s ++ (a ++ (p ++ x)) ∧ Sgn s neg ∧ Frac p b ∧ Expo x e ∧ Numeral 10 (a ++ b) m ∧
    r = m * (10 : ℚ) ^ (e - b.length)

/-- Letters, without regard to case. -/
def fold (c : Byte) : Byte := if 65 ≤ c.toNat ∧ c.toNat ≤ 90 then c + 32 else c

def letters (s : String) : Bytes := s.toList.map fun c => UInt8.ofNat c.toNat

/-- `NaN`, `Inf` and `Infinity`, the latter two with an optional sign, in letters of any case. -/
def Named (f : Format) (t : Bytes) (y : Flt) : Prop :=
  (t.map fold = letters "nan" ∧ y = .nan) ∨
  ∃ s u neg, t = s ++ u ∧ Sgn s neg ∧ (u.map fold = letters "inf" ∨ u.map fold = letters "infinity") ∧
    y = .num neg f.inf

/-- The value a text stands for: a named one, or the number nearest to the decimal number that is written, if that is not too
large. -/
def Reads (f : Format) (t : Bytes) (y : Flt) : Prop :=
  Named f t y ∨ ∃ neg r e n, Written t neg r e ∧ Nearest f r n ∧ n < f.inf ∧ y = .num neg n

/-- No underscores and no letter x: neither digits in groups nor hexadecimal numbers. -/
def Ordinary (t : Bytes) : Prop := ∀ c ∈ t, c ≠ 95 ∧ c ≠ 120 ∧ c ≠ 88

instance (t : Bytes) : Decidable (Ordinary t) := by unfold Ordinary; infer_instance

/-- The format of the numbers in a column: MySQL 8.4, 13.1.4; PostgreSQL 17, 8.1.3; SQLite, datatype3. -/
def columnFormat (db type : String) : Option Format :=
  if type = "double precision" then some double
  else if db = "sqlite" then (if type = "REAL" then some double else none)
  else if type = "FLOAT" ∧ db = "mysql" then some single
  else if type = "real" ∧ db = "postgres" then some single
  else none

end Verif.Spec.Float
