import Verif.Model.Fixed
import Verif.Spec.Custom

/-!
# Records with arrays of bytes or characters

Columns for them (MySQL 8.4, sections 13.3.2 and 13.3.4; PostgreSQL 17, section 8.3; SQLite, datatype3), and which arrays they keep.
-/

namespace Verif.Spec.Fixed

open Verif Verif.Dispatch Verif.Typed Verif.Fixed Verif.Scan Verif.Spec.Scan Verif.Props Verif.Spec.Typed

variable {F U : Type}

/-! ## Columns -/

/-- Columns: texts of at most so many characters, among them NUL or not, with spaces at the end or without them when they are read; and
byte strings. -/
inductive Col where
  | text (limit : Option Nat) (nul spaces : Bool)
  | blob
  deriving DecidableEq

/-- The column that a declared type makes. -/
def meaning : Columns.Db → String × Option Nat → Option Col
  | .mysql, ("CHAR", some n) => some (.text (some n) true false)
  | .mysql, ("VARCHAR", some n) => some (.text (some n) true true)
  | .postgres, ("varchar", some n) => if n = 0 then none else some (.text (some n) false true)
  | .sqlite, ("TEXT", none) => some (.text none true true)
  | .sqlite, ("BLOB", none) => some .blob
  | _, _ => none

/-- A text without the spaces at its end. -/
inductive Trimmed : Bytes → Bytes → Prop
  | mk {s k} : (∀ t, s ≠ t ++ [32]) → Trimmed (s ++ List.replicate k 32) s

/-- The characters of a text can be kept. -/
def Takes (limit : Option Nat) (nul : Bool) (s : Bytes) : Prop :=
  ∃ cs : List Char, s = utf8s cs ∧ (∀ n, limit = some n → cs.length ≤ n) ∧ (nul = false → Char.ofNat 0 ∉ cs)

/-- Parameters that are texts for a text column. -/
inductive Text : Src → Bytes → Prop
  | str {s} : Text (.str s) s
  | bytes {s} : Text (.bytes s) s

/-- `Keeps col s c`: of the parameter `s`, the column keeps `c`; what is kept is what a query gives. -/
inductive Keeps : Col → Src → Cell → Prop
  | text {limit nul p s} : Text p s → Takes limit nul s → Keeps (.text limit nul true) p (.text s)
  | trimmed {limit nul p s s'} : Text p s → Takes limit nul s → Trimmed s s' → Keeps (.text limit nul false) p (.text s')
  | blob {s} : Keeps .blob (.bytes s) (.blob s)

/-- What a driver may hand over: a text as a string or as bytes. -/
inductive Hands : Cell → Src → Prop
  | str {s} : Hands (.text s) (.str s)
  | bytes {s} : Hands (.text s) (.bytes s)
  | blob {s} : Hands (.blob s) (.bytes s)

/-! ## Fields -/

/-- `[n]byte` and `[n]rune` with `0 < n`, written out; they have no methods, and nothing is configured for them. -/
structure Is (W : Verif.Fixed.World F U) (f : F) (e : Verif.Fixed.Elem) (n : Nat) : Prop where
  arr : W.arr f = true
  ty : W.base.base.base.ty f = .array n (.basic (match e with | .byte => "byte".toList | .rune => "rune".toList))
  pos : 0 < n
  bare : Bare W.base.base.base.facts (W.base.base.base.ty f)

/-- The field is an array and has the column `col`, as `Migrate` declares it. -/
def Column (W : Verif.Fixed.World F U) (f : F) (e : Verif.Fixed.Elem) (n : Nat) (col : Col) : Prop :=
  Is W f e n ∧ meaning (dbOf W.base.base.base.dialect) (declared W.base.base.base.dialect (W.base.base.base.size f) e) = some col

/-- The database and the driver do what they are documented to do. -/
structure Behaves (W : Verif.Fixed.World F U) : Prop where
  base : Document.Behaves W.base.base
  keeps : ∀ f e n col, Column W f e n col → ∀ s c, Keeps col s c → Keeps col s (W.keep f s)
  hands : ∀ f e n col, Column W f e n col → ∀ s c, Keeps col s c → Hands c (W.hand f c)

/-- The driver hands over the text of the field as bytes. -/
def AsBytes (W : Verif.Fixed.World F U) (f : F) : Prop := ∀ s, W.hand f (.text s) = .bytes s

/-- The bytes that a column is for: if they are kept as a text, they are one, and spaces at the end stay. -/
def BytesFor : Col → Bytes → Prop
  | .blob, _ => True
  | .text limit nul spaces, l => Takes limit nul l ∧ (spaces = false → ∀ t, l ≠ t ++ [32])

/-- Values of a field that its column is for.  Characters outside ASCII only if they are handed over as bytes. -/
def Stores (W : Verif.Fixed.World F U) (f : F) : Val U → Prop
  | .base v => W.arr f = false ∧ Custom.Stores W.base f v
  | .bytes l => ∃ n col, Column W f .byte n col ∧ l.length = n ∧ BytesFor col l
  | .runes l => ∃ n limit nul, Column W f .rune n (.text limit nul true) ∧
      ∃ cs : List Char, l = cs.map (fun c => (c.toNat : Int)) ∧ cs.length = n ∧ (∀ n, limit = some n → cs.length ≤ n) ∧
        (nul = false → Char.ofNat 0 ∉ cs) ∧ (AsBytes W f ∨ ∀ c ∈ cs, c.toNat < 128)

/-! ## Comparisons -/

/-- The comparisons, for values that are no arrays. -/
def onBase (O : Store.Comp F (Val U)) : Store.Comp F (Verif.Custom.Val U) where
  isNil f v := O.isNil f (.base v)
  eq f v w := O.eq f (.base v) (.base w)
  lt f v w := O.lt f (.base v) (.base w)
  like f v w := O.like f (.base v) (.base w)
  before f v w := O.before f (.base v) (.base w)

/-- The comparisons of fields: as before; arrays element by element. -/
def order (W : Verif.Fixed.World F U) (low : Bool) (other : Store.Comp F (Val U)) : Store.Comp F (Val U) where
  isNil
    | f, .base v => (Custom.order W.base low (onBase other)).isNil f v
    | _, _ => false
  eq
    | f, .base v, .base w => (Custom.order W.base low (onBase other)).eq f v w
    | _, .bytes a, .bytes b => decide (a = b)
    | _, .runes a, .runes b => decide (a = b)
    | f, x, y => other.eq f x y
  lt
    | f, .base v, .base w => (Custom.order W.base low (onBase other)).lt f v w
    | _, .bytes a, .bytes b => decide (a < b)
    | _, .runes a, .runes b => decide (a < b)
    | f, x, y => other.lt f x y
  like := other.like
  before
    | f, .base v, .base w => (Custom.order W.base low (onBase other)).before f v w
    | _, .bytes a, .bytes b => decide (a < b)
    | _, .runes a, .runes b => decide (a < b)
    | f, x, y => other.before f x y

/-- The database compares other values as in C104, and texts and byte strings byte by byte (with a binary collation). -/
structure Compares (W : Verif.Fixed.World F U) (K : Sql.Compare Cell) (low : Bool) (other : Store.Comp F (Val U)) : Prop where
  base : ∃ K' : Sql.Compare Verif.Custom.Cell, Custom.Compares W.base K' low (onBase other) ∧
    ∀ a b, K.eq (.base a) (.base b) = K'.eq a b ∧ K.lt (.base a) (.base b) = K'.lt a b ∧
      K.like (.base a) (.base b) = K'.like a b ∧ K.before (.base a) (.base b) = K'.before a b
  text : ∀ a b, K.eq (.text a) (.text b) = decide (a = b) ∧ K.lt (.text a) (.text b) = decide (a < b) ∧
    K.before (.text a) (.text b) = decide (a < b)
  blob : ∀ a b, K.eq (.blob a) (.blob b) = decide (a = b) ∧ K.lt (.blob a) (.blob b) = decide (a < b) ∧
    K.before (.blob a) (.blob b) = decide (a < b)
  like : ∀ f x y, W.arr f = true → Stores W f x → Stores W f y → K.like (W.enc f x) (W.enc f y) = other.like f x y

/-- Keys: those of C104, and arrays, as a hash is. -/
def Keyed (W : Verif.Fixed.World F U) (f : F) : Prop := W.arr f = false ∧ Custom.Keyed W.base f ∨ W.arr f = true

end Verif.Spec.Fixed
