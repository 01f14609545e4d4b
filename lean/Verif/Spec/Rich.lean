import Verif.Model.Rich
import Verif.Spec.Typed
import Verif.Spec.ArrayGrammar

/-!
# Records with lists, byte strings and times

Columns for them (PostgreSQL 17, sections 8.5, 8.14, 8.15; MySQL 8.4, sections 13.2, 13.3.4; SQLite, datatype3), and which values they keep.
-/

namespace Verif.Spec.Rich

open Verif Verif.Dispatch Verif.Typed Verif.Rich Verif.Scan Verif.Spec.Scan Verif.Props Verif.Spec.Typed

variable {F : Type}

/-! ## Texts of arrays in PostgreSQL -/

/-- An element of an array, as text: in quotes, or a bare word without special characters that is not `NULL`. -/
inductive Item : Bytes → Bytes → Prop
  | quoted {t d} : QuotedBody t d → Item (34 :: (t ++ [34])) d
  | bare {t} : t ≠ [] → (∀ y ∈ t, 33 ≤ y.toNat ∧ y ∉ [34, 44, 92, 123, 125]) →
      t.map (fun y => if 97 ≤ y.toNat then y - 32 else y) ≠ [78, 85, 76, 76] → Item t t

/-- One or more elements. -/
inductive Items : Bytes → List Bytes → Prop
  | one {t e} : Item t e → Items t [e]
  | more {t e t' es} : Item t e → Items t' es → Items (t ++ 44 :: t') (e :: es)

/-- The texts of one-dimensional arrays without NULL. -/
inductive ArrayText : Bytes → List Bytes → Prop
  | empty : ArrayText [123, 125] []
  | list {t es} : Items t es → ArrayText (123 :: (t ++ [125])) es

/-! ## Columns -/

/-- Columns: as before, arrays, byte strings of at most so many bytes, times that are multiples of so many nanoseconds, between two
limits, and JSON documents, which MySQL keeps in a form of its own: nothing but NULL is said to be kept in them. -/
inductive Col where
  | base (c : Columns.Col)
  | array (c : Columns.Col)
  | blob (limit : Option Nat)
  | time (unit lo hi : Int)
  | json
  deriving DecidableEq

/-- The column that a declared type makes.  PostgreSQL has neither a type `blob` nor a type `double`.  Times of PostgreSQL are those of the
years 1 to 9999 here, a part of what it has; of its arrays of floating point numbers, which are never declared, no elements are given. -/
def meaning (db : Columns.Db) (decl : String × Option Nat) : Option Col :=
  match Columns.meaning db decl with
  | some c => some (.base c)
  | none =>
    match db, decl with
    | .mysql, ("BLOB", none) => some (.blob (some 65535))
    | .sqlite, ("BLOB", none) => some (.blob none)
    | .mysql, ("JSON", none) => some .json
    | .mysql, ("TIMESTAMP", none) => some (.time 1000000000 1000000000 2147483647000000000)
    | .postgres, ("timestamptz", some 6) => some (.time 1000 (-62135596800000000000) 253402300799999999000)
    | .postgres, ("text[]", none) => some (.array (.text none))
    | .postgres, ("bool[]", none) => some (.array .bool)
    | .postgres, ("int2[]", none) => some (.array (.int 16))
    | .postgres, ("int4[]", none) => some (.array (.int 32))
    | .postgres, ("int8[]", none) => some (.array (.int 64))
    | .postgres, ("float4[]", none) => some (.array (.float Spec.Float.single))
    | .postgres, ("float8[]", none) => some (.array (.float Spec.Float.double))
    | .postgres, ("bytea", none) => some (.blob none)
    | .postgres, ("text", none) => some (.base (.text none))
    | _, _ => none

/-- What an element of an array is kept as, -/
inductive ItemIn : Columns.Col → Bytes → Columns.Cell → Prop
  | bool {t b} : BoolText t b → ItemIn .bool t (.bool b)
  | int {w n} : InRange w n → ItemIn (.int w) (intDec n) (.num n)
  | text {t} : Columns.Proper none t → ItemIn (.text none) t (.text t)

/-- and what it is shown as. -/
inductive ItemOut : Columns.Cell → Bytes → Prop
  | bool {b} : ItemOut (.bool b) [if b then 116 else 102]
  | int {n} : ItemOut (.num n) (intDec n)
  | text {t} : ItemOut (.text t) t

/-- `Keeps col s c`: of the parameter `s`, the column keeps `c`. -/
inductive Keeps : Col → Src → Cell → Prop
  | base {col s c} : Columns.Keeps col s c → Keeps (.base col) s (.base c)
  | null {col} : Keeps col .nil (.base .null)
  | array {col t ts cs} : ArrayText t ts → List.Forall₂ (ItemIn col) ts cs → Keeps (.array col) (.str t) (.array cs)
  | blob {limit s} : (∀ n, limit = some n → s.length ≤ n) → Keeps (.blob limit) (.bytes s) (.blob s)
  | time {u lo hi i} : i % u = 0 → lo ≤ i → i ≤ hi → Keeps (.time u lo hi) (.time (tag i)) (.time i)

/-- `Hands col c s`: for what is in a column, a driver may hand `s` to `Scan`; times as times, for which the driver of MySQL is to be set
up (`parseTime`). -/
inductive Hands : Col → Cell → Src → Prop
  | base {col c s} : Columns.Hands col c s → Hands (.base col) (.base c) s
  | null {col} : Hands col (.base .null) .nil
  | array {col t ts cs} : ArrayText t ts → List.Forall₂ ItemOut cs ts → Hands (.array col) (.array cs) (.str t)
  | arrayBytes {col t ts cs} : ArrayText t ts → List.Forall₂ ItemOut cs ts → Hands (.array col) (.array cs) (.bytes t)
  | blob {limit s} : Hands (.blob limit) (.blob s) (.bytes s)
  | time {u lo hi i} : Hands (.time u lo hi) (.time i) (.time (tag i))

/-! ## Fields -/

/-- Types of fields: those of `Scalar`; lists of predeclared types, of types defined from them, and types defined as lists of predeclared
types; `[]byte`; `time.Time` and pointers to it.  They have no methods that matter, and nothing is configured for them. -/
inductive Has (D : Decls) (F : Facts) : Ty → Form → Prop
  | scalar {ty k} : Scalar D F ty k → Has D F ty (.scalar k)
  | list {b k} : kindOf b = some k → Bare F (.slice (.basic b)) → Has D F (.slice (.basic b)) (.list k)
  | listOf {id b k} : D.under id = .basic b → kindOf b = some k → Bare F (.slice (.named id)) → Has D F (.slice (.named id)) (.list k)
  | named {id b k} : D.under id = .slice (.basic b) → kindOf b = some k → Bare F (.named id) → D.name id ≠ "time.Time".toList →
      Has D F (.named id) (.list k)
  | bytes : Bare F (.slice (.basic "byte".toList)) → Has D F (.slice (.basic "byte".toList)) .bytes
  | time {id} : D.name id = "time.Time".toList → Has D F (.named id) .time
  | timePtr {id} : D.name id = "time.Time".toList → D.under id = .struct → F.scans (.named id) = false →
      F.confScan (.ptr (.named id)) = false → Has D F (.ptr (.named id)) .time

/-- A field of the form `k` has the column `col`, as `Migrate` declares it. -/
def HasCol (W : Verif.Rich.World F) (f : F) (k : Form) (col : Col) : Prop :=
  Has W.decls W.facts (W.ty f) k ∧ meaning (dbOf W.dialect) (declared W.dialect (W.size f) k) = some col

/-- Fields that may be nil: pointers, and lists where the column may be NULL. -/
def MayBeNil (W : Verif.Rich.World F) (f : F) (k : Form) : Prop :=
  isPtr (W.ty f) = true ∨ W.nullable f = true ∧ ((∃ e, k = .list e) ∨ k = .bytes)

/-- The database and the driver do what they are documented to do. -/
structure Behaves (W : Verif.Rich.World F) : Prop where
  keeps : ∀ f k col, HasCol W f k col → ∀ s c, Keeps col s c → (s = .nil → MayBeNil W f k) → Keeps col s (W.keep f s)
  hands : ∀ f k col, HasCol W f k col → ∀ s c, Keeps col s c → Hands col c (W.hand f c)

/-- Values of a list type: elements of the type `T`. -/
inductive ListOf : Kind → Val → Prop
  | bools {l} : ListOf .bool (.bools l)
  | ints {k l} : (∀ n ∈ l, (typeLimits k).1 ≤ n ∧ n ≤ (typeLimits k).2) → ListOf (.int k) (.ints l)
  | flts {w l} : (∀ x ∈ l, Float.Flt.Of (Float.fmt w) x) → ListOf (.float w) (.flts l)
  | strs {l} : (∀ s ∈ l, Columns.Proper none s) → ListOf .string (.strs l)

/-- `Fits k col v`: `v` is a value of the form `k`, and the column is one for it.  A list is kept in a text of any length as well. -/
inductive Fits : Form → Col → Val → Prop
  | base {k c v} : Columns.Fits (goOf k) c v → Fits (.scalar k) (.base c) (.base v)
  | bools {l} : Fits (.list .bool) (.array .bool) (.bools l)
  | ints {k w l} : (∀ n ∈ l, Columns.Fits (goOf (.int k)) (.int w) (.int n)) → Fits (.list (.int k)) (.array (.int w)) (.ints l)
  | strs {l} : (∀ s ∈ l, Columns.Proper none s) → Fits (.list .string) (.array (.text none)) (.strs l)
  | text {k v} : ListOf k v → Fits (.list k) (.base (.text none)) v
  | bytes {limit s} : (∀ n, limit = some n → s.length ≤ n) → Fits .bytes (.blob limit) (.bytes s)
  | time {u lo hi i} : i % u = 0 → lo ≤ i → i ≤ hi → Fits .time (.time u lo hi) (.time i)

/-- Values of a field that its column is for. -/
def Stores (W : Verif.Rich.World F) (f : F) (v : Val) : Prop :=
  ∃ k col, HasCol W f k col ∧ (v = .base .nil ∧ MayBeNil W f k ∨ Fits k col v)

/-- The bits of the elements of arrays of integer types. -/
def elementBits : ColumnType.GoInt → Nat
  | .int8 | .int16 | .uint8 | .uint16 | .byte => 16
  | .int | .int32 | .uint | .uint32 => 32
  | .int64 | .uint64 => 64

/-- Values that are kept in the column declared for their type.  Lists: in SQLite all, in PostgreSQL all but lists of floating point
numbers, if the numbers have the bits of the column, in MySQL none.  Byte strings: in MySQL up to a length, in SQLite, in PostgreSQL
none.  Times: in MySQL whole seconds from 1970 to 2038, in PostgreSQL whole microseconds of the years 1 to 9999, in SQLite none. -/
def KeptIn (d : ColumnType.Dialect) (size : Nat) : Form → Val → Prop
  | .scalar k, .base v => Typed.KeptIn d size k v
  | .list k, v =>
    match d with
    | .mysql => False
    | .sqlite => ListOf k v
    | .postgres => ListOf k v ∧ (∀ w, k ≠ .float w) ∧
        ∀ e l, k = .int e → v = .ints l → ∀ n ∈ l, -2 ^ (elementBits e - 1) ≤ n ∧ n < 2 ^ (elementBits e - 1)
  | .bytes, .bytes s => d = .sqlite ∨ d = .mysql ∧ s.length ≤ 65535
  | .time, .time i =>
    match d with
    | .mysql => ∃ sec : Int, i = sec * 1000000000 ∧ 1 ≤ sec ∧ sec ≤ 2147483647
    | .postgres => ∃ us : Int, i = us * 1000 ∧ -62135596800000000 ≤ us ∧ us ≤ 253402300799999999
    | .sqlite => False
  | _, _ => False

/-! ## Comparisons -/

/-- The database compares as before, byte strings byte by byte and times by their order; it sorts in the same way, with NULL first or
last.  Nothing is said about lists. -/
structure Sorts (K : Sql.Compare Cell) (low : Bool) : Prop where
  num : ∀ a b, K.eq (.base (.num a)) (.base (.num b)) = decide (a = b) ∧ K.lt (.base (.num a)) (.base (.num b)) = decide (a < b) ∧
    K.before (.base (.num a)) (.base (.num b)) = decide (a < b)
  bool : ∀ a b, K.eq (.base (.bool a)) (.base (.bool b)) = decide (a = b) ∧ K.lt (.base (.bool a)) (.base (.bool b)) = (!a && b) ∧
    K.before (.base (.bool a)) (.base (.bool b)) = (!a && b)
  text : ∀ a b, K.eq (.base (.text a)) (.base (.text b)) = decide (a = b) ∧ K.lt (.base (.text a)) (.base (.text b)) = decide (a < b) ∧
    K.before (.base (.text a)) (.base (.text b)) = decide (a < b)
  flt : ∀ (f : Float.Format) a b, a.Finite f → b.Finite f →
    K.eq (.base (.flt a)) (.base (.flt b)) = decide (a.number f = b.number f) ∧
    K.lt (.base (.flt a)) (.base (.flt b)) = decide (a.number f < b.number f) ∧
    K.before (.base (.flt a)) (.base (.flt b)) = decide (a.number f < b.number f)
  blob : ∀ a b, K.eq (.blob a) (.blob b) = decide (a = b) ∧ K.lt (.blob a) (.blob b) = decide (a < b) ∧
    K.before (.blob a) (.blob b) = decide (a < b)
  time : ∀ a b, K.eq (.time a) (.time b) = decide (a = b) ∧ K.lt (.time a) (.time b) = decide (a < b) ∧
    K.before (.time a) (.time b) = decide (a < b)
  null : ∀ c, (K.eq (.base .null) c = false ∧ K.lt (.base .null) c = false ∧
      K.before (.base .null) c = (low && decide (c ≠ .base .null))) ∧
    K.eq c (.base .null) = false ∧ K.lt c (.base .null) = false ∧ K.before c (.base .null) = (!low && decide (c ≠ .base .null))

/-- Values of fields compared as Go does: with `==`, `bytes.Equal` and `Time.Equal`; lists by `other`, -/
def equal (f : Float.Format) (other : Val → Val → Bool) : Val → Val → Bool
  | .base a, .base b => Typed.equal f a b
  | .bytes a, .bytes b => decide (a = b)
  | .time a, .time b => decide (a = b)
  | .base _, _ | _, .base _ => false
  | x, y => other x y

/-- and with `<`, `bytes.Compare` and `Time.Before`. -/
def less (f : Float.Format) (other : Val → Val → Bool) : Val → Val → Bool
  | .base a, .base b => Typed.less f a b
  | .bytes a, .bytes b => decide (a < b)
  | .time a, .time b => decide (a < b)
  | .base _, _ | _, .base _ => false
  | x, y => other x y

/-- The comparisons of fields; nil before or after the others; lists and `LIKE` as in `other`. -/
def order (W : Verif.Rich.World F) (low : Bool) (other : Store.Comp F Val) : Store.Comp F Val where
  isNil _ v := decide (v = .base .nil)
  eq f := equal (formatOf W.decls (W.ty f)) (other.eq f)
  lt f := less (formatOf W.decls (W.ty f)) (other.lt f)
  like := other.like
  before f x y :=
    if x = .base .nil then low && decide (y ≠ .base .nil) else if y = .base .nil then !low
    else less (formatOf W.decls (W.ty f)) (other.before f) x y

/-- `other` is what the database does for `LIKE` and for lists, which is not said. -/
structure Others (W : Verif.Rich.World F) (K : Sql.Compare Cell) (other : Store.Comp F Val) : Prop where
  like : ∀ f x y, Stores W f x → Stores W f y →
    K.like (W.keep f (write W.dialect W.decls W.facts (W.ty f) x)) (W.keep f (write W.dialect W.decls W.facts (W.ty f) y)) =
      other.like f x y
  lists : ∀ f e x y, Has W.decls W.facts (W.ty f) (.list e) → Stores W f x → Stores W f y → x ≠ .base .nil → y ≠ .base .nil →
    K.eq (W.keep f (write W.dialect W.decls W.facts (W.ty f) x)) (W.keep f (write W.dialect W.decls W.facts (W.ty f) y)) =
      other.eq f x y ∧
    K.lt (W.keep f (write W.dialect W.decls W.facts (W.ty f) x)) (W.keep f (write W.dialect W.decls W.facts (W.ty f) y)) =
      other.lt f x y ∧
    K.before (W.keep f (write W.dialect W.decls W.facts (W.ty f) x)) (W.keep f (write W.dialect W.decls W.facts (W.ty f) y)) =
      other.before f x y

/-- Keys: fields that are not nil and not lists. -/
def Keyed (W : Verif.Rich.World F) (f : F) : Prop := ∀ k, Has W.decls W.facts (W.ty f) k → ¬ MayBeNil W f k ∧ ∀ e, k ≠ .list e

end Verif.Spec.Rich
