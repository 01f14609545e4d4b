import Verif.Model.Typed
import Verif.Props.Dispatch
import Verif.Spec.Keyed
import Verif.Spec.Cond

/-!
# Records whose fields have given types
-/

namespace Verif.Spec.Typed

open Verif Verif.Dispatch Verif.Typed Verif.Spec.Columns Verif.Scan Verif.Props

variable {F : Type}

/-- The numbers of bits of the types (`int` and `uint` have 64). -/
def goOf : Kind → Go
  | .bool => .bool
  | .string => .string
  | .float w => .float w
  | .int .int => .int 64
  | .int .int8 => .int 8
  | .int .int16 => .int 16
  | .int .int32 => .int 32
  | .int .int64 => .int 64
  | .int .uint => .uint 64
  | .int .uint8 => .uint 8
  | .int .uint16 => .uint 16
  | .int .uint32 => .uint 32
  | .int .uint64 => .uint 64
  | .int .byte => .uint 8

def dbOf : ColumnType.Dialect → Db
  | .mysql => .mysql
  | .postgres => .postgres
  | .sqlite => .sqlite

/-- Types of fields: a predeclared type, a type defined from one, without methods that matter, or a pointer to a predeclared
type; nothing is configured for it. -/
inductive Scalar (D : Decls) (F : Facts) : Ty → Kind → Prop
  | basic {b k} : kindOf b = some k → Bare F (.basic b) → Scalar D F (.basic b) k
  | named {id b k} : D.under id = .basic b → kindOf b = some k → Bare F (.named id) → D.name id ≠ "time.Time".toList →
      Scalar D F (.named id) k
  | ptr {b k} : kindOf b = some k → Bare F (.basic b) → F.confScan (.ptr (.basic b)) = false → Scalar D F (.ptr (.basic b)) k

/-- A field of the type `k` has the column `col`, as `Migrate` declares it. -/
def HasCol (W : World F) (f : F) (k : Kind) (col : Columns.Col) : Prop :=
  Scalar W.decls W.facts (W.ty f) k ∧ Columns.meaning (dbOf W.dialect) (declared W.dialect (W.size f) k) = some col

/-- The database and the driver do what they are documented to do; only columns of pointers need to keep NULL. -/
structure Behaves (W : World F) : Prop where
  keeps : ∀ f k col, HasCol W f k col → ∀ s c, Keeps col s c → (s = .nil → isPtr (W.ty f) = true) → Keeps col s (W.keep f s)
  hands : ∀ f k col, HasCol W f k col → ∀ s c, Keeps col s c → Hands col c (W.hand f c)

/-- Values of a field that its column is for; nil for pointers. -/
def Stores (W : World F) (f : F) (v : Val) : Prop :=
  ∃ k col, HasCol W f k col ∧ (v = .nil ∧ isPtr (W.ty f) = true ∨ Fits (goOf k) col v)

/-- The bits of the columns of integer types. -/
def columnBits : ColumnType.Dialect → ColumnType.GoInt → Nat
  | .mysql, _ => 32
  | .sqlite, _ => 64
  | .postgres, .int8 | .postgres, .int16 | .postgres, .uint8 | .postgres, .uint16 => 16
  | .postgres, .int64 | .postgres, .uint64 => 64
  | .postgres, _ => 32

/-- The smallest and the largest value of integer types. -/
def typeLimits : ColumnType.GoInt → Int × Int
  | .int8 => (-128, 127)
  | .int16 => (-32768, 32767)
  | .int32 => (-2147483648, 2147483647)
  | .int | .int64 => (-9223372036854775808, 9223372036854775807)
  | .uint8 | .byte => (0, 255)
  | .uint16 => (0, 65535)
  | .uint32 => (0, 4294967295)
  | .uint | .uint64 => (0, 18446744073709551615)

/-- Values of a type that are kept in the column declared for it, with a size in the tag or none: numbers that the column has the
bits for, finite floating point numbers other than the negative zero (`float64` not in MySQL), and texts that are not too long. -/
def KeptIn (d : ColumnType.Dialect) (size : Nat) : Kind → Val → Prop
  | .bool, .bool _ => True
  | .int k, .int n => (typeLimits k).1 ≤ n ∧ n ≤ (typeLimits k).2 ∧ -2 ^ (columnBits d k - 1) ≤ n ∧ n < 2 ^ (columnBits d k - 1)
  | .float w, .flt (.num neg n) => n < (Float.fmt w).inf ∧ Common neg n ∧ (d = .mysql → w = 32)
  | .string, .str s => Proper (if d = .sqlite then none else some (if size = 0 then 255 else size)) s
  | _, _ => False

/-- What is assumed of the names and keys of a model (see `Store.Setup`). -/
structure Shape (g : Gen.Cfg) (S : Sql.Dialect) (t : Gen.Table F) : Prop where
  wf : Spec.Gen.WF t
  key : t.hasPK = true
  named : Store.Named g S t
  bare : Store.BareNames g S t
  plain : Store.NoTemplates t
  names : (t.columns.map (Store.colName S)).Nodup
  single : ∀ i, t.auto = some i → ∀ k ∈ t.keys, k = i

/-! ## Comparisons -/

/-- The database compares numbers by their size, truth values with false first, and texts byte by byte (with a binary
collation); it sorts in the same way, with NULL first or last. -/
structure Sorts (K : Sql.Compare Cell) (low : Bool) : Prop where
  num : ∀ a b, K.eq (.num a) (.num b) = decide (a = b) ∧ K.lt (.num a) (.num b) = decide (a < b) ∧
    K.before (.num a) (.num b) = decide (a < b)
  bool : ∀ a b, K.eq (.bool a) (.bool b) = decide (a = b) ∧ K.lt (.bool a) (.bool b) = (!a && b) ∧
    K.before (.bool a) (.bool b) = (!a && b)
  text : ∀ a b, K.eq (.text a) (.text b) = decide (a = b) ∧ K.lt (.text a) (.text b) = decide (a < b) ∧
    K.before (.text a) (.text b) = decide (a < b)
  flt : ∀ (f : Float.Format) a b, a.Finite f → b.Finite f → K.eq (.flt a) (.flt b) = decide (a.number f = b.number f) ∧
    K.lt (.flt a) (.flt b) = decide (a.number f < b.number f) ∧ K.before (.flt a) (.flt b) = decide (a.number f < b.number f)
  null : ∀ c, (K.eq .null c = false ∧ K.lt .null c = false ∧ K.before .null c = (low && decide (c ≠ .null))) ∧
    K.eq c .null = false ∧ K.lt c .null = false ∧ K.before c .null = (!low && decide (c ≠ .null))

/-- Values of fields compared as Go does: with `==` -/
def equal (f : Float.Format) : Val → Val → Bool
  | .bool a, .bool b => decide (a = b)
  | .int a, .int b => decide (a = b)
  | .flt a, .flt b => decide (a.number f = b.number f)
  | .str a, .str b => decide (a = b)
  | _, _ => false

/-- and with `<`; false before true. -/
def less (f : Float.Format) : Val → Val → Bool
  | .bool a, .bool b => !a && b
  | .int a, .int b => decide (a < b)
  | .flt a, .flt b => decide (a.number f < b.number f)
  | .str a, .str b => decide (a < b)
  | _, _ => false

/-- The format of numbers in a field. -/
def formatOf (D : Decls) (ty : Ty) : Float.Format :=
  match kindOfTy D ty with
  | some (.float w) => Float.fmt w
  | _ => Float.double

/-- The comparisons of fields; nil pointers before or after the others. -/
def order (W : World F) (low : Bool) (like : F → Val → Val → Bool) : Store.Comp F Val where
  isNil _ v := decide (v = .nil)
  eq f := equal (formatOf W.decls (W.ty f))
  lt f := less (formatOf W.decls (W.ty f))
  like := like
  before f x y :=
    if x = .nil then low && decide (y ≠ .nil) else if y = .nil then !low else less (formatOf W.decls (W.ty f)) x y

end Verif.Spec.Typed
