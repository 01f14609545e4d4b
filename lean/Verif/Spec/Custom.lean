import Verif.Model.Custom
import Verif.Spec.Document

/-!
# Records with types that have methods of their own
-/

namespace Verif.Spec.Custom

open Verif Verif.Dispatch Verif.Typed Verif.Custom Verif.Scan Verif.Props Verif.Spec.Typed

variable {F U : Type}

/-! ## Fields -/

/-- The methods by which a type is written and read: `Value` and `Scan`, `MarshalText` and `UnmarshalText`, or JSON. -/
inductive Way where
  | own
  | text
  | json
  deriving DecidableEq

/-- Nothing is configured for the type, as that of a field. -/
structure Unset (F : Facts) (ty : Ty) : Prop where
  value : F.confValue (pointee ty) = false
  scan : F.confScan ty = false

/-- Types of fields: defined types with `Value` and `Scan`, whatever else they are and have, and pointers to them; structs and maps with
`MarshalText` and `UnmarshalText`, and pointers to such structs; types of JSON documents (C101), with any methods for JSON. -/
inductive Has (D : Decls) (F : Facts) : Ty → Way → Prop
  | own {id} : F.hasValue (.named id) = true → F.scans (.named id) = true → D.name id ≠ "time.Time".toList → Unset F (.named id) →
      Has D F (.named id) .own
  | ownPtr {id} : F.hasValue (.named id) = true → F.scans (.named id) = true → D.name id ≠ "time.Time".toList →
      Unset F (.ptr (.named id)) → Has D F (.ptr (.named id)) .own
  | text {id} : Document.Simple D (.named id) → F.hasValue (.named id) = false → F.scans (.named id) = false →
      F.marshals (.named id) = true → F.unmarshals (.named id) = true → Unset F (.named id) → Has D F (.named id) .text
  | textPtr {id} : D.under id = .struct → Document.Outside (D.name id) → F.hasValue (.named id) = false → F.scans (.named id) = false →
      F.marshals (.named id) = true → F.unmarshals (.named id) = true → Unset F (.ptr (.named id)) → Has D F (.ptr (.named id)) .text
  | json {ty} : Document.Doc D F ty → Has D F ty .json

/-- Drivers hand over what is in a column; text as bytes or as a string. -/
inductive Handed : Src → Src → Prop
  | same {s} : Handed s s
  | str {b} : Handed (.bytes b) (.str b)
  | bytes {b} : Handed (.str b) (.bytes b)

/-- The column keeps the parameter, and it is handed over again. -/
def Kept (W : Verif.Custom.World F U) (f : F) (s : Src) : Prop := s ≠ .nil → Handed s (W.shown f (W.store f s))

/-- What `Value` may give (package `database/sql/driver`). -/
def Proper : Src → Prop
  | .uint64 _ | .other _ => False
  | _ => True

/-- The methods of the type of a field belong together, for a value: what reads undoes what writes, whatever was there before. -/
def Returns (W : Verif.Custom.World F U) (f : F) : Way → U → Prop
  | .own, u => ∃ s, W.value f u = some s ∧ Proper s ∧ Kept W f s ∧ ∀ old s', Handed s s' → W.scan f old s' = .ok u
  | .text, u => ∃ b, W.marshal f u = some b ∧ Kept W f (.bytes b) ∧ ∀ old, W.unmarshal f old b = .ok u
  | .json, u => ∃ b, W.toJson f u = some b ∧ Kept W f (.bytes b) ∧ ∀ old, W.fromJson f old b = some (some u)

/-- Fields that are pointers. -/
def Pointer (W : Verif.Custom.World F U) (f : F) : Prop := ∃ e, W.base.base.ty f = .ptr e

/-- `Value` gives nil, which is NULL. -/
def GivesNil (W : Verif.Custom.World F U) (f : F) (w : Way) (u : U) : Prop := w = .own ∧ W.value f u = some .nil

/-- Values of a field that its column is for: pointers do not point to values that are NULL. -/
def Stores (W : Verif.Custom.World F U) (f : F) : Val U → Prop
  | .base v => W.own f = false ∧ Document.Stores W.base f v
  | .own none => W.own f = true ∧ Pointer W f ∧ ∃ w, Has W.base.base.decls W.base.base.facts (W.base.base.ty f) w
  | .own (some u) => W.own f = true ∧ ∃ w, Has W.base.base.decls W.base.base.facts (W.base.base.ty f) w ∧ Returns W f w u ∧
      ¬ (Pointer W f ∧ GivesNil W f w u)

/-! ## Comparisons -/

/-- Nil, and NULL in the column. -/
def isNull (W : Verif.Custom.World F U) (f : F) : Val U → Bool
  | .base v => Document.isNull v
  | .own none => true
  | .own (some u) => W.base.base.facts.hasValue (deref (W.base.base.ty f)) && decide (W.value f u = some .nil)

/-- The other comparisons, for values without methods. -/
def onBase (O : Store.Comp F (Val U)) : Store.Comp F Verif.Document.Val where
  isNil f v := O.isNil f (.base v)
  eq f v w := O.eq f (.base v) (.base w)
  lt f v w := O.lt f (.base v) (.base w)
  like f v w := O.like f (.base v) (.base w)
  before f v w := O.before f (.base v) (.base w)

/-- The comparisons of fields: as before; values with methods that are not NULL as in `other`. -/
def order (W : Verif.Custom.World F U) (low : Bool) (other : Store.Comp F (Val U)) : Store.Comp F (Val U) where
  isNil f v := isNull W f v
  eq
    | f, .base v, .base w => (Document.order W.base low (onBase other)).eq f v w
    | f, x, y => !isNull W f x && !isNull W f y && other.eq f x y
  lt
    | f, .base v, .base w => (Document.order W.base low (onBase other)).lt f v w
    | f, x, y => !isNull W f x && !isNull W f y && other.lt f x y
  like := other.like
  before
    | f, .base v, .base w => (Document.order W.base low (onBase other)).before f v w
    | f, x, y => if isNull W f x then low && !isNull W f y else if isNull W f y then !low else other.before f x y

/-- The database compares other values as in C101; `other` is what it does with values of types with methods, which is not said. -/
structure Compares (W : Verif.Custom.World F U) (K : Sql.Compare Cell) (low : Bool) (other : Store.Comp F (Val U)) : Prop where
  base : ∃ K' : Sql.Compare Verif.Document.Cell, Document.Compares W.base K' low (onBase other) ∧
    ∀ a b, K.eq (.base a) (.base b) = K'.eq a b ∧ K.lt (.base a) (.base b) = K'.lt a b ∧
      K.like (.base a) (.base b) = K'.like a b ∧ K.before (.base a) (.base b) = K'.before a b
  null : (K.eq null null = false ∧ K.lt null null = false ∧ K.before null null = false) ∧
    ∀ s, (K.eq null (.own s) = false ∧ K.lt null (.own s) = false ∧ K.before null (.own s) = low) ∧
      K.eq (.own s) null = false ∧ K.lt (.own s) null = false ∧ K.before (.own s) null = !low
  own : ∀ f p q, Stores W f (.own p) → Stores W f (.own q) →
    K.like (W.enc f (.own p)) (W.enc f (.own q)) = other.like f (.own p) (.own q) ∧
    (isNull W f (.own p) = false → isNull W f (.own q) = false →
      K.eq (W.enc f (.own p)) (W.enc f (.own q)) = other.eq f (.own p) (.own q) ∧
      K.lt (W.enc f (.own p)) (W.enc f (.own q)) = other.lt f (.own p) (.own q) ∧
      K.before (W.enc f (.own p)) (W.enc f (.own q)) = other.before f (.own p) (.own q))

/-- Keys: those of C101, and fields with methods that are not pointers and never NULL, as those of type `uuid.UUID`. -/
def Keyed (W : Verif.Custom.World F U) (f : F) : Prop :=
  W.own f = false ∧ Document.Keyed W.base f ∨ W.own f = true ∧ ¬ Pointer W f ∧ ∀ u, W.value f u ≠ some .nil

/-- The database has an order of the values of a field, by which it compares and sorts. -/
structure Ranked (W : Verif.Custom.World F U) (other : Store.Comp F (Val U)) (f : F) : Prop where
  eq : ∀ x y, Stores W f x → Stores W f y → (other.eq f x y = true ↔ x = y)
  before : ∀ x y, Stores W f x → Stores W f y → other.before f x y = other.lt f x y
  irrefl : ∀ x, Stores W f x → other.lt f x x = false
  trans : ∀ x y z, Stores W f x → Stores W f y → Stores W f z → other.lt f x y = true → other.lt f y z = true → other.lt f x z = true
  total : ∀ x y, Stores W f x → Stores W f y → x = y ∨ other.lt f x y = true ∨ other.lt f y x = true

end Verif.Spec.Custom
