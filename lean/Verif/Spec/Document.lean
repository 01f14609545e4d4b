import Verif.Model.Document
import Verif.Spec.JsonField
import Verif.Spec.JsonText
import Verif.Spec.Rich

/-!
# Records with documents

Columns for JSON (MySQL 8.4, section 13.5; PostgreSQL 17, section 8.14; SQLite, datatype3 and json1), and which values they keep.
-/

namespace Verif.Spec.Document

open Verif Verif.Dispatch Verif.Typed Verif.Document Verif.Props Verif.Spec.Typed
open Verif.JsonField (Json)
open Verif.JsonField.Spec (Alike)
open Verif.JsonText.Spec (Means depth tyDepth)
open Verif.Spec (IsWs)

variable {F : Type}

/-! ## Columns -/

/-- Columns that keep a text as it is, and columns that keep the JSON value that a text means. -/
inductive Col where
  | text
  | value
  deriving DecidableEq

/-- The column that a declared type makes. -/
def meaning (db : Columns.Db) (decl : String) : Option Col :=
  match db, decl with
  | .mysql, "JSON" => some .value
  | .postgres, "json" => some .text
  | .sqlite, "TEXT" => some .text
  | _, _ => none

/-- A text, with white space around it, means a JSON value. -/
def TextOf (s : Bytes) (j : Json) : Prop := ∃ w u r, s = w ++ (u ++ r) ∧ IsWs w ∧ Means (.val j) u ∧ IsWs r

mutual
/-- Whole numbers have 64 bits, names of members are short. -/
def Small : Json → Prop
  | .null => True
  | .bool _ => True
  | .num n => -9223372036854775808 ≤ n ∧ n ≤ 18446744073709551615
  | .frac _ => False
  | .str _ => True
  | .arr js => Smalls js
  | .obj ms => Smallm ms
def Smalls : List Json → Prop
  | [] => True
  | j :: js => Small j ∧ Smalls js
def Smallm : List (JsonField.Name × Json) → Prop
  | [] => True
  | (k, j) :: ms => (String.ofList k).utf8ByteSize < 65536 ∧ Small j ∧ Smallm ms
end

/-- What a column takes: MySQL takes documents of at most 100 levels, where values that are not arrays or objects count as one, and is
said to keep only small ones. -/
def Takes : Col → Json → Prop
  | .text, _ => True
  | .value, j => depth j ≤ 99 ∧ Small j

/-- What a driver hands over for a column that was given the text `s`, which means `j`: the text, or one that means the same.  Drivers hand
over text as bytes or as a string. -/
inductive Gives : Col → Bytes → Json → DV → Prop
  | bytes {s j} : Gives .text s j (.bytes s)
  | str {s j} : Gives .text s j (.str s)
  | valueBytes {s j s' j'} : TextOf s' j' → Alike j' j → Gives .value s j (.bytes s')
  | valueStr {s j s' j'} : TextOf s' j' → Alike j' j → Gives .value s j (.str s')

/-! ## Fields -/

/-- Names of defined types have an import path or a package in front of them; the three that have columns of their own are others. -/
def Outside (n : Text) : Prop :=
  '.' ∈ n ∧ n ∉ ["time.Time", "sql.RawBytes", "encoding/json.RawMessage"].map String.toList

/-- Types of documents: structs, lists of structs, arrays of structs, of numbers and of truth values, maps, and types defined as maps.
(`[]T` for a predeclared type `T` is a list, C99.) -/
inductive Simple (D : Decls) : Ty → Prop
  | struct : Simple D .struct
  | named {id} : D.under id = .struct → Outside (D.name id) → Simple D (.named id)
  | structs : Simple D (.slice .struct)
  | nameds {id} : D.under id = .struct → Outside (D.name id) → Simple D (.slice (.named id))
  | array {n id} : D.under id = .struct → Outside (D.name id) → Simple D (.array n (.named id))
  | numbers {n b k} : kindOf b = some k → b ∉ ["byte", "string"].map String.toList → Simple D (.array n (.basic b))
  | map : Simple D .other
  | namedMap {id} : D.under id = .other → D.name id ≠ "time.Time".toList → Simple D (.named id)

/-- Types of fields that are documents: those and pointers to them, lists of lists, and lists of pointers to structs.  They have no methods
that matter, and nothing is configured for them. -/
inductive Doc (D : Decls) (F : Facts) : Ty → Prop
  | plain {ty} : Simple D ty → Bare F ty → Doc D F ty
  | lists {b k} : kindOf b = some k → b ≠ "byte".toList → Bare F (.slice (.slice (.basic b))) → Doc D F (.slice (.slice (.basic b)))
  | ptrs {id} : D.under id = .struct → Outside (D.name id) → Bare F (.slice (.ptr (.named id))) → Doc D F (.slice (.ptr (.named id)))
  | ptr {ty} : Simple D ty → Bare F ty → F.confScan (.ptr ty) = false → Doc D F (.ptr ty)

/-- A type, as `encoding/json` sees it; the fields of structs are not said. -/
inductive As (D : Decls) : Ty → JsonField.Ty → Prop
  | bool : As D (.basic "bool".toList) .bool
  | str : As D (.basic "string".toList) .str
  | int {b k} : kindOf b = some (.int k) → As D (.basic b) (.int (typeLimits k).1 (typeLimits k).2)
  | struct {fs} : As D .struct (.struct fs)
  | named {id t} : As D (D.under id) t → As D (.named id) t
  | ptr {ty t} : As D ty t → As D (.ptr ty) (.ptr t)
  | slice {ty t} : As D ty t → t ≠ .int 0 255 → As D (.slice ty) (.slice t)
  | array {n ty t} : As D ty t → As D (.array n ty) (.array n t)
  | map {t} : As D .other (.map t)

mutual
/-- Types whose values have small documents. -/
def SmallTy : JsonField.Ty → Prop
  | .bool => True
  | .int lo hi => -9223372036854775808 ≤ lo ∧ hi ≤ 18446744073709551615
  | .str => True
  | .ptr t => SmallTy t
  | .slice t => SmallTy t
  | .array _ t => SmallTy t
  | .map _ => False
  | .struct fs => SmallFields fs
def SmallFields : JsonField.Fields → Prop
  | .nil => True
  | .cons key _ t rest => (∀ k, key = some k → (String.ofList k).utf8ByteSize < 65536) ∧ SmallTy t ∧ SmallFields rest
end

/-- The field is a document. -/
structure IsDoc (W : Verif.Document.World F) (f : F) (col : Col) : Prop where
  ty : Doc W.base.decls W.base.facts (W.base.ty f)
  sees : As W.base.decls (W.base.ty f) (W.doc f)
  ok : JsonField.Spec.Ty.Ok (W.doc f)
  col : meaning (dbOf W.base.dialect) (declared W.base.dialect) = some col

/-- The database and the driver do what they are documented to do. -/
structure Behaves (W : Verif.Document.World F) : Prop where
  base : Rich.Behaves W.base
  docs : ∀ f col, IsDoc W f col → ∀ s j, TextOf s j → Takes col j → Gives col s j (W.shown f (W.store f s))

/-- Types whose values come back over whatever is there: every field is written, and there are no maps; for MySQL, they are small and not
nested too deep. -/
structure Solid (col : Col) (t : JsonField.Ty) : Prop where
  written : JsonField.Spec.Ty.Written t
  noMap : JsonField.Spec.Ty.NoMap t
  depth : tyDepth t ≤ 10000
  small : col = .value → tyDepth t ≤ 99 ∧ SmallTy t

/-- Values of a field that its column is for. -/
def Stores (W : Verif.Document.World F) (f : F) : Val → Prop
  | .base v => Rich.Stores W.base f v
  | .doc t v => t = W.doc f ∧ ∃ col, IsDoc W f col ∧ Solid col t ∧ JsonField.Spec.Ty.Wf t v ∧ JsonField.Spec.Ty.Clean t v

/-! ## Comparisons -/

/-- Nil, and NULL in the column.  Lists and maps in documents that are nil are JSON's `null`, which is not NULL. -/
def isNull : Val → Bool
  | .base v => decide (v = .base .nil)
  | .doc (.ptr t) p => (show Option t.Val from p).isNone
  | .doc _ _ => false

/-- The other comparisons, for values that are not documents. -/
def onBase (O : Store.Comp F Val) : Store.Comp F Rich.Val where
  isNil f v := O.isNil f (.base v)
  eq f v w := O.eq f (.base v) (.base w)
  lt f v w := O.lt f (.base v) (.base w)
  like f v w := O.like f (.base v) (.base w)
  before f v w := O.before f (.base v) (.base w)

/-- The comparisons of fields: as before; documents that are not nil as in `other`. -/
def order (W : Verif.Document.World F) (low : Bool) (other : Store.Comp F Val) : Store.Comp F Val where
  isNil _ v := isNull v
  eq
    | f, .base v, .base w => (Rich.order W.base low (onBase other)).eq f v w
    | f, x, y => !isNull x && !isNull y && other.eq f x y
  lt
    | f, .base v, .base w => (Rich.order W.base low (onBase other)).lt f v w
    | f, x, y => !isNull x && !isNull y && other.lt f x y
  like := other.like
  before
    | f, .base v, .base w => (Rich.order W.base low (onBase other)).before f v w
    | f, x, y => if isNull x then low && !isNull y else if isNull y then !low else other.before f x y

/-- The database compares other values as in C99; `other` is what it does for documents, which is not said. -/
structure Compares (W : Verif.Document.World F) (K : Sql.Compare Cell) (low : Bool) (other : Store.Comp F Val) : Prop where
  base : ∃ K' : Sql.Compare Rich.Cell, Rich.Sorts K' low ∧ Rich.Others W.base K' (onBase other) ∧
    ∀ a b, K.eq (.base a) (.base b) = K'.eq a b ∧ K.lt (.base a) (.base b) = K'.lt a b ∧
      K.like (.base a) (.base b) = K'.like a b ∧ K.before (.base a) (.base b) = K'.before a b
  null : ∀ s, (K.eq (.base (.base .null)) (.doc s) = false ∧ K.lt (.base (.base .null)) (.doc s) = false ∧
      K.before (.base (.base .null)) (.doc s) = low) ∧
    K.eq (.doc s) (.base (.base .null)) = false ∧ K.lt (.doc s) (.base (.base .null)) = false ∧
      K.before (.doc s) (.base (.base .null)) = !low
  docs : ∀ f t v w, Stores W f (.doc t v) → Stores W f (.doc t w) →
    K.like (W.enc f (.doc t v)) (W.enc f (.doc t w)) = other.like f (.doc t v) (.doc t w) ∧
    (isNull (.doc t v) = false → isNull (.doc t w) = false →
      K.eq (W.enc f (.doc t v)) (W.enc f (.doc t w)) = other.eq f (.doc t v) (.doc t w) ∧
      K.lt (W.enc f (.doc t v)) (W.enc f (.doc t w)) = other.lt f (.doc t v) (.doc t w) ∧
      K.before (W.enc f (.doc t v)) (W.enc f (.doc t w)) = other.before f (.doc t v) (.doc t w))

/-- Keys: fields that are not documents, not lists and not nil. -/
def Keyed (W : Verif.Document.World F) (f : F) : Prop :=
  Rich.Keyed W.base f ∧ ¬ Doc W.base.decls W.base.facts (W.base.ty f)

end Verif.Spec.Document
