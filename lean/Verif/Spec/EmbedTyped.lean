import Verif.Spec.Embed
import Verif.Spec.Typed

/-!
# Structs with fields of given types and embedded pointers
-/

namespace Verif.Spec.EmbedTyped

open Verif Verif.Addrs Verif.Dispatch Verif.Embed Verif.Gen Verif.Typed Verif.Spec.Columns Verif.Spec.Gen

/-- The zero value of a type. -/
def zeroOf : Kind → Val
  | .bool => .bool false
  | .int _ => .int 0
  | .float _ => .flt (.num false 0)
  | .string => .str []

/-- The zero value of a type, of what a pointer points to. -/
def below (D : Decls) (ty : Ty) : Val := ((kindOfTy D ty).map zeroOf).getD .nil

/-- The zero value of a field; of a pointer it is nil. -/
def zero (W : World Path) (c : Path) : Val := if isPtr (W.ty c) then .nil else below W.decls (W.ty c)

/-- The values of fields. -/
def values (W : World Path) : Values Val where
  isNil v := decide (v = .nil)
  zero := zero W
  fresh c := below W.decls (W.ty c)

/-- The types whose fields cannot be read from NULL; types defined from them, other numbers and pointers can. -/
def Strict (ty : Ty) : Prop :=
  ty = .basic "string".toList ∨ ty = .basic "bool".toList ∨ ty = .basic "int64".toList ∨ ty = .basic "float64".toList

/-- The fields have types with columns, and the paths say which of them are pointers. -/
structure Typed (W : World Path) (t : Table Path) : Prop where
  col : ∀ c ∈ genAddrs t, ∃ k col, Spec.Typed.HasCol W c k col
  ptr : ∀ c ∈ genAddrs t, lastPtr c = isPtr (W.ty c)

open Classical in
/-- What is to come back of a struct that was stored: the fields it has; the others are zero. -/
noncomputable def comesBack (W : World Path) (r : Obj Val) (c : Path) : Val :=
  if Embed.Reached r c then r.val c else zero W c

end Verif.Spec.EmbedTyped
