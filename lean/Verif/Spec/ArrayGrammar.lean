import Verif.Base.Go

/-!
# Grammar of one-dimensional array texts

Independent of the scanner: which texts denote which lists.  `o` and `c` are the bracket bytes,
44 is `,`, 34 is `"`, 92 is `\`.  An element is `none` when it is the bare word `NULL`.
-/

namespace Verif.Spec

/-- `QuotedBody t d`: the text `t` between two quotes denotes the bytes `d`. -/
inductive QuotedBody : Bytes → Bytes → Prop
  | nil : QuotedBody [] []
  | plain {x t d} : x ≠ 34 → x ≠ 92 → QuotedBody t d → QuotedBody (x :: t) (x :: d)
  | esc {x t d} : QuotedBody t d → QuotedBody (92 :: x :: t) (x :: d)

/-- `Elem o c t e`: the text `t` denotes the element `e`. -/
inductive Elem (o c : Byte) : Bytes → Option Bytes → Prop
  | quoted {t d} : QuotedBody t d → Elem o c (34 :: (t ++ [34])) (some d)
  | bare {x t} : x ≠ o → x ≠ 34 → (∀ y ∈ x :: t, y ≠ 44 ∧ y ≠ c) → x :: t ≠ [78, 85, 76, 76] →
      Elem o c (x :: t) (some (x :: t))
  | null : Elem o c [78, 85, 76, 76] none

/-- One or more elements separated by commas. -/
inductive Elems (o c : Byte) : Bytes → List (Option Bytes) → Prop
  | one {t e} : Elem o c t e → Elems o c t [e]
  | more {t e t' es} : Elem o c t e → Elems o c t' es → Elems o c (t ++ 44 :: t') (e :: es)

/-- Texts accepted for a one-dimensional array. -/
inductive LinearArray (o c : Byte) : Bytes → List (Option Bytes) → Prop
  | empty {n} : 0 < n → LinearArray o c (List.replicate n o ++ List.replicate n c) []
  | list {t es} : Elems o c t es → LinearArray o c (o :: (t ++ [c])) es

end Verif.Spec
