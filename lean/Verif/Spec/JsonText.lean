import Verif.Spec.Json
import Verif.Spec.Numeral
import Verif.Spec.Scan
import Verif.Model.JsonField

/-!
# What a JSON text means (RFC 8259)

Half of a surrogate pair alone and bytes that are not UTF-8 have no meaning here.
-/

namespace Verif.JsonText.Spec

open Verif.Spec Verif.Spec.Scan Verif.JsonField

/-- A digit in base 16. -/
def Hex1 (b : Byte) (n : Nat) : Prop :=
  (n < 10 ∧ b.toNat = 48 + n) ∨ (10 ≤ n ∧ n < 16 ∧ (b.toNat = 87 + n ∨ b.toNat = 55 + n))

/-- Four digits in base 16. -/
def Hex4 (t : Bytes) (n : Nat) : Prop :=
  ∃ a b c d i j k l, t = [a, b, c, d] ∧ Hex1 a i ∧ Hex1 b j ∧ Hex1 c k ∧ Hex1 d l ∧
    n = ((i * 16 + j) * 16 + k) * 16 + l

/-- What may follow a backslash, apart from `u`, and the character it stands for. -/
def escapes : List (Byte × Nat) := [(34, 34), (92, 92), (47, 47), (98, 8), (102, 12), (110, 10), (114, 13), (116, 9)]

/-- Contents of a string, and the characters they stand for. -/
inductive Chars : Bytes → List Char → Prop
  | nil : Chars [] []
  | plain {c : Char} {t cs} : 32 ≤ c.toNat → c.toNat ≠ 34 → c.toNat ≠ 92 → Chars t cs → Chars (utf8 c ++ t) (c :: cs)
  | esc {b : Byte} {c : Char} {t cs} : (b, c.toNat) ∈ escapes → Chars t cs → Chars (92 :: b :: t) (c :: cs)
  | uni {h : Bytes} {c : Char} {t cs} : Hex4 h c.toNat → Chars t cs → Chars (92 :: 117 :: (h ++ t)) (c :: cs)
  | pair {h l : Bytes} {m n : Nat} {c : Char} {t cs} : Hex4 h (0xD800 + m) → Hex4 l (0xDC00 + n) → m < 1024 → n < 1024 →
      c.toNat = 0x10000 + 1024 * m + n → Chars t cs → Chars (92 :: 117 :: (h ++ 92 :: 117 :: (l ++ t))) (c :: cs)

/-- What a piece of text may stand for: a value, values, or members. -/
inductive Thing where
  | val (j : Json)
  | elems (js : List Json)
  | members (ms : List (Name × Json))

inductive Means : Thing → Bytes → Prop
  | null : Means (.val .null) [110, 117, 108, 108]
  | tru : Means (.val (.bool true)) [116, 114, 117, 101]
  | fls : Means (.val (.bool false)) [102, 97, 108, 115, 101]
  | nat {i n} : JsonInt i → Numeral 10 i n → Means (.val (.num n)) i
  | neg {i n} : JsonInt i → Numeral 10 i n → Means (.val (.num (-(n : Int)))) (45 :: i)
  | frac {s i f e} : (s = [] ∨ s = [45]) → JsonInt i → JsonFrac f → JsonExp e → f ++ e ≠ [] →
      Means (.val (.frac (s ++ (i ++ (f ++ e))))) (s ++ (i ++ (f ++ e)))
  | str {b cs} : Chars b cs → Means (.val (.str cs)) (34 :: (b ++ [34]))
  | arr0 {w} : IsWs w → Means (.val (.arr [])) (91 :: (w ++ [93]))
  | arr {es js} : Means (.elems js) es → Means (.val (.arr js)) (91 :: (es ++ [93]))
  | obj0 {w} : IsWs w → Means (.val (.obj [])) (123 :: (w ++ [125]))
  | obj {t ms} : Means (.members ms) t → Means (.val (.obj ms)) (123 :: (t ++ [125]))
  | elem1 {w v w' j} : IsWs w → Means (.val j) v → IsWs w' → Means (.elems [j]) (w ++ (v ++ w'))
  | elemS {w v w' es j js} : IsWs w → Means (.val j) v → IsWs w' → Means (.elems js) es →
      Means (.elems (j :: js)) (w ++ (v ++ (w' ++ 44 :: es)))
  | mem1 {w b k w' u v w'' j} : IsWs w → Chars b k → IsWs w' → IsWs u → Means (.val j) v → IsWs w'' →
      Means (.members [(k, j)]) (w ++ (34 :: (b ++ 34 :: (w' ++ 58 :: (u ++ (v ++ w''))))))
  | memS {w b k w' u v w'' t j ms} : IsWs w → Chars b k → IsWs w' → IsWs u → Means (.val j) v → IsWs w'' →
      Means (.members ms) t →
      Means (.members ((k, j) :: ms)) (w ++ (34 :: (b ++ 34 :: (w' ++ 58 :: (u ++ (v ++ (w'' ++ 44 :: t)))))))

mutual
/-- How deep arrays and objects are nested. -/
def depth : Json → Nat
  | .arr js => depths js + 1
  | .obj ms => depthm ms + 1
  | _ => 0
def depths : List Json → Nat
  | [] => 0
  | j :: js => max (depth j) (depths js)
def depthm : List (Name × Json) → Nat
  | [] => 0
  | (_, j) :: ms => max (depth j) (depthm ms)
end

mutual
/-- No numbers with a fraction or an exponent. -/
def NoFrac : Json → Prop
  | .frac _ => False
  | .arr js => NoFracs js
  | .obj ms => NoFracm ms
  | _ => True
def NoFracs : List Json → Prop
  | [] => True
  | j :: js => NoFrac j ∧ NoFracs js
def NoFracm : List (Name × Json) → Prop
  | [] => True
  | (_, j) :: ms => NoFrac j ∧ NoFracm ms
end

mutual
/-- How deep the JSON values for a type can be nested. -/
def tyDepth : Ty → Nat
  | .bool => 0
  | .int _ _ => 0
  | .str => 0
  | .ptr t => tyDepth t
  | .slice t => tyDepth t + 1
  | .array _ t => tyDepth t + 1
  | .map t => tyDepth t + 1
  | .struct fs => fieldsDepth fs + 1
def fieldsDepth : Fields → Nat
  | .nil => 0
  | .cons _ _ t rest => max (tyDepth t) (fieldsDepth rest)
end

/-- A text that cannot continue a number. -/
def Stop (r : Bytes) : Prop :=
  ∀ b t, r = b :: t → ¬ IsDigit b ∧ b ≠ 46 ∧ b ≠ 101 ∧ b ≠ 69

end Verif.JsonText.Spec
