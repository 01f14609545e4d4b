import Verif.Base.Go

/-! # JSON grammar (RFC 8259) over bytes

Bytes from 128 on are allowed inside strings; UTF-8 validity is not checked. -/

namespace Verif.Spec

def IsWs (t : Bytes) : Prop := ∀ c ∈ t, c = 32 ∨ c = 9 ∨ c = 10 ∨ c = 13

def IsDigit (c : Byte) : Prop := 48 ≤ c.toNat ∧ c.toNat ≤ 57

def IsHex (c : Byte) : Prop :=
  IsDigit c ∨ (65 ≤ c.toNat ∧ c.toNat ≤ 70) ∨ (97 ≤ c.toNat ∧ c.toNat ≤ 102)

/-- Contents of a JSON string. -/
inductive JsonChars : Bytes → Prop
  | nil : JsonChars []
  | plain {c t} : c ≠ 34 → c ≠ 92 → 32 ≤ c.toNat → JsonChars t → JsonChars (c :: t)
  | esc {c t} : c ∈ ([34, 92, 47, 98, 102, 110, 114, 116] : Bytes) → JsonChars t →
      JsonChars (92 :: c :: t)
  | uni {a b c d t} : IsHex a → IsHex b → IsHex c → IsHex d → JsonChars t →
      JsonChars (92 :: 117 :: a :: b :: c :: d :: t)

/-- Integer part without sign: `0` or a digit string not starting with `0`. -/
inductive JsonInt : Bytes → Prop
  | zero : JsonInt [48]
  | pos {c t} : IsDigit c → c ≠ 48 → (∀ x ∈ t, IsDigit x) → JsonInt (c :: t)

inductive JsonFrac : Bytes → Prop
  | none : JsonFrac []
  | some {c t} : IsDigit c → (∀ x ∈ t, IsDigit x) → JsonFrac (46 :: c :: t)

inductive JsonExp : Bytes → Prop
  | none : JsonExp []
  | some {e s c t} : (e = 101 ∨ e = 69) → (s = [] ∨ s = [43] ∨ s = [45]) → IsDigit c →
      (∀ x ∈ t, IsDigit x) → JsonExp (e :: (s ++ c :: t))

inductive Kind where
  | value
  | elems
  | members
  deriving DecidableEq

/-- `JsonG .value t`: `t` is a JSON value; `.elems`: comma separated values; `.members`: comma
separated name/value pairs. -/
inductive JsonG : Kind → Bytes → Prop
  | tru : JsonG .value [116, 114, 117, 101]
  | fls : JsonG .value [102, 97, 108, 115, 101]
  | null : JsonG .value [110, 117, 108, 108]
  | num {s i f e} : (s = [] ∨ s = [45]) → JsonInt i → JsonFrac f → JsonExp e →
      JsonG .value (s ++ (i ++ (f ++ e)))
  | str {b} : JsonChars b → JsonG .value (34 :: (b ++ [34]))
  | arr0 {w} : IsWs w → JsonG .value (91 :: (w ++ [93]))
  | arr {es} : JsonG .elems es → JsonG .value (91 :: (es ++ [93]))
  | obj0 {w} : IsWs w → JsonG .value (123 :: (w ++ [125]))
  | obj {ms} : JsonG .members ms → JsonG .value (123 :: (ms ++ [125]))
  | elem1 {w v w'} : IsWs w → JsonG .value v → IsWs w' → JsonG .elems (w ++ (v ++ w'))
  | elemS {w v w' es} : IsWs w → JsonG .value v → IsWs w' → JsonG .elems es →
      JsonG .elems (w ++ (v ++ (w' ++ 44 :: es)))
  | mem1 {w b w' u v w''} : IsWs w → JsonChars b → IsWs w' → IsWs u → JsonG .value v → IsWs w'' →
      JsonG .members (w ++ (34 :: (b ++ 34 :: (w' ++ 58 :: (u ++ (v ++ w''))))))
  | memS {w b w' u v w'' ms} : IsWs w → JsonChars b → IsWs w' → IsWs u → JsonG .value v → IsWs w'' →
      JsonG .members ms →
      JsonG .members (w ++ (34 :: (b ++ 34 :: (w' ++ 58 :: (u ++ (v ++ (w'' ++ 44 :: ms)))))))

/-- A JSON text. -/
def IsJson (t : Bytes) : Prop := ∃ w v w', t = w ++ (v ++ w') ∧ IsWs w ∧ JsonG .value v ∧ IsWs w'

/-- How MySQL prints a stored JSON array of integers: elements separated by a comma and a space. -/
def mysqlJsonInts : List Bytes → Bytes
  | [] => [91, 93]
  | x :: xs => 91 :: (x ++ xs.flatMap (fun y => 44 :: 32 :: y) ++ [93])

end Verif.Spec
