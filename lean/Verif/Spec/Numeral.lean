import Verif.Base.Go

/-! # Numerals: which byte strings denote which numbers -/

namespace Verif.Spec

/-- `Numeral b t n`: `t` is a non-empty string of ASCII digits smaller than `b`, denoting `n` in
base `b`. -/
inductive Numeral (b : Nat) : Bytes → Nat → Prop
  | one {d : Nat} : d < b → Numeral b [UInt8.ofNat (48 + d)] d
  | snoc {t : Bytes} {n d : Nat} : Numeral b t n → d < b →
      Numeral b (t ++ [UInt8.ofNat (48 + d)]) (b * n + d)

/-- An optionally signed decimal numeral (43 is `+`, 45 is `-`). -/
inductive SignedNumeral : Bytes → Int → Prop
  | plain {t n} : Numeral 10 t n → SignedNumeral t n
  | plus {t n} : Numeral 10 t n → SignedNumeral (43 :: t) n
  | minus {t n} : Numeral 10 t n → SignedNumeral (45 :: t) (-(n : Int))

end Verif.Spec
