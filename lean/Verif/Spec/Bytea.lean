import Verif.Base.Go

/-! # PostgreSQL bytea text formats, stated independently of the decoder -/

namespace Verif.Spec

/-- `HexDigit c n`: the ASCII byte `c` is a hexadecimal digit of value `n`, either letter case. -/
def HexDigit (c : Byte) (n : Nat) : Prop :=
  (n < 10 ∧ c.toNat = 48 + n) ∨ (10 ≤ n ∧ n < 16 ∧ c.toNat = 87 + n) ∨
    (10 ≤ n ∧ n < 16 ∧ c.toNat = 55 + n)

/-- Pairs of hex digits denoting bytes. -/
inductive HexText : Bytes → Bytes → Prop
  | nil : HexText [] []
  | cons {a b m n t v} : HexDigit a m → HexDigit b n → HexText t v →
      HexText (a :: b :: t) (UInt8.ofNat (m * 16 + n) :: v)

/-- The legacy escape format: `\\` for a backslash, `\ooo` for an octal value below 256, any other
byte except a backslash for itself. -/
inductive EscText : Bytes → Bytes → Prop
  | nil : EscText [] []
  | raw {x t v} : x ≠ 92 → EscText t v → EscText (x :: t) (x :: v)
  | bs {t v} : EscText t v → EscText (92 :: 92 :: t) (92 :: v)
  | oct {i j k t v} : i < 8 → j < 8 → k < 8 → i * 64 + j * 8 + k < 256 → EscText t v →
      EscText (92 :: UInt8.ofNat (48 + i) :: UInt8.ofNat (48 + j) :: UInt8.ofNat (48 + k) :: t)
        (UInt8.ofNat (i * 64 + j * 8 + k) :: v)

/-- What the server sends with `bytea_output = escape`: octal for bytes outside 32..126, doubled
backslash, everything else raw. -/
def serverEscape : Bytes → Bytes
  | [] => []
  | x :: xs =>
    if x = 92 then 92 :: 92 :: serverEscape xs
    else if x.toNat < 32 ∨ 126 < x.toNat then
      92 :: UInt8.ofNat (48 + x.toNat / 64) :: UInt8.ofNat (48 + x.toNat / 8 % 8) ::
        UInt8.ofNat (48 + x.toNat % 8) :: serverEscape xs
    else x :: serverEscape xs

end Verif.Spec
