import Verif.Props.FixedExample

/-!
# C109: arrays of bytes and characters on SQLite
-/

namespace Verif.Props

open Verif Verif.Typed Verif.Fixed Verif.Scan Verif.Spec.Fixed

variable {F U : Type} {W : Fixed.World F U} {f : F} {n : Nat}

/-- C109, SQLite: all arrays of bytes are read back, whatever their bytes are. -/
theorem C109_sqlite_bytes (hW : Spec.Fixed.Behaves W) (hi : Is W f .byte n) (hd : W.base.base.base.dialect = .sqlite) {l : Bytes} (hl : l.length = n)
    (old : Val U) : W.dec f (W.enc f (.bytes l)) old = some (.bytes l) :=
  C109_field hW (f := f) (x := .bytes l) ⟨n, .blob, ⟨hi, by rw [hd]; rfl⟩, hl, trivial⟩ old

/-- C109, SQLite: all arrays of characters are read back if the driver hands over bytes, and those of ASCII always. -/
theorem C109_sqlite_runes (hW : Spec.Fixed.Behaves W) (hi : Is W f .rune n) (hd : W.base.base.base.dialect = .sqlite) {cs : List Char}
    (hl : cs.length = n) (ha : AsBytes W f ∨ ∀ c ∈ cs, c.toNat < 128) (old : Val U) :
    W.dec f (W.enc f (.runes (cs.map fun c => (c.toNat : Int)))) old = some (.runes (cs.map fun c => (c.toNat : Int))) :=
  C109_field hW (f := f) (x := .runes (cs.map fun c => (c.toNat : Int))) ⟨n, none, true, ⟨hi, by rw [hd]; rfl⟩, cs, rfl, hl, by simp, by simp, ha⟩ old

/-- Bytes that are no text. -/
example (old : Val Bytes) : (fixedWorld .sqlite).dec 10 ((fixedWorld .sqlite).enc 10 (.bytes [0, 255, 32, 32])) old = some (.bytes [0, 255, 32, 32]) := by
  rcases fixedTy .sqlite 10 with ⟨-, hi⟩ | ⟨h, -⟩ | ⟨h, -⟩
  · exact C109_sqlite_bytes (fixedBehaves .sqlite) hi rfl rfl old
  · cases h
  · exact absurd rfl h

end Verif.Props
