import Verif.Props.Made

/-!
# C110: columns that count up keep the width of their type
-/

namespace Verif.Props

open Verif Verif.Spec
open Verif.PgType (Entry)
open Verif.ColumnType (GoInt)

/-- C110, PostgreSQL: the type that counts up is, but for the counting, the type of the same numbers that do not: the catalogue shows both
alike. -/
theorem C110_pg_width {k : GoInt} (hb : k ≠ .byte) (h64 : k ≠ .int64) (size : Int) :
    ∃ c, PgType.serial ((Entry.int k).dataType size true) = some c ∧ PgType.shownAs ((Entry.int k).dataType size false) = some c := by
  have e : ∀ a, (Entry.int k).dataType size a = (Entry.int k).dataType 0 a := fun a => by cases k <;> rfl
  rw [e, e]
  have key : ∀ k : GoInt, k ≠ .byte → k ≠ .int64 → (PgType.serial ((Entry.int k).dataType 0 true)).isSome = true ∧
      PgType.serial ((Entry.int k).dataType 0 true) = PgType.shownAs ((Entry.int k).dataType 0 false) := by
    intro k
    cases k <;> decide +kernel
  obtain ⟨h1, h2⟩ := key k hb h64
  obtain ⟨c, h⟩ := Option.isSome_iff_exists.1 h1
  exact ⟨c, h, h2 ▸ h⟩

/-- Small numbers. -/
example : PgType.serial ((Entry.int .int16).dataType 5 true) = some ⟨"int2".toUTF8.toList, none, none⟩ := by decide +kernel

end Verif.Props
