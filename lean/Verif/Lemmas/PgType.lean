import Verif.Spec.PgType
import Verif.Lemmas.Numeral

/-! Lemmas about the types of columns in migrations for PostgreSQL. -/

namespace Verif.PgType

open Verif.Migrate (lit)
open Verif.Spec.PgType

theorem varchar_lit : lit "varchar(" = lit "varchar" ++ [40] := by decide +kernel

theorem close_lit : lit ")" = [41] := by decide +kernel

theorem takeWhile_varchar (x : Bytes) :
    (lit "varchar" ++ 40 :: x).takeWhile (fun b => b ≠ 40 && b ≠ 91) = lit "varchar" := by
  have e : lit "varchar" = [118, 97, 114, 99, 104, 97, 114] := by decide +kernel
  rw [e]
  simp

theorem dropWhile_varchar (x : Bytes) :
    (lit "varchar" ++ 40 :: x).dropWhile (fun b => b ≠ 40 && b ≠ 91) = 40 :: x := by
  have e : lit "varchar" = [118, 97, 114, 99, 104, 97, 114] := by decide +kernel
  rw [e]
  simp

theorem shownAs_varchar_nat (n : Nat) :
    shownAs (lit "varchar(" ++ natDec n ++ lit ")") = if 1 ≤ n ∧ n ≤ maxLen then some ⟨lit "varchar", some n, none⟩ else none := by
  rw [varchar_lit, close_lit, List.append_assoc, List.append_assoc, List.singleton_append]
  unfold shownAs
  simp only
  rw [takeWhile_varchar, dropWhile_varchar]
  simp only [if_true]
  unfold bracketed
  rw [if_pos (by simp), List.dropLast_concat]
  have hl : sized.lookup (lit "varchar") = some (lit "varchar") := by decide +kernel
  by_cases h : n < 2 ^ 64
  · rw [parseUint_natDec h, hl]
  · have hm : ¬ (1 ≤ n ∧ n ≤ maxLen) := by
      have : maxLen < 2 ^ 64 := by decide
      omega
    rw [if_neg hm]
    cases hp : parseUint (natDec n) 10 64 with
    | none => rfl
    | some k =>
      have h1 := parseUint_natDec (n := n) (w := n + 64) (Nat.lt_of_lt_of_le Nat.lt_two_pow_self (Nat.pow_le_pow_right (by decide) (by omega)))
      have hk := (parseUint_iff (by decide)).1 hp
      have h2 := (parseUint_iff (b := 10) (w := n + 64) (by decide)).2
        ⟨hk.1, Nat.lt_of_lt_of_le hk.2 (Nat.pow_le_pow_right (by decide) (by omega))⟩
      rw [h1] at h2
      cases h2
      exact absurd hk.2 h

theorem shownAs_varchar (n : Int) :
    shownAs (lit "varchar(" ++ intDec n ++ lit ")") =
      if 1 ≤ n ∧ n ≤ (maxLen : Int) then some ⟨lit "varchar", some n, none⟩ else none := by
  unfold intDec
  split
  · next hn =>
    rw [if_neg (by omega), varchar_lit, close_lit, List.append_assoc, List.append_assoc, List.singleton_append]
    unfold shownAs
    simp only
    rw [takeWhile_varchar, dropWhile_varchar]
    simp only [if_true]
    unfold bracketed
    rw [if_pos (by rw [List.getLast?_append]; rfl), List.dropLast_concat]
    have : parseUint (45 :: natDec n.natAbs) 10 64 = none := by
      unfold parseUint parseDigits
      rfl
    rw [this]
  · next hn =>
    rw [shownAs_varchar_nat]
    have e : ((n.natAbs : Nat) : Int) = n := by omega
    rw [e]
    have h : (1 ≤ n.natAbs ∧ n.natAbs ≤ maxLen) ↔ (1 ≤ n ∧ n ≤ (maxLen : Int)) := by omega
    simp only [h]

/-- The text of a `varchar` in the catalogue. -/
theorem dataType_varchar {n : Int} (h : 1 ≤ n) : (⟨lit "varchar", some n, none⟩ : CatCol).dataType = lit "varchar(" ++ intDec n ++ lit ")" := by
  have e : lit "(" = [40] := by decide +kernel
  unfold CatCol.dataType
  simp only
  rw [if_pos (by omega), varchar_lit, e]

theorem serial_varchar (x : Bytes) : serial (lit "varchar(" ++ x) = none := by
  have e : lit "varchar(" = [118, 97, 114, 99, 104, 97, 114, 40] := by decide +kernel
  have e1 : lit "serial2" = [115, 101, 114, 105, 97, 108, 50] := by decide +kernel
  have e2 : lit "smallserial" = [115, 109, 97, 108, 108, 115, 101, 114, 105, 97, 108] := by decide +kernel
  have e3 : lit "serial4" = [115, 101, 114, 105, 97, 108, 52] := by decide +kernel
  have e4 : lit "serial" = [115, 101, 114, 105, 97, 108] := by decide +kernel
  have e5 : lit "serial8" = [115, 101, 114, 105, 97, 108, 56] := by decide +kernel
  have e6 : lit "bigserial" = [98, 105, 103, 115, 101, 114, 105, 97, 108] := by decide +kernel
  unfold serial
  rw [e, e1, e2, e3, e4, e5, e6]
  simp [List.lookup]

end Verif.PgType
