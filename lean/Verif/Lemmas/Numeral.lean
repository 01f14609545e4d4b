import Verif.Spec.Numeral

namespace Verif
open Spec

theorem parseDigits_append (b : Nat) (s t : Bytes) (acc : Nat) :
    parseDigits b (s ++ t) acc = (parseDigits b s acc).bind (parseDigits b t) := by
  induction s generalizing acc with
  | nil => simp [parseDigits]
  | cons c s ih =>
    simp only [List.cons_append, parseDigits]
    split
    · exact ih _
    · simp

theorem toNat_digit {d b : Nat} (hb : b ≤ 10) (h : d < b) : (UInt8.ofNat (48 + d)).toNat = 48 + d := by
  simp [UInt8.toNat_ofNat']; omega

theorem parseDigits_one {b d : Nat} (hb : b ≤ 10) (h : d < b) (acc : Nat) :
    parseDigits b [UInt8.ofNat (48 + d)] acc = some (acc * b + d) := by
  simp only [parseDigits, toNat_digit hb h]
  rw [if_pos (by omega)]; simp

theorem parseDigits_numeral {b : Nat} (hb : b ≤ 10) {t : Bytes} {n : Nat} (h : Numeral b t n) :
    parseDigits b t 0 = some n := by
  induction h with
  | one hd => rw [parseDigits_one hb hd]; simp
  | snoc _ hd ih =>
    rw [parseDigits_append, ih, Option.bind_some, parseDigits_one hb hd, Nat.mul_comm]

theorem Spec.Numeral.ne_nil {b : Nat} {t : Bytes} {n : Nat} (h : Numeral b t n) : t ≠ [] := by
  cases h <;> simp

theorem Spec.Numeral.digits {b : Nat} (hb : b ≤ 10) {t : Bytes} {n : Nat} (h : Numeral b t n) :
    ∀ x ∈ t, 48 ≤ x.toNat ∧ x.toNat < 48 + b := by
  induction h with
  | one hd =>
    intro x hx
    rw [List.mem_singleton.1 hx, toNat_digit hb hd]; omega
  | snoc _ hd ih =>
    intro x hx
    rcases List.mem_append.1 hx with hx | hx
    · exact ih x hx
    · rw [List.mem_singleton.1 hx, toNat_digit hb hd]; omega

theorem numeral_of_parseDigits {b : Nat} {t : Bytes} {n : Nat} (ht : t ≠ [])
    (h : parseDigits b t 0 = some n) : Numeral b t n := by
  have key : ∀ (k : Nat) (t : Bytes) (n : Nat), t.length = k + 1 → parseDigits b t 0 = some n →
      Numeral b t n := by
    intro k
    induction k with
    | zero =>
      intro t n hl h
      obtain ⟨c, rfl⟩ := List.length_eq_one_iff.1 hl
      simp only [parseDigits] at h
      split at h
      · rename_i hc
        simp at h
        have := Numeral.one (b := b) (d := c.toNat - 48) (by omega)
        rw [show 48 + (c.toNat - 48) = c.toNat by omega] at this
        simpa [h] using this
      · simp at h
    | succ k ih =>
      intro t n hl h
      obtain ⟨s, c, rfl⟩ : ∃ s c, t = s ++ [c] := by
        have hne : t ≠ [] := by intro h0; simp [h0] at hl
        exact ⟨t.dropLast, t.getLast hne, (List.dropLast_concat_getLast hne).symm⟩
      rw [parseDigits_append] at h
      cases hs : parseDigits b s 0 with
      | none => simp [hs] at h
      | some m =>
        rw [hs, Option.bind_some, parseDigits] at h
        split at h
        · rename_i hc
          simp [parseDigits] at h
          have := Numeral.snoc (d := c.toNat - 48) (ih s m (by simpa using hl) hs) (by omega)
          rw [show 48 + (c.toNat - 48) = c.toNat by omega] at this
          rw [← h, Nat.mul_comm m b]
          simpa using this
        · simp at h
  cases t with
  | nil => exact absurd rfl ht
  | cons c t => exact key t.length _ n (by simp) h

theorem parseUint_iff {b w : Nat} (hb : b ≤ 10) {t : Bytes} {n : Nat} :
    parseUint t b w = some n ↔ Numeral b t n ∧ n < 2 ^ w := by
  constructor
  · intro h
    unfold parseUint at h
    split at h
    · simp at h
    · rename_i hne
      split at h
      · simp at h
      · rename_i m hm
        split at h
        · simp at h; subst h
          exact ⟨numeral_of_parseDigits (fun h0 => hne (h0)) hm, by assumption⟩
        · simp at h
  · rintro ⟨h, hn⟩
    unfold parseUint
    split
    · exact absurd rfl h.ne_nil
    · simp [parseDigits_numeral hb h, hn]

theorem parseInt_iff {w : Nat} (hw : 0 < w) {t : Bytes} {n : Int} :
    parseInt t w = some n ↔
      SignedNumeral t n ∧ -(2 ^ (w - 1) : Int) ≤ n ∧ n < (2 ^ (w - 1) : Int) := by
  have h2 : (2 : Nat) ^ w = 2 * 2 ^ (w - 1) := by
    obtain ⟨v, rfl⟩ : ∃ v, w = v + 1 := ⟨w - 1, by omega⟩
    simp [Nat.pow_succ, Nat.mul_comm]
  have hc : ((2 ^ (w - 1) : Nat) : Int) = (2 : Int) ^ (w - 1) := by simp
  have hp : 0 < (2 : Nat) ^ (w - 1) := Nat.two_pow_pos _
  constructor
  · intro h
    unfold parseInt at h
    split at h
    · simp at h
    · rename_i c cs
      simp only at h
      split at h
      · simp at h
      · rename_i un hun
        by_cases h45 : c = 45
        · subst h45
          simp at h hun
          obtain ⟨hN, _⟩ := (parseUint_iff (by decide)).1 hun
          rw [← h.2]
          refine ⟨.minus hN, ?_, ?_⟩ <;> omega
        · by_cases h43 : c = 43
          · subst h43
            simp at h hun
            obtain ⟨hN, _⟩ := (parseUint_iff (by decide)).1 hun
            rw [← h.2]
            refine ⟨.plus hN, ?_, ?_⟩ <;> omega
          · simp [h45, h43] at h hun
            obtain ⟨hN, _⟩ := (parseUint_iff (by decide)).1 hun
            rw [← h.2]
            refine ⟨.plain hN, ?_, ?_⟩ <;> omega
  · rintro ⟨hs, h1, h3⟩
    cases hs with
    | @plain _ m hN =>
      cases t with
      | nil => exact absurd rfl hN.ne_nil
      | cons c cs =>
        have hd := Numeral.digits (by decide) hN c (by simp)
        have h45 : c ≠ 45 := by rintro rfl; simp at hd
        have h43 : c ≠ 43 := by rintro rfl; simp at hd
        have : parseUint (c :: cs) 10 w = some m := (parseUint_iff (by decide)).2 ⟨hN, by omega⟩
        simp [parseInt, h45, h43, this]; omega
    | @plus t m hN =>
      have : parseUint t 10 w = some m := (parseUint_iff (by decide)).2 ⟨hN, by omega⟩
      simp [parseInt, this]; omega
    | @minus t m hN =>
      have : parseUint t 10 w = some m := (parseUint_iff (by decide)).2 ⟨hN, by omega⟩
      simp [parseInt, this]; omega

/-! ### printing -/

theorem natDecAux_append (fuel n : Nat) (acc : Bytes) :
    natDecAux fuel n acc = natDecAux fuel n [] ++ acc := by
  induction fuel generalizing n acc with
  | zero => simp [natDecAux]
  | succ k ih =>
    simp only [natDecAux]
    split
    · simp
    · rw [ih, ih (acc := [_])]; simp

theorem natDecAux_numeral (fuel n : Nat) (h : n < fuel) : Numeral 10 (natDecAux fuel n []) n := by
  induction fuel generalizing n with
  | zero => omega
  | succ k ih =>
    have hlt : n % 10 < 10 := Nat.mod_lt _ (by decide)
    simp only [natDecAux]
    split
    · have := Numeral.one hlt
      rwa [show n % 10 = n by omega] at this ⊢
    · rw [natDecAux_append]
      have := Numeral.snoc (ih (n / 10) (by omega)) hlt
      rwa [show 10 * (n / 10) + n % 10 = n by omega] at this

theorem natDec_numeral (n : Nat) : Numeral 10 (natDec n) n := natDecAux_numeral _ _ (by omega)

theorem intDec_numeral (n : Int) : SignedNumeral (intDec n) n := by
  unfold intDec
  split
  · have := SignedNumeral.minus (natDec_numeral n.natAbs)
    rwa [show -(n.natAbs : Int) = n by omega] at this
  · have := SignedNumeral.plain (natDec_numeral n.natAbs)
    rwa [show (n.natAbs : Int) = n by omega] at this

theorem parseUint_natDec {n w : Nat} (h : n < 2 ^ w) : parseUint (natDec n) 10 w = some n :=
  (parseUint_iff (by decide)).2 ⟨natDec_numeral n, h⟩

theorem parseInt_intDec {n : Int} {w : Nat} (hw : 0 < w) (h1 : -(2 ^ (w - 1) : Int) ≤ n)
    (h2 : n < (2 ^ (w - 1) : Int)) : parseInt (intDec n) w = some n :=
  (parseInt_iff hw).2 ⟨intDec_numeral n, h1, h2⟩

end Verif
