import Verif.Props.Scan
import Verif.Model.ColumnType

/-! # Columns and the values stored in them -/

namespace Verif.Props

open Verif ColumnType Verif.Scan Spec Verif.Spec.Scan

/-- The values of a Go type. -/
def goRange : GoInt → Int × Int
  | .int | .int64 => (-(2 ^ 63), 2 ^ 63)
  | .int8 => (-(2 ^ 7), 2 ^ 7)
  | .int16 => (-(2 ^ 15), 2 ^ 15)
  | .int32 => (-(2 ^ 31), 2 ^ 31)
  | .uint | .uint64 => (0, 2 ^ 64)
  | .uint8 | .byte => (0, 2 ^ 8)
  | .uint16 => (0, 2 ^ 16)
  | .uint32 => (0, 2 ^ 32)

def GoValue (k : GoInt) (n : Int) : Prop := (goRange k).1 ≤ n ∧ n < (goRange k).2

/-- The numbers a SQL type holds: 16, 32 or 64 bits, signed; a column of one character holds numbers of one digit. -/
def Holds : SqlType → Int → Prop
  | .int2, n => -(2 ^ 15) ≤ n ∧ n < 2 ^ 15
  | .int4, n => -(2 ^ 31) ≤ n ∧ n < 2 ^ 31
  | .bigint, n => -(2 ^ 63) ≤ n ∧ n < 2 ^ 63
  | .mysqlInteger, n => -(2 ^ 31) ≤ n ∧ n < 2 ^ 31
  | .sqliteInteger, n => -(2 ^ 63) ≤ n ∧ n < 2 ^ 63
  | .char1, n => 0 ≤ n ∧ n < 10
  | .blob, _ => True

/-- Types whose columns are too small. -/
def tooSmall : List (Dialect × GoInt) :=
  [(.mysql, .byte), (.mysql, .int), (.mysql, .int64), (.mysql, .uint), (.mysql, .uint32), (.mysql, .uint64),
   (.postgres, .byte), (.postgres, .int), (.postgres, .uint), (.postgres, .uint16), (.postgres, .uint32),
   (.sqlite, .uint64)]

/-! ## C68 -/

/-- C68 holds exactly for the types that are not in this list: every value of the field is written as a number the column can
hold.  Full statement: for all types. -/
theorem C68_fits_iff_partial (d : Dialect) (k : GoInt) :
    (∀ n, GoValue k n → Holds (columnType d k) (written d k n)) ↔ (d, k) ∉ tooSmall := by
  constructor
  · intro h hm
    -- the largest value of the type does not fit, for `int` and `uint` neither does 2^31
    simp only [tooSmall, List.mem_cons, List.not_mem_nil, or_false, Prod.mk.injEq] at hm
    have e1 : toSigned 64 (2 ^ 31) = 2 ^ 31 := by decide +kernel
    have e2 : toSigned 64 (2 ^ 15) = 2 ^ 15 := by decide +kernel
    rcases hm with ⟨rfl, rfl⟩ | ⟨rfl, rfl⟩ | ⟨rfl, rfl⟩ | ⟨rfl, rfl⟩ | ⟨rfl, rfl⟩ | ⟨rfl, rfl⟩ | ⟨rfl, rfl⟩ | ⟨rfl, rfl⟩ |
      ⟨rfl, rfl⟩ | ⟨rfl, rfl⟩ | ⟨rfl, rfl⟩ | ⟨rfl, rfl⟩
    · have := h 10 (by unfold GoValue goRange; decide)
      simp [columnType, Holds, written] at this
    · have := h (2 ^ 31) (by unfold GoValue goRange; decide)
      simp only [columnType, Holds, written, e1] at this
      omega
    · have := h (2 ^ 31) (by unfold GoValue goRange; decide)
      simp only [columnType, Holds, written, e1] at this
      omega
    · have := h (2 ^ 31) (by unfold GoValue goRange; decide)
      simp only [columnType, Holds, written, e1] at this
      omega
    · have := h (2 ^ 31) (by unfold GoValue goRange; decide)
      simp only [columnType, Holds, written, e1] at this
      omega
    · have := h (2 ^ 31) (by unfold GoValue goRange; decide)
      simp only [columnType, Holds, written] at this
      omega
    · have := h 10 (by unfold GoValue goRange; decide)
      simp [columnType, Holds, written] at this
    · have := h (2 ^ 31) (by unfold GoValue goRange; decide)
      simp only [columnType, Holds, written, e1] at this
      omega
    · have := h (2 ^ 31) (by unfold GoValue goRange; decide)
      simp only [columnType, Holds, written, e1] at this
      omega
    · have := h (2 ^ 15) (by unfold GoValue goRange; decide)
      simp only [columnType, Holds, written, e2] at this
      omega
    · have := h (2 ^ 31) (by unfold GoValue goRange; decide)
      simp only [columnType, Holds, written, e1] at this
      omega
    · have := h (2 ^ 63) (by unfold GoValue goRange; decide)
      simp only [columnType, Holds, written] at this
      omega
  · intro hm n hn
    have hr := toSigned_range 64 n
    unfold InRange at hr
    have hs : (-(2 ^ 63 : Int) ≤ n ∧ n < (2 ^ 63 : Int)) → toSigned 64 n = n := fun h =>
      toSigned_of_range (by omega) (by simpa using h.1) (by simpa using h.2)
    unfold GoValue at hn
    cases d <;> cases k <;> first
      | exact absurd (by decide) hm
      | (simp only [columnType, Holds, written, goRange] at hn ⊢ <;> first
          | exact hr
          | (rw [hs (by omega)]; omega))

/-- C68 is false of the code for PostgreSQL `int` fields: no value outside 32 bits fits its column. -/
theorem C68_pg_int (n : Int) (h : GoValue .int n) (hn : n < -(2 ^ 31) ∨ 2 ^ 31 ≤ n) :
    ¬ Holds (columnType .postgres .int) (written .postgres .int n) := by
  simp only [GoValue, goRange] at h
  simp only [columnType, Holds, written]
  rw [toSigned_of_range (by omega) h.1 h.2]
  omega

/-- The same for MySQL and `int64`. -/
theorem C68_mysql_int64 (n : Int) (h : GoValue .int64 n) (hn : n < -(2 ^ 31) ∨ 2 ^ 31 ≤ n) :
    ¬ Holds (columnType .mysql .int64) (written .mysql .int64 n) := by
  simp only [GoValue, goRange] at h
  simp only [columnType, Holds, written]
  rw [toSigned_of_range (by omega) h.1 h.2]
  omega

example : GoValue .int 5000000000 := by unfold GoValue goRange; decide
example : (Dialect.postgres, GoInt.int64) ∉ tooSmall := by decide

/-! ## C70: runes -/

theorem numeral_of_single {c : Bytes} {n : Nat} (h : Numeral 10 c n) (hl : c.length = 1) :
    ∃ b : Byte, c = [b] ∧ b.toNat = 48 + n ∧ n < 10 := by
  cases h with
  | one hd => exact ⟨_, rfl, toNat_ofNat_lt (by omega), hd⟩
  | snoc ht hd =>
    cases ht with
    | one => simp at hl
    | snoc => simp at hl

/-- C70 is false of the code for every character: the text written for a rune is never read back as the same rune. -/
theorem C70_rune_never_read_back (r : Int) : scanRune (runeValue r) ≠ some r := by
  intro h
  unfold scanRune at h
  have hs := ((parseInt_iff (w := 32) (by omega)).1 h).1
  unfold runeValue at hs
  have hn : runeOf r < 0x110000 ∧ (runeOf r < 128 → r = runeOf r) := by
    unfold runeOf; split <;> omega
  generalize runeOf r = n at hs hn
  unfold encodeRune at hs
  have big : ∀ (b : Byte) (t : Bytes), 128 ≤ b.toNat → ¬ SignedNumeral (b :: t) r := by
    intro b t hb hsn
    generalize hc : b :: t = c at hsn
    cases hsn with
    | plain h =>
      subst hc
      have := h.digits (by decide) b List.mem_cons_self
      omega
    | plus h => cases hc; simp at hb
    | minus h => cases hc; simp at hb
  by_cases h1 : n < 0x80
  · rw [if_pos h1] at hs
    have hrn : r = n := hn.2 h1
    generalize hc : [UInt8.ofNat n] = c at hs
    have hl : c.length = 1 := by rw [← hc]; rfl
    cases hs with
    | plain hs =>
      obtain ⟨b, hb, h2, h3⟩ := numeral_of_single hs hl
      rw [hb] at hc
      have : UInt8.ofNat n = b := by simpa using hc
      rw [← this, toNat_ofNat_lt (by omega)] at h2
      omega
    | plus hs => cases hs <;> simp at hl
    | minus hs => cases hs <;> simp at hl
  · rw [if_neg h1] at hs
    by_cases h2 : n < 0x800
    · rw [if_pos h2] at hs
      exact big _ _ (by rw [toNat_ofNat_lt (by omega)]; omega) hs
    · rw [if_neg h2] at hs
      by_cases h3 : n < 0x10000
      · rw [if_pos h3] at hs
        exact big _ _ (by rw [toNat_ofNat_lt (by omega)]; omega) hs
      · rw [if_neg h3] at hs
        exact big _ _ (by rw [toNat_ofNat_lt (by omega)]; omega) hs

/-- C70: the only characters that are read at all are the digits, as the numbers 0 to 9. -/
theorem C70_digits (d : Nat) (h : d < 10) : scanRune (runeValue (48 + d)) = some (d : Int) := by
  match d, h with
  | 0, _ => decide +kernel
  | 1, _ => decide +kernel
  | 2, _ => decide +kernel
  | 3, _ => decide +kernel
  | 4, _ => decide +kernel
  | 5, _ => decide +kernel
  | 6, _ => decide +kernel
  | 7, _ => decide +kernel
  | 8, _ => decide +kernel
  | 9, _ => decide +kernel
  | n + 10, h => omega

/-! ## C71: arrays of runes and bytes -/

theorem runeValue_char (c : Char) : runeValue c.toNat = utf8 c := by
  have hv := char_range c
  have : runeOf c.toNat = c.toNat := by unfold runeOf; rw [if_pos ⟨by omega, by omega⟩]; simp
  unfold runeValue
  rw [this]
  rfl

theorem runesValue_chars (t : List Char) : runesValue (t.map fun c => (c.toNat : Int)) = utf8s t := by
  unfold runesValue utf8s
  induction t with
  | nil => rfl
  | cons c t ih => simp [runeValue_char, ih]

/-- C71: an array of characters is read back from the bytes of the text that was written, whatever the field held.  Full
statement: also from a string, and for arrays of arbitrary numbers. -/
theorem C71_runes_partial (v : List Nat) (t : List Char) (h : t.length = v.length) :
    scanRuneArr v.length v (.bytes (runesValue (t.map fun c => (c.toNat : Int)))) = .ok (t.map Char.toNat) := by
  rw [runesValue_chars, C47_bytes, if_pos (by omega), h]
  simp

/-- C71 is false of the code if the driver sends a string and there is any character outside ASCII: it is too long for the
array. -/
theorem C71_string_too_long (v : List Nat) (t : List Char) (h : t.length = v.length) (hc : ∃ c ∈ t, 128 ≤ c.toNat) :
    scanRuneArr v.length v (.str (runesValue (t.map fun c => (c.toNat : Int)))) = .err := by
  rw [runesValue_chars]
  have hl : t.length < (utf8s t).length := by
    clear h
    induction t with
    | nil => simp at hc
    | cons c t ih =>
      rw [utf8s_cons, List.length_append, List.length_cons]
      by_cases h128 : 128 ≤ c.toNat
      · have := utf8s_length t
        have h2 : 2 ≤ (utf8 c).length := by
          unfold utf8
          simp only
          rw [if_neg (by omega)]
          split
          · simp
          · split <;> simp
        omega
      · have := ih (by
          obtain ⟨x, hx, hx2⟩ := hc
          rcases List.mem_cons.1 hx with rfl | hx
          · exact absurd hx2 h128
          · exact ⟨x, hx, hx2⟩)
        have := utf8_length_pos c
        omega
  simp only [scanRuneArr]
  rw [if_pos (by omega)]

/-- C71: numbers that are no characters come back as U+FFFD. -/
theorem C71_not_a_character (r : Int) (h : r < 0 ∨ (0xD800 ≤ r ∧ r ≤ 0xDFFF) ∨ 0x110000 ≤ r) (x : Nat) :
    scanRuneArr 1 [x] (.bytes (runesValue [r])) = .ok [0xFFFD] := by
  have e : runesValue [r] = utf8s [Char.ofNat 0xFFFD] := by
    simp only [runesValue, List.flatMap_cons, List.flatMap_nil, List.append_nil]
    have : runeOf r = 0xFFFD := by unfold runeOf; rw [if_neg (by omega)]
    unfold runeValue
    rw [this]
    decide +kernel
  rw [e]
  have := C47_bytes [x] [Char.ofNat 0xFFFD]
  simp only [List.length_cons, List.length_nil] at this
  rw [this]
  rfl

/-- C71, bytes: an array of bytes is read back, from bytes and from strings. -/
theorem C71_bytes (v s : Bytes) (h : s.length = v.length) :
    scanByteArr v.length v (.bytes s) = .ok s ∧ scanByteArr v.length v (.str s) = .ok s :=
  ⟨C46_exact v s _ (.inl rfl) h, C46_exact v s _ (.inr rfl) h⟩

example : scanRuneArr 2 [1, 1] (.bytes (runesValue [233, 97])) = .ok [233, 97] := by decide +kernel
example : scanRuneArr 2 [1, 1] (.str (runesValue [233, 97])) = .err := by decide +kernel

end Verif.Props
