import Verif.Lemmas.Scan
import Verif.Model.SqlBool

/-!
# Reading single values

`put d x` is a field like `d` that holds `x`, `putNull z d` a field like `d` after NULL.
-/

namespace Verif.Props

open Verif Verif.Scan Verif.Spec Verif.Spec.Scan

/-! ## C42: integers that are written are read back -/

/-- C42: signed integers of every width: what is written is read back, and what is written is that number. -/
theorem C42_signed {w : Nat} (hw : 0 < w) (hw2 : w ≤ 64) (d : Dest Int) (n : Int) (h : InRange w n) :
    writeInt n = .int64 n ∧ scanInt w d (writeInt n) = .ok (put d n) := by
  have h64 : InRange 64 n := by
    unfold InRange at *
    have : (2 : Int) ^ (w - 1) ≤ 2 ^ (64 - 1) := by
      have := Nat.pow_le_pow_right (n := 2) (by omega) (show w - 1 ≤ 64 - 1 by omega)
      exact_mod_cast this
    omega
  have e : writeInt n = .int64 n := by
    unfold writeInt
    rw [toSigned_of_range (by omega) h64.1 h64.2]
  refine ⟨e, ?_⟩
  rw [e]
  simp only [scanInt, store_eq]
  rw [toSigned_of_range hw h.1 h.2]

/-- C42: unsigned integers of every width, including those from 2^63 on. -/
theorem C42_unsigned {w : Nat} (hw : w ≤ 64) (d : Dest Nat) (n : Nat) (h : n < 2 ^ w) :
    scanUint w d (writeInt n) = .ok (put d n) := by
  unfold writeInt
  simp only [scanUint, store_eq]
  rw [toUnsigned_toSigned hw h]

/-- C42: the database receives another number exactly from 2^63 on. -/
theorem C42_stored_iff (n : Nat) (h : n < 2 ^ 64) : writeInt n = .int64 n ↔ n < 2 ^ 63 := by
  unfold writeInt
  constructor
  · intro e
    have := (toSigned_range 64 n).2
    simp only [Src.int64.injEq] at e
    rw [e] at this
    omega
  · intro h
    rw [toSigned_of_range (by omega) (by omega) (by omega)]

/-- C42: databases that send numbers as text: the decimal form is read back. -/
theorem C42_text {w : Nat} (hw : 0 < w) (d : Dest Int) (n : Int) (h : InRange w n) :
    scanInt w d (.bytes (intDec n)) = .ok (put d n) := by
  simp only [scanInt]
  rw [parseInt_intDec hw h.1 h.2]
  simp only [Option.map_some, storeOpt, store_eq]
  rw [toSigned_of_range hw h.1 h.2]

theorem C42_text_unsigned {w : Nat} (d : Dest Nat) (n : Nat) (h : n < 2 ^ w) :
    scanUint w d (.bytes (natDec n)) = .ok (put d n) := by
  simp only [scanUint]
  rw [parseUint_natDec h]
  simp only [Option.map_some, storeOpt, store_eq]
  rw [toUnsigned_of_range h]

/-- C42 fails when the database hands the number back as it was written for `uint64` fields of MySQL and SQLite: no
integer scanner accepts a `uint64`, whatever the number. -/
theorem C42_uint64_never_read (w : Nat) (d : Dest Nat) (d' : Dest Int) (n : Nat) :
    scanUint w d (writeUint64 n) = .err ∧ scanInt w d' (writeUint64 n) = .err := ⟨rfl, rfl⟩

/-- Nor does any of them accept text sent as a `string`. -/
theorem C42_string_never_read (w : Nat) (d : Dest Nat) (d' : Dest Int) (s : Bytes) :
    scanUint w d (.str s) = .err ∧ scanInt w d' (.str s) = .err := ⟨rfl, rfl⟩

example : InRange 8 (-128) := by unfold InRange; decide
example : scanUint 64 (.ptr none) (writeInt 18446744073709551615) = .ok (.ptr (some 18446744073709551615)) := by
  decide +kernel
example : writeInt 18446744073709551615 = .int64 (-1) := by decide +kernel

/-! ## C43: numbers that do not fit -/

/-- C43: what text is accepted, and for what number: the field is the number the text denotes. -/
theorem C43_text_iff {w : Nat} (hw : 0 < w) (d d' : Dest Int) (s : Bytes) :
    scanInt w d (.bytes s) = .ok d' ↔ ∃ n, SignedNumeral s n ∧ InRange w n ∧ d' = put d n := by
  simp only [scanInt, storeOpt_ok, Option.map_eq_some_iff]
  constructor
  · rintro ⟨x, ⟨n, hn, rfl⟩, rfl⟩
    have := (parseInt_iff hw).1 hn
    refine ⟨n, this.1, ⟨this.2.1, this.2.2⟩, ?_⟩
    rw [toSigned_of_range hw this.2.1 this.2.2]
  · rintro ⟨n, hn, hr, rfl⟩
    exact ⟨n, ⟨n, (parseInt_iff hw).2 ⟨hn, hr.1, hr.2⟩, toSigned_of_range hw hr.1 hr.2⟩, rfl⟩

theorem C43_text_unsigned_iff {w : Nat} (d d' : Dest Nat) (s : Bytes) :
    scanUint w d (.bytes s) = .ok d' ↔ ∃ n, Numeral 10 s n ∧ n < 2 ^ w ∧ d' = put d n := by
  simp only [scanUint, storeOpt_ok, Option.map_eq_some_iff]
  constructor
  · rintro ⟨x, ⟨n, hn, rfl⟩, rfl⟩
    have := (parseUint_iff (by omega)).1 hn
    exact ⟨n, this.1, this.2, by rw [toUnsigned_of_range this.2]⟩
  · rintro ⟨n, hn, hr, rfl⟩
    exact ⟨n, ⟨n, (parseUint_iff (by omega)).2 ⟨hn, hr⟩, toUnsigned_of_range hr⟩, rfl⟩

/-- C43, only for numbers in range: an integer from the database is stored as it is exactly if it fits.  Full
statement: whenever the scan succeeds, the field is the number sent.  Missing: numbers out of range, for which it
is false (`C43_out_of_range_changed`). -/
theorem C43_int64_partial {w : Nat} (hw : 0 < w) (d : Dest Int) (n : Int) :
    scanInt w d (.int64 n) = .ok (put d n) ↔ InRange w n := by
  simp only [scanInt, store_eq, Res.ok.injEq, put_inj]
  constructor
  · intro h
    rw [← h]
    exact toSigned_range w n
  · intro h
    exact toSigned_of_range hw h.1 h.2

theorem C43_int64_unsigned_partial {w : Nat} (d : Dest Nat) (n : Int) :
    (∃ k : Nat, (k : Int) = n ∧ scanUint w d (.int64 n) = .ok (put d k)) ↔ 0 ≤ n ∧ n < 2 ^ w := by
  simp only [scanUint, store_eq, Res.ok.injEq, put_inj]
  constructor
  · rintro ⟨k, rfl, h⟩
    have := toUnsigned_range w k
    rw [h] at this
    exact ⟨by omega, by exact_mod_cast this⟩
  · rintro ⟨h1, h2⟩
    obtain ⟨k, rfl⟩ := Int.eq_ofNat_of_zero_le h1
    exact ⟨k, rfl, toUnsigned_of_range (by exact_mod_cast h2)⟩

/-- C43 is false of the code for every number out of range: the scan succeeds with another number. -/
theorem C43_out_of_range_changed {w : Nat} (d : Dest Int) (n : Int) (h : ¬ InRange w n) :
    ∃ m, m ≠ n ∧ scanInt w d (.int64 n) = .ok (put d m) := by
  refine ⟨toSigned w n, ?_, by simp only [scanInt, store_eq]⟩
  intro e
  exact h (e ▸ toSigned_range w n)

theorem C43_out_of_range_changed_unsigned {w : Nat} (d : Dest Nat) (n : Int) (h : n < 0 ∨ 2 ^ w ≤ n) :
    ∃ m : Nat, (m : Int) ≠ n ∧ scanUint w d (.int64 n) = .ok (put d m) := by
  refine ⟨toUnsigned w n, ?_, by simp only [scanUint, store_eq]⟩
  intro e
  have := toUnsigned_range w n
  have : (toUnsigned w n : Int) < 2 ^ w := by exact_mod_cast this
  omega

example : ¬ InRange 8 300 ∧ scanInt 8 (.val 7) (.int64 300) = .ok (.val 44) := by
  unfold InRange
  decide +kernel
example : scanInt 8 (.val 7) (.bytes "300".toUTF8.toList) = .err := by decide +kernel

/-! ## C44: booleans -/

/-- C44: what the scanner stores is what the database value means; everything else is an error.  The scanner never panics. -/
theorem C44_scan_iff (strict : Bool) (d d' : Dest Bool) (v : Src) :
    scanBool strict d v = .ok d' ↔ (v = .nil ∧ d' = putNull false d) ∨ ∃ b, BoolMeans strict v b ∧ d' = put d b := by
  cases v with
  | nil =>
    simp only [scanBool, storeNil_eq, Res.ok.injEq, true_and]
    constructor
    · intro h; exact .inl h.symm
    · rintro (h | ⟨b, h, _⟩)
      · exact h.symm
      · cases h
  | bool b =>
    simp only [scanBool, store_eq, Res.ok.injEq, reduceCtorEq, false_and, false_or]
    exact ⟨fun h => ⟨b, .bool b, h.symm⟩, fun ⟨c, hc, h⟩ => by cases hc; exact h.symm⟩
  | int64 n =>
    simp only [scanBool, store_eq, Res.ok.injEq, reduceCtorEq, false_and, false_or]
    constructor
    · intro h
      by_cases hn : n = 0
      · subst hn
        exact ⟨false, .zero, by simpa using h.symm⟩
      · exact ⟨true, .nonzero hn, by simpa [hn] using h.symm⟩
    · rintro ⟨c, hc, rfl⟩
      cases hc with
      | zero => simp
      | nonzero hn => simp [hn]
  | bytes s =>
    simp only [scanBool, reduceCtorEq, false_and, false_or]
    cases strict with
    | true =>
      simp only [if_true, reduceCtorEq, false_iff]
      rintro ⟨c, hc, _⟩
      cases hc with
      | bytes h _ => cases h
    | false =>
      simp only [Bool.false_eq_true, if_false, storeOpt_ok, parseBool_iff]
      exact ⟨fun ⟨x, h, e⟩ => ⟨x, .bytes rfl h, e⟩, fun ⟨x, h, e⟩ => by cases h with | bytes _ h => exact ⟨x, h, e⟩⟩
  | str s =>
    simp only [scanBool, reduceCtorEq, false_and, false_or]
    cases strict with
    | true =>
      simp only [if_true, reduceCtorEq, false_iff]
      rintro ⟨c, hc, _⟩
      cases hc with
      | str h _ => cases h
    | false =>
      simp only [Bool.false_eq_true, if_false, storeOpt_ok, parseBool_iff]
      exact ⟨fun ⟨x, h, e⟩ => ⟨x, .str rfl h, e⟩, fun ⟨x, h, e⟩ => by cases h with | str _ h => exact ⟨x, h, e⟩⟩
  | uint64 n =>
    simp only [scanBool, reduceCtorEq, false_and, false_or, false_iff]
    rintro ⟨c, hc, _⟩; cases hc
  | float n =>
    simp only [scanBool, reduceCtorEq, false_and, false_or, false_iff]
    rintro ⟨c, hc, _⟩; cases hc
  | time n =>
    simp only [scanBool, reduceCtorEq, false_and, false_or, false_iff]
    rintro ⟨c, hc, _⟩; cases hc
  | other n =>
    simp only [scanBool, reduceCtorEq, false_and, false_or, false_iff]
    rintro ⟨c, hc, _⟩; cases hc

/-- C44: what is written for a boolean is read back, as a boolean, as a number and – if text is allowed – as text. -/
theorem C44_roundtrip (strict : Bool) (d : Dest Bool) (b : Bool) :
    scanBool strict d (.bool b) = .ok (put d b) ∧
    scanBool strict d (.int64 (if b then 1 else 0)) = .ok (put d b) ∧
    scanBool false d (.bytes (fmtBool b)) = .ok (put d b) := by
  refine ⟨?_, ?_, ?_⟩
  · exact (C44_scan_iff ..).2 (.inr ⟨b, .bool b, rfl⟩)
  · apply (C44_scan_iff ..).2
    refine .inr ⟨b, ?_, rfl⟩
    cases b
    · exact .zero
    · exact .nonzero (by decide)
  · apply (C44_scan_iff ..).2
    refine .inr ⟨b, .bytes rfl ?_, rfl⟩
    rw [← parseBool_iff]
    cases b <;> decide +kernel

example : BoolMeans false (.str [84, 114, 117, 101]) true := .str rfl (by unfold BoolText; decide)
example : scanBool true (.ptr none) (.str [49]) = .err := by decide

/-! ## C45: booleans of the catalogue -/

/-- The words yes and no, in any mixture of capital and small letters (and with `ſ` for s). -/
def YesNo (s : Bytes) (b : Bool) : Prop :=
  (b = true ∧ ∃ y e : Byte, ∃ t : Bytes, s = y :: e :: t ∧ y ∈ [89, 121] ∧ e ∈ [69, 101] ∧ t ∈ [[83], [115], [0xC5, 0xBF]]) ∨
  (b = false ∧ ∃ n o : Byte, s = [n, o] ∧ n ∈ [78, 110] ∧ o ∈ [79, 111])

theorem upperIs_yes (s : Bytes) : upperIs [89, 69, 83] s = true ↔ YesNo s true := by
  unfold YesNo
  match s with
  | [] => simp [upperIs]
  | [a] => simp [upperIs]
  | [a, b] => simp [upperIs]
  | [a, b, c] => simp [upperIs]
  | [a, b, c, d] => simp [upperIs]; grind
  | a :: b :: c :: d :: e :: r => simp [upperIs]

theorem upperIs_no (s : Bytes) : upperIs [78, 79] s = true ↔ YesNo s false := by
  unfold YesNo
  match s with
  | [] => simp [upperIs]
  | [a] => simp [upperIs]
  | [a, b] => simp [upperIs]
  | a :: b :: c :: r => simp [upperIs]

theorem yesNo_not_boolText {s : Bytes} {b c : Bool} (h : YesNo s b) : ¬ BoolText s c := by
  have ha : ∀ y e : Byte, y ∈ ([89, 121, 78, 110] : List Byte) → e ∈ ([69, 101, 79, 111] : List Byte) →
      ∀ t, ¬ BoolText (y :: e :: t) c := by
    intro y e hy he t hb
    unfold BoolText at hb
    simp at hy he hb
    grind
  rcases h with ⟨_, y, e, t, rfl, hy, he, _⟩ | ⟨_, n, o, rfl, hn, ho⟩
  · exact ha y e (by simp at hy ⊢; grind) (by simp at he ⊢; grind) t
  · exact ha n o (by simp at hn ⊢; grind) (by simp at ho ⊢; grind) []

theorem yesNo_unique {s : Bytes} (h : YesNo s true) (h' : YesNo s false) : False := by
  rcases h with ⟨_, y, e, t, rfl, hy, he, ht⟩ | ⟨h, _⟩
  · rcases h' with ⟨h', _⟩ | ⟨_, n, o, hno, hn, ho⟩
    · cases h'
    · simp at hno hy hn; grind
  · cases h

/-- C45 for text: exactly these texts are read, and with the right polarity.  Full statement: also the numbers 1 and 0, which
are read the wrong way round (`C45_numbers_inverted`). -/
theorem C45_text_partial (s : Bytes) (b : Bool) (v : Src) (hv : v = .bytes s ∨ v = .str s) :
    sqlBool v = .ok b ↔ YesNo s b ∨ BoolText s b := by
  have e : sqlBool v = sqlBoolText s := by rcases hv with rfl | rfl <;> rfl
  rw [e]
  unfold sqlBoolText
  by_cases h1 : upperIs [89, 69, 83] s = true
  · rw [if_pos h1]
    rw [upperIs_yes] at h1
    have := yesNo_not_boolText (c := b) h1
    cases b
    · simp only [Res.ok.injEq, Bool.true_eq_false, false_iff, not_or]
      exact ⟨fun h => yesNo_unique h1 h, this⟩
    · simp [h1]
  · rw [if_neg h1]
    rw [upperIs_yes] at h1
    by_cases h2 : upperIs [78, 79] s = true
    · rw [if_pos h2]
      rw [upperIs_no] at h2
      have := yesNo_not_boolText (c := b) h2
      cases b
      · simp [h2]
      · simp only [Res.ok.injEq, Bool.false_eq_true, false_iff, not_or]
        exact ⟨h1, this⟩
    · rw [if_neg h2]
      rw [upperIs_no] at h2
      have hn : ¬ YesNo s b := by cases b <;> assumption
      simp only [hn, false_or]
      rw [← parseBool_iff]
      cases parseBool s <;> simp

/-- C45 is false of the code for numbers: 1 is read as false, every other number – 0 as well – as true. -/
theorem C45_numbers_inverted (n : Int) : sqlBool (.int64 n) = .ok (decide (n ≠ 1)) := by
  by_cases h : n = 1 <;> simp [sqlBool, h]

/-- C45: NULL and booleans are errors. -/
theorem C45_others (b : Bool) : sqlBool .nil = .err ∧ sqlBool (.bool b) = .err := ⟨rfl, rfl⟩

example : YesNo "yEs".toUTF8.toList true := by
  rw [← upperIs_yes]; decide +kernel

/-! ## C46: byte arrays -/

/-- C46, without the zeros after a short value: longer values are errors, NULL gives zeros, and a value no longer
than the field replaces the beginning of the field and leaves the rest.  Full statement: the rest is zero. -/
theorem C46_scan_partial (v : Bytes) (s : Bytes) (src : Src) (hs : src = .bytes s ∨ src = .str s) :
    scanByteArr v.length v src = (if s.length ≤ v.length then .ok (s ++ v.drop s.length) else .err) ∧
    scanByteArr v.length v .nil = .ok (List.replicate v.length 0) := by
  have e : scanByteArr v.length v src = if v.length < s.length then .err else writeFrom v 0 s := by
    rcases hs with rfl | rfl <;> rfl
  refine ⟨?_, ?_⟩
  · rw [e]
    by_cases h : s.length ≤ v.length
    · rw [if_pos h, if_neg (by omega), writeFrom_ok _ _ _ (by omega)]
      simp
    · rw [if_neg h, if_pos (by omega)]
  · simp only [scanByteArr]
    rw [writeFrom_ok _ _ _ (by simp)]
    simp

/-- C46: values as long as the field are stored exactly, whatever it held. -/
theorem C46_exact (v : Bytes) (s : Bytes) (src : Src) (hs : src = .bytes s ∨ src = .str s) (h : s.length = v.length) :
    scanByteArr v.length v src = .ok s := by
  rw [(C46_scan_partial v s src hs).1, if_pos (by omega), h]
  simp

/-- C46 is false of the code for every value shorter than a field whose end is not zero: the scan succeeds and the
end of the old value is still there. -/
theorem C46_old_end_stays (v : Bytes) (s : Bytes) (src : Src) (hs : src = .bytes s ∨ src = .str s)
    (h : s.length ≤ v.length) (hv : v.drop s.length ≠ List.replicate (v.length - s.length) 0) :
    ∃ v', scanByteArr v.length v src = .ok v' ∧ v' ≠ s ++ List.replicate (v.length - s.length) 0 := by
  refine ⟨s ++ v.drop s.length, ?_, ?_⟩
  · rw [(C46_scan_partial v s src hs).1, if_pos h]
  · intro e
    exact hv (List.append_cancel_left e)

example : scanByteArr 3 [7, 8, 9] (.bytes [1]) = .ok [1, 8, 9] := by decide

/-! ## C47: rune arrays -/

/-- C47, for bytes: text is decoded; the code points replace the beginning of the field; longer text is an error. -/
theorem C47_bytes (v : List Nat) (t : List Char) :
    scanRuneArr v.length v (.bytes (utf8s t)) =
      if t.length ≤ v.length then .ok (t.map Char.toNat ++ v.drop t.length) else .err := by
  simp only [scanRuneArr]
  rw [runeLoop_utf8 t _ 0 v (Nat.le_refl _)]
  simp only [Nat.zero_add, List.take_zero, List.nil_append]
  by_cases h : t.length ≤ v.length
  · rw [if_pos (.inl h), if_pos h]
  · rw [if_neg h, if_neg]
    rintro (h' | rfl)
    · exact h h'
    · simp at h

theorem utf8s_ascii_length (t : List Char) (h : ∀ c ∈ t, c.toNat < 128) : (utf8s t).length = t.length := by
  induction t with
  | nil => rfl
  | cons c t ih =>
    rw [utf8s_cons, List.length_append, ih (fun x hx => h x (List.mem_cons_of_mem _ hx)), utf8_ascii (h c List.mem_cons_self)]
    simp; omega

/-- C47, only for ASCII: strings and bytes give the same runes.  Full statement: for every text.  Missing: text with other
characters, for which it is false (`C47_string_differs`). -/
theorem C47_ascii_partial (v : List Nat) (t : List Char) (h : ∀ c ∈ t, c.toNat < 128) :
    scanRuneArr v.length v (.str (utf8s t)) = scanRuneArr v.length v (.bytes (utf8s t)) := by
  rw [C47_bytes]
  simp only [scanRuneArr]
  have hl := utf8s_ascii_length t h
  rw [hl]
  by_cases hv : t.length ≤ v.length
  · rw [if_pos hv, if_neg (by omega)]
    have := strLoop_ascii t [] 0 0 v h (by omega)
    simp only [Nat.add_zero, List.append_nil, Nat.zero_add, List.take_zero, List.nil_append] at this
    rw [this]
    simp [strLoop]
  · rw [if_neg hv, if_pos (by omega)]

/-- The first byte of the encoding of a character is its code point only for ASCII and for U+00C3. -/
theorem utf8_first {c : Char} (h : 128 ≤ c.toNat) (h2 : c.toNat ≠ 0xC3) : ∃ b r, utf8 c = b :: r ∧ b.toNat ≠ c.toNat := by
  have hv := char_range c
  unfold utf8
  simp only
  generalize c.toNat = n at *
  rw [if_neg (by omega)]
  split
  · refine ⟨_, _, rfl, ?_⟩
    rw [toNat_ofNat_lt (by omega)]
    omega
  · split
    · refine ⟨_, _, rfl, ?_⟩
      rw [toNat_ofNat_lt (by omega)]
      omega
    · refine ⟨_, _, rfl, ?_⟩
      rw [toNat_ofNat_lt (by omega)]
      omega

/-- C47 is false of the code for every text whose first character outside ASCII is not `Ã`: sent as a string it
is rejected or gives other runes than sent as bytes. -/
theorem C47_string_differs (v : List Nat) (a : List Char) (c : Char) (t : List Char) (ha : ∀ x ∈ a, x.toNat < 128)
    (hc : 128 ≤ c.toNat) (hc2 : c.toNat ≠ 0xC3) (hv : (a ++ c :: t).length ≤ v.length) :
    scanRuneArr v.length v (.str (utf8s (a ++ c :: t))) ≠ scanRuneArr v.length v (.bytes (utf8s (a ++ c :: t))) := by
  rw [C47_bytes, if_pos hv]
  intro h
  simp only [scanRuneArr] at h
  split at h
  · cases h
  · rename_i hle
    have e : utf8s (a ++ c :: t) = utf8s a ++ (utf8 c ++ utf8s t) := by simp [utf8s]
    have hal := utf8s_ascii_length a ha
    rw [e] at h hle
    rw [show (utf8s a ++ (utf8 c ++ utf8s t)).length = a.length + (utf8 c ++ utf8s t).length by
      rw [List.length_append, hal]] at h hle
    rw [strLoop_ascii a _ _ _ _ ha (by omega)] at h
    obtain ⟨b, r, hb, hne⟩ := utf8_first hc hc2
    rw [hb] at h hle
    simp only [List.cons_append, List.length_cons] at h hle
    simp only [strLoop, Res.bind_eq_ok, Nat.zero_add, List.take_zero, List.nil_append] at h
    obtain ⟨u, hu, h⟩ := h
    have hd : 0 < (decodeRune (b :: (r ++ utf8s t))).2 := by
      have := decode_utf8 c (utf8s t)
      rw [hb, List.cons_append] at this
      rw [this]
      simp
    have hk := strLoop_keeps _ _ _ _ _ h a.length (by omega)
    have hlen : (List.map Char.toNat a ++ List.drop a.length v).length = v.length := by
      simp; omega
    unfold setIdx at hu
    rw [if_pos (by rw [hlen]; omega)] at hu
    cases hu
    rw [List.getElem?_set_self (by rw [hlen]; omega)] at hk
    have : (List.map Char.toNat (a ++ c :: t) ++ List.drop (a ++ c :: t).length v)[a.length]? = some c.toNat := by
      simp
    rw [this] at hk
    simp at hk
    exact hne hk.symm

/-- C47 is false of the code for NULL: it leaves the field as it is. -/
theorem C47_null_keeps (size : Nat) (v : List Nat) : scanRuneArr size v .nil = .ok v := rfl

example : scanRuneArr 3 [1, 1, 1] (.bytes (utf8s ['é', '€'])) = .ok [233, 8364, 1] := by decide +kernel
example : scanRuneArr 3 [1, 1, 1] (.str (utf8s ['é'])) = .ok [195, 1, 1] := by decide +kernel

/-! ## C48: NULL -/

/-- C48 for the scanners of booleans, numbers, strings and times: NULL sets nil or the zero value, everything else is an error or
is stored, independently of what the field held; in particular no pointer stays nil.  For types that
read themselves see `C48_text_partial`, `C48_text_nil_pointer` and `C48_scanner_nil_pointer`. -/
theorem C48_scalars (lib : Std) (z : Nat) (w : Nat) (strict : Bool) :
    Faithful false (scanBool strict) ∧ Faithful 0 (scanInt w) ∧ Faithful 0 (scanUint w) ∧
    Faithful z (scanFloat lib z w strict) ∧ Faithful [] (scanString lib strict) ∧ Faithful z (scanTime lib z) := by
  have opt : ∀ {α : Type} (o : Option α), (∀ d, storeOpt d o = .err) ∨ ∃ x, ∀ d, storeOpt d o = .ok (put d x) := by
    intro α o
    cases o with
    | none => exact .inl fun _ => rfl
    | some x => exact .inr ⟨x, fun d => by simp only [storeOpt, store_eq]⟩
  have one : ∀ {α : Type} (x : α), (∀ d : Dest α, Res.ok (store d x) = .err) ∨ ∃ x', ∀ d, Res.ok (store d x) = .ok (put d x') := by
    intro α x
    exact .inr ⟨x, fun d => by rw [store_eq]⟩
  refine ⟨⟨fun d => by simp only [scanBool, storeNil_eq], ?_⟩, ⟨fun d => by simp only [scanInt, storeNil_eq], ?_⟩,
    ⟨fun d => by simp only [scanUint, storeNil_eq], ?_⟩, ⟨fun d => by simp only [scanFloat, storeNil_eq], ?_⟩,
    ⟨fun d => by simp only [scanString, storeNil_eq], ?_⟩, ⟨fun d => by simp only [scanTime, storeNil_eq], ?_⟩⟩
  all_goals
    intro v hv
    cases v
    case nil => exact absurd rfl hv
    all_goals
      cases strict
      all_goals
        first
        | exact .inl fun _ => rfl
        | exact one _
        | exact opt _

/-- Types with `UnmarshalText`: NULL is handled, and a value goes to the method of a field that is not a nil pointer. -/
theorem C48_text_partial {α : Type} (lib : Std) (z : α) (f : α → Bytes → Res α) (onNil : Bytes → Res (Dest α)) (s : Bytes)
    (d : Dest α) (x : α) :
    scanText lib z f onNil d .nil = .ok (putNull z d) ∧
    scanText lib z f onNil (put d x) (.bytes s) = (f x s).map (put d) ∧
    scanText lib z f onNil (put d x) (.str s) = (f x s).map (put d) := by
  refine ⟨by simp only [scanText, storeNil_eq], ?_, ?_⟩ <;> cases d <;> rfl

/-- C48 is false of the code for pointer fields of types with `UnmarshalText` that are given to the
scanner while they are nil: the method is called with a nil pointer; if it panics, as methods that store something do, the
scan panics.  (Generated `Addrs` methods make such pointers point to a new value first, see C23; code that uses
`encoding.TextScanner` itself need not.) -/
theorem C48_text_nil_pointer {α : Type} (lib : Std) (z : α) (f : α → Bytes → Res α) (onNil : Bytes → Res (Dest α))
    (hp : ∀ s, onNil s = .panic) (v : Src) (hv : (∃ s, v = .bytes s) ∨ (∃ s, v = .str s) ∨ (∃ b, v = .bool b) ∨ ∃ n, v = .int64 n) :
    scanText lib z f onNil (.ptr none) v = .panic := by
  rcases hv with ⟨s, rfl⟩ | ⟨s, rfl⟩ | ⟨s, rfl⟩ | ⟨s, rfl⟩ <;> exact hp _

/-- C48 for pointer fields of types with a method `Scan`: NULL makes the field nil, whatever it held; if the field is not nil,
values of the kinds drivers send go to the method. -/
theorem C48_scanner_partial {α : Type} (f : α → Src → Res α) (onNil : Src → Res (Option α)) (x : Option α) (y : α) (v : Src)
    (hv : v ≠ .nil ∧ (∀ n, v ≠ .uint64 n) ∧ ∀ n, v ≠ .other n) :
    scanPtr f onNil x .nil = .ok none ∧ scanPtr f onNil (some y) v = (f y v).map some := by
  refine ⟨rfl, ?_⟩
  cases v with
  | nil => exact absurd rfl hv.1
  | uint64 n => exact absurd rfl (hv.2.1 n)
  | other n => exact absurd rfl (hv.2.2 n)
  | _ => rfl

/-- A nil pointer is handed to the method `Scan` as well. -/
theorem C48_scanner_nil_pointer {α : Type} (f : α → Src → Res α) (onNil : Src → Res (Option α)) (hp : ∀ v, onNil v = .panic)
    (v : Src) (hv : (∃ s, v = .bytes s) ∨ (∃ s, v = .str s) ∨ (∃ b, v = .bool b) ∨ ∃ n, v = .int64 n) :
    scanPtr f onNil none v = .panic ∧ scanPtr f onNil none .nil = .ok none := by
  refine ⟨?_, rfl⟩
  rcases hv with ⟨s, rfl⟩ | ⟨s, rfl⟩ | ⟨s, rfl⟩ | ⟨s, rfl⟩ <;> exact hp _

/-- A method that does not store anything through the pointer leaves the field nil. -/
theorem C48_stays_nil {α : Type} (f : α → Src → Res α) (onNil : Src → Res (Option α)) (s : Bytes) (hp : onNil (.bytes s) = .ok none) :
    scanPtr f onNil none (.bytes s) = .ok none := hp

example : scanPtr (fun (_ : Nat) _ => .ok 5) (fun _ => .panic) none (.bytes [49]) = .panic :=
  (C48_scanner_nil_pointer (fun (_ : Nat) _ => .ok 5) (fun _ => .panic) (fun _ => rfl) _ (.inl ⟨_, rfl⟩)).1
example : scanPtr (fun (_ : Nat) _ => .ok 5) (fun _ => .panic) (some 3) (.bytes [49]) = .ok (some 5) := rfl

/-! ## C49: strings -/

/-- C49: text is stored as it is; in strict mode everything else but NULL is an error. -/
theorem C49_text (lib : Std) (strict : Bool) (d : Dest Bytes) (s : Bytes) :
    scanString lib strict d (.str s) = .ok (put d s) ∧ scanString lib strict d (.bytes s) = .ok (put d s) := by
  simp only [scanString, store_eq, and_self]

theorem C49_strict (lib : Std) (d d' : Dest Bytes) (v : Src) :
    scanString lib true d v = .ok d' ↔ (v = .nil ∧ d' = putNull [] d) ∨ ∃ s, (v = .str s ∨ v = .bytes s) ∧ d' = put d s := by
  cases v with
  | nil => simp [scanString, storeNil_eq, eq_comm]
  | str s => simp [scanString, store_eq, eq_comm]
  | bytes s => simp [scanString, store_eq, eq_comm]
  | int64 n => simp [scanString]
  | uint64 n => simp [scanString]
  | bool b => simp [scanString]
  | float f => simp [scanString]
  | time t => simp [scanString]
  | other t => simp [scanString]

/-- C49: numbers and booleans are stored as text that reads back as the same number or boolean, and no two numbers as the
same text. -/
theorem C49_lenient (lib : Std) (d : Dest Bytes) (n : Int) (b : Bool) :
    (∃ s, scanString lib false d (.int64 n) = .ok (put d s) ∧ SignedNumeral s n ∧
      ∀ e : Dest Int, InRange 64 n → scanInt 64 e (.bytes s) = .ok (put e n)) ∧
    ∃ s, scanString lib false d (.bool b) = .ok (put d s) ∧ BoolText s b ∧
      ∀ e : Dest Bool, scanBool false e (.bytes s) = .ok (put e b) := by
  refine ⟨⟨intDec n, by simp [scanString, store_eq], intDec_numeral n, fun e h => C42_text (by omega) e n h⟩,
    ⟨fmtBool b, by simp [scanString, store_eq], ?_, fun e => (C44_roundtrip false e b).2.2⟩⟩
  rw [← parseBool_iff]
  cases b <;> decide +kernel

example (lib : Std) : scanString lib false (.val []) (.int64 (-5)) = .ok (.val [45, 53]) := by rfl

/-! ## C69: truth values and text -/

/-- C69 is false of the code: a type with `UnmarshalText` gets a truth value as one byte, 0 or 1, which is not the
text of any truth value; string fields get the text. -/
theorem C69_not_text {α : Type} (lib : Std) (z : α) (f : α → Bytes → Res α) (onNil : Bytes → Res (Dest α)) (x : α) (b : Bool) :
    ∃ s, scanText lib z f onNil (.val x) (.bool b) = (f x s).map .val ∧ ∀ c, ¬ BoolText s c := by
  cases b
  · exact ⟨[0], rfl, by unfold BoolText; decide⟩
  · exact ⟨[1], rfl, by unfold BoolText; decide⟩

/-- C69 for numbers: the method gets the decimal form. -/
theorem C69_numbers_partial {α : Type} (lib : Std) (z : α) (f : α → Bytes → Res α) (onNil : Bytes → Res (Dest α)) (x : α) (n : Int) :
    ∃ s, SignedNumeral s n ∧ scanText lib z f onNil (.val x) (.int64 n) = (f x s).map .val :=
  ⟨intDec n, intDec_numeral n, rfl⟩

end Verif.Props
