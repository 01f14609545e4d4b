import Verif.Lemmas.Bytea

/-!
# C01–C09: array text codecs
-/

namespace Verif.Props
open Verif Spec

/-! ## C01 — strings -/

/-- C01. Whatever `Value` produces for a non-nil list of strings, `Scan` (from a string or from
bytes) restores, whatever the destination held before. -/
theorem C01_string_roundtrip (f : Fmt) (xs : List Bytes) (prev : Option (List Bytes)) :
    ∃ t, stringValue f (some xs) = some t ∧
      stringScan f (.str t) prev = (.ok (), some xs) ∧
      stringScan f (.bytes t) prev = (.ok (), some xs) := by
  cases xs with
  | nil => exact ⟨_, rfl, scanWith_text f convString (linear_empty f) .nil prev⟩
  | cons x xs =>
    have hL := linear_of_list (g := fun v => some v) x xs (fun y _ => elem_string f y)
    refine ⟨_, ?_, scanWith_text f convString hL (forall₂_map (fun _ _ => rfl)) prev⟩
    have h : appendArrayQuotedBytes = fun b v => b ++ (quote :: (escapeBytes v ++ [quote])) := by
      funext b v; simp [appendArrayQuotedBytes]
    rw [stringValue, h, sliceValue_cons]

/-- C01, nil list: `Value` gives SQL NULL and scanning NULL gives nil back. -/
theorem C01_string_nil (f : Fmt) (prev : Option (List Bytes)) :
    stringValue f none = none ∧ stringScan f .nil prev = (.ok (), none) := ⟨rfl, rfl⟩

/-- Non-trivial instance: `["a\"b", "NULL", "", ",]"]` written in the bracket format. -/
example : stringValue .bracket (some [[97, 34, 98], [78, 85, 76, 76], [], [44, 93]]) =
    some [91, 34, 97, 92, 34, 98, 34, 44, 34, 78, 85, 76, 76, 34, 44, 34, 34, 44, 34, 44, 93, 34, 93] := by
  decide

/-! ## C02 — booleans -/

/-- C02. Booleans round-trip, and `Value` never writes outside its buffer (its outcome is `ok`). -/
theorem C02_bool_roundtrip (f : Fmt) (xs : List Bool) (prev : Option (List Bool)) :
    ∃ t, boolValue f (some xs) = .ok (some t) ∧
      boolScan f (.str t) prev = (.ok (), some xs) ∧
      boolScan f (.bytes t) prev = (.ok (), some xs) := by
  cases xs with
  | nil => exact ⟨_, rfl, scanWith_text f convBool (linear_empty f) .nil prev⟩
  | cons x xs =>
    have hL := linear_of_list (enc := fun b => [if b then (116 : Byte) else 102])
      (g := fun b => some [if b then (116 : Byte) else 102]) x xs (fun y _ => elem_bool f y)
    refine ⟨_, boolValue_cons f x xs, scanWith_text f convBool hL (forall₂_map ?_) prev⟩
    intro b _
    cases b <;> rfl

example : boolValue .brace (some [true, false, true]) =
    .ok (some [123, 116, 44, 102, 44, 116, 125]) := by decide

/-! ## C03 — signed integers -/

/-- C03. Every list of `w`-bit signed integers round-trips, for every width up to 64. -/
theorem C03_int_roundtrip (f : Fmt) (w : Nat) (hw : 0 < w) (hw64 : w ≤ 64) (xs : List Int)
    (hx : ∀ x ∈ xs, -(2 ^ (w - 1) : Int) ≤ x ∧ x < (2 ^ (w - 1) : Int)) (prev : Option (List Int)) :
    ∃ t, intValue f (some xs) = some t ∧
      intScan f w (.str t) prev = (.ok (), some xs) ∧
      intScan f w (.bytes t) prev = (.ok (), some xs) := by
  have hconv : ∀ x ∈ xs, convInt w (some (intDec x)) = .ok x := by
    intro x hxm
    obtain ⟨h1, h2⟩ := hx x hxm
    have hle : (2 : Int) ^ (w - 1) ≤ 2 ^ (64 - 1) := by
      have : (2 : Nat) ^ (w - 1) ≤ 2 ^ (64 - 1) := Nat.pow_le_pow_right (by decide) (by omega)
      exact_mod_cast this
    have hp : parseInt (intDec x) 64 = some x :=
      parseInt_intDec (by decide) (by omega) (by omega)
    simp [convInt, hp, toSigned_of_range hw h1 h2]
  cases xs with
  | nil => exact ⟨_, rfl, scanWith_text f (convInt w) (linear_empty f) .nil prev⟩
  | cons x xs =>
    have hL := linear_of_list (g := fun v => some (intDec v)) x xs (fun y _ => elem_signed f y)
    exact ⟨_, sliceValue_cons f intDec x xs,
      scanWith_text f (convInt w) hL (forall₂_map hconv) prev⟩

/-- The extreme values of `int8` meet the hypothesis. -/
example : ∀ x ∈ ([-128, 0, 127] : List Int), -(2 ^ (8 - 1) : Int) ≤ x ∧ x < (2 ^ (8 - 1) : Int) := by
  decide

/-! ## C04 — unsigned integers -/

/-- C04 for `sqltype`: all widths, all values. -/
theorem C04_uint_roundtrip_sqltype (w : Nat) (xs : List Nat) (hx : ∀ x ∈ xs, x < 2 ^ w)
    (prev : Option (List Nat)) :
    ∃ t, uintValue .bracket (some xs) = some t ∧
      uintScan .bracket w (.str t) prev = (.ok (), some xs) ∧
      uintScan .bracket w (.bytes t) prev = (.ok (), some xs) := by
  have hconv : ∀ x ∈ xs, convUint w (some (natDec x)) = .ok x := by
    intro x hxm
    simp [convUint, parseUint_natDec (hx x hxm), toUnsigned_of_range (hx x hxm)]
  cases xs with
  | nil => exact ⟨_, rfl, scanWith_text .bracket (convUint w) (linear_empty .bracket) .nil prev⟩
  | cons x xs =>
    have hL := linear_of_list (g := fun v => some (natDec v)) x xs
      (fun y _ => elem_digits .bracket (natDec_numeral y))
    exact ⟨_, sliceValue_cons .bracket natDec x xs,
      scanWith_text .bracket (convUint w) hL (forall₂_map hconv) prev⟩

example : ∀ x ∈ ([0, 2 ^ 63, 2 ^ 64 - 1] : List Nat), x < 2 ^ 64 := by decide

/-- C04 for `pgtype`, partial: only values below `2^63` round-trip.  Missing: the upper half of the
64-bit range, refuted by `C04_uint64_pgtype_not_roundtrip`. -/
theorem C04_uint_roundtrip_pgtype_partial (w : Nat) (xs : List Nat)
    (hx : ∀ x ∈ xs, x < 2 ^ w ∧ x < 2 ^ 63) (prev : Option (List Nat)) :
    ∃ t, uintValue .brace (some xs) = some t ∧
      uintScan .brace w (.str t) prev = (.ok (), some xs) ∧
      uintScan .brace w (.bytes t) prev = (.ok (), some xs) := by
  have hconv : ∀ x ∈ xs, convUintPg w (some (natDec x)) = .ok x := by
    intro x hxm
    obtain ⟨h1, h2⟩ := hx x hxm
    have hp : parseInt (natDec x) 64 = some (x : Int) :=
      (parseInt_iff (by decide)).2 ⟨.plain (natDec_numeral x), by omega, by norm_cast⟩
    simp [convUintPg, hp, toUnsigned_of_range h1]
  cases xs with
  | nil => exact ⟨_, rfl, scanWith_text .brace (convUintPg w) (linear_empty .brace) .nil prev⟩
  | cons x xs =>
    have hL := linear_of_list (g := fun v => some (natDec v)) x xs
      (fun y _ => elem_digits .brace (natDec_numeral y))
    exact ⟨_, sliceValue_cons .brace natDec x xs,
      scanWith_text .brace (convUintPg w) hL (forall₂_map hconv) prev⟩

/-- A list round-trips only if every element converts. -/
theorem scan_err_of_conv {α : Type} (f : Fmt) (conv : Option Bytes → Res α) {src : Bytes}
    {es : List (Option Bytes)} (hL : LinearArray f.opn f.cls src es)
    (hbad : ∃ e ∈ es, ∀ x, conv e ≠ .ok x) (prev : Option (List α)) (xs : List α) :
    scanWith f conv (.str src) prev ≠ (.ok (), some xs) := by
  intro h
  obtain ⟨es', h1, h2⟩ := (scanBytesWith_ok f conv src prev xs).1 h
  have : es' = es := by
    rw [← scanLinearArray_iff] at h1 hL
    rw [h1] at hL; simpa using hL
  subst this
  obtain ⟨e, he, hb⟩ := hbad
  clear h1 hL h
  induction h2 with
  | nil => simp at he
  | cons h _ ih =>
    rcases List.mem_cons.1 he with rfl | he
    · exact hb _ h
    · exact ih he

/-- C04 refuted for `pgtype.Uint64Array`: no list containing a value of at least `2^63` survives —
`Scan` of its own `Value` never succeeds. -/
theorem C04_uint64_pgtype_not_roundtrip (xs : List Nat) (h : ∃ x ∈ xs, 2 ^ 63 ≤ x)
    (prev : Option (List Nat)) :
    ∃ t, uintValue .brace (some xs) = some t ∧
      ∀ ys, uintScan .brace 64 (.str t) prev ≠ (.ok (), some ys) := by
  cases xs with
  | nil => simp at h
  | cons x xs =>
    refine ⟨_, sliceValue_cons .brace natDec x xs, fun ys => ?_⟩
    have hL := linear_of_list (g := fun v => some (natDec v)) x xs
      (fun y _ => elem_digits .brace (natDec_numeral y))
    refine scan_err_of_conv .brace (convUintPg 64) hL ?_ prev ys
    obtain ⟨y, hy, hbig⟩ := h
    refine ⟨some (natDec y), List.mem_map.2 ⟨y, hy, rfl⟩, fun z => ?_⟩
    have hp : parseInt (natDec y) 64 = none := by
      cases hc : parseInt (natDec y) 64 with
      | none => rfl
      | some n =>
        obtain ⟨hs, _, hlt⟩ := (parseInt_iff (by decide)).1 hc
        have hd := (natDec_numeral y)
        have huniq : n = y := by
          have hbody := parseDigits_numeral (by decide) hd
          generalize natDec y = t at *
          have hdig := hd.digits (by decide)
          cases hs with
          | plain hN =>
            have := parseDigits_numeral (by decide) hN
            rw [hbody] at this; simp at this; omega
          | plus => have := hdig 43 (by simp); simp at this
          | minus => have := hdig 45 (by simp); simp at this
        omega
    simp [convUintPg, hp]

example : ∃ x ∈ ([5, 2 ^ 63] : List Nat), 2 ^ 63 ≤ x := by decide

/-! ## C05 — accepted language, absence of panics -/

/-- C05. The string-array scanner succeeds exactly on the texts of the grammar (without bare NULL),
with exactly the denoted list. -/
theorem C05_accepts_iff_grammar (f : Fmt) (src : Bytes) (prev : Option (List Bytes))
    (xs : List Bytes) :
    stringScan f (.bytes src) prev = (.ok (), some xs) ↔
      LinearArray f.opn f.cls src (xs.map some) := by
  rw [stringScan, scanWith, scanBytesWith_ok]
  constructor
  · rintro ⟨es, hL, h2⟩
    have : es = xs.map some := by
      clear hL
      induction h2 with
      | nil => rfl
      | @cons e x es xs h _ ih =>
        cases e with
        | none => simp [convString] at h
        | some v => simp [convString] at h; simp [h, ih]
    rwa [← this]
  · intro hL
    exact ⟨_, hL, forall₂_map (fun _ _ => rfl)⟩

/-- C05. Element lists with NULLs: the underlying array parser accepts exactly the grammar, with the
bare word NULL read as a missing element. -/
theorem C05_elements_iff_grammar (f : Fmt) (src : Bytes) (es : List (Option Bytes)) :
    scanLinearArray f src = .ok es ↔ LinearArray f.opn f.cls src es := scanLinearArray_iff f src es

/-- C05. No input whatsoever makes the array parser panic, multi-dimensional inputs included. -/
theorem C05_parse_never_panics (f : Fmt) (src : Bytes) :
    parseArray f src ≠ .panic ∧ scanLinearArray f src ≠ .panic :=
  ⟨parseArray_no_panic f src, scanLinearArray_no_panic f src⟩

/-- Conversions of every element type are total. -/
theorem conv_never_panics (w : Nat) (e : Option Bytes) :
    convString e ≠ .panic ∧ convBool e ≠ .panic ∧ convInt w e ≠ .panic ∧ convUint w e ≠ .panic ∧
      convUintPg w e ≠ .panic ∧ convBytea e ≠ .panic := by
  refine ⟨?_, ?_, ?_, ?_, ?_, parseBytea_no_panic _⟩
  · cases e <;> simp [convString]
  · unfold convBool; split
    · split <;> [skip; split] <;> simp
    · simp
  · unfold convInt; split <;> simp
  · unfold convUint; split <;> simp
  · unfold convUintPg; split <;> simp

theorem scanWith_no_panic {α : Type} (f : Fmt) (conv : Option Bytes → Res α)
    (hc : ∀ e, conv e ≠ .panic) (src : DV) (prev : Option (List α)) :
    (scanWith f conv src prev).1 ≠ .panic := by
  have key : ∀ b, (scanBytesWith f conv b prev).1 ≠ .panic := by
    intro b
    unfold scanBytesWith
    cases h : scanLinearArray f b with
    | panic => exact absurd h (scanLinearArray_no_panic f b)
    | err => simp
    | ok es =>
      simp only
      split
      · simp
      · have := convAll_no_panic hc es
        split <;> simp_all
  cases src <;> simp [scanWith, key]

/-- C05. `Scan` of every array type is total on every driver value. -/
theorem C05_scan_never_panics (f : Fmt) (w : Nat) (src : DV) :
    (∀ p, (stringScan f src p).1 ≠ .panic) ∧ (∀ p, (boolScan f src p).1 ≠ .panic) ∧
    (∀ p, (intScan f w src p).1 ≠ .panic) ∧ (∀ p, (uintScan f w src p).1 ≠ .panic) ∧
    (∀ p, (byteaScan src p).1 ≠ .panic) := by
  have h := conv_never_panics w
  refine ⟨fun p => scanWith_no_panic f _ (fun e => (h e).1) src p,
    fun p => scanWith_no_panic f _ (fun e => (h e).2.1) src p,
    fun p => scanWith_no_panic f _ (fun e => (h e).2.2.1) src p, fun p => ?_,
    fun p => scanWith_no_panic _ _ (fun e => (h e).2.2.2.2.2) src p⟩
  cases f
  · exact scanWith_no_panic _ _ (fun e => (h e).2.2.2.1) src p
  · exact scanWith_no_panic _ _ (fun e => (h e).2.2.2.2.1) src p

/-- The grammar is inhabited by a text mixing bare and quoted elements: `[a,"b\"c"]`. -/
example : LinearArray Fmt.bracket.opn Fmt.bracket.cls [91, 97, 44, 34, 98, 92, 34, 99, 34, 93]
    [some [97], some [98, 34, 99]] :=
  .list (t := [97, 44, 34, 98, 92, 34, 99, 34])
    (.more (t := [97]) (.bare (by decide) (by decide) (by decide) (by decide))
      (.one (.quoted (t := [98, 92, 34, 99])
        (.plain (by decide) (by decide) (.esc (.plain (by decide) (by decide) .nil))))))

/-! ## C06 — failure leaves the destination alone -/

/-- C06, any element type: a non-`ok` outcome leaves the destination unchanged; NULL sets it to nil;
values that are neither text, bytes nor NULL are rejected. -/
theorem C06_scan_error_preserves {α : Type} (f : Fmt) (conv : Option Bytes → Res α) (src : DV)
    (prev : Option (List α)) :
    ((scanWith f conv src prev).1 ≠ .ok () → (scanWith f conv src prev).2 = prev) ∧
    (src = .nil → scanWith f conv src prev = (.ok (), none)) ∧
    (src ≠ .nil → (∀ b, src ≠ .bytes b) → (∀ s, src ≠ .str s) →
      scanWith f conv src prev = (.err, prev)) := by
  have key : ∀ b, (scanBytesWith f conv b prev).1 ≠ .ok () →
      (scanBytesWith f conv b prev).2 = prev := by
    intro b hne
    revert hne
    unfold scanBytesWith
    split
    · simp
    · simp
    · split
      · simp
      · split <;> simp
  refine ⟨?_, ?_, ?_⟩
  · cases src <;> simp [scanWith] <;> exact key _
  · rintro rfl; rfl
  · intro h1 h2 h3
    cases src <;> simp_all [scanWith]

/-- Every exported array type is an instance of the scheme above. -/
theorem C06_covers_all_types (w : Nat) :
    (∀ f, stringScan f = scanWith f convString) ∧ (∀ f, boolScan f = scanWith f convBool) ∧
    (∀ f, intScan f w = scanWith f (convInt w)) ∧
    uintScan .bracket w = scanWith .bracket (convUint w) ∧
    uintScan .brace w = scanWith .brace (convUintPg w) ∧ byteaScan = scanWith .brace convBytea :=
  ⟨fun _ => rfl, fun _ => rfl, fun _ => rfl, rfl, rfl, rfl⟩

/-! ## C07 — numeric fidelity -/

theorem forall₂_imp_iff {α β : Type} {R S : α → β → Prop} (h : ∀ a b, R a b ↔ S a b) {l : List α}
    {m : List β} : List.Forall₂ R l m ↔ List.Forall₂ S l m := by
  have : R = S := by funext a b; exact propext (h a b)
  rw [this]

/-- C07 for `sqltype` unsigned slices: success means exactly that the text is an array of decimal
numerals in range, and the stored numbers are the denoted ones. -/
theorem C07_sqltype_uint_faithful (w : Nat) (src : Bytes) (prev : Option (List Nat)) (xs : List Nat) :
    uintScan .bracket w (.bytes src) prev = (.ok (), some xs) ↔
      ∃ es, LinearArray 91 93 src es ∧
        List.Forall₂ (fun e x => ∃ t, e = some t ∧ Numeral 10 t x ∧ x < 2 ^ w) es xs := by
  rw [show uintScan .bracket w (.bytes src) prev = scanBytesWith .bracket (convUint w) src prev from rfl,
    scanBytesWith_ok]
  refine exists_congr fun es => and_congr Iff.rfl (forall₂_imp_iff fun e x => ?_)
  constructor
  · intro h
    unfold convUint at h
    split at h
    · simp at h
    · rename_i n hn
      simp at h
      obtain ⟨hN, hlt⟩ := (parseUint_iff (by decide)).1 hn
      rw [toUnsigned_of_range hlt] at h
      subst h
      cases e with
      | none => exact absurd rfl hN.ne_nil
      | some t => exact ⟨t, rfl, hN, hlt⟩
  · rintro ⟨t, rfl, hN, hlt⟩
    simp [convUint, (parseUint_iff (by decide)).2 ⟨hN, hlt⟩, toUnsigned_of_range hlt]

/-- C07 for 64-bit signed slices, both packages. -/
theorem C07_int64_faithful (f : Fmt) (src : Bytes) (prev : Option (List Int)) (xs : List Int) :
    intScan f 64 (.bytes src) prev = (.ok (), some xs) ↔
      ∃ es, LinearArray f.opn f.cls src es ∧
        List.Forall₂ (fun e x => ∃ t, e = some t ∧ SignedNumeral t x ∧
          -(2 ^ 63 : Int) ≤ x ∧ x < 2 ^ 63) es xs := by
  rw [show intScan f 64 (.bytes src) prev = scanBytesWith f (convInt 64) src prev from rfl,
    scanBytesWith_ok]
  refine exists_congr fun es => and_congr Iff.rfl (forall₂_imp_iff fun e x => ?_)
  constructor
  · intro h
    unfold convInt at h
    split at h
    · simp at h
    · rename_i n hn
      simp at h
      obtain ⟨hN, h1, h2⟩ := (parseInt_iff (by decide)).1 hn
      rw [toSigned_of_range (by decide) h1 h2] at h
      subst h
      cases e with
      | none =>
        have : SignedNumeral [] n := hN
        cases this with
        | plain h => exact absurd rfl h.ne_nil
      | some t => exact ⟨t, rfl, hN, h1, h2⟩
  · rintro ⟨t, rfl, hN, h1, h2⟩
    simp [convInt, (parseInt_iff (w := 64) (by decide)).2 ⟨hN, h1, h2⟩,
      toSigned_of_range (w := 64) (by decide) h1 h2]

/-- C07 for narrower signed slices, partial: success means every numeral fits 64 bits, and the
stored number is that number reduced to the element width — equal to it only when it was in range.
Missing: rejection of out-of-range numerals, refuted below. -/
theorem C07_int_narrow_partial (f : Fmt) (w : Nat) (src : Bytes) (prev : Option (List Int))
    (xs : List Int) :
    intScan f w (.bytes src) prev = (.ok (), some xs) ↔
      ∃ es, LinearArray f.opn f.cls src es ∧
        List.Forall₂ (fun e x => ∃ n, SignedNumeral (e.getD []) n ∧
          -(2 ^ 63 : Int) ≤ n ∧ n < 2 ^ 63 ∧ x = Int.bmod n (2 ^ w)) es xs := by
  rw [show intScan f w (.bytes src) prev = scanBytesWith f (convInt w) src prev from rfl,
    scanBytesWith_ok]
  refine exists_congr fun es => and_congr Iff.rfl (forall₂_imp_iff fun e x => ?_)
  constructor
  · intro h
    unfold convInt at h
    split at h
    · simp at h
    · rename_i n hn
      simp at h
      obtain ⟨hN, h1, h2⟩ := (parseInt_iff (by decide)).1 hn
      exact ⟨n, hN, h1, h2, by rw [← h, toSigned, BitVec.toInt_ofInt]⟩
  · rintro ⟨n, hN, h1, h2, rfl⟩
    simp [convInt, (parseInt_iff (w := 64) (by decide)).2 ⟨hN, h1, h2⟩, toSigned, BitVec.toInt_ofInt]

/-- C07 refuted: the text `[300]` is accepted into an `int8` slice and stored as 44, in both
packages (`{300}` in pgtype). -/
theorem C07_int8_wraps (prev : Option (List Int)) :
    intScan .bracket 8 (.bytes [91, 51, 48, 48, 93]) prev = (.ok (), some [44]) ∧
    intScan .brace 8 (.bytes [123, 51, 48, 48, 125]) prev = (.ok (), some [44]) := by
  have hN : Numeral 10 [51, 48, 48] 300 := numeral_of_parseDigits (by decide) (by decide)
  constructor
  · refine (C07_int_narrow_partial .bracket 8 _ prev _).2
      ⟨[some [51, 48, 48]], .list (t := [51, 48, 48]) (.one (elem_digits .bracket hN)), .cons ?_ .nil⟩
    exact ⟨300, .plain hN, by decide, by decide, by decide⟩
  · refine (C07_int_narrow_partial .brace 8 _ prev _).2
      ⟨[some [51, 48, 48]], .list (t := [51, 48, 48]) (.one (elem_digits .brace hN)), .cons ?_ .nil⟩
    exact ⟨300, .plain hN, by decide, by decide, by decide⟩

/-- C07 refuted for `pgtype` unsigned arrays: `{-1}` is accepted into a `uint8` array as 255. -/
theorem C07_pgtype_uint_wraps (prev : Option (List Nat)) :
    uintScan .brace 8 (.bytes [123, 45, 49, 125]) prev = (.ok (), some [255]) := by
  rw [show uintScan .brace 8 (.bytes [123, 45, 49, 125]) prev
    = scanBytesWith .brace (convUintPg 8) [123, 45, 49, 125] prev from rfl, scanBytesWith_ok]
  have he := elem_signed .brace (-1)
  rw [show intDec (-1) = [45, 49] by decide] at he
  exact ⟨[some [45, 49]], .list (t := [45, 49]) (.one he), .cons (by decide) .nil⟩

/-- C07 for pgtype unsigned arrays, partial: what is stored is the numeral modulo `2^w`; missing:
rejection of negative and too large numerals, refuted above. -/
theorem C07_pgtype_uint_partial (w : Nat) (src : Bytes) (prev : Option (List Nat)) (xs : List Nat) :
    uintScan .brace w (.bytes src) prev = (.ok (), some xs) ↔
      ∃ es, LinearArray 123 125 src es ∧
        List.Forall₂ (fun (e : Option Bytes) (x : Nat) => ∃ n : Int, SignedNumeral (e.getD []) n ∧
          -(2 ^ 63 : Int) ≤ n ∧ n < 2 ^ 63 ∧ (x : Int) = n % 2 ^ w) es xs := by
  rw [show uintScan .brace w (.bytes src) prev = scanBytesWith .brace (convUintPg w) src prev from rfl,
    scanBytesWith_ok]
  refine exists_congr fun es => and_congr Iff.rfl (forall₂_imp_iff fun e x => ?_)
  have hto : ∀ n : Int, ((toUnsigned w n : Nat) : Int) = n % 2 ^ w := by
    intro n
    rw [toUnsigned, BitVec.toNat_ofInt, Int.toNat_of_nonneg (Int.emod_nonneg _ (by have := Nat.two_pow_pos w; omega))]
    simp
  constructor
  · intro h
    unfold convUintPg at h
    split at h
    · simp at h
    · rename_i n hn
      simp at h
      obtain ⟨hN, h1, h2⟩ := (parseInt_iff (by decide)).1 hn
      exact ⟨n, hN, h1, h2, by rw [← h, hto]⟩
  · rintro ⟨n, hN, h1, h2, hx⟩
    simp only [convUintPg, (parseInt_iff (w := 64) (by decide)).2 ⟨hN, h1, h2⟩, Res.ok.injEq]
    have := hto n
    omega

/-! ## C08 — bytea arrays -/

/-- C08. Bytea arrays round-trip and `Value` stays inside its buffer. -/
theorem C08_bytea_roundtrip (xs : List Bytes) (prev : Option (List Bytes)) :
    ∃ t, byteaValue (some xs) = .ok (some t) ∧
      byteaScan (.str t) prev = (.ok (), some xs) ∧
      byteaScan (.bytes t) prev = (.ok (), some xs) := by
  cases xs with
  | nil => exact ⟨_, rfl, scanWith_text .brace convBytea (linear_empty .brace) .nil prev⟩
  | cons x xs =>
    have hL := linear_of_list (g := fun v => some (92 :: 120 :: hexEncode v)) x xs
      (fun y _ => elem_bytea y)
    exact ⟨_, byteaValue_cons x xs,
      scanWith_text .brace convBytea hL (forall₂_map (fun y _ => parseBytea_hex y)) prev⟩

/-- `{"\\x0aff",""}`-like instance. -/
example : byteaValue (some [[10, 255], []]) = .ok (some
    [123, 34, 92, 92, 120, 48, 97, 102, 102, 34, 44, 34, 92, 92, 120, 34, 125]) := by decide

/-! ## C09 — bytea formats -/

/-- C09. Decoding accepts exactly the hex format (after `\x`) or the escape format. -/
theorem C09_bytea_iff_formats (s v : Bytes) :
    parseBytea s = .ok v ↔
      (∃ h, s = 92 :: 120 :: h ∧ HexText h v) ∨ ((∀ h, s ≠ 92 :: 120 :: h) ∧ EscText s v) := by
  by_cases hx : ∃ h, s = 92 :: 120 :: h
  · obtain ⟨h, rfl⟩ := hx
    simp only [parseBytea]
    cases hd : hexDecode h with
    | none =>
      have : ¬ HexText h v := by rw [← hexDecode_iff, hd]; simp
      simp [this]
    | some r =>
      have hr := (hexDecode_iff h r).1 hd
      constructor
      · intro h1; simp at h1; subst h1; exact .inl ⟨h, rfl, hr⟩
      · rintro (⟨h', h1, h2⟩ | ⟨h1, _⟩)
        · simp at h1; subst h1
          rw [← hexDecode_iff, hd] at h2; simp at h2; simp [h2]
        · exact absurd rfl (h1 h)
  · have hx' : ∀ h, s ≠ 92 :: 120 :: h := fun h e => hx ⟨h, e⟩
    have hp : parseBytea s = parseByteaEsc s := by
      unfold parseBytea
      split
      · exact absurd rfl (hx' _)
      · rfl
    rw [hp, parseByteaEsc_iff]
    constructor
    · intro h; exact .inr ⟨hx', h⟩
    · rintro (⟨h, h1, _⟩ | ⟨_, h⟩)
      · exact absurd h1 (hx' h)
      · exact h

theorem escText_not_hex {s v : Bytes} (hs : EscText s v) (h : Bytes) : s ≠ 92 :: 120 :: h := by
  cases hs with
  | nil => simp
  | raw hx => intro e; simp at e; exact hx e.1
  | bs => simp
  | @oct i j k t v hi =>
    intro e
    have h1 := toNat_digit (b := 8) (by decide) hi
    have h2 : UInt8.ofNat (48 + i) = 120 := by injection e with _ e; injection e
    rw [h2] at h1; simp at h1; omega

/-- C09. Every value the server sends in escape output decodes to itself. -/
theorem C09_server_escape_decodes (v : Bytes) : parseBytea (serverEscape v) = .ok v := by
  refine (C09_bytea_iff_formats _ v).2 (.inr ⟨?_, escText_server v⟩)
  intro h he
  have h2 := escText_server v
  exact escText_not_hex h2 h he

/-- C09. Decoding never panics. -/
theorem C09_bytea_never_panics (s : Bytes) : parseBytea s ≠ .panic := parseBytea_no_panic s

example : serverEscape [92, 0, 65, 255] = [92, 92, 92, 48, 48, 48, 65, 92, 51, 55, 55] := by decide
/-- upper-case hex is accepted as well -/
example : HexText [65, 70] [175] := .cons (m := 10) (n := 15) (by simp [HexDigit]) (by simp [HexDigit]) .nil

end Verif.Props
