import Verif.Props.ArrayCodec
import Verif.Spec.Json

/-!
# C10, C57, C58: slices in JSON columns; float slices
-/

namespace Verif.Props
open Verif Spec

theorem isWs_nil : IsWs [] := by simp [IsWs]

theorem json_elems_of_list {α : Type} {enc : α → Bytes} (x : α) (xs : List α)
    (h : ∀ y ∈ x :: xs, JsonG .value (enc y)) :
    JsonG .elems (enc x ++ xs.flatMap (fun y => 44 :: enc y)) := by
  induction xs generalizing x with
  | nil => simpa using JsonG.elem1 isWs_nil (h x (by simp)) isWs_nil
  | cons y ys ih =>
    simpa using JsonG.elemS isWs_nil (h x (by simp)) isWs_nil
      (ih y (fun z hz => h z (by simp at hz ⊢; tauto)))

theorem json_arrayText {α : Type} {enc : α → Bytes} (x : α) (xs : List α)
    (h : ∀ y ∈ x :: xs, JsonG .value (enc y)) : IsJson (arrayText 91 93 enc x xs) :=
  ⟨[], _, [], by simp [arrayText], isWs_nil, .arr (json_elems_of_list x xs h), isWs_nil⟩

theorem json_empty : IsJson [91, 93] :=
  ⟨[], [91, 93], [], by simp, isWs_nil, .arr0 (w := []) isWs_nil, isWs_nil⟩

/-- Decimal rendering has no leading zeros. -/
theorem natDecAux_head (fuel n : Nat) (hf : n < fuel) (hn : 0 < n) :
    ∃ c t, natDecAux fuel n [] = c :: t ∧ c ≠ 48 := by
  induction fuel generalizing n with
  | zero => omega
  | succ k ih =>
    simp only [natDecAux]
    split
    · refine ⟨_, _, rfl, ?_⟩
      intro h
      have h2 : n % 10 < 10 := Nat.mod_lt _ (by decide)
      have := toNat_digit (b := 10) (by decide) h2
      rw [h] at this; simp at this; omega
    · rw [natDecAux_append]
      obtain ⟨c, t, h1, h2⟩ := ih (n / 10) (by omega) (by omega)
      exact ⟨c, _, by rw [h1]; rfl, h2⟩

theorem jsonInt_natDec (n : Nat) : JsonInt (natDec n) := by
  rcases Nat.eq_zero_or_pos n with rfl | hn
  · exact .zero
  · obtain ⟨c, t, h1, h2⟩ := natDecAux_head (n + 1) n (by omega) hn
    have hd := (natDec_numeral n).digits (by decide)
    unfold natDec at hd ⊢
    rw [h1] at hd ⊢
    have hI : ∀ y : Byte, 48 ≤ y.toNat ∧ y.toNat < 48 + 10 → IsDigit y := by
      intro y hy; unfold IsDigit; omega
    exact .pos (hI _ (hd c (by simp))) h2 (fun y hy => hI _ (hd y (by simp [hy])))

theorem json_intDec (n : Int) : JsonG .value (intDec n) := by
  unfold intDec
  split
  · simpa using JsonG.num (.inr rfl) (jsonInt_natDec n.natAbs) .none .none
  · simpa using JsonG.num (.inl rfl) (jsonInt_natDec n.natAbs) .none .none

/-! ## C10 -/

/-- C10, integers: always valid JSON. -/
theorem C10_int_slices_are_json (xs : List Int) :
    ∃ t, intValue .bracket (some xs) = some t ∧ IsJson t := by
  cases xs with
  | nil => exact ⟨_, rfl, json_empty⟩
  | cons x xs =>
    exact ⟨_, sliceValue_cons .bracket intDec x xs, json_arrayText x xs (fun y _ => json_intDec y)⟩

theorem C10_uint_slices_are_json (xs : List Nat) :
    ∃ t, uintValue .bracket (some xs) = some t ∧ IsJson t := by
  cases xs with
  | nil => exact ⟨_, rfl, json_empty⟩
  | cons x xs =>
    refine ⟨_, sliceValue_cons .bracket natDec x xs, json_arrayText x xs (fun y _ => ?_)⟩
    simpa using JsonG.num (.inl rfl) (jsonInt_natDec y) .none .none

theorem jsonChars_escape (v : Bytes) (h : ∀ c ∈ v, 32 ≤ c.toNat) : JsonChars (escapeBytes v) := by
  induction v with
  | nil => exact .nil
  | cons c v ih =>
    have hv := ih (fun x hx => h x (by simp [hx]))
    simp only [escapeBytes]
    split
    · rename_i hc
      refine .esc ?_ hv
      rcases hc with rfl | rfl <;> decide
    · rename_i hc
      simp [not_or] at hc
      exact .plain hc.1 hc.2 (h c (by simp)) hv

theorem stringValue_cons (f : Fmt) (x : Bytes) (xs : List Bytes) :
    stringValue f (some (x :: xs)) =
      some (arrayText f.opn f.cls (fun v => quote :: (escapeBytes v ++ [quote])) x xs) := by
  have h : appendArrayQuotedBytes = fun b v => b ++ (quote :: (escapeBytes v ++ [quote])) := by
    funext b v; simp [appendArrayQuotedBytes]
  rw [stringValue, h, sliceValue_cons]

/-- C10, strings, partial: valid when no string contains a control character.  Missing: strings with
control characters, refuted by `C10_string_control_not_json`. -/
theorem C10_string_slices_are_json_partial (xs : List Bytes)
    (h : ∀ v ∈ xs, ∀ c ∈ v, 32 ≤ c.toNat) :
    ∃ t, stringValue .bracket (some xs) = some t ∧ IsJson t := by
  cases xs with
  | nil => exact ⟨_, rfl, json_empty⟩
  | cons x xs =>
    refine ⟨_, stringValue_cons .bracket x xs, json_arrayText x xs (fun y hy => ?_)⟩
    exact .str (jsonChars_escape y (h y hy))

example : ∀ v ∈ ([[97, 34], [92, 200]] : List Bytes), ∀ c ∈ v, 32 ≤ c.toNat := by decide

/-- Bytes that can occur in a JSON text at all. -/
def JsonByte (c : Byte) : Prop := 32 ≤ c.toNat ∨ c = 9 ∨ c = 10 ∨ c = 13

theorem jsonByte_ws {t : Bytes} (h : IsWs t) : ∀ c ∈ t, JsonByte c := by
  intro c hc
  rcases h c hc with h | h | h | h <;> simp [JsonByte, h]

theorem jsonByte_digit {c : Byte} (h : IsDigit c) : JsonByte c := by
  unfold JsonByte; unfold IsDigit at h; omega

theorem jsonByte_hex {c : Byte} (h : IsHex c) : JsonByte c := by
  unfold JsonByte; unfold IsHex IsDigit at h; omega

theorem jsonByte_chars {t : Bytes} (h : JsonChars t) : ∀ c ∈ t, JsonByte c := by
  induction h with
  | nil => simp
  | plain _ _ h3 _ ih => simp only [List.forall_mem_cons]; exact ⟨.inl h3, ih⟩
  | esc h1 _ ih =>
    simp only [List.forall_mem_cons]
    refine ⟨.inl (by decide), ?_, ih⟩
    simp at h1
    rcases h1 with h | h | h | h | h | h | h | h <;> subst h <;> exact .inl (by decide)
  | uni h1 h2 h3 h4 _ ih =>
    simp only [List.forall_mem_cons]
    exact ⟨.inl (by decide), .inl (by decide), jsonByte_hex h1, jsonByte_hex h2, jsonByte_hex h3,
      jsonByte_hex h4, ih⟩

theorem jsonByte_int {t : Bytes} (h : JsonInt t) : ∀ c ∈ t, JsonByte c := by
  cases h with
  | zero => simp [JsonByte]
  | pos h1 _ h2 =>
    simp only [List.forall_mem_cons]
    exact ⟨jsonByte_digit h1, fun c hc => jsonByte_digit (h2 c hc)⟩

theorem jsonByte_frac {t : Bytes} (h : JsonFrac t) : ∀ c ∈ t, JsonByte c := by
  cases h with
  | none => simp
  | some h1 h2 =>
    simp only [List.forall_mem_cons]
    exact ⟨.inl (by decide), jsonByte_digit h1, fun c hc => jsonByte_digit (h2 c hc)⟩

theorem jsonByte_exp {t : Bytes} (h : JsonExp t) : ∀ c ∈ t, JsonByte c := by
  cases h with
  | none => simp
  | some h0 h1 h2 h3 =>
    simp only [List.forall_mem_cons, List.forall_mem_append]
    refine ⟨?_, ?_, jsonByte_digit h2, fun c hc => jsonByte_digit (h3 c hc)⟩
    · rcases h0 with rfl | rfl <;> exact .inl (by decide)
    · rcases h1 with rfl | rfl | rfl <;> simp [JsonByte]

theorem jsonByte_all {k : Kind} {t : Bytes} (h : JsonG k t) : ∀ c ∈ t, JsonByte c := by
  induction h with
  | tru => simp [JsonByte]
  | fls => simp [JsonByte]
  | null => simp [JsonByte]
  | num h1 h2 h3 h4 =>
    simp only [List.forall_mem_append]
    refine ⟨?_, jsonByte_int h2, jsonByte_frac h3, jsonByte_exp h4⟩
    rcases h1 with rfl | rfl <;> simp [JsonByte]
  | str h =>
    simp only [List.forall_mem_append, List.forall_mem_cons, List.not_mem_nil, false_imp_iff,
      implies_true, and_true]
    exact ⟨.inl (by decide), jsonByte_chars h, .inl (by decide)⟩
  | arr0 h =>
    simp only [List.forall_mem_append, List.forall_mem_cons, List.not_mem_nil, false_imp_iff,
      implies_true, and_true]
    exact ⟨.inl (by decide), jsonByte_ws h, .inl (by decide)⟩
  | arr _ ih =>
    simp only [List.forall_mem_append, List.forall_mem_cons, List.not_mem_nil, false_imp_iff,
      implies_true, and_true]
    exact ⟨.inl (by decide), ih, .inl (by decide)⟩
  | obj0 h =>
    simp only [List.forall_mem_append, List.forall_mem_cons, List.not_mem_nil, false_imp_iff,
      implies_true, and_true]
    exact ⟨.inl (by decide), jsonByte_ws h, .inl (by decide)⟩
  | obj _ ih =>
    simp only [List.forall_mem_append, List.forall_mem_cons, List.not_mem_nil, false_imp_iff,
      implies_true, and_true]
    exact ⟨.inl (by decide), ih, .inl (by decide)⟩
  | elem1 h1 _ h2 ih =>
    simp only [List.forall_mem_append]
    exact ⟨jsonByte_ws h1, ih, jsonByte_ws h2⟩
  | elemS h1 _ h2 _ ih ih' =>
    simp only [List.forall_mem_append, List.forall_mem_cons]
    exact ⟨jsonByte_ws h1, ih, jsonByte_ws h2, .inl (by decide), ih'⟩
  | mem1 h1 h2 h3 hu _ h4 ih =>
    simp only [List.forall_mem_append, List.forall_mem_cons]
    exact ⟨jsonByte_ws h1, .inl (by decide), jsonByte_chars h2, .inl (by decide), jsonByte_ws h3,
      .inl (by decide), jsonByte_ws hu, ih, jsonByte_ws h4⟩
  | memS h1 h2 h3 hu _ h4 _ ih ih' =>
    simp only [List.forall_mem_append, List.forall_mem_cons]
    exact ⟨jsonByte_ws h1, .inl (by decide), jsonByte_chars h2, .inl (by decide), jsonByte_ws h3,
      .inl (by decide), jsonByte_ws hu, ih, jsonByte_ws h4, .inl (by decide), ih'⟩

theorem isJson_bytes {t : Bytes} (h : IsJson t) : ∀ c ∈ t, JsonByte c := by
  obtain ⟨w, v, w', rfl, h1, h2, h3⟩ := h
  simp only [List.forall_mem_append]
  exact ⟨jsonByte_ws h1, jsonByte_all h2, jsonByte_ws h3⟩

theorem mem_escapeBytes {v : Bytes} {c : Byte} (h : c ∈ v) : c ∈ escapeBytes v := by
  induction v with
  | nil => simp at h
  | cons x v ih =>
    simp only [escapeBytes]
    rcases List.mem_cons.1 h with rfl | h
    · split <;> simp
    · split <;> simp [ih h]

/-- C10 refuted for strings: a control character other than tab, newline, carriage return in any of
the strings always makes the text invalid JSON. -/
theorem C10_string_control_not_json (xs : List Bytes)
    (h : ∃ v ∈ xs, ∃ c ∈ v, c.toNat < 32 ∧ c ≠ 9 ∧ c ≠ 10 ∧ c ≠ 13) :
    ∃ t, stringValue .bracket (some xs) = some t ∧ ¬ IsJson t := by
  obtain ⟨v, hv, c, hc, h1, h2, h3, h4⟩ := h
  cases xs with
  | nil => simp at hv
  | cons x xs =>
    refine ⟨_, stringValue_cons .bracket x xs, fun hj => ?_⟩
    have hmem : c ∈ arrayText Fmt.bracket.opn Fmt.bracket.cls
        (fun v => quote :: (escapeBytes v ++ [quote])) x xs := by
      unfold arrayText
      rcases List.mem_cons.1 hv with rfl | hv
      · simp [mem_escapeBytes hc]
      · simp only [List.mem_cons, List.mem_append, List.mem_flatMap]
        exact .inr (.inl (.inr ⟨v, hv, by simp [mem_escapeBytes hc]⟩))
    rcases isJson_bytes hj c hmem with h | h | h | h
    · omega
    · exact h2 h
    · exact h3 h
    · exact h4 h

example : ∃ v ∈ ([[97], [1]] : List Bytes), ∃ c ∈ v, c.toNat < 32 ∧ c ≠ 9 ∧ c ≠ 10 ∧ c ≠ 13 := by
  decide

/-- First bytes of a JSON value. -/
theorem json_value_head {t : Bytes} (h : JsonG .value t) :
    ∃ c r, t = c :: r ∧ c ≠ 32 ∧ c ≠ 9 ∧ c ≠ 10 ∧ c ≠ 13 ∧ c ≠ 93 ∧
      (c = 116 → ∃ r', r = 114 :: r') ∧ (c = 102 → ∃ r', r = 97 :: r') := by
  have hdig : ∀ c r, IsDigit c → (c ≠ 32 ∧ c ≠ 9 ∧ c ≠ 10 ∧ c ≠ 13 ∧ c ≠ 93 ∧
      (c = 116 → ∃ r' : Bytes, r = (114 : Byte) :: r') ∧ (c = 102 → ∃ r', r = (97 : Byte) :: r')) := by
    intro c r hc
    unfold IsDigit at hc
    refine ⟨?_, ?_, ?_, ?_, ?_, ?_, ?_⟩ <;> rintro rfl <;> simp at hc
  generalize hk : Kind.value = k at h
  cases h with
  | tru => exact ⟨_, _, rfl, by decide, by decide, by decide, by decide, by decide, by simp, by simp⟩
  | fls => exact ⟨_, _, rfl, by decide, by decide, by decide, by decide, by decide, by simp, by simp⟩
  | null => exact ⟨_, _, rfl, by decide, by decide, by decide, by decide, by decide, by simp, by simp⟩
  | @num s i f e h1 h2 h3 h4 =>
    rcases h1 with rfl | rfl
    · cases h2 with
      | zero => exact ⟨48, _, rfl, hdig _ _ (by unfold IsDigit; decide)⟩
      | pos hc => exact ⟨_, _, rfl, hdig _ _ hc⟩
    · exact ⟨45, _, rfl, by decide, by decide, by decide, by decide, by decide, by simp, by simp⟩
  | str => exact ⟨_, _, rfl, by decide, by decide, by decide, by decide, by decide, by simp, by simp⟩
  | arr0 => exact ⟨_, _, rfl, by decide, by decide, by decide, by decide, by decide, by simp, by simp⟩
  | arr => exact ⟨_, _, rfl, by decide, by decide, by decide, by decide, by decide, by simp, by simp⟩
  | obj0 => exact ⟨_, _, rfl, by decide, by decide, by decide, by decide, by decide, by simp, by simp⟩
  | obj => exact ⟨_, _, rfl, by decide, by decide, by decide, by decide, by decide, by simp, by simp⟩
  | elem1 => cases hk
  | elemS => cases hk
  | mem1 => cases hk
  | memS => cases hk

/-- If a comma separated list of values starts with `t` (`f`) the next byte is `r` (`a`). -/
theorem json_elems_head {es : Bytes} (h : JsonG .elems es) {x y : Byte} {r tl : Bytes}
    (hx : x = 116 ∨ x = 102) (he : es ++ tl = x :: y :: r) :
    (x = 116 → y = 114) ∧ (x = 102 → y = 97) := by
  have key : ∀ w v rest, IsWs w → JsonG .value v → w ++ (v ++ rest) = x :: y :: r →
      (x = 116 → y = 114) ∧ (x = 102 → y = 97) := by
    intro w v rest hw hv heq
    obtain ⟨c, r', rfl, _, _, _, _, _, ht, hf⟩ := json_value_head hv
    cases w with
    | cons z w =>
      simp at heq
      have := hw z (by simp)
      rw [heq.1] at this
      rcases hx with rfl | rfl <;> simp at this
    | nil =>
      simp at heq
      obtain ⟨rfl, heq⟩ := heq
      constructor
      · intro h
        obtain ⟨r'', rfl⟩ := ht h
        simp at heq; exact heq.1.symm
      · intro h
        obtain ⟨r'', rfl⟩ := hf h
        simp at heq; exact heq.1.symm
  generalize hk : Kind.elems = k at h
  cases h with
  | elem1 h1 h2 h3 => exact key _ _ _ h1 h2 (by simpa using he)
  | elemS h1 h2 h3 h4 => exact key _ _ _ h1 h2 (by simpa using he)
  | _ => cases hk

theorem not_json_tf {x y : Byte} {r : Bytes} (hx : x = 116 ∨ x = 102) (hy : y ≠ 114) (hy' : y ≠ 97) :
    ¬ IsJson (91 :: x :: y :: r) := by
  rintro ⟨w, v, w', heq, hw, hv, hw'⟩
  obtain ⟨c, r', hveq, hrest⟩ := json_value_head hv
  cases w with
  | cons z w =>
    simp at heq
    have := hw z (by simp)
    rw [← heq.1] at this; simp at this
  | nil =>
    simp only [List.nil_append] at heq
    generalize hk : Kind.value = k at hv
    cases hv with
    | tru => simp at heq
    | fls => simp at heq
    | null => simp at heq
    | num h1 h2 h3 h4 =>
      rcases h1 with rfl | rfl
      · cases h2 with
        | zero => simp at heq
        | pos hc =>
          simp at heq
          rw [← heq.1] at hc; unfold IsDigit at hc; simp at hc
      · simp at heq
    | str => simp at heq
    | arr0 h =>
      rename_i ww
      simp at heq
      cases ww with
      | nil => simp at heq; rcases hx with rfl | rfl <;> simp at heq
      | cons z ww =>
        simp at heq
        have := h z (by simp)
        rw [← heq.1] at this
        rcases hx with rfl | rfl <;> simp at this
    | arr h =>
      simp at heq
      have := json_elems_head h hx heq.symm
      rcases hx with rfl | rfl
      · exact hy (this.1 rfl)
      · exact hy' (this.2 rfl)
    | obj0 => simp at heq
    | obj => simp at heq
    | _ => cases hk

/-- C10 refuted for booleans: no non-empty boolean slice is ever sent as valid JSON. -/
theorem C10_bool_slices_never_json (xs : List Bool) (h : xs ≠ []) :
    ∃ t, boolValue .bracket (some xs) = .ok (some t) ∧ ¬ IsJson t := by
  cases xs with
  | nil => exact absurd rfl h
  | cons x xs =>
    refine ⟨_, boolValue_cons .bracket x xs, ?_⟩
    have hx : (if x then (116 : Byte) else 102) = 116 ∨ (if x then (116 : Byte) else 102) = 102 := by
      cases x <;> simp
    cases xs with
    | nil => exact not_json_tf hx (y := 93) (r := []) (by decide) (by decide)
    | cons y ys => exact not_json_tf hx (y := 44) (by decide) (by decide)

example : ([true, false] : List Bool) ≠ [] := by simp

/-! ## C57 — reading back what MySQL stores in a JSON column -/

theorem intDec_bytes (n : Int) : ∀ c ∈ intDec n, c = 45 ∨ (48 ≤ c.toNat ∧ c.toNat < 58) := by
  have hd := (natDec_numeral n.natAbs).digits (by decide)
  intro c hc
  unfold intDec at hc
  split at hc
  · rcases List.mem_cons.1 hc with h | h
    · exact .inl h
    · exact .inr (hd c h)
  · exact .inr (hd c hc)

theorem elem_spaced (n : Int) : Elem (91 : Byte) 93 (32 :: intDec n) (some (32 :: intDec n)) := by
  refine .bare (by decide) (by decide) ?_ (by simp)
  intro z hz
  rcases List.mem_cons.1 hz with rfl | hz
  · decide
  · rcases intDec_bytes n z hz with rfl | h
    · decide
    · constructor <;> rintro rfl <;> simp at h

theorem parseInt_spaced (n : Int) : parseInt (32 :: intDec n) 64 = none := by
  have h : parseDigits 10 (32 :: intDec n) 0 = none := by simp [parseDigits]
  simp [parseInt, parseUint, h]

theorem linear_mysql (x : Int) (ys : List Int) :
    LinearArray 91 93 (mysqlJsonInts ((x :: ys).map intDec))
      ((intDec x :: ys.map (fun n => 32 :: intDec n)).map some) := by
  have h := linear_of_list (o := 91) (c := 93) (enc := id) (g := some) (intDec x)
    (ys.map (fun n => 32 :: intDec n)) (by
      intro t ht
      rcases List.mem_cons.1 ht with rfl | ht
      · exact elem_signed .bracket x
      · obtain ⟨n, _, rfl⟩ := List.mem_map.1 ht
        exact elem_spaced n)
  have e : arrayText 91 93 id (intDec x) (ys.map (fun n => 32 :: intDec n))
      = mysqlJsonInts ((x :: ys).map intDec) := by
    simp [arrayText, mysqlJsonInts, List.flatMap_map]
  rwa [e] at h

/-- C57 refuted: MySQL prints JSON arrays with a space after each comma, so no integer slice of two
or more elements can be read back; every width, every destination. -/
theorem C57_mysql_json_ints_unreadable (w : Nat) (x y : Int) (zs : List Int)
    (prev : Option (List Int)) (r : List Int) :
    intScan .bracket w (.str (mysqlJsonInts ((x :: y :: zs).map intDec))) prev ≠ (.ok (), some r) := by
  refine scan_err_of_conv .bracket (convInt w) (linear_mysql x (y :: zs)) ?_ prev r
  exact ⟨some (32 :: intDec y), by simp, fun z => by simp [convInt, parseInt_spaced]⟩

/-- C57, partial: slices of at most one element are read back unchanged. -/
theorem C57_mysql_json_ints_partial (w : Nat) (hw : 0 < w) (hw64 : w ≤ 64) (xs : List Int)
    (hl : xs.length ≤ 1) (hx : ∀ x ∈ xs, -(2 ^ (w - 1) : Int) ≤ x ∧ x < (2 ^ (w - 1) : Int))
    (prev : Option (List Int)) :
    intScan .bracket w (.str (mysqlJsonInts (xs.map intDec))) prev = (.ok (), some xs) := by
  obtain ⟨t, h1, h2, _⟩ := C03_int_roundtrip .bracket w hw hw64 xs hx prev
  match xs, hl with
  | [], _ => simp [intValue, sliceValue] at h1; rw [← h1] at h2; exact h2
  | [x], _ =>
    rw [intValue, sliceValue_cons] at h1
    simp only [Option.some.injEq] at h1
    rw [← h1] at h2
    simpa [arrayText, mysqlJsonInts, Fmt.opn, Fmt.cls] using h2

/-! ## C58 — float slices

Float formatting and parsing are not modelled.  The codec is proved correct for every printer and
parser with the properties `strconv` documents. -/

/-- C58. For any element type with a parser that inverts its printer, where printed elements are
non-empty, contain no comma or close bracket, do not start with an open bracket or quote and are not
the word NULL, slices round-trip. -/
theorem C58_any_scalar_roundtrip {α : Type} (f : Fmt) (print : α → Bytes) (parse : Bytes → Option α)
    (hinv : ∀ x, parse (print x) = some x)
    (hne : ∀ x, ∃ c t, print x = c :: t ∧ c ≠ f.opn ∧ c ≠ 34 ∧ (∀ y ∈ c :: t, y ≠ 44 ∧ y ≠ f.cls) ∧
      c :: t ≠ [78, 85, 76, 76])
    (xs : List α) (prev : Option (List α)) :
    ∃ t, sliceValue f (fun b x => b ++ print x) (some xs) = some t ∧
      scanWith f (fun e => match parse (e.getD []) with | some x => .ok x | none => .err) (.str t) prev
        = (.ok (), some xs) := by
  cases xs with
  | nil => exact ⟨_, rfl, (scanWith_text f _ (linear_empty f) .nil prev).1⟩
  | cons x xs =>
    have hL := linear_of_list (o := f.opn) (c := f.cls) (enc := print)
      (g := fun v => some (print v)) x xs (fun y _ => by
      obtain ⟨c, t, h1, h2, h3, h4, h5⟩ := hne y
      rw [h1]; exact .bare h2 h3 h4 h5)
    refine ⟨_, sliceValue_cons f print x xs,
      (scanWith_text f _ hL (forall₂_map (fun y _ => ?_)) prev).1⟩
    simp [hinv]

/-- The hypotheses are satisfiable: printing booleans as `1`/`0`. -/
example : ∃ (print : Bool → Bytes) (parse : Bytes → Option Bool),
    (∀ x, parse (print x) = some x) ∧
    (∀ x, ∃ c t, print x = c :: t ∧ c ≠ Fmt.bracket.opn ∧ c ≠ 34 ∧
      (∀ y ∈ c :: t, y ≠ 44 ∧ y ≠ Fmt.bracket.cls) ∧ c :: t ≠ [78, 85, 76, 76]) :=
  ⟨fun b => [if b then 49 else 48], fun t => if t = [49] then some true else some false,
    by intro x; cases x <;> rfl,
    fun x => ⟨if x then 49 else 48, [], by cases x <;> rfl, by cases x <;> decide,
      by cases x <;> decide, by cases x <;> decide, by cases x <;> decide⟩⟩

end Verif.Props
