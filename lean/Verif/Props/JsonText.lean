import Verif.Lemmas.JsonTextSound
import Verif.Props.JsonField

/-!
# Property C87: the text in a JSON column
-/

namespace Verif.Props

open Verif Verif.Spec Verif.Spec.Scan Verif.JsonField Verif.JsonText Verif.JsonText.Spec

/-! ## What is written -/

private theorem hex1 {k : Nat} (h : k < 16) : Hex1 (hex k) k := by
  unfold Hex1 hex
  by_cases h1 : k < 10
  · rw [if_pos h1]
    exact Or.inl ⟨h1, Scan.toNat_ofNat_lt (by omega)⟩
  · rw [if_neg h1]
    exact Or.inr ⟨by omega, h, Or.inl (Scan.toNat_ofNat_lt (by omega))⟩

private theorem chars_quoteChar (c : Char) {t : Bytes} {cs : List Char} (h : Chars t cs) :
    Chars (quoteChar c ++ t) (c :: cs) := by
  have esc : ∀ b : Byte, (b, c.toNat) ∈ escapes → Chars ([92, b] ++ t) (c :: cs) := fun b hb => .esc hb h
  unfold quoteChar
  split
  · rename_i hc
    apply esc
    rcases hc with hc | hc <;> rw [hc] <;> decide
  · rename_i h1
    split
    · rename_i hc; apply esc; rw [hc]; decide
    · split
      · rename_i hc; apply esc; rw [hc]; decide
      · split
        · rename_i hc; apply esc; rw [hc]; decide
        · split
          · rename_i hc; apply esc; rw [hc]; decide
          · split
            · rename_i hc; apply esc; rw [hc]; decide
            · split
              · rename_i hc
                refine .uni (h := [hex (c.toNat / 4096 % 16), hex (c.toNat / 256 % 16), hex (c.toNat / 16 % 16),
                  hex (c.toNat % 16)]) ?_ h
                refine ⟨_, _, _, _, _, _, _, _, rfl, hex1 (Nat.mod_lt _ (by decide)), hex1 (Nat.mod_lt _ (by decide)),
                  hex1 (Nat.mod_lt _ (by decide)), hex1 (Nat.mod_lt _ (by decide)), ?_⟩
                omega
              · rename_i hc
                exact .plain (by omega) (by omega) (by omega) h

private theorem chars_quote : ∀ t : List Char, Chars (t.flatMap quoteChar) t := by
  intro t
  induction t with
  | nil => exact .nil
  | cons c t ih => rw [List.flatMap_cons]; exact chars_quoteChar c ih

private theorem means_int (n : Int) : Means (.val (.num n)) (intDec n) := by
  unfold intDec
  split
  · have := Means.neg (jsonInt_natDec n.natAbs) (natDec_numeral n.natAbs)
    rwa [show -((n.natAbs : Nat) : Int) = n by omega] at this
  · have := Means.nat (jsonInt_natDec n.natAbs) (natDec_numeral n.natAbs)
    rwa [show ((n.natAbs : Nat) : Int) = n by omega] at this

mutual
private theorem means_print : (j : Json) → NoFrac j → Means (.val j) (print j)
  | .null, _ => .null
  | .bool true, _ => .tru
  | .bool false, _ => .fls
  | .num n, _ => means_int n
  | .frac _, h => absurd h (by simp [NoFrac])
  | .str t, _ => .str (chars_quote t)
  | .arr [], _ => .arr0 isWs_nil
  | .arr (j :: js), h => by
    have := Means.arr (means_elems js h.2 j _ (means_print j h.1))
    simpa [print] using this
  | .obj [], _ => .obj0 isWs_nil
  | .obj ((k, j) :: ms), h => by
    have := Means.obj (means_members ms h.2 k j _ (means_print j h.1))
    simpa [print, JsonText.quote] using this
private theorem means_elems : (js : List Json) → NoFracs js → (j : Json) → (v : Bytes) → Means (.val j) v →
    Means (.elems (j :: js)) (v ++ printElems js)
  | [], _, j, v, h => by simpa [printElems] using Means.elem1 isWs_nil h isWs_nil
  | j' :: js, hs, j, v, h => by
    simpa [printElems] using Means.elemS isWs_nil h isWs_nil (means_elems js hs.2 j' _ (means_print j' hs.1))
private theorem means_members : (ms : List (JsonField.Name × Json)) → NoFracm ms → (k : JsonField.Name) → (j : Json) →
    (v : Bytes) → Means (.val j) v → Means (.members ((k, j) :: ms)) (JsonText.quote k ++ 58 :: (v ++ printMembers ms))
  | [], _, k, j, v, h => by
    simpa [printMembers, JsonText.quote] using
      Means.mem1 isWs_nil (chars_quote k) isWs_nil isWs_nil h isWs_nil
  | (k', j') :: ms, hs, k, j, v, h => by
    simpa [printMembers, JsonText.quote] using
      Means.memS isWs_nil (chars_quote k) isWs_nil isWs_nil h isWs_nil
        (means_members ms hs.2 k' j' _ (means_print j' hs.1))
end

/-! ## Texts with a meaning are JSON -/

private theorem isHex_of {b : Byte} {n : Nat} (h : Hex1 b n) : IsHex b := by
  unfold Hex1 at h
  unfold IsHex IsDigit
  omega

private theorem jsonChars_of {b : Bytes} {cs : List Char} (h : Chars b cs) : JsonChars b := by
  induction h with
  | nil => exact .nil
  | @plain c t cs h1 h2 h3 _ ih =>
    refine jsonChars_plain ?_ ih
    intro b hb
    rcases utf8_bytes c with ⟨h4, h5⟩ | ⟨h4, _, h5⟩
    · rw [h5] at hb
      simp only [List.mem_singleton] at hb
      have : b.toNat = c.toNat := by rw [hb, Scan.toNat_ofNat_lt (by omega)]
      refine ⟨?_, ?_, by omega⟩
      · rintro rfl; exact h2 this.symm
      · rintro rfl; exact h3 this.symm
    · have := h5 b hb
      refine ⟨?_, ?_, by omega⟩
      · rintro rfl; simp at this
      · rintro rfl; simp at this
  | @esc b c t cs h1 _ ih =>
    refine .esc ?_ ih
    simp only [escapes, List.mem_cons, Prod.mk.injEq, List.not_mem_nil, or_false] at h1
    rcases h1 with h | h | h | h | h | h | h | h <;> simp [h.1]
  | uni h1 _ ih =>
    obtain ⟨a, b, c, d, i, j, k, l, rfl, h1, h2, h3, h4, _⟩ := h1
    exact .uni (isHex_of h1) (isHex_of h2) (isHex_of h3) (isHex_of h4) ih
  | pair h1 h2 _ _ _ _ ih =>
    obtain ⟨a, b, c, d, i, j, k, l, rfl, h1, h3, h4, h5, _⟩ := h1
    obtain ⟨a', b', c', d', i', j', k', l', rfl, h1', h3', h4', h5', _⟩ := h2
    exact .uni (isHex_of h1) (isHex_of h3) (isHex_of h4) (isHex_of h5)
      (.uni (isHex_of h1') (isHex_of h3') (isHex_of h4') (isHex_of h5') ih)

private def kind : Thing → Kind
  | .val _ => .value
  | .elems _ => .elems
  | .members _ => .members

private theorem json_of {x : Thing} {t : Bytes} (h : Means x t) : JsonG (kind x) t := by
  induction h with
  | null => exact .null
  | tru => exact .tru
  | fls => exact .fls
  | nat h _ =>
    show JsonG .value _
    simpa using JsonG.num (.inl rfl) h .none .none
  | neg h _ =>
    show JsonG .value _
    simpa using JsonG.num (.inr rfl) h .none .none
  | frac h1 h2 h3 h4 _ => exact .num h1 h2 h3 h4
  | str h => exact .str (jsonChars_of h)
  | arr0 h => exact .arr0 h
  | arr _ ih => exact .arr ih
  | obj0 h => exact .obj0 h
  | obj _ ih => exact .obj ih
  | elem1 h1 _ h2 ih => exact .elem1 h1 ih h2
  | elemS h1 _ h2 _ ih ih' => exact .elemS h1 ih h2 ih'
  | mem1 h1 h2 h3 hu _ h4 ih => exact .mem1 h1 (jsonChars_of h2) h3 hu ih h4
  | memS h1 h2 h3 hu _ h4 _ ih ih' => exact .memS h1 (jsonChars_of h2) h3 hu ih h4 ih'

/-! ## The values that are written -/

theorem noFracs_map {V : Type} (enc : V → Json) (D : Nat) (h : ∀ v, NoFrac (enc v) ∧ depth (enc v) ≤ D) :
    ∀ vs : List V, NoFracs (vs.map enc) ∧ depths (vs.map enc) ≤ D := by
  intro vs
  induction vs with
  | nil => simp [NoFracs, depths]
  | cons v vs ih =>
    have := h v
    simp only [List.map_cons, NoFracs, depths]
    exact ⟨⟨this.1, ih.1⟩, by omega⟩

theorem noFracm_map {V : Type} (enc : V → Json) (D : Nat) (h : ∀ v, NoFrac (enc v) ∧ depth (enc v) ≤ D) :
    ∀ es : List (JsonField.Name × V), NoFracm (es.map fun e => (e.1, enc e.2)) ∧
      depthm (es.map fun e => (e.1, enc e.2)) ≤ D := by
  intro es
  induction es with
  | nil => simp [NoFracm, depthm]
  | cons e es ih =>
    have := h e.2
    simp only [List.map_cons, NoFracm, depthm]
    exact ⟨⟨this.1, ih.1⟩, by omega⟩

mutual
theorem encode_ok : (t : Ty) → (v : t.Val) → NoFrac (t.encode v) ∧ depth (t.encode v) ≤ tyDepth t
  | .bool, v => ⟨trivial, Nat.le_refl _⟩
  | .int _ _, v => ⟨trivial, Nat.le_refl _⟩
  | .str, v => ⟨trivial, Nat.le_refl _⟩
  | .ptr t, v => by
    change Option t.Val at v
    match v with
    | none => exact ⟨trivial, Nat.zero_le _⟩
    | some x => exact encode_ok t x
  | .slice t, v => by
    change Option (List t.Val) at v
    match v with
    | none => exact ⟨trivial, Nat.zero_le _⟩
    | some x =>
      have := noFracs_map t.encode (tyDepth t) (encode_ok t) x
      exact ⟨this.1, Nat.succ_le_succ this.2⟩
  | .array n t, v => by
    have := noFracs_map t.encode (tyDepth t) (encode_ok t) v
    have h : (Ty.array n t).encode v = .arr ((show List t.Val from v).map t.encode) := rfl
    rw [h]
    simp only [NoFrac, depth, tyDepth]
    exact ⟨this.1, Nat.succ_le_succ this.2⟩
  | .map t, v => by
    change Option (List (JsonField.Name × t.Val)) at v
    match v with
    | none => exact ⟨trivial, Nat.zero_le _⟩
    | some x =>
      have := noFracm_map t.encode (tyDepth t) (encode_ok t) x
      exact ⟨this.1, Nat.succ_le_succ this.2⟩
  | .struct fs, v => by
    have := fields_ok fs v
    have h : (Ty.struct fs).encode v = .obj (fs.encode v) := rfl
    rw [h]
    simp only [NoFrac, depth, tyDepth]
    exact ⟨this.1, by omega⟩
theorem fields_ok : (fs : Fields) → (v : fs.Val) →
    NoFracm (fs.encode v) ∧ depthm (fs.encode v) ≤ fieldsDepth fs
  | .nil, _ => ⟨trivial, Nat.le_refl _⟩
  | .cons key om t rest, v => by
    have h1 := encode_ok t v.1
    have h2 := fields_ok rest v.2
    have h : (Fields.cons key om t rest).encode v =
      member key (om && t.isEmpty v.1) (t.encode v.1) ++ rest.encode v.2 := rfl
    rw [h]
    simp only [fieldsDepth]
    cases key with
    | none => exact ⟨h2.1, by simp only [member, List.nil_append]; omega⟩
    | some k =>
      cases om && t.isEmpty v.1 with
      | true => exact ⟨h2.1, by simp only [member, if_true, List.nil_append]; omega⟩
      | false =>
        simp only [member, Bool.false_eq_true, if_false, List.cons_append, List.nil_append, NoFracm, depthm]
        exact ⟨⟨h1.1, h2.1⟩, by omega⟩
end

/-- C87, what is written: the text in the column is JSON, and means the value. -/
theorem C87_written (fold : JsonField.Name → JsonField.Name) (t : Ty) (v : t.Val) :
    ∃ s, JsonField.value (goLib fold) t v = .bytes s ∧ IsJson s ∧
      ∃ u, s = u ++ [10] ∧ Means (.val (t.encode v)) u := by
  have h := means_print (t.encode v) (encode_ok t v).1
  refine ⟨_, rfl, ⟨[], print (t.encode v), [10], rfl, isWs_nil, json_of h, by simp [IsWs]⟩, _, rfl, h⟩

/-- C87, what is read: of any text that starts with a JSON value, after white space, the value is read, unless it is
nested too deep.  A number must not go on in what follows. -/
theorem C87_read {j : Json} {w v r : Bytes} (hw : IsWs w) (hv : Means (.val j) v) (hd : depth j ≤ 10000) (hr : Stop r) :
    parse (w ++ (v ++ r)) = some j := by
  have := reads hv (2 * (w ++ (v ++ r)).length + 1) maxDepth r (by simp; omega) hd hr
  simp only [parse, value_ws hw, this, Option.map_some]

/-- C85 and C87 together, without assumptions about the text: whether a value comes back. -/
theorem C87_back_iff_partial (fold : JsonField.Name → JsonField.Name) (t : Ty) (hk : JsonField.Spec.Ty.Ok t)
    (hd : tyDepth t ≤ 10000) (old v : t.Val) (ho : JsonField.Spec.Ty.Wf t old) (hv : JsonField.Spec.Ty.Wf t v) :
    ∃ w, scan (goLib fold) t old (JsonField.value (goLib fold) t v) = some w ∧
      (JsonField.Spec.Ty.Same t w v ↔ JsonField.Spec.Ty.Back t old v) := by
  have h := C87_read (r := [10]) isWs_nil (means_print (t.encode v) (encode_ok t v).1)
    (Nat.le_trans (encode_ok t v).2 hd) (stop_cons (by simp [IsDigit]) [])
  exact C85_iff_partial (goLib fold) t hk old v ho hv h

private theorem depthm_eq : ∀ ms : List (JsonField.Name × Json), depthm ms = depths (ms.map Prod.snd)
  | [] => rfl
  | (_, j) :: ms => by simp only [depthm, depths, List.map_cons, depthm_eq ms]

private theorem depths_perm {l l' : List Json} (h : l.Perm l') : depths l = depths l' := by
  induction h with
  | nil => rfl
  | cons _ _ ih => simp only [depths, ih]
  | swap _ _ _ => simp only [depths]; omega
  | trans _ _ h1 h2 => rw [h1, h2]

mutual
private theorem alike_depth : (j' : Json) → (j : Json) → JsonField.Spec.Alike j j' → depth j = depth j'
  | .null, _, h => by cases h; rfl
  | .bool _, _, h => by cases h; rfl
  | .num _, _, h => by cases h; rfl
  | .frac _, _, h => by cases h; rfl
  | .str _, _, h => by cases h; rfl
  | .arr js', _, h => by
    cases h with
    | arr h => simp only [depth, alike_depths js' _ h]
  | .obj ms', _, h => by
    cases h with
    | obj h1 h2 h3 =>
      simp only [depth, depthm_eq, depths_perm (h1.map Prod.snd)]
      rw [alike_depthm ms' _ h3]
private theorem alike_depths : (js' js : List Json) → List.Forall₂ JsonField.Spec.Alike js js' → depths js = depths js'
  | [], _, h => by cases h; rfl
  | j' :: js', _, h => by
    cases h with
    | cons h1 h2 => simp only [depths, alike_depth j' _ h1, alike_depths js' _ h2]
private theorem alike_depthm : (ms' : List (JsonField.Name × Json)) → (js : List Json) →
    List.Forall₂ JsonField.Spec.Alike js (ms'.map Prod.snd) → depths js = depths (ms'.map Prod.snd)
  | [], _, h => by cases h; rfl
  | (_, j') :: ms', _, h => by
    cases h with
    | cons h1 h2 => simp only [List.map_cons, depths, alike_depth j' _ h1, alike_depthm ms' _ h2]
end

/-- C87, for databases that keep JSON values and not their text: whatever JSON text comes back, with white space,
escapes and the order of members as the database likes, the field holds the stored value exactly under the conditions
of `Back`. -/
theorem C87_database_iff_partial (fold : JsonField.Name → JsonField.Name) (t : Ty) (hk : JsonField.Spec.Ty.Ok t)
    (hd : tyDepth t ≤ 10000) (old v : t.Val) (ho : JsonField.Spec.Ty.Wf t old) (hv : JsonField.Spec.Ty.Wf t v)
    {w u r : Bytes} {j : Json} (hw : IsWs w) (hu : Means (.val j) u) (hr : Stop r)
    (hj : JsonField.Spec.Alike j (t.encode v)) :
    ∃ x, scan (goLib fold) t old (.bytes (w ++ (u ++ r))) = some x ∧
      (JsonField.Spec.Ty.Same t x v ↔ JsonField.Spec.Ty.Back t old v) := by
  have h := C87_read hw hu (by rw [alike_depth _ _ hj]; exact Nat.le_trans (encode_ok t v).2 hd) hr
  exact C85_reordered_iff (goLib fold) t hk old v ho hv _ j h hj

/-- C87, nothing but JSON is read: if reading a text gives no error, the text starts, after white space, with a JSON
value. -/
theorem C87_only_json (fold : JsonField.Name → JsonField.Name) (t : Ty) (old x : t.Val) (s : Bytes)
    (h : scan (goLib fold) t old (.bytes s) = some x ∨ scan (goLib fold) t old (.str s) = some x) :
    ∃ w u r, s = w ++ (u ++ r) ∧ IsWs w ∧ JsonG .value u := by
  have h : (parse s).bind (t.decode fold old) = some x := by
    rcases h with h | h <;> exact h
  rw [Option.bind_eq_some_iff] at h
  obtain ⟨j, hj, _⟩ := h
  simp only [parse, Option.map_eq_some_iff] at hj
  obtain ⟨⟨j', r⟩, h1, _⟩ := hj
  obtain ⟨w, v, h2, h3, h4, _⟩ := (sound _).value _ _ _ _ h1
  exact ⟨w, v, r, h3, h2, h4⟩

/-- C87, refuted for values that are nested deeper than 10000: their text is never read, whatever the field. -/
theorem C87_too_deep (fold : JsonField.Name → JsonField.Name) {j : Json} {w u r : Bytes} (hw : IsWs w)
    (hu : Means (.val j) u) (hd : 10000 < depth j) (hr : Stop r) (t : Ty) (old : t.Val) :
    scan (goLib fold) t old (.bytes (w ++ (u ++ r))) = none := by
  have := refuses hu (2 * (w ++ (u ++ r)).length + 1) maxDepth r (by simp; omega) hd hr
  have h : parse (w ++ (u ++ r)) = none := by simp only [parse, value_ws hw, this, Option.map_none]
  show (parse (w ++ (u ++ r))).bind _ = none
  rw [h]; rfl

/-- C87, refuted for values that are nested deeper than 10000: they are written without an error, and cannot be
read. -/
theorem C87_deep_lost (fold : JsonField.Name → JsonField.Name) (t : Ty) (v : t.Val) (hd : 10000 < depth (t.encode v))
    (old : t.Val) : scan (goLib fold) t old (JsonField.value (goLib fold) t v) = none :=
  C87_too_deep fold isWs_nil (means_print (t.encode v) (encode_ok t v).1) hd (stop_cons (by simp [IsDigit]) []) t old

/-! ## Cases -/

/-- Slices of slices. -/
private def nest : Nat → Ty
  | 0 => .bool
  | n + 1 => .slice (nest n)

private def deep : (n : Nat) → (nest n).Val
  | 0 => true
  | n + 1 => some [deep n]

private theorem depth_deep : ∀ n, depth ((nest n).encode (deep n)) = n
  | 0 => rfl
  | n + 1 => by
    show depth (.arr [(nest n).encode (deep n)]) = n + 1
    simp only [depth, depths, depth_deep n]; omega

/-- There are values that are lost. -/
example (fold : JsonField.Name → JsonField.Name) (old : (nest 10001).Val) :
    scan (goLib fold) (nest 10001) old (JsonField.value (goLib fold) (nest 10001) (deep 10001)) = none :=
  C87_deep_lost fold _ _ (by rw [depth_deep]; decide) old

private def pt : Ty := .struct (.cons (some "a".toList) false (.int (-128) 127) (.cons (some "b".toList) false
  (.slice .str) .nil))

private def pv : pt.Val := ((-7 : Int), (some [[.char '<', .char 'é', .char '"']] : Option (List (List Rune))), ())

/-- The text of a struct. -/
example : print (pt.encode pv) = "{\"a\":-7,\"b\":[\"\\u003cé\\\"\"]}".toUTF8.toList := by decide +kernel

/-- It is read with white space, other escapes and another order of the members. -/
example : (parse " {\"b\" : [ \"<\\u00E9\\u0022\" ],\n\"a\":-7 } rest".toUTF8.toList).map print =
    some (print (.obj [("b".toList, .arr [.str ['<', 'é', '"']]), ("a".toList, .num (-7))])) := by decide +kernel

example : JsonField.Spec.Alike (.obj [("b".toList, .arr [.str ['<', 'é', '"']]), ("a".toList, .num (-7))])
    (pt.encode pv) :=
  .obj (List.Perm.swap ..) rfl (.cons (.num _) (.cons (.arr (.cons (.str _) .nil)) .nil))

/-- Texts that are not JSON are not read. -/
example : ([" ", "{\"a\" 1}", "[1,]", "1.", "\"a", "{a:1}", "nul", "\"\\x\"", "[1 2]"].all fun s =>
    (parse s.toUTF8.toList).isNone) = true := by decide +kernel

end Verif.Props
