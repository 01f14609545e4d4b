import Verif.Spec.Document
import Verif.Props.Rich
import Verif.Props.JsonText

/-!
# Lemmas about documents: what the generator chooses, values that exist, and what documents are in the way of
-/

namespace Verif.Props

open Verif Verif.Dispatch Verif.Typed Verif.Document Verif.ColumnType Verif.Spec.Document
open Verif.JsonField (Json)

/-! ## What the generator chooses -/

private def allKeys : List Key :=
  commonKeys ++ [.fixed "bool".toList, .fixed "string".toList, .toks [.slice, .slice, .name "byte".toList], .toks [.slice, .name "rune".toList]]

private theorem key_mem (d : Dialect) (k : Key) (h : tableOf d k = true) : k ∈ allKeys := by
  cases d
  · have h : k ∈ commonKeys := by simpa [tableOf, Dispatch.mysql] using h
    exact List.mem_append_left _ h
  · simpa [tableOf, Dispatch.postgres, allKeys] using h
  · have h : k ∈ commonKeys := by simpa [tableOf, Dispatch.sqlite] using h
    exact List.mem_append_left _ h

private def known (n : Text) : Bool :=
  !(n.contains '.') || decide (n ∈ ["time.Time", "sql.RawBytes", "encoding/json.RawMessage"].map String.toList)

private def tokOk : Tok → Bool
  | .name n => known n
  | .arr _ => false
  | _ => true

private def keyOk : Key → Bool
  | .toks l => l.all tokOk && (match l with
    | .star :: l => l.isEmpty
    | [.slice, .slice, x] => decide (x = .name "byte".toList)
    | _ => true)
  | .fixed _ => true

private theorem keys_ok : ∀ k ∈ allKeys, keyOk k = true := by decide +kernel

private theorem absent_key (d : Dialect) {k : Key} (h : keyOk k = false) : tableOf d k = false := by
  cases hk : tableOf d k with
  | false => rfl
  | true => rw [keys_ok k (key_mem d k hk)] at h; cases h

private theorem outside_known {n : Text} (h : Outside n) : known n = false := by
  simp only [known, Bool.or_eq_false_iff, Bool.not_eq_false', decide_eq_false_iff_not]
  exact ⟨by simpa using h.1, h.2⟩

theorem outside_ne {n m : Text} (h : Outside n) (hm : known m = true) : n ≠ m := by
  rintro rfl
  rw [outside_known h] at hm
  cases hm

private theorem star_key (d : Dialect) : tableOf d (.toks [.star]) = true := by cases d <;> decide +kernel

private theorem kinds_known : ∀ p ∈ kinds, p.1 ≠ "rune".toList := by decide +kernel

theorem simple_cases {D : Decls} {ty : Ty} (h : Simple D ty) : isPtr ty = false ∧ isDirect D ty = false := by
  cases h with
  | named _ ho => exact ⟨rfl, decide_eq_false (outside_ne ho (by decide))⟩
  | namedMap _ ho => exact ⟨rfl, decide_eq_false ho⟩
  | _ => exact ⟨rfl, rfl⟩

/-- Nothing is found for such types, or the entry `*`. -/
theorem simple_key {D : Decls} {ty : Ty} (d : Dialect) (h : Simple D ty) :
    columnKey D (tableOf d) fuel ty = some none ∧
      (columnKey D (tableOf d) fuel (.ptr ty) = some none ∨ columnKey D (tableOf d) fuel (.ptr ty) = some (some (.toks [.star]))) := by
  have h0 := (slice_key d).2
  have h1 := (slice_key d).1
  have hst := star_key d
  cases h with
  | struct => exact ⟨by simp [columnKey, walk, fuel, lookup, h0, fixedName], .inr (by simp [columnKey, walk, fuel, lookup, hst])⟩
  | @named id hu ho =>
    have hk := outside_known ho
    have e1 : tableOf d (.toks [.name (D.name id)]) = false := absent_key d (by simp [keyOk, tokOk, hk])
    have e2 : tableOf d (.toks [.star, .name (D.name id)]) = false := absent_key d (by simp [keyOk, tokOk, hk])
    exact ⟨by simp [columnKey, walk, fuel, lookup, hu, e1, fixedName], .inl (by simp [columnKey, walk, fuel, lookup, hu, e1, e2, fixedName])⟩
  | structs =>
    have e2 : tableOf d (.toks [.star, .slice]) = false := absent_key d (by simp [keyOk, tokOk])
    exact ⟨by simp [columnKey, walk, fuel, lookup, h1, fixedName], .inl (by simp [columnKey, walk, fuel, lookup, h1, e2, fixedName])⟩
  | @nameds id hu ho =>
    have hk := outside_known ho
    have e1 : tableOf d (.toks [.slice, .name (D.name id)]) = false := absent_key d (by simp [keyOk, tokOk, hk])
    have e2 : tableOf d (.toks [.star, .slice, .name (D.name id)]) = false := absent_key d (by simp [keyOk, tokOk, hk])
    exact ⟨by simp [columnKey, walk, fuel, lookup, hu, e1, fixedName], .inl (by simp [columnKey, walk, fuel, lookup, hu, e1, e2, fixedName])⟩
  | @array n id hu ho =>
    have e1 : tableOf d (.toks [.arr n, .name (D.name id)]) = false := absent_key d (by simp [keyOk, tokOk])
    have e2 : tableOf d (.toks [.star, .arr n, .name (D.name id)]) = false := absent_key d (by simp [keyOk, tokOk])
    have e3 : fixedName [.arr n, .name (D.name id)] = none :=
      if_neg (by rintro (h | h | h) <;> exact outside_ne ho (by decide) h)
    exact ⟨by simp [columnKey, walk, fuel, lookup, hu, e1, e3], .inl (by simp [columnKey, walk, fuel, lookup, hu, e1, e2, fixedName])⟩
  | @numbers n b k hk hb =>
    have e1 : tableOf d (.toks [.arr n, .name b]) = false := absent_key d (by simp [keyOk, tokOk])
    have e2 : tableOf d (.toks [.star, .arr n, .name b]) = false := absent_key d (by simp [keyOk, tokOk])
    have e3 : fixedName [.arr n, .name b] = none := if_neg (by
      rintro (h | h | h)
      · exact kinds_known _ (kindOf_mem hk) h
      · exact hb (by simp [h])
      · exact hb (by simp [h]))
    exact ⟨by simp [columnKey, walk, fuel, lookup, e1, e3], .inl (by simp [columnKey, walk, fuel, lookup, e1, e2, fixedName])⟩
  | map => exact ⟨by simp [columnKey, walk, fuel, lookup, h0, fixedName], .inr (by simp [columnKey, walk, fuel, lookup, hst])⟩
  | @namedMap id hu =>
    exact ⟨by simp [columnKey, walk, fuel, lookup, hu, h0, fixedName], .inr (by simp [columnKey, walk, fuel, lookup, hu, hst])⟩

/-- Nothing is found for pointers to structs. -/
theorem named_ptr_key {D : Decls} {id : Nat} (d : Dialect) (hu : D.under id = .struct) (ho : Outside (D.name id)) :
    columnKey D (tableOf d) fuel (.ptr (.named id)) = some none := by
  have hk := outside_known ho
  have e1 : tableOf d (.toks [.name (D.name id)]) = false := absent_key d (by simp [keyOk, tokOk, hk])
  have e2 : tableOf d (.toks [.star, .name (D.name id)]) = false := absent_key d (by simp [keyOk, tokOk, hk])
  simp [columnKey, walk, fuel, lookup, hu, e1, e2, fixedName]

/-- Pointers to other defined types are found under `*`. -/
theorem other_ptr_key {D : Decls} {id : Nat} (d : Dialect) (hu : D.under id ≠ .struct) :
    columnKey D (tableOf d) fuel (.ptr (.named id)) = some (some (.toks [.star])) := by
  simp [columnKey, walk, fuel, lookup, hu, star_key d]

/-- Documents have no method `Value`. -/
theorem doc_value {D : Decls} {fs : Facts} {ty : Ty} (h : Doc D fs ty) : fs.hasValue (deref ty) = false := by
  have simple : ∀ {ty}, Simple D ty → deref ty = ty := by
    intro ty h
    have := (simple_cases h).1
    cases ty <;> first | rfl | cases this
  cases h with
  | plain hs hb => rw [simple hs]; exact hb.value
  | lists _ _ hb => exact hb.value
  | ptrs _ _ hb => exact hb.value
  | ptr hs hb _ => rw [deref, simple hs]; exact hb.value

private theorem none_both {D : Decls} {fs : Facts} {ty : Ty} (d : Dialect) (hp : isPtr ty = false) (hi : isDirect D ty = false)
    (hb : Bare fs ty) (hk : columnKey D (tableOf d) fuel ty = some none) :
    writes D (tableOf d) fs fuel ty = some .json ∧ reads D (tableOf d) fs fuel ty = some .json := by
  have hw : writes D (tableOf d) fs fuel ty = valuer D (tableOf d) fs fuel ty := by
    cases ty <;> first | rfl | (simp [isPtr] at hp)
  have hd : deref ty = ty := by cases ty <;> first | rfl | (simp [isPtr] at hp)
  have hd' : pointee ty = ty := by cases ty <;> first | rfl | (simp [isPtr] at hp)
  rw [hw]
  constructor
  · simp [valuer, hi, hb.confV, hd, hb.value, hk, hb.marshal, fallback]
  · simp [Dispatch.reads, Dispatch.scanner, hi, hb.confS, hd', hb.scan, hk, hb.unmarshal, fallback]

/-- Documents are written and read as JSON. -/
theorem doc_both {D : Decls} {fs : Facts} {ty : Ty} (d : Dialect) (h : Doc D fs ty) :
    writes D (tableOf d) fs fuel ty = some .json ∧ reads D (tableOf d) fs fuel ty = some .json := by
  have h1 := (slice_key d).1
  cases h with
  | plain hs hb => exact none_both d (simple_cases hs).1 (simple_cases hs).2 hb (simple_key d hs).1
  | @lists b k hk hb hf =>
    have e1 : tableOf d (.toks [.slice, .slice, .name b]) = false := absent_key d (by
      simp only [keyOk, List.all_cons, Bool.and_eq_false_iff, decide_eq_false_iff_not]
      exact .inr fun h => hb (by cases h; rfl))
    exact none_both d rfl rfl hf (by simp [columnKey, walk, fuel, lookup, e1, fixedName])
  | @ptrs id hu ho hf =>
    have hk := outside_known ho
    have e1 : tableOf d (.toks [.slice, .star, .name (D.name id)]) = false := absent_key d (by simp [keyOk, tokOk, hk])
    exact none_both d rfl rfl hf (by simp [columnKey, walk, fuel, lookup, hu, e1, fixedName])
  | @ptr ty hs hb hc =>
    obtain ⟨hp, hi⟩ := simple_cases hs
    obtain ⟨hw, -⟩ := none_both d hp hi hb (simple_key d hs).1
    have hw' : writes D (tableOf d) fs fuel ty = valuer D (tableOf d) fs fuel ty := by
      cases ty <;> first | rfl | (simp [isPtr] at hp)
    refine ⟨by rw [← hw, hw']; rfl, ?_⟩
    rcases (simple_key d hs).2 with h | h
    · simp [Dispatch.reads, Dispatch.scanner, isDirect, hc, pointee, hb.scan, h, hb.unmarshal, fallback]
    · simp [Dispatch.reads, Dispatch.scanner, isDirect, hc, pointee, hb.scan, h, ofKey, needsLen]

/-- Fields of the types of C99 are not read as JSON. -/
theorem has_not_json {D : Decls} {fs : Facts} {ty : Ty} {k : Rich.Form} (d : Dialect) (h : Spec.Rich.Has D fs ty k) :
    reads D (tableOf d) fs fuel ty ≠ some .json := by
  cases k with
  | scalar k =>
    cases has_scalar h with
    | @basic b _ hk hb =>
      have := scanner_basic d D hk hb
      simp only [Dispatch.reads, this]
      split <;> simp
    | named hu hk hb hn => simp only [Dispatch.reads, (named_both d D hu hk hb hn).2]; simp
    | @ptr b _ hk hb hc =>
      have := scanner_ptr d D hk hb hc
      simp only [Dispatch.reads, this]
      simp
  | list k => obtain ⟨b, -, -, -, hr⟩ := list_both d h; rw [hr]; simp
  | bytes => rw [(bytes_both d h).2.2]; simp
  | time => rcases (time_both d h).2 with ⟨-, -, hr⟩ | ⟨-, hr⟩ <;> rw [hr] <;> simp

/-- Pointers are pointers. -/
theorem as_ptr {D : Decls} {fs : Facts} {ty : Ty} {t : JsonField.Ty} (h : Doc D fs ty) (ha : As D ty t) :
    isPtr ty = true ↔ ∃ t', t = .ptr t' := by
  have simple : ∀ {ty t}, Simple D ty → As D ty t → ∀ t', t ≠ .ptr t' := by
    rintro ty t hs ha t' rfl
    cases hs with
    | named hu => cases ha with
      | named ha => rw [hu] at ha; cases ha
    | namedMap hu => cases ha with
      | named ha => rw [hu] at ha; cases ha
    | _ => cases ha
  cases h with
  | plain hs hb =>
    rw [(simple_cases hs).1]
    simp only [Bool.false_eq_true, false_iff, not_exists]
    exact simple hs ha
  | lists => cases ha; simp [isPtr]
  | ptrs => cases ha; simp [isPtr]
  | ptr => cases ha; simp [isPtr]

/-! ## Values that exist -/

mutual
theorem exists_iff : (t : JsonField.Ty) → (v : t.Val) → (exists_ t v = true ↔ JsonField.Spec.Ty.Wf t v)
  | .bool, _ => by simp [exists_, JsonField.Spec.Ty.Wf]
  | .int lo hi, n => by simp [exists_, JsonField.Spec.Ty.Wf]
  | .str, _ => by simp [exists_, JsonField.Spec.Ty.Wf]
  | .ptr t, p => by
    have ih := exists_iff t
    cases (p : Option t.Val) with
    | none => simp [exists_, JsonField.Spec.Ty.Wf]
    | some v => simpa [exists_, JsonField.Spec.Ty.Wf] using ih v
  | .slice t, l => by
    have ih := exists_iff t
    cases (l : Option (List t.Val)) with
    | none => simp [exists_, JsonField.Spec.Ty.Wf]
    | some vs => simp [exists_, JsonField.Spec.Ty.Wf, ih]
  | .array n t, l => by
    have ih := exists_iff t
    have h : ∀ l : List t.Val, l.all (exists_ t) = true ↔ ∀ v ∈ l, JsonField.Spec.Ty.Wf t v := fun l => by simp [ih]
    simp only [exists_, JsonField.Spec.Ty.Wf, Bool.and_eq_true, decide_eq_true_eq]
    exact and_congr Iff.rfl (h l)
  | .map t, m => by
    have ih := exists_iff t
    cases (m : Option (List (JsonField.Name × t.Val))) with
    | none => simp [exists_, JsonField.Spec.Ty.Wf]
    | some es => simp [exists_, JsonField.Spec.Ty.Wf, ih]
  | .struct fs, v => by
    simp only [exists_, JsonField.Spec.Ty.Wf]
    exact existFields_iff fs v
theorem existFields_iff : (fs : JsonField.Fields) → (v : fs.Val) → (existFields fs v = true ↔ JsonField.Spec.Fields.Wf fs v)
  | .nil, _ => by simp [existFields, JsonField.Spec.Fields.Wf]
  | .cons _ _ t rest, v => by
    simp only [existFields, JsonField.Spec.Fields.Wf, Bool.and_eq_true]
    exact and_congr (exists_iff t v.1) (existFields_iff rest v.2)
end

theorem current_wf {t : JsonField.Ty} (hk : JsonField.Spec.Ty.Ok t) (old : Val) : JsonField.Spec.Ty.Wf t (current t old) := by
  cases old with
  | base v => exact zero_wf t hk
  | doc t' v =>
    by_cases h : t' = t
    · subst h
      by_cases hv : exists_ t' v = true
      · simpa [current, hv] using (exists_iff _ _).1 hv
      · simpa [current, hv] using zero_wf t' hk
    · simpa [current, h] using zero_wf t hk

theorem current_of {t : JsonField.Ty} {v : t.Val} (h : JsonField.Spec.Ty.Wf t v) : current t (.doc t v) = v := by
  simp [current, (exists_iff t v).2 h]

mutual
/-- Without maps, values that are the same are equal. -/
theorem same_eq : (t : JsonField.Ty) → JsonField.Spec.Ty.NoMap t → (a b : t.Val) → JsonField.Spec.Ty.Same t a b → a = b
  | .bool, _, _, _, h => h
  | .int _ _, _, _, _, h => h
  | .str, _, _, _, h => h
  | .ptr t, hm, a, b, h => by
    have ih := same_eq t hm
    cases h with
    | none => rfl
    | some h => exact congrArg some (ih _ _ h)
  | .slice t, hm, a, b, h => by
    have ih := same_eq t hm
    cases h with
    | none => rfl
    | @some x y h => exact congrArg some (List.forall₂_eq_eq_eq ▸ h.imp ih)
  | .array _ t, hm, _, _, h => by
    have ih := same_eq t hm
    exact List.forall₂_eq_eq_eq ▸ List.Forall₂.imp ih h
  | .struct fs, hm, _, _, h => sameFields_eq fs hm _ _ h
theorem sameFields_eq : (fs : JsonField.Fields) → JsonField.Spec.Fields.NoMap fs → (a b : fs.Val) →
    JsonField.Spec.Fields.Same fs a b → a = b
  | .nil, _, _, _, _ => rfl
  | .cons _ _ t rest, hm, _, _, h => Prod.ext (same_eq t hm.1 _ _ h.1) (sameFields_eq rest hm.2 _ _ h.2)
end

/-! ## Small documents -/

private theorem smalls_map {V : Type} (enc : V → Json) : ∀ vs : List V, (∀ v ∈ vs, Small (enc v)) → Smalls (vs.map enc)
  | [], _ => trivial
  | v :: vs, h => ⟨h v (by simp), smalls_map enc vs fun w hw => h w (by simp [hw])⟩

mutual
theorem small_encode : (t : JsonField.Ty) → SmallTy t → (v : t.Val) → JsonField.Spec.Ty.Wf t v → Small (t.encode v)
  | .bool, _, _, _ => trivial
  | .int _ _, h, _, hv => ⟨Int.le_trans h.1 hv.1, Int.le_trans hv.2 h.2⟩
  | .str, _, _, _ => trivial
  | .ptr t, h, p, hv => by
    have ih := small_encode t h
    cases p with
    | none => trivial
    | some v => exact ih v (hv v rfl)
  | .slice t, h, l, hv => by
    have ih := small_encode t h
    cases l with
    | none => trivial
    | some vs => exact smalls_map _ _ fun v hm => ih v (hv vs rfl v hm)
  | .array _ t, h, l, hv => by
    have ih := small_encode t h
    exact smalls_map _ _ fun v hm => ih v (hv.2 v hm)
  | .struct fs, h, v, hv => small_fields fs h v hv
theorem small_fields : (fs : JsonField.Fields) → SmallFields fs → (v : fs.Val) → JsonField.Spec.Fields.Wf fs v → Smallm (fs.encode v)
  | .nil, _, _, _ => trivial
  | .cons key om t rest, h, v, hv => by
    have h1 := small_encode t h.2.1 v.1 hv.1
    have h2 := small_fields rest h.2.2 v.2 hv.2
    simp only [JsonField.Fields.encode, JsonField.member]
    cases key with
    | none => exact h2
    | some k =>
      cases om && t.isEmpty v.1 with
      | true => exact h2
      | false => exact ⟨h.1 k rfl, h1, h2⟩
end

end Verif.Props
