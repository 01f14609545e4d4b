import Verif.Spec.AutoIncr
import Verif.Lemmas.Scan
import Verif.Lemmas.Numeral

/-!
# Property C83: the key generated by the database is stored in the record (MySQL and SQLite)
-/

namespace Verif.Props

open Verif Verif.AutoIncr Verif.AutoIncr.Spec

/-! ### Which field is written -/

private theorem filter_singleton {α : Type} [DecidableEq α] {l : List α} (hn : l.Nodup) {p : α → Bool} {a : α}
    (ha : a ∈ l) (hp : ∀ x ∈ l, p x = true ↔ x = a) : l.filter p = [a] := by
  induction l with
  | nil => cases ha
  | cons x l ih =>
    rw [List.nodup_cons] at hn
    by_cases hx : x = a
    · subst hx
      have : l.filter p = [] := by
        rw [List.filter_eq_nil_iff]
        intro y hy hpy
        have := (hp y (List.mem_cons_of_mem _ hy)).mp hpy
        subst this; exact hn.1 hy
      rw [List.filter_cons_of_pos ((hp x List.mem_cons_self).mpr rfl), this]
    · have hpx : ¬ p x = true := fun h => hx ((hp x List.mem_cons_self).mp h)
      rw [List.filter_cons_of_neg hpx]
      rcases List.mem_cons.mp ha with h | h
      · exact absurd h.symm hx
      · exact ih hn.2 h (fun y hy => hp y (List.mem_cons_of_mem _ hy))

/-- A selector finds a field exactly if no other field of its name is at the same depth or above. -/
theorem C83_selector_iff (fs : List Fld) (hn : fs.Nodup) (k : Fld) (hk : k ∈ fs) :
    selector fs k.name = some k ↔ Unshadowed fs k := by
  have key : ∀ f, f ∈ (fs.filter fun f => f.name = k.name) ↔ f ∈ fs ∧ f.name = k.name := by
    intro f; simp
  constructor
  · intro h f hf hfn hne
    unfold selector at h
    simp only at h
    revert h
    cases hc : (fs.filter fun f => f.name = k.name).filter
        (fun f => (fs.filter fun f => f.name = k.name).all fun g => f.depth ≤ g.depth) with
    | nil => intro h; simp at h
    | cons a r =>
      cases r with
      | cons b r => intro h; simp at h
      | nil =>
        intro h
        simp only [Option.some.injEq] at h
        subst h
        have ha : a ∈ (fs.filter fun f => f.name = a.name).filter
            (fun f => (fs.filter fun f => f.name = a.name).all fun g => f.depth ≤ g.depth) := by
          rw [hc]; exact List.mem_cons_self
        rw [List.mem_filter] at ha
        have hall := ha.2
        rw [List.all_eq_true] at hall
        have h1 := hall f ((key f).mpr ⟨hf, hfn⟩)
        simp only [decide_eq_true_eq] at h1
        rcases Nat.lt_or_eq_of_le h1 with h2 | h2
        · exact h2
        · exfalso
          have : f ∈ (fs.filter fun f => f.name = a.name).filter
              (fun f => (fs.filter fun f => f.name = a.name).all fun g => f.depth ≤ g.depth) := by
            rw [List.mem_filter]
            refine ⟨(key f).mpr ⟨hf, hfn⟩, ?_⟩
            rw [List.all_eq_true]
            intro g hg
            have := hall g hg
            simp only [decide_eq_true_eq] at this ⊢
            omega
          rw [hc, List.mem_singleton] at this
          exact hne this
  · intro h
    unfold selector
    have : (fs.filter fun f => f.name = k.name).filter
        (fun f => (fs.filter fun f => f.name = k.name).all fun g => f.depth ≤ g.depth) = [k] := by
      apply filter_singleton (hn.sublist List.filter_sublist) ((key k).mpr ⟨hk, rfl⟩)
      intro f hf
      obtain ⟨hf1, hf2⟩ := (key f).mp hf
      rw [List.all_eq_true]
      constructor
      · intro ha
        have := ha k ((key k).mpr ⟨hk, rfl⟩)
        simp only [decide_eq_true_eq] at this
        by_cases e : f = k
        · exact e
        · have := h f hf1 hf2 e
          simp only [Fld.depth] at *
          omega
      · intro e g hg
        obtain ⟨hg1, hg2⟩ := (key g).mp hg
        simp only [decide_eq_true_eq]
        subst e
        by_cases e2 : g = f
        · subst e2; exact Nat.le_refl _
        · exact Nat.le_of_lt (h g hg1 hg2 e2)
    simp only [this]

/-! ### What is stored -/

private theorem toSigned_eq_iff {w : Nat} (hw : 0 < w) (n : Int) :
    toSigned w n = n ↔ -(2 ^ (w - 1) : Int) ≤ n ∧ n < (2 ^ (w - 1) : Int) := by
  constructor
  · intro h
    have := Verif.Scan.toSigned_range w n
    rw [h] at this; exact this
  · intro ⟨h1, h2⟩
    unfold toSigned
    rw [BitVec.toInt_ofInt]
    obtain ⟨m, rfl⟩ : ∃ m, w = m + 1 := ⟨w - 1, by omega⟩
    simp only [Nat.add_sub_cancel] at h1 h2
    have e : (2 ^ (m + 1) : Nat) = 2 * 2 ^ m := by rw [Nat.pow_succ, Nat.mul_comm]
    have hc : ((2 ^ m : Nat) : Int) = (2 ^ m : Int) := by simp
    apply Int.bmod_eq_of_le
    · rw [e]; omega
    · rw [e]; omega

private theorem toUnsigned_eq_iff (w : Nat) (n : Int) :
    (toUnsigned w n : Int) = n ↔ 0 ≤ n ∧ n < (2 ^ w : Int) := by
  have hc : ((2 ^ w : Nat) : Int) = (2 ^ w : Int) := by simp
  have hlt := Verif.Scan.toUnsigned_range w n
  constructor
  · intro h; omega
  · intro ⟨h1, h2⟩
    unfold toUnsigned
    rw [BitVec.toNat_ofInt, hc, Int.emod_eq_of_lt h1 h2]
    omega

private theorem numeral_bytes {t : Bytes} {n : Nat} (h : Verif.Spec.Numeral 10 t n) :
    ∀ b ∈ t, 48 ≤ b.toNat ∧ b.toNat < 58 := by
  induction h with
  | one hd =>
    intro b hb; rw [List.mem_singleton] at hb; subst hb
    rw [Verif.Scan.toNat_ofNat_lt (by omega)]; omega
  | snoc _ hd ih =>
    intro b hb
    rcases List.mem_append.mp hb with hb | hb
    · exact ih b hb
    · rw [List.mem_singleton] at hb; subst hb
      rw [Verif.Scan.toNat_ofNat_lt (by omega)]; omega

private theorem numeral_single {b : Byte} {n : Nat} (h : Verif.Spec.Numeral 10 [b] n) : b.toNat = 48 + n := by
  generalize ht : [b] = t at h
  cases h with
  | one hd =>
    simp only [List.cons.injEq, and_true] at ht
    subst ht
    exact Verif.Scan.toNat_ofNat_lt (by omega)
  | snoc h1 hd =>
    rename_i t' n' d
    exfalso
    have hl := congrArg List.length ht
    simp at hl
    have : t' = [] := hl
    subst this
    generalize hz : ([] : Bytes) = z at h1
    cases h1 <;> simp at hz

/-- A text whose first byte is no ASCII character is no numeral. -/
private theorem big {n : Int} (b : Byte) (r : Bytes) (hb : 128 ≤ b.toNat) :
    ¬ Verif.Spec.SignedNumeral (b :: r) n := by
  intro hs
  generalize ht : b :: r = t at hs
  cases hs with
  | plain h => have := numeral_bytes h b (by rw [← ht]; exact List.mem_cons_self); omega
  | plus h =>
    rw [List.cons.injEq] at ht
    rw [ht.1] at hb
    exact absurd hb (by decide)
  | minus h =>
    rw [List.cons.injEq] at ht
    rw [ht.1] at hb
    exact absurd hb (by decide)

/-- The character with number `n` is never a numeral for `n`. -/
private theorem runeText_not_numeral (n : Int) : ¬ Verif.Spec.SignedNumeral (runeText n) n := by
  intro h
  unfold runeText at h
  by_cases h0 : n < 0 ∨ (0xD800 ≤ n ∧ n ≤ 0xDFFF) ∨ 0x110000 ≤ n
  · rw [if_pos h0] at h
    exact big _ _ (by decide) h
  · rw [if_neg h0] at h
    simp only at h
    have hn : (n.toNat : Int) = n := by omega
    generalize n.toNat = m at h hn
    by_cases h1 : m < 0x80
    · rw [if_pos h1] at h
      generalize ht : [UInt8.ofNat m] = t at h
      cases h with
      | plain h =>
        rename_i k
        rw [← ht] at h
        have := numeral_single h
        rw [Verif.Scan.toNat_ofNat_lt (by omega)] at this
        omega
      | plus h =>
        rw [List.cons.injEq] at ht
        rw [← ht.2] at h
        generalize hz : ([] : Bytes) = z at h
        cases h <;> simp at hz
      | minus h =>
        rw [List.cons.injEq] at ht
        rw [← ht.2] at h
        generalize hz : ([] : Bytes) = z at h
        cases h <;> simp at hz
    · rw [if_neg h1] at h
      by_cases h2 : m < 0x800
      · rw [if_pos h2] at h
        exact big _ _ (by rw [Verif.Scan.toNat_ofNat_lt (by omega)]; omega) h
      · rw [if_neg h2] at h
        by_cases h3 : m < 0x10000
        · rw [if_pos h3] at h
          exact big _ _ (by rw [Verif.Scan.toNat_ofNat_lt (by omega)]; omega) h
        · rw [if_neg h3] at h
          exact big _ _ (by rw [Verif.Scan.toNat_ofNat_lt (by omega)]; omega) h

/-- C83 for `InsertOne`.  When the key is not shadowed by another field, the record holds the generated number
after success exactly if the key is an integer and its type has the number; no other field changes. -/
theorem C83_insert_iff_partial (fs : List Fld) (hn : fs.Nodup) (k : Fld) (hk : k ∈ fs) (hu : Unshadowed fs k)
    (ty : KeyType) (hw : ∀ w, ty = .signed w → 0 < w) (n : Int) (v : Record) :
    ∃ v', insertOne fs k.name ty (.id n) v = some (v', .ok ()) ∧
      (∀ f, f ≠ k → v' f = v f) ∧
      (Denotes (v' k) n ↔ ty ≠ .string ∧ Fits ty n) := by
  refine ⟨fun g => if g = k then convert ty n else v g, ?_, ?_, ?_⟩
  · simp [insertOne, scanAutoIncr, (C83_selector_iff fs hn k hk).mpr hu]
  · intro f hf; simp [hf]
  · simp only [if_true]
    cases ty with
    | signed w =>
      simp only [convert, Fits, ne_eq, reduceCtorEq, not_false_eq_true, true_and]
      rw [← toSigned_eq_iff (hw w rfl) n]
      constructor
      · intro h; generalize hx : Key.int (toSigned w n) = x at h
        cases h with
        | int => simpa using hx
        | text => cases hx
      · intro h; rw [h]; exact .int n
    | unsigned w =>
      simp only [convert, Fits, ne_eq, reduceCtorEq, not_false_eq_true, true_and]
      rw [← toUnsigned_eq_iff w n]
      constructor
      · intro h; generalize hx : Key.int (toUnsigned w n) = x at h
        cases h with
        | int => simpa using hx
        | text => cases hx
      · intro h; rw [h]; exact .int n
    | string =>
      simp only [convert, ne_eq, not_true_eq_false, false_and, iff_false]
      intro h
      generalize hx : Key.text (runeText n) = x at h
      cases h with
      | int => cases hx
      | text h =>
        rw [Key.text.injEq] at hx
        subst hx
        exact runeText_not_numeral n h

/-- C83, refuted: a string key never holds the generated number. -/
theorem C83_string_never (n : Int) : ¬ Denotes (convert .string n) n := by
  intro h
  generalize hx : convert .string n = x at h
  cases h with
  | int => simp [convert] at hx
  | text h =>
    simp only [convert, Key.text.injEq] at hx
    subst hx
    exact runeText_not_numeral n h

/-- C83, refuted: with another field of the same name above it, the key keeps its old value: the number is stored
in another field or the file does not compile. -/
theorem C83_shadowed (fs : List Fld) (hn : fs.Nodup) (k f : Fld) (hk : k ∈ fs) (hf : f ∈ fs)
    (hname : f.name = k.name) (hne : f ≠ k) (hd : f.path.length ≤ k.path.length) (ty : KeyType) (n : Int)
    (v v' : Record) (e : Res Unit) (h : insertOne fs k.name ty (.id n) v = some (v', e)) : v' k = v k := by
  simp only [insertOne, scanAutoIncr, Option.map_map, Option.map_eq_some_iff, Function.comp,
    Prod.mk.injEq] at h
  obtain ⟨g, hg, hv, _⟩ := h
  rw [← hv]
  by_cases e : k = g
  · subst e
    have := (C83_selector_iff fs hn k hk).mp hg f hf hname hne
    omega
  · simp [e]

/-- C83 for `UpsertOne`: when the row is new or changed, a key of type `int64` is that of the row. -/
theorem C83_upsert_partial (f : Fate) (k : Key) (h : ∀ x, f ≠ .ignored x) :
    upsertOne .int64 (.id f.reported) k = (.int f.key, .ok ()) := by
  cases f with
  | inserted => rfl
  | updated => rfl
  | ignored x => exact absurd rfl (h x)

/-- The same for integers of other types, as far as they have the number. -/
theorem C83_upsert_narrow_iff_partial (f : Fate) (k : Key) (h : ∀ x, f ≠ .ignored x) (w : Nat) (hw : 0 < w) :
    (upsertOne (intAddr w) (.id f.reported) k = (.int f.key, .ok ()) ↔ Fits (.signed w) f.key) ∧
    (upsertOne (uintAddr w) (.id f.reported) k = (.int f.key, .ok ()) ↔ Fits (.unsigned w) f.key) := by
  have hr : f.reported = f.key := by
    cases f with
    | inserted => rfl
    | updated => rfl
    | ignored x => exact absurd rfl (h x)
  rw [hr]
  constructor
  · simp only [upsertOne, intAddr, if_true, Prod.mk.injEq, Key.int.injEq, and_true, Fits]
    exact toSigned_eq_iff hw _
  · simp only [upsertOne, uintAddr, if_true, Prod.mk.injEq, Key.int.injEq, and_true, Fits]
    exact toUnsigned_eq_iff w _

/-- C83, refuted: a record whose row was there and is left alone loses its key: it is set to 0, and success is
reported. -/
theorem C83_ignored_zero (x : Int) (k : Key) : upsertOne .int64 (.id (Fate.ignored x).reported) k = (.int 0, .ok ()) :=
  rfl

theorem C83_ignored_wrong (x : Int) (hx : x ≠ 0) (k : Key) :
    ¬ Denotes (upsertOne .int64 (.id (Fate.ignored x).reported) k).1 (Fate.ignored x).key := by
  rw [C83_ignored_zero]
  simp only [Fate.key]
  intro h
  generalize hz : Key.int 0 = z at h
  cases h with
  | int => rw [Key.int.injEq] at hz; exact hx hz.symm
  | text => cases hz

/-- C83, refuted: for a key that is neither an `int64` nor has a scanner, `UpsertOne` reports an error although the
row has been stored. -/
theorem C83_upsert_other_fails (f : Fate) (k : Key) : upsertOne .other (.id f.reported) k = (k, .err) := rfl

/-- C83, refuted: `Insert` of several records reports success but leaves the keys as they are; so the keys are
wrong whenever a record did not have its key before. -/
theorem C83_insert_many (n : Int) (ks : List Key) (ids : List Int) (i : Nat) (hi : i < ks.length)
    (hids : i < ids.length) (h : ¬ Denotes ks[i] ids[i]) :
    ∃ ks', insertMany (.id n) ks = (ks', .ok ()) ∧ ∃ x, ks'[i]? = some x ∧ ¬ Denotes x ids[i] :=
  ⟨ks, rfl, ks[i], by simp [hi], h⟩

/-- `InsertOne` succeeds exactly when the database does and tells the number; otherwise the record is unchanged. -/
theorem C83_insert_success_iff (fs : List Fld) (hn : fs.Nodup) (k : Fld) (hk : k ∈ fs) (hu : Unshadowed fs k)
    (ty : KeyType) (a : Reply) (v : Record) :
    ∃ v' e, insertOne fs k.name ty a v = some (v', e) ∧ (e = .ok () ↔ ∃ n, a = .id n) ∧ (e ≠ .ok () → v' = v) := by
  cases a with
  | fail => exact ⟨v, .err, rfl, by simp, fun _ => rfl⟩
  | noId => exact ⟨v, .err, rfl, by simp, fun _ => rfl⟩
  | id n =>
    refine ⟨fun g => if g = k then convert ty n else v g, .ok (), ?_, by simp, fun h => absurd rfl h⟩
    simp [insertOne, scanAutoIncr, (C83_selector_iff fs hn k hk).mpr hu]

/-- `UpsertOne` succeeds exactly when the database does, tells the number, and the key can be set to it. -/
theorem C83_upsert_success_iff (addr : Addr) (a : Reply) (k : Key) :
    (upsertOne addr a k).2 = .ok () ↔
      ∃ n, a = .id n ∧ (addr = .int64 ∨ ∃ scan, addr = .scanner scan ∧ (scan n k).2 = true) := by
  cases a with
  | fail => simp [upsertOne]
  | noId => simp [upsertOne]
  | id n =>
    cases addr with
    | int64 => simp [upsertOne]
    | other => simp [upsertOne]
    | scanner scan =>
      simp only [upsertOne, Reply.id.injEq, reduceCtorEq, false_or, Addr.scanner.injEq]
      cases h : (scan n k).2 with
      | true => simp [h]
      | false => simp [h]

/-- `Insert` of several records succeeds exactly when the database does. -/
theorem C83_insert_many_success_iff (a : Reply) (ks : List Key) : (insertMany a ks).2 = .ok () ↔ a ≠ .fail := by
  cases a <;> simp [insertMany]

/-! A key `ID` in an embedded struct `Base`, with and without another field `ID`. -/

private def idKey : Fld := ⟨["Base"], "ID"⟩
private def plain : List Fld := [⟨[], "Base"⟩, idKey, ⟨[], "Name"⟩]
private def twice : List Fld := [⟨[], "Base"⟩, idKey, ⟨[], "ID"⟩]
private def zero : Record := fun _ => .int 0

example : selector plain "ID" = some idKey := by decide +kernel
example : selector twice "ID" = some ⟨[], "ID"⟩ := by decide +kernel
example : selector [⟨["A"], "ID"⟩, ⟨["B"], "ID"⟩] "ID" = none := by decide +kernel
example : (insertOne plain "ID" (.signed 8) (.id 127) zero).map (·.1 idKey) = some (.int 127) := by decide +kernel
example : (insertOne plain "ID" (.signed 8) (.id 300) zero).map (·.1 idKey) = some (.int 44) := by decide +kernel
example : (insertOne plain "ID" .string (.id 65) zero).map (·.1 idKey) = some (.text [65]) := by decide +kernel
example : (insertOne twice "ID" (.signed 64) (.id 5) zero).map (·.1 idKey) = some (.int 0) := by decide +kernel
example : upsertOne .int64 (.id (Fate.updated 7).reported) (.int 0) = (.int 7, .ok ()) := by decide +kernel
example : upsertOne .int64 (.id (Fate.ignored 7).reported) (.int 7) = (.int 0, .ok ()) := by decide +kernel
example : ¬ Denotes ([Key.int 0][0]) ([(7 : Int)][0]) := by intro h; cases h

end Verif.Props
