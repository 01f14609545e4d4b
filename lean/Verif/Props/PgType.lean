import Verif.Lemmas.PgType
import Verif.Props.Migrate

/-! # Migrations come to an end

Which Go types have an SQL type that PostgreSQL knows, which of these its catalogue shows as they were written, and what follows for
migrating again and again. -/

namespace Verif.Props

open Verif Verif.Migrate Verif.PgType Verif.Spec.Migrate
open Verif.ColumnType (GoInt)
open Verif.Spec.PgType hiding names

/-- The types whose SQL type the catalogue shows as it was written. -/
def Stays (size : Int) : Entry → Prop
  | .bool | .time | .rawBytes | .rawMessage | .sliceRune | .sliceBytes | .other => True
  | .string => size ≤ 10485760
  | .arrayRune | .arrayByte => 1 ≤ size ∧ size ≤ 10485760
  | .int k => k ≠ .int64 ∧ k ≠ .uint64 ∧ k ≠ .byte
  | _ => False

/-- The types whose SQL type does not exist. -/
def Missing (size : Int) : Entry → Prop
  | .string => 10485760 < size
  | .arrayRune | .arrayByte => size < 1 ∨ 10485760 < size
  | .arrayString | .arrayBool | .sliceFloat32 | .sliceFloat64 => True
  | .sliceInt k => k = .byte
  | _ => False

theorem maxLen_eq : (maxLen : Int) = 10485760 := rfl

/-- The column is shown as it was written. -/
def same (t : Bytes) : Bool := (shownAs t).map CatCol.dataType = some t

theorem same_varchar (n : Int) : same (lit "varchar(" ++ intDec n ++ lit ")") = true ↔ 1 ≤ n ∧ n ≤ 10485760 := by
  unfold same
  rw [shownAs_varchar, maxLen_eq]
  by_cases h : 1 ≤ n ∧ n ≤ 10485760
  · rw [if_pos h, Option.map_some, dataType_varchar h.1]
    simp [h]
  · rw [if_neg h]
    simp [h]

theorem shown_varchar (n : Int) : shownAs (lit "varchar(" ++ intDec n ++ lit ")") = none ↔ n < 1 ∨ 10485760 < n := by
  rw [shownAs_varchar, maxLen_eq]
  by_cases h : 1 ≤ n ∧ n ≤ 10485760
  · rw [if_pos h]
    simp
    omega
  · rw [if_neg h]
    simp
    omega

/-- C107: the types that PostgreSQL knows and shows as they were written. -/
theorem C107_type_stays_iff (size : Int) (e : Entry) :
    (∃ c, shownAs (e.dataType size false) = some c ∧ c.dataType = e.dataType size false) ↔ Stays size e := by
  have key : (∃ c, shownAs (e.dataType size false) = some c ∧ c.dataType = e.dataType size false) ↔ same (e.dataType size false) = true := by
    simp [same]
  rw [key]
  cases e with
  | string =>
    show same (lit "varchar(" ++ intDec (if size > 0 then size else 255) ++ lit ")") = true ↔ _
    rw [same_varchar]
    unfold Stays
    split <;> omega
  | arrayRune => exact same_varchar size
  | arrayByte => exact same_varchar size
  | int k => cases k <;> simp only [Entry.dataType, Stays] <;> decide +kernel
  | sliceInt k => cases k <;> simp only [Entry.dataType, Stays] <;> decide +kernel
  | _ => simp only [Entry.dataType, Stays]; decide +kernel

/-- C107: the types that do not exist. -/
theorem C107_type_missing_iff (size : Int) (e : Entry) : shownAs (e.dataType size false) = none ↔ Missing size e := by
  cases e with
  | string =>
    show shownAs (lit "varchar(" ++ intDec (if size > 0 then size else 255) ++ lit ")") = none ↔ _
    rw [shown_varchar]
    unfold Missing
    split <;> omega
  | arrayRune => exact shown_varchar size
  | arrayByte => exact shown_varchar size
  | int k => cases k <;> simp only [Entry.dataType, Missing] <;> decide +kernel
  | sliceInt k => cases k <;> simp only [Entry.dataType, Missing] <;> decide +kernel
  | _ => simp only [Entry.dataType, Missing]; decide +kernel

/-- C107: columns that count up by themselves get a type that does so, except for `int64`. -/
theorem C107_serial_iff (size : Int) (k : GoInt) (hk : k ≠ .byte) :
    (serial ((Entry.int k).dataType size true)).isSome = true ↔ k ≠ .int64 := by
  cases k <;> first | exact absurd rfl hk | skip
  all_goals
    simp only [Entry.dataType]
    decide +kernel

/-! ## Migrating again and again -/

theorem idem_some {dflt : Bytes → Bytes} {x : Bytes} {c : CatCol} (h : shownAs x = some c) (hc : shownAs c.dataType = some c) :
    (server dflt).type ((server dflt).type x) = (server dflt).type x := by
  simp only [server, h, hc]

/-- What the catalogue shows is read again as it is shown. -/
theorem type_idem (dflt : Bytes → Bytes) (size : Int) (auto : Bool) (e : Entry) :
    (server dflt).type ((server dflt).type (e.dataType size auto)) = (server dflt).type (e.dataType size auto) := by
  have hv : ∀ n : Int, (server dflt).type ((server dflt).type (lit "varchar(" ++ intDec n ++ lit ")")) =
      (server dflt).type (lit "varchar(" ++ intDec n ++ lit ")") := by
    intro n
    by_cases h : 1 ≤ n ∧ n ≤ (maxLen : Int)
    · have h1 := shownAs_varchar n
      rw [if_pos h] at h1
      exact idem_some h1 (by rw [dataType_varchar h.1]; exact h1)
    · have h1 := shownAs_varchar n
      rw [if_neg h] at h1
      have : (server dflt).type (lit "varchar(" ++ intDec n ++ lit ")") = lit "varchar(" ++ intDec n ++ lit ")" := by
        simp only [server, h1]
        rw [List.append_assoc, serial_varchar]
      rw [this, this]
  cases e with
  | string => exact hv _
  | arrayRune => exact hv _
  | arrayByte => exact hv _
  | int k => cases k <;> cases auto <;> simp only [Entry.dataType, server] <;> decide +kernel
  | sliceInt k => cases k <;> simp only [Entry.dataType, server] <;> decide +kernel
  | _ => simp only [Entry.dataType, server]; decide +kernel

/-- A script for columns whose types exist is not rejected for its types. -/
theorem up_known {fs : List Field} {t : List DbCol} (hm : ModelOk (fs.map Field.col)) (hx : (names t).Nodup)
    (hf : ∀ f ∈ fs, f.auto = false ∧ ¬ Missing f.size f.entry) {s : Script} (h : pgMigrate (fs.map Field.col) t = some s) :
    s.up.all known = true := by
  have hk : ∀ m ∈ fs.map Field.col, (shownAs m.type).isSome = true := by
    intro m hmm
    obtain ⟨f, hff, rfl⟩ := List.mem_map.1 hmm
    have := hf f hff
    rw [← C107_type_missing_iff] at this
    show (shownAs (f.entry.dataType f.size f.auto)).isSome = true
    rw [this.1, ← Option.ne_none_iff_isSome]
    exact this.2
  have ha := (C56_pg_actions_partial _ t hm hx s h).2.2
  rw [List.all_eq_true]
  intro a hin
  have := (ha a).1 hin
  cases a with
  | setType n ty =>
    obtain ⟨m, hmm, c, hc, e1, e2, rfl, _⟩ := this
    exact hk m hmm
  | add n ty nn d =>
    obtain ⟨m, hmm, e1, e2, rfl, _⟩ := this
    simp only [known, hk m hmm, Bool.true_or]
  | drop n => rfl
  | setNotNull n => exact absurd this id
  | setDefault n d => exact absurd this id

/-- The table after a script is again one the server shows. -/
theorem up_fromServer {sv : Server} {ms : List GoCol} {t r : List DbCol} (hm : ModelOk ms) (ht : FromServer sv t)
    (hid : ∀ m ∈ ms, sv.type (sv.type m.type) = sv.type m.type) (hd : ∀ d, sv.dflt (sv.dflt d) = sv.dflt d)
    {s : Script} (h : pgMigrate ms t = some s) (hr : applyUp sv s (some t) = some r) : FromServer sv r := by
  unfold pgMigrate at h
  simp only at h
  split at h
  · cases h
  cases h
  have hu := up_exec sv ms t hm ht.1
  unfold applyUp create at hr
  simp only at hr
  rw [hu] at hr
  cases hr
  refine ⟨?_, ?_⟩
  · unfold names
    rw [List.map_append, List.map_map, List.map_map]
    refine List.nodup_append.2 ⟨?_, hm.sublist (List.Sublist.map _ List.filter_sublist), ?_⟩
    · have : (List.map ((fun x => x.name) ∘ retype sv ((ms.filterMap (changed t)).map fun p => (p.2.name, p.2.type)))
          (t.filter (fun c => c.name ∈ gnames ms))) = names (t.filter (fun c => c.name ∈ gnames ms)) := by
        unfold names
        apply List.map_congr_left
        intro c _
        exact retype_name _ _ _
      rw [this]
      exact nodup_filter _ ht.1
    · intro a ha b hb e
      obtain ⟨c, hc, rfl⟩ := List.mem_map.1 ha
      obtain ⟨m, hmm, rfl⟩ := List.mem_map.1 hb
      simp only [Function.comp_apply, retype_name] at e
      have h1 := (List.mem_filter.1 hmm).2
      simp only [decide_eq_true_eq] at h1
      exact h1 (mem_names.2 ⟨c, (List.mem_filter.1 hc).1, e⟩)
  · intro c hc
    rcases List.mem_append.1 hc with hc | hc
    · obtain ⟨c0, hc0, rfl⟩ := List.mem_map.1 hc
      obtain ⟨h1, h2⟩ := List.mem_filter.1 hc0
      simp only [decide_eq_true_eq] at h2
      obtain ⟨m, hmm, e⟩ := mem_gnames.1 h2
      rw [retype_type hm ht hmm h1 e.symm, (retype_same _ _ _).2]
      exact ⟨hid m hmm, (ht.2 c0 h1).2⟩
    · obtain ⟨m, hmm, rfl⟩ := List.mem_map.1 hc
      have hmm := (List.mem_filter.1 hmm).1
      refine ⟨hid m hmm, fun d e => ?_⟩
      simp only [toDb, shown, Option.map_eq_some_iff] at e
      obtain ⟨d0, _, rfl⟩ := e
      exact hd d0

theorem type_stays {dflt : Bytes → Bytes} {f : Field} (ha : f.auto = false) (hm : ¬ Missing f.size f.entry) :
    (server dflt).type f.col.type = f.col.type ↔ Stays f.size f.entry := by
  rw [← C107_type_stays_iff]
  rw [← C107_type_missing_iff] at hm
  obtain ⟨c, hc⟩ := Option.ne_none_iff_exists'.1 hm
  show (server dflt).type (f.entry.dataType f.size f.auto) = f.entry.dataType f.size f.auto ↔ _
  rw [ha]
  have e : (server dflt).type (f.entry.dataType f.size false) = c.dataType := by
    simp only [server, hc]
  rw [e, hc]
  simp

/-- One round: a script that is written is accepted, and the table after it is again one the server shows. -/
theorem one_round {dflt : Bytes → Bytes} (hd : ∀ d, dflt (dflt d) = dflt d) {fs : List Field} (hm : ModelOk (fs.map Field.col))
    (hf : ∀ f ∈ fs, f.auto = false ∧ ¬ Missing f.size f.entry) {t : List DbCol} (ht : FromServer (server dflt) t)
    {s : Script} (h : pgMigrate (fs.map Field.col) t = some s) :
    ∃ r, apply dflt s t = some r ∧ FromServer (server dflt) r ∧ (pgMigrate (fs.map Field.col) r = none ↔
      (∀ f ∈ fs, Stays f.size f.entry) ∧ ∀ f ∈ fs, ∀ c ∈ t, c.name = f.name → c.nullable = f.nullable) := by
  obtain ⟨r, hr, hiff⟩ := C74_settled_iff_partial (server dflt) _ t hm ht s h
  refine ⟨r, ?_, ?_, hiff.trans ?_⟩
  · unfold apply
    rw [if_pos (up_known hm ht.1 hf h)]
    exact hr
  · refine up_fromServer hm ht (fun m hmm => ?_) hd h hr
    obtain ⟨f, hff, rfl⟩ := List.mem_map.1 hmm
    exact type_idem dflt f.size f.auto f.entry
  · constructor
    · rintro ⟨h1, h2⟩
      exact ⟨fun f hff => (type_stays (hf f hff).1 (hf f hff).2).1 (h1 _ (List.mem_map_of_mem hff)),
        fun f hff => h2 _ (List.mem_map_of_mem hff)⟩
    · rintro ⟨h1, h2⟩
      refine ⟨fun m hmm => ?_, fun m hmm => ?_⟩
      · obtain ⟨f, hff, rfl⟩ := List.mem_map.1 hmm
        exact (type_stays (hf f hff).1 (hf f hff).2).2 (h1 f hff)
      · obtain ⟨f, hff, rfl⟩ := List.mem_map.1 hmm
        exact h2 f hff

/-- C107 is false of the code: a column whose type the catalogue shows in another way is changed again by every migration, without end. -/
theorem C107_forever_type (dflt : Bytes → Bytes) (hd : ∀ d, dflt (dflt d) = dflt d) (fs : List Field) (hm : ModelOk (fs.map Field.col))
    (hf : ∀ f ∈ fs, f.auto = false ∧ ¬ Missing f.size f.entry) (f : Field) (hff : f ∈ fs) (hs : ¬ Stays f.size f.entry)
    (t : List DbCol) (ht : FromServer (server dflt) t) (n : Nat) : ∃ r, rounds dflt (fs.map Field.col) n t = some r := by
  induction n generalizing t with
  | zero => exact ⟨t, rfl⟩
  | succ n ih =>
    have hne : pgMigrate (fs.map Field.col) t ≠ none := by
      rw [Ne, C56_pg_none_iff _ t hm ht.1]
      intro h
      obtain ⟨c, hc, _, hty, _⟩ := h f.col (List.mem_map_of_mem hff)
      have := (ht.2 c hc).1
      rw [hty] at this
      exact hs ((type_stays (hf f hff).1 (hf f hff).2).1 this)
    obtain ⟨s, hs'⟩ := Option.ne_none_iff_exists'.1 hne
    obtain ⟨r, h1, h2, _⟩ := one_round hd hm hf ht hs'
    obtain ⟨r', h3⟩ := ih r h2
    exact ⟨r', by simp only [rounds, hs', Option.bind_some, h1, h3]⟩

/-- C107 is false of the code: a column that is nullable in the table but not in the model, or the other way round, is changed again by
every migration, without end. -/
theorem C107_forever_null (dflt : Bytes → Bytes) (hd : ∀ d, dflt (dflt d) = dflt d) (fs : List Field) (hm : ModelOk (fs.map Field.col))
    (hf : ∀ f ∈ fs, f.auto = false ∧ ¬ Missing f.size f.entry) (f : Field) (hff : f ∈ fs)
    (t : List DbCol) (ht : FromServer (server dflt) t) (c : DbCol) (hc : c ∈ t) (e : c.name = f.name) (hn : c.nullable ≠ f.nullable) (n : Nat) :
    ∃ r, rounds dflt (fs.map Field.col) n t = some r := by
  induction n generalizing t c with
  | zero => exact ⟨t, rfl⟩
  | succ n ih =>
    obtain ⟨s, r0, h0, h00, ⟨c', hc', e', hn'⟩, _⟩ :=
      C72_pg_nullability_stays (server dflt) _ t hm ht f.col (List.mem_map_of_mem hff) c hc e hn
    obtain ⟨r, h1, h2, _⟩ := one_round hd hm hf ht h0
    have : r0 = r := by
      unfold apply at h1
      rw [if_pos (up_known hm ht.1 hf h0), h00] at h1
      exact Option.some.inj h1
    subst this
    obtain ⟨r', h3⟩ := ih r0 h2 c' hc' e' (by rw [hn']; exact hn)
    exact ⟨r', by simp only [rounds, h0, Option.bind_some, h1, h3]⟩

/-- C107, exactly, for columns that do not count up and whose types exist: migrating again and again comes to an end if and only if the
catalogue shows all types as they were written and the nullability of common columns was right from the start.  Full statement:
it always does, and no script is rejected.  Missing: `C107_forever_type`, `C107_forever_null`, `C107_serial_rejected`, `C107_missing_rejected`. -/
theorem C107_ends_iff_partial (dflt : Bytes → Bytes) (hd : ∀ d, dflt (dflt d) = dflt d) (fs : List Field) (hm : ModelOk (fs.map Field.col))
    (hf : ∀ f ∈ fs, f.auto = false ∧ ¬ Missing f.size f.entry) (t : List DbCol) (ht : FromServer (server dflt) t) :
    (∃ n, rounds dflt (fs.map Field.col) n t = none) ↔
      (∀ f ∈ fs, Stays f.size f.entry) ∧ ∀ f ∈ fs, ∀ c ∈ t, c.name = f.name → c.nullable = f.nullable := by
  constructor
  · rintro ⟨n, h⟩
    refine ⟨fun f hff => ?_, fun f hff c hc e => ?_⟩
    · refine Classical.byContradiction fun hs => ?_
      obtain ⟨r, hr⟩ := C107_forever_type dflt hd fs hm hf f hff hs t ht n
      rw [hr] at h
      cases h
    · refine Classical.byContradiction fun hs => ?_
      obtain ⟨r, hr⟩ := C107_forever_null dflt hd fs hm hf f hff t ht c hc e hs n
      rw [hr] at h
      cases h
  · intro h
    cases hs : pgMigrate (fs.map Field.col) t with
    | none => exact ⟨1, by simp only [rounds, hs, Option.bind_none]⟩
    | some s =>
      obtain ⟨r, h1, _, h3⟩ := one_round hd hm hf ht hs
      exact ⟨2, by simp only [rounds, hs, Option.bind_some, h1, h3.2 h, Option.bind_none]⟩

/-- C107: then one migration is enough: the script is accepted, the table has the columns of the model with the types that were written,
and another run reports that there is nothing to do. -/
theorem C107_once_partial (dflt : Bytes → Bytes) (fs : List Field) (hm : ModelOk (fs.map Field.col))
    (hf : ∀ f ∈ fs, f.auto = false ∧ Stays f.size f.entry) (t : List DbCol) (ht : FromServer (server dflt) t)
    (hn : ∀ f ∈ fs, ∀ c ∈ t, c.name = f.name → c.nullable = f.nullable) (s : Script) (h : pgMigrate (fs.map Field.col) t = some s) :
    ∃ r, apply dflt s t = some r ∧ pgMigrate (fs.map Field.col) r = none ∧
      ∀ f ∈ fs, ∃ c ∈ r, c.name = f.name ∧ c.type = f.entry.dataType f.size f.auto ∧ c.nullable = f.nullable := by
  have hf' : ∀ f ∈ fs, f.auto = false ∧ ¬ Missing f.size f.entry := by
    intro f hff
    refine ⟨(hf f hff).1, fun hmiss => ?_⟩
    obtain ⟨c, hc, _⟩ := (C107_type_stays_iff f.size f.entry).2 (hf f hff).2
    rw [(C107_type_missing_iff f.size f.entry).2 hmiss] at hc
    cases hc
  obtain ⟨r, h1, h2⟩ := C74_settled_iff_partial (server dflt) _ t hm ht s h
  have hn' : ∀ m ∈ fs.map Field.col, ∀ c ∈ t, c.name = m.name → c.nullable = m.nullable := by
    intro m hmm
    obtain ⟨f, hff, rfl⟩ := List.mem_map.1 hmm
    exact hn f hff
  have hty : ∀ m ∈ fs.map Field.col, (server dflt).type m.type = m.type := by
    intro m hmm
    obtain ⟨f, hff, rfl⟩ := List.mem_map.1 hmm
    exact (type_stays (hf' f hff).1 (hf' f hff).2).2 (hf f hff).2
  have hnone := h2.2 ⟨hty, hn'⟩
  refine ⟨r, ?_, hnone, fun f hff => ?_⟩
  · unfold apply
    rw [if_pos (up_known hm ht.1 hf' h)]
    exact h1
  · obtain ⟨r', hr', hdesc⟩ := C72_pg_up_partial (server dflt) _ t hm ht hn' s h
    rw [h1] at hr'
    cases hr'
    obtain ⟨c, hc, e1, e2, e3⟩ := hdesc.2.1 f.col (List.mem_map_of_mem hff)
    exact ⟨c, hc, e1, e2.trans (hty _ (List.mem_map_of_mem hff)), e3⟩

theorem rejected {dflt : Bytes → Bytes} {s : Script} {t : List DbCol} {a : Action} (h : a ∈ s.up) (hk : known a = false) : apply dflt s t = none := by
  unfold apply
  rw [if_neg]
  rw [List.all_eq_true]
  intro h'
  rw [h' a h] at hk
  cases hk

/-- C107 is false of the code: once there is a column that counts up, every migration is rejected, even if nothing has changed, since it
says that the column is to become `serial`, which is no type. -/
theorem C107_serial_rejected (dflt : Bytes → Bytes) (fs : List Field) (hm : ModelOk (fs.map Field.col)) (f : Field) (hff : f ∈ fs) (k : GoInt)
    (hk : f.entry = .int k) (hb : k ≠ .byte ∧ k ≠ .int64) (ha : f.auto = true) (t : List DbCol) (ht : FromServer (server dflt) t)
    (c : DbCol) (hc : c ∈ t) (e : c.name = f.name) :
    ∃ s, pgMigrate (fs.map Field.col) t = some s ∧ apply dflt s t = none := by
  have hs : shownAs f.col.type = none ∧ (server dflt).type f.col.type ≠ f.col.type := by
    show shownAs (f.entry.dataType f.size f.auto) = none ∧ (server dflt).type (f.entry.dataType f.size f.auto) ≠ f.entry.dataType f.size f.auto
    rw [hk, ha]
    cases k <;> first | exact absurd rfl hb.1 | exact absurd rfl hb.2 | skip
    all_goals
      simp only [Entry.dataType, server]
      decide +kernel
  have hne : f.col.type ≠ c.type := by
    intro h
    exact hs.2 (by rw [h]; exact (ht.2 c hc).1)
  have h1 : pgMigrate (fs.map Field.col) t ≠ none := by
    rw [Ne, C56_pg_none_iff _ t hm ht.1]
    intro h
    obtain ⟨c', hc', e', hty, _⟩ := h f.col (List.mem_map_of_mem hff)
    rw [eq_of_name ht.1 hc' hc (e'.trans e.symm)] at hty
    exact hne hty.symm
  obtain ⟨s, hs'⟩ := Option.ne_none_iff_exists'.1 h1
  refine ⟨s, hs', rejected (a := .setType f.name f.col.type) ?_ ?_⟩
  · exact ((C56_pg_actions_partial _ t hm ht.1 s hs').2.2 _).2 ⟨f.col, List.mem_map_of_mem hff, c, hc, rfl, e, rfl, .inl hne⟩
  · simp only [known, hs.1, Option.isSome_none]

/-- C107 is false of the code: with a column whose type does not exist, every migration of an existing table is rejected. -/
theorem C107_missing_rejected (dflt : Bytes → Bytes) (fs : List Field) (hm : ModelOk (fs.map Field.col)) (f : Field) (hff : f ∈ fs)
    (hs : Missing f.size f.entry) (ha : f.auto = false) (t : List DbCol) (hx : (names t).Nodup) (ht : ∀ c ∈ t, (shownAs c.type).isSome) :
    ∃ s, pgMigrate (fs.map Field.col) t = some s ∧ apply dflt s t = none := by
  have hmiss : shownAs f.col.type = none := by
    show shownAs (f.entry.dataType f.size f.auto) = none
    rw [ha]
    exact (C107_type_missing_iff _ _).2 hs
  have hser : serial f.col.type = none := by
    show serial (f.entry.dataType f.size f.auto) = none
    rw [ha]
    revert hs
    cases f.entry with
    | string => intro _; simp only [Entry.dataType]; rw [List.append_assoc]; exact serial_varchar _
    | arrayRune => intro _; simp only [Entry.dataType]; rw [List.append_assoc]; exact serial_varchar _
    | arrayByte => intro _; simp only [Entry.dataType]; rw [List.append_assoc]; exact serial_varchar _
    | int k => cases k <;> simp only [Entry.dataType, Missing] <;> decide +kernel
    | sliceInt k => cases k <;> simp only [Entry.dataType, Missing] <;> decide +kernel
    | _ => simp only [Entry.dataType, Missing]; decide +kernel
  have hne : ∀ c ∈ t, f.col.type ≠ c.type := by
    intro c hc h
    have := ht c hc
    rw [← h, hmiss] at this
    cases this
  have h1 : pgMigrate (fs.map Field.col) t ≠ none := by
    rw [Ne, C56_pg_none_iff _ t hm hx]
    intro h
    obtain ⟨c', hc', e', hty, _⟩ := h f.col (List.mem_map_of_mem hff)
    exact hne c' hc' hty.symm
  obtain ⟨s, hs'⟩ := Option.ne_none_iff_exists'.1 h1
  refine ⟨s, hs', ?_⟩
  have hacts := (C56_pg_actions_partial _ t hm hx s hs').2.2
  by_cases hin : f.name ∈ names t
  · obtain ⟨c, hc, e⟩ := mem_names.1 hin
    refine rejected (a := .setType f.name f.col.type) ?_ ?_
    · exact (hacts _).2 ⟨f.col, List.mem_map_of_mem hff, c, hc, rfl, e, rfl, .inl (hne c hc)⟩
    · simp only [known, hmiss, Option.isSome_none]
  · refine rejected (a := .add f.name (some f.col.type) (!f.nullable) f.dflt) ?_ ?_
    · exact (hacts _).2 ⟨f.col, List.mem_map_of_mem hff, rfl, hin, rfl, rfl, rfl⟩
    · simp only [known, hmiss, hser, Option.isSome_none, Bool.or_self]

/-! ## Examples -/

/-- A struct with a name, a time and an `int64`. -/
def exFields : List Field :=
  [⟨[110], .string, 0, false, false, none⟩, ⟨[116], .time, 0, false, true, none⟩, ⟨[105], .int .int64, 0, false, false, none⟩]

example : ModelOk (exFields.map Field.col) := by unfold ModelOk; decide +kernel

example : FromServer (server id) [⟨[110], lit "varchar(20)", false, none⟩] :=
  ⟨by decide +kernel, by simp only [List.mem_singleton, forall_eq]; exact ⟨by decide +kernel, fun d h => by cases h⟩⟩

example : ∀ f ∈ exFields, f.auto = false ∧ ¬ Missing f.size f.entry := by
  simp [exFields, Missing]

example : ¬ Stays 0 (.int .int64) := by simp [Stays]

/-- After three rounds the table is as it was after the first one, and there is still a script to write. -/
example : rounds id (exFields.map Field.col) 3 [⟨[110], lit "varchar(20)", false, none⟩] =
      some [⟨[110], lit "varchar(255)", false, none⟩, ⟨[116], lit "timestamptz(6)", true, none⟩, ⟨[105], lit "int8", false, none⟩] ∧
    pgMigrate (exFields.map Field.col) [⟨[110], lit "varchar(255)", false, none⟩, ⟨[116], lit "timestamptz(6)", true, none⟩, ⟨[105], lit "int8", false, none⟩] ≠
      none := by decide +kernel

/-- Without the `int64` one round is enough. -/
example : rounds id ((exFields.take 2).map Field.col) 1 [⟨[110], lit "varchar(20)", false, none⟩] =
      some [⟨[110], lit "varchar(255)", false, none⟩, ⟨[116], lit "timestamptz(6)", true, none⟩] ∧
    rounds id ((exFields.take 2).map Field.col) 2 [⟨[110], lit "varchar(20)", false, none⟩] = none := by decide +kernel

example : Missing 0 .sliceFloat64 ∧ Missing 0 (.sliceInt .byte) := by simp [Missing]

/-- A key that counts up: nothing has changed, but the script wants to make it `serial4`. -/
example : (pgMigrate [Field.col ⟨[105], .int .int, 0, true, false, none⟩] [⟨[105], lit "int4", false, none⟩]).map (·.up) =
    some [.setType [105] (lit "serial4")] := by decide +kernel

end Verif.Props
