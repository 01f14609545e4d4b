import Verif.Lemmas.Migrate

/-! # Migrations -/

namespace Verif.Props

open Verif Verif.Migrate Verif.Spec.Migrate

/-- The names of a model. -/
def ModelOk (ms : List GoCol) : Prop := (ms.map (·.name)).Nodup

/-- A column of the model is in the table as the model has it. -/
def UpToDate (t : List DbCol) (m : GoCol) : Prop := ∃ c ∈ t, c.name = m.name ∧ c.type = m.type ∧ c.nullable = m.nullable

theorem nodup_of_map' {α β : Type} (f : α → β) {l : List α} (h : (l.map f).Nodup) : l.Nodup := by
  induction l with
  | nil => exact List.nodup_nil
  | cons a l ih =>
    rw [List.map_cons, List.nodup_cons] at h
    exact List.nodup_cons.2 ⟨fun hm => h.1 (List.mem_map_of_mem hm), ih h.2⟩

theorem geq_of_name {ms : List GoCol} (hn : ModelOk ms) {m m' : GoCol} (h : m ∈ ms) (h' : m' ∈ ms) (e : m.name = m'.name) : m = m' := by
  unfold ModelOk at hn
  induction ms with
  | nil => cases h
  | cons a ms ih =>
    rw [List.map_cons, List.nodup_cons] at hn
    rcases List.mem_cons.1 h with h1 | h1 <;> rcases List.mem_cons.1 h' with h2 | h2
    · rw [h1, h2]
    · subst h1
      exact absurd (by rw [e]; exact List.mem_map_of_mem h2) hn.1
    · subst h2
      exact absurd (by rw [← e]; exact List.mem_map_of_mem h1) hn.1
    · exact ih hn.2 h1 h2

theorem updated_sublist (ms : List GoCol) (ex : List DbCol) : ((ms.filterMap (changed ex)).map (fun p => p.2.name)).Sublist (gnames ms) := by
  induction ms with
  | nil => exact List.Sublist.refl _
  | cons m ms ih =>
    cases h : changed ex m with
    | none =>
      rw [List.filterMap_cons_none h]
      exact ih.cons _
    | some p =>
      rw [List.filterMap_cons_some h, List.map_cons, (changed_some h).1]
      exact ih.cons_cons _

theorem upActions_eq (ms : List GoCol) (ex : List DbCol) (hm : ModelOk ms) (hx : (names ex).Nodup) :
    upActions (diff ms ex) =
      (ms.filterMap (changed ex)).map (fun p => .setType p.2.name p.2.type) ++
      (ms.filter (fun m => m.name ∉ names ex)).map (fun m => .add m.name (some m.type) (!m.nullable) m.dflt) ++
      (ex.filter (fun c => c.name ∉ gnames ms)).map (fun c => .drop c.name) := by
  rw [diff_eq ms ex hm hx]; rfl

theorem not_new_iff {ms : List GoCol} {ex : List DbCol} (hm : ModelOk ms) (hx : (names ex).Nodup) :
    ((diff ms ex).new = [] ∧ (diff ms ex).updated = []) ↔ ∀ m ∈ ms, UpToDate ex m := by
  rw [diff_eq ms ex hm hx]
  simp only [List.filter_eq_nil_iff, List.filterMap_eq_nil_iff, decide_eq_true_eq, Decidable.not_not]
  constructor
  · rintro ⟨h1, h2⟩ m hmm
    obtain ⟨c, hc, e⟩ := mem_names.1 (h1 m hmm)
    have h2 := h2 m hmm
    unfold changed at h2
    have hf := find_eq hx hc
    rw [e] at hf
    rw [hf] at h2
    simp only at h2
    by_cases hs : m.type = c.type ∧ m.nullable = c.nullable
    · exact ⟨c, hc, e, hs.1.symm, hs.2.symm⟩
    · rw [if_neg hs] at h2; cases h2
  · intro h
    refine ⟨fun m hmm => ?_, fun m hmm => ?_⟩
    · obtain ⟨c, hc, e, _⟩ := h m hmm
      exact mem_names.2 ⟨c, hc, e⟩
    · obtain ⟨c, hc, e, h1, h2⟩ := h m hmm
      have hf := find_eq hx hc
      rw [e] at hf
      unfold changed
      rw [hf]
      simp only
      rw [if_pos ⟨h1.symm, h2.symm⟩]

/-! ## C56: which columns are mentioned -/

/-- C56 for PostgreSQL, when there is something to add or to alter: the statement adds exactly the columns missing from the table,
alters exactly those with another type or nullability, drops exactly those not in the model, and nothing is done twice.
Full statement: also when there are only columns to drop, see `C56_pg_drop_only_missed`. -/
theorem C56_pg_actions_partial (ms : List GoCol) (ex : List DbCol) (hm : ModelOk ms) (hx : (names ex).Nodup) (s : Script)
    (h : pgMigrate ms ex = some s) :
    s.create = ms ∧ s.up.Nodup ∧
    ∀ a, a ∈ s.up ↔
      match a with
      | .setType n ty => ∃ m ∈ ms, ∃ c ∈ ex, m.name = n ∧ c.name = n ∧ ty = m.type ∧ (m.type ≠ c.type ∨ m.nullable ≠ c.nullable)
      | .add n ty nn d => ∃ m ∈ ms, m.name = n ∧ n ∉ ex.map (·.name) ∧ ty = some m.type ∧ nn = !m.nullable ∧ d = m.dflt
      | .drop n => n ∈ ex.map (·.name) ∧ n ∉ ms.map (·.name)
      | _ => False := by
  unfold pgMigrate at h
  simp only at h
  split at h
  · cases h
  · cases h
    refine ⟨rfl, ?_, ?_⟩
    · simp only
      rw [upActions_eq ms ex hm hx]
      have n1 : ((ms.filterMap (changed ex)).map (fun p => Action.setType p.2.name p.2.type)).Nodup := by
        have h1 := hm.sublist (updated_sublist ms ex)
        refine nodup_of_map' (fun a => match a with | Action.setType n _ => n | _ => []) ?_
        rw [List.map_map]
        exact h1
      have n2 : ((ms.filter (fun m => m.name ∉ names ex)).map
          (fun m => Action.add m.name (some m.type) (!m.nullable) m.dflt)).Nodup := by
        refine nodup_of_map' (fun a => match a with | Action.add n _ _ _ => n | _ => []) ?_
        rw [List.map_map]
        exact hm.sublist (List.Sublist.map _ List.filter_sublist)
      have n3 : ((ex.filter (fun c => c.name ∉ gnames ms)).map (fun c => Action.drop c.name)).Nodup := by
        refine nodup_of_map' (fun a => match a with | Action.drop n => n | _ => []) ?_
        rw [List.map_map]
        exact nodup_filter _ hx
      refine List.nodup_append.2 ⟨List.nodup_append.2 ⟨n1, n2, ?_⟩, n3, ?_⟩
      · intro a ha b hb e
        obtain ⟨p, _, rfl⟩ := List.mem_map.1 ha
        obtain ⟨q, _, rfl⟩ := List.mem_map.1 hb
        cases e
      · intro a ha b hb e
        obtain ⟨q, _, rfl⟩ := List.mem_map.1 hb
        subst e
        rcases List.mem_append.1 ha with ha | ha
        · obtain ⟨p, _, e⟩ := List.mem_map.1 ha
          cases e
        · obtain ⟨p, _, e⟩ := List.mem_map.1 ha
          cases e
    · intro a
      simp only
      rw [upActions_eq ms ex hm hx]
      simp only [List.mem_append, List.mem_map, List.mem_filter, decide_eq_true_eq, mem_updated hx]
      cases a with
      | setType n ty =>
        simp only [Action.setType.injEq, reduceCtorEq, and_false, exists_false, or_false]
        constructor
        · rintro ⟨p, ⟨h1, h2, h3, h4⟩, rfl, rfl⟩
          exact ⟨p.2, h1, p.1, h2, rfl, h3, rfl, by
            by_cases e : p.2.type = p.1.type
            · exact .inr fun e2 => h4 ⟨e, e2⟩
            · exact .inl e⟩
        · rintro ⟨m, h1, c, h2, rfl, h3, rfl, h4⟩
          exact ⟨(c, m), ⟨h1, h2, h3, fun e => h4.elim (fun f => f e.1) fun f => f e.2⟩, rfl, rfl⟩
      | add n ty nn d =>
        simp only [Action.add.injEq, reduceCtorEq, and_false, exists_false, or_false, false_or]
        constructor
        · rintro ⟨m, ⟨h1, h2⟩, rfl, rfl, rfl, rfl⟩
          exact ⟨m, h1, rfl, fun h => h2 (mem_names.2 (by simpa using h)), rfl, rfl, rfl⟩
        · rintro ⟨m, h1, rfl, h2, rfl, rfl, rfl⟩
          exact ⟨m, ⟨h1, fun h => h2 (by simpa using mem_names.1 h)⟩, rfl, rfl, rfl, rfl⟩
      | drop n =>
        simp only [Action.drop.injEq, reduceCtorEq, and_false, exists_false, false_or]
        constructor
        · rintro ⟨c, ⟨h1, h2⟩, rfl⟩
          exact ⟨⟨c, h1, rfl⟩, fun h => h2 (mem_gnames.2 h)⟩
        · rintro ⟨⟨c, h1, rfl⟩, h2⟩
          exact ⟨c, ⟨h1, fun h => h2 (mem_gnames.1 h)⟩, rfl⟩
      | setNotNull n => simp
      | setDefault n d => simp

/-- C56: no migration is reported exactly if every column of the model is in the table as the model has it. -/
theorem C56_pg_none_iff (ms : List GoCol) (ex : List DbCol) (hm : ModelOk ms) (hx : (names ex).Nodup) :
    pgMigrate ms ex = none ↔ ∀ m ∈ ms, UpToDate ex m := by
  rw [← not_new_iff hm hx]
  unfold pgMigrate
  simp only
  split
  · rename_i h; simp [h]
  · rename_i h; simp [h]

/-- C56 is false of the code when the only difference is columns the model no longer has: no migration is reported, however
many there are. -/
theorem C56_pg_drop_only_missed (ms : List GoCol) (ex : List DbCol) (hm : ModelOk ms) (hx : (names ex).Nodup)
    (h : ∀ m ∈ ms, UpToDate ex m) (c : DbCol) (_ : c ∈ ex ∧ c.name ∉ ms.map (·.name)) : pgMigrate ms ex = none :=
  (C56_pg_none_iff ms ex hm hx).2 h

/-- C56 is false of the code for MySQL: whatever the model, every column of the table is dropped, none is added or
altered. -/
theorem C56_mysql (ms : List GoCol) (ex : List DbCol) (a : Action) :
    a ∈ (mysqlMigrate ms ex).up ↔ ∃ c ∈ ex, a = .drop c.name := by
  simp only [mysqlMigrate, upActions, List.map_nil, List.nil_append, List.mem_map]
  exact ⟨fun ⟨c, h, e⟩ => ⟨c, h, e.symm⟩, fun ⟨c, h, e⟩ => ⟨c, h, e.symm⟩⟩

/-! ## C72: what the migration leads to -/

theorem retypes_map (ms : List GoCol) (t : List DbCol) :
    (ms.filterMap (changed t)).map (fun p => Action.setType p.2.name p.2.type) =
      ((ms.filterMap (changed t)).map fun p => (p.2.name, p.2.type)).map fun p => Action.setType p.1 p.2 := by
  rw [List.map_map]; rfl

/-- Carrying out `up` on the table it was made for. -/
theorem up_exec (sv : Server) (ms : List GoCol) (t : List DbCol) (hm : ModelOk ms) (hx : (names t).Nodup) :
    execAll sv t (upActions (diff ms t)) =
      some ((t.filter (fun c => c.name ∈ gnames ms)).map (retype sv ((ms.filterMap (changed t)).map fun p => (p.2.name, p.2.type))) ++
        (ms.filter (fun m => m.name ∉ names t)).map (toDb sv)) := by
  rw [upActions_eq ms t hm hx, execAll_append, execAll_append, retypes_map, exec_setTypes]
  · simp only [Option.bind_some]
    rw [exec_adds]
    · simp only [Option.bind_some]
      have e : (t.filter (fun c => c.name ∉ gnames ms)).map (fun c => Action.drop c.name) =
          (names (t.filter (fun c => c.name ∉ gnames ms))).map Action.drop := by
        unfold names; rw [List.map_map]; rfl
      rw [e, exec_drops]
      · congr 1
        rw [List.filter_append]
        congr 1
        · rw [List.filter_map]
          congr 1
          apply List.filter_congr
          intro c hc
          simp only [Function.comp_apply, retype_name]
          rw [Bool.eq_iff_iff]
          simp only [decide_eq_true_eq, mem_names, List.mem_filter, not_exists, not_and]
          constructor
          · intro h
            exact Decidable.by_contra fun hn => h c ⟨hc, hn⟩ rfl
          · intro h c' hc' e
            exact hc'.2 (e ▸ h)
        · rw [List.filter_eq_self]
          intro c hc
          obtain ⟨m, hmm, rfl⟩ := List.mem_map.1 hc
          simp only [decide_eq_true_eq, mem_names, List.mem_filter, not_exists, not_and]
          intro c' hc' e
          exact hc'.2 (e ▸ mem_gnames.2 ⟨m, (List.mem_filter.1 hmm).1, rfl⟩)
      · exact nodup_filter _ hx
      · intro n hn
        obtain ⟨c, hc, rfl⟩ := mem_names.1 hn
        refine mem_names.2 ⟨retype sv _ c, List.mem_append_left _ (List.mem_map_of_mem (List.mem_filter.1 hc).1), retype_name _ _ _⟩
    · exact hm.sublist (List.Sublist.map _ List.filter_sublist)
    · intro m hmm
      rw [names_map (retype_name sv _)]
      simpa using (List.mem_filter.1 hmm).2
  · intro p hp
    obtain ⟨q, hq, rfl⟩ := List.mem_map.1 hp
    obtain ⟨_, h2, h3, _⟩ := (mem_updated hx).1 hq
    exact mem_names.2 ⟨q.1, h2, h3⟩

theorem retype_nodup {ms : List GoCol} {t : List DbCol} (hm : ModelOk ms) :
    (((ms.filterMap (changed t)).map fun p => (p.2.name, p.2.type)).map (·.1)).Nodup := by
  rw [List.map_map]
  exact hm.sublist (updated_sublist ms t)

/-- The type of a kept column after `up`. -/
theorem retype_type {sv : Server} {ms : List GoCol} {t : List DbCol} (hm : ModelOk ms) (ht : FromServer sv t) {m : GoCol} {c : DbCol} (hmm : m ∈ ms)
    (hc : c ∈ t) (e : c.name = m.name) :
    (retype sv ((ms.filterMap (changed t)).map fun p => (p.2.name, p.2.type)) c).type = sv.type m.type := by
  by_cases hs : m.type = c.type ∧ m.nullable = c.nullable
  · rw [retype_notin, hs.1]
    · exact ((ht.2 c hc).1).symm
    · intro hin
      rw [List.map_map] at hin
      obtain ⟨p, hp, hpe⟩ := List.mem_map.1 hin
      obtain ⟨h1, h2, h3, h4⟩ := (mem_updated ht.1).1 hp
      simp only [Function.comp_apply] at hpe
      have e1 : p.1 = c := eq_of_name ht.1 h2 hc (h3.trans hpe)
      have e2 : p.2 = m := by
        have : p.2.name = m.name := hpe.trans e
        exact geq_of_name hm h1 hmm this
      rw [e1, e2] at h4
      exact h4 hs
  · refine retype_in _ _ (retype_nodup hm) _ _ ?_
    refine List.mem_map.2 ⟨(c, m), (mem_updated ht.1).2 ⟨hmm, hc, e, hs⟩, ?_⟩
    rw [e]

/-- C72 for PostgreSQL and existing tables whose common columns have the right nullability: the statements are accepted, and the
table then has exactly the columns of the model, with their types and nullability.  Full statement: for every table
and also if there is none.  Missing: see `C72_pg_nullability_stays` and `C72_pg_new_table_fails`. -/
theorem C72_pg_up_partial (sv : Server) (ms : List GoCol) (t : List DbCol) (hm : ModelOk ms) (ht : FromServer sv t)
    (hn : ∀ m ∈ ms, ∀ c ∈ t, c.name = m.name → c.nullable = m.nullable) (s : Script) (h : pgMigrate ms t = some s) :
    ∃ r, applyUp sv s (some t) = some r ∧ Describes sv ms r := by
  unfold pgMigrate at h
  simp only at h
  split at h
  · cases h
  · cases h
    refine ⟨_, up_exec sv ms t hm ht.1, ?_, ?_, ?_⟩
    · unfold names
      rw [List.map_append, List.map_map, List.map_map]
      refine List.nodup_append.2 ⟨?_, ?_, ?_⟩
      · have : (List.map ((fun x => x.name) ∘ retype sv ((ms.filterMap (changed t)).map fun p => (p.2.name, p.2.type)))
            (t.filter (fun c => c.name ∈ gnames ms))) = names (t.filter (fun c => c.name ∈ gnames ms)) := by
          unfold names
          apply List.map_congr_left
          intro c _
          exact retype_name _ _ _
        rw [this]
        exact nodup_filter _ ht.1
      · exact hm.sublist (List.Sublist.map _ List.filter_sublist)
      · intro a ha b hb e
        obtain ⟨c, hc, rfl⟩ := List.mem_map.1 ha
        obtain ⟨m, hmm, rfl⟩ := List.mem_map.1 hb
        simp only [Function.comp_apply, retype_name] at e
        have h1 := (List.mem_filter.1 hmm).2
        simp only [decide_eq_true_eq] at h1
        exact h1 (mem_names.2 ⟨c, (List.mem_filter.1 hc).1, e⟩)
    · intro m hmm
      by_cases hin : m.name ∈ names t
      · obtain ⟨c, hc, e⟩ := mem_names.1 hin
        refine ⟨_, List.mem_append_left _ (List.mem_map_of_mem (List.mem_filter.2 ⟨hc, ?_⟩)), ?_, ?_, ?_⟩
        · simp only [decide_eq_true_eq]
          exact mem_gnames.2 ⟨m, hmm, e.symm⟩
        · rw [retype_name, e]
        · exact retype_type hm ht hmm hc e
        · rw [(retype_same _ _ _).1]
          exact hn m hmm c hc e
      · refine ⟨toDb sv m, List.mem_append_right _ (List.mem_map_of_mem (List.mem_filter.2 ⟨hmm, by simpa using hin⟩)), rfl, rfl, ?_⟩
        simp [toDb, shown]
    · intro c hc
      rcases List.mem_append.1 hc with hc | hc
      · obtain ⟨c', hc', rfl⟩ := List.mem_map.1 hc
        have h2 := (List.mem_filter.1 hc').2
        simp only [decide_eq_true_eq] at h2
        obtain ⟨m, hmm, e⟩ := mem_gnames.1 h2
        exact ⟨m, hmm, by rw [e, retype_name]⟩
      · obtain ⟨m, hmm, rfl⟩ := List.mem_map.1 hc
        exact ⟨m, (List.mem_filter.1 hmm).1, rfl⟩

/-- C72 is false of the code for every column whose nullability differs: the migration is written, but afterwards the
column is as nullable as before. -/
theorem C72_pg_nullability_stays (sv : Server) (ms : List GoCol) (t : List DbCol) (hm : ModelOk ms) (ht : FromServer sv t)
    (m : GoCol) (hmm : m ∈ ms) (c : DbCol) (hc : c ∈ t) (e : c.name = m.name) (hn : c.nullable ≠ m.nullable) :
    ∃ s r, pgMigrate ms t = some s ∧ applyUp sv s (some t) = some r ∧ (∃ c' ∈ r, c'.name = m.name ∧ c'.nullable = c.nullable) ∧
      ¬ Describes sv ms r := by
  have hs : pgMigrate ms t ≠ none := by
    rw [Ne, C56_pg_none_iff ms t hm ht.1]
    intro h
    obtain ⟨c', hc', e', _, h3⟩ := h m hmm
    have : c' = c := eq_of_name ht.1 hc' hc (e'.trans e.symm)
    subst this
    exact hn h3
  obtain ⟨s, hs⟩ := Option.ne_none_iff_exists'.1 hs
  have hs' := hs
  unfold pgMigrate at hs'
  simp only at hs'
  split at hs'
  · cases hs'
  · cases hs'
    have hup := up_exec sv ms t hm ht.1
    refine ⟨_, _, hs, hup, ?_, ?_⟩
    · refine ⟨_, List.mem_append_left _ (List.mem_map_of_mem (List.mem_filter.2 ⟨hc, ?_⟩)), ?_, (retype_same _ _ _).1⟩
      · simp only [decide_eq_true_eq]
        exact mem_gnames.2 ⟨m, hmm, e.symm⟩
      · rw [retype_name, e]
    · rintro ⟨hnd, h2, _⟩
      obtain ⟨c', hc', e', _, h3⟩ := h2 m hmm
      rcases List.mem_append.1 hc' with hc' | hc'
      · obtain ⟨c'', hc'', rfl⟩ := List.mem_map.1 hc'
        rw [retype_name] at e'
        rw [(retype_same _ _ _).1] at h3
        have : c'' = c := eq_of_name ht.1 (List.mem_filter.1 hc'').1 hc (e'.trans e.symm)
        subst this
        exact hn h3
      · obtain ⟨m', hm', rfl⟩ := List.mem_map.1 hc'
        have h1 := (List.mem_filter.1 hm').2
        simp only [decide_eq_true_eq] at h1
        refine h1 (mem_names.2 ⟨c, hc, ?_⟩)
        exact e.trans e'.symm

/-- C72 is false of the code for every new table: it is created with all its columns, which are then added a second time; the
database rejects that. -/
theorem C72_pg_new_table_fails (sv : Server) (m : GoCol) (ms : List GoCol) (hm : ModelOk (m :: ms)) :
    ∃ s, pgMigrate (m :: ms) [] = some s ∧ applyUp sv s none = none := by
  refine ⟨_, rfl, ?_⟩
  have := upActions_eq (m :: ms) [] hm (by simp [names])
  unfold applyUp create
  simp only
  rw [this]
  have e1 : (m :: ms).filterMap (changed []) = [] := by
    rw [List.filterMap_eq_nil_iff]
    intro a _
    rfl
  have e2 : (m :: ms).filter (fun m => m.name ∉ names []) = m :: ms := by
    rw [List.filter_eq_self]
    intro a _
    simp [names]
  rw [e1, e2]
  simp only [List.map_nil, List.nil_append, List.map_cons, List.cons_append, execAll, exec]
  rw [if_pos]
  · rfl
  · simp [names, shown]

/-- C72 for MySQL holds for new tables only. -/
theorem C72_mysql_new_table_partial (sv : Server) (ms : List GoCol) (hm : ModelOk ms) :
    ∃ r, applyUp sv (mysqlMigrate ms []) none = some r ∧ Describes sv ms r := by
  refine ⟨_, rfl, ?_, ?_, ?_⟩
  · have : names (create sv ms none) = ms.map (·.name) := by
      unfold names create
      rw [List.map_map]; rfl
    exact this ▸ hm
  · intro m hmm
    refine ⟨_, List.mem_map_of_mem hmm, rfl, rfl, ?_⟩
    simp [shown]
  · intro c hc
    obtain ⟨m, hmm, rfl⟩ := List.mem_map.1 hc
    exact ⟨m, hmm, rfl⟩

/-- C72 is false of the code for MySQL and every existing table: it is left without columns. -/
theorem C72_mysql_existing_table (sv : Server) (ms : List GoCol) (t : List DbCol) (hx : (names t).Nodup) (hms : ms ≠ []) :
    applyUp sv (mysqlMigrate ms t) (some t) = some [] ∧ ¬ Describes sv ms [] := by
  constructor
  · have := exec_drops sv (names t) t hx (fun _ h => h)
    have e : (mysqlMigrate ms t).up = (names t).map .drop := by
      simp [mysqlMigrate, upActions, names]
    unfold applyUp
    rw [e]
    show execAll sv t _ = _
    rw [this]
    congr 1
    rw [List.filter_eq_nil_iff]
    intro c hc
    simp only [decide_eq_true_eq, Decidable.not_not]
    exact mem_names.2 ⟨c, hc, rfl⟩
  · rintro ⟨_, h, _⟩
    obtain ⟨m, ms', rfl⟩ := List.exists_cons_of_ne_nil hms
    obtain ⟨c, hc, _⟩ := h m List.mem_cons_self
    cases hc

/-! ## C73: going back -/

/-- C73 is false of the code whenever a column is dropped: the statement to go back adds it without a type, which no database
accepts. -/
theorem C73_dropped_not_restored (sv : Server) (ms : List GoCol) (t : List DbCol) (hm : ModelOk ms) (hx : (names t).Nodup) (s : Script)
    (h : pgMigrate ms t = some s) (c : DbCol) (hc : c ∈ t ∧ c.name ∉ ms.map (·.name)) (r : List DbCol) :
    execAll sv r s.down = none := by
  have bad : ∀ (as : List Action) (r : List DbCol), (∃ n nn d, Action.add n none nn d ∈ as) → execAll sv r as = none := by
    intro as
    induction as with
    | nil => rintro r ⟨_, _, _, h⟩; cases h
    | cons a as ih =>
      rintro r ⟨n, nn, d, h⟩
      simp only [execAll]
      rcases List.mem_cons.1 h with rfl | h
      · rfl
      · cases exec sv r a with
        | none => rfl
        | some r' => exact ih r' ⟨n, nn, d, h⟩
  unfold pgMigrate at h
  simp only at h
  split at h
  · cases h
  · cases h
    refine bad _ r ⟨c.name, !c.nullable, c.dflt, ?_⟩
    unfold downActions
    rw [diff_eq ms t hm hx]
    refine List.mem_append_right _ (List.mem_map.2 ⟨c, List.mem_filter.2 ⟨hc.1, ?_⟩, rfl⟩)
    simp only [decide_eq_true_eq]
    exact hc.2

theorem map_self {α : Type} {f : α → α} {l : List α} (h : ∀ a ∈ l, f a = a) : l.map f = l := by
  induction l with
  | nil => rfl
  | cons a l ih => rw [List.map_cons, h a List.mem_cons_self, ih fun b hb => h b (List.mem_cons_of_mem _ hb)]

/-- What `restore` does to a table that has the column with the old nullability and default. -/
theorem exec_restore (sv : Server) (c : DbCol) (hd : ∀ d, c.dflt = some d → sv.dflt d = d) (hty : sv.type c.type = c.type) (r : List DbCol)
    (hin : c.name ∈ names r) (hsame : ∀ c' ∈ r, c'.name = c.name → c'.nullable = c.nullable ∧ c'.dflt = c.dflt) :
    execAll sv r (restore c) = some (r.map fun c' => if c'.name = c.name then c else c') := by
  unfold restore
  rw [List.append_assoc, execAll_append]
  have e1 : execAll sv r [.setType c.name c.type] = some (r.map fun c' => if c'.name = c.name then c else c') := by
    simp only [execAll, exec, alter]
    rw [if_pos hin]
    simp only [Option.bind_some, Option.some.injEq]
    apply List.map_congr_left
    intro c' hc'
    by_cases e : c'.name = c.name
    · rw [if_pos e, if_pos e]
      obtain ⟨h1, h2⟩ := hsame c' hc' e
      cases c; cases c'
      simp_all
    · rw [if_neg e, if_neg e]
  rw [e1]
  simp only [Option.bind_some]
  generalize hr' : (r.map fun c' => if c'.name = c.name then c else c') = r'
  have hin' : c.name ∈ names r' := by
    rw [← hr', names_map (by intro a; split <;> simp_all)]
    exact hin
  have hc' : ∀ c' ∈ r', c'.name = c.name → c' = c := by
    intro c' h e
    rw [← hr'] at h
    obtain ⟨a, ha, rfl⟩ := List.mem_map.1 h
    by_cases e2 : a.name = c.name
    · rw [if_pos e2]
    · rw [if_neg e2] at e
      exact absurd e e2
  have e2 : execAll sv r' (if c.nullable = true then [] else [.setNotNull c.name]) = some r' := by
    split
    · rfl
    · rename_i hnn
      simp only [execAll, exec, alter]
      rw [if_pos hin']
      simp only [Option.bind_some, Option.some.injEq]
      apply map_self
      intro a ha
      by_cases e : a.name = c.name
      · rw [if_pos e, hc' a ha e]
        cases c; simp_all
      · rw [if_neg e]
  rw [execAll_append, e2]
  simp only [Option.bind_some]
  cases hdd : c.dflt with
  | none => rfl
  | some d =>
    simp only [execAll, exec, alter]
    rw [if_pos hin']
    simp only [Option.bind_some, Option.some.injEq]
    apply map_self
    intro a ha
    by_cases e : a.name = c.name
    · rw [if_pos e, hc' a ha e, hd d hdd, ← hdd]
    · rw [if_neg e]

/-- Restoring several columns. -/
theorem exec_restores (sv : Server) (cs : List DbCol) (hd : ∀ c ∈ cs, sv.type c.type = c.type ∧ ∀ d, c.dflt = some d → sv.dflt d = d)
    (hcs : (names cs).Nodup) (r : List DbCol)
    (hin : ∀ c ∈ cs, c.name ∈ names r ∧ ∀ c' ∈ r, c'.name = c.name → c'.nullable = c.nullable ∧ c'.dflt = c.dflt) :
    execAll sv r (cs.flatMap restore) = some (r.map fun a => (cs.find? (fun c => c.name = a.name)).getD a) := by
  induction cs generalizing r with
  | nil =>
    simp only [List.flatMap_nil, execAll, List.find?_nil, Option.getD_none]
    rw [map_self (fun _ _ => rfl)]
  | cons c cs ih =>
    simp only [names, List.map_cons, List.nodup_cons] at hcs
    rw [List.flatMap_cons, execAll_append,
      exec_restore sv c (hd c List.mem_cons_self).2 (hd c List.mem_cons_self).1 r (hin c List.mem_cons_self).1 (hin c List.mem_cons_self).2]
    simp only [Option.bind_some]
    rw [ih (fun c hc => hd c (List.mem_cons_of_mem _ hc)) hcs.2]
    · rw [List.map_map]
      congr 1
      apply List.map_congr_left
      intro a _
      simp only [Function.comp_apply]
      by_cases e : a.name = c.name
      · rw [if_pos e, List.find?_cons_of_pos (by simp [e])]
        have : cs.find? (fun c' => c'.name = c.name) = none := by
          rw [List.find?_eq_none]
          intro c' hc' h
          simp only [decide_eq_true_eq] at h
          exact hcs.1 (by rw [← h]; exact List.mem_map_of_mem hc')
        rw [this]
        rfl
      · rw [if_neg e, List.find?_cons_of_neg (by simpa using fun h => e h.symm)]
    · intro c2 hc2
      obtain ⟨h1, h2⟩ := hin c2 (List.mem_cons_of_mem _ hc2)
      refine ⟨?_, ?_⟩
      · rw [names_map (by intro a; split <;> simp_all)]
        exact h1
      · intro a ha e
        obtain ⟨b, hb, rfl⟩ := List.mem_map.1 ha
        by_cases e2 : b.name = c.name
        · rw [if_pos e2] at e
          exact absurd (by rw [e]; exact List.mem_map_of_mem hc2) hcs.1
        · rw [if_neg e2] at e ⊢
          exact h2 b hb e

/-- C73 for PostgreSQL when no column is dropped: going back after the migration gives exactly the table there was.  Full
statement: for all tables and models.  Missing: see `C73_dropped_not_restored`. -/
theorem C73_pg_down_partial (sv : Server) (ms : List GoCol) (t : List DbCol) (hm : ModelOk ms) (ht : FromServer sv t)
    (hall : ∀ c ∈ t, c.name ∈ ms.map (·.name)) (s : Script) (h : pgMigrate ms t = some s) :
    ∃ r, applyUp sv s (some t) = some r ∧ execAll sv r s.down = some t := by
  unfold pgMigrate at h
  simp only at h
  split at h
  · cases h
  · cases h
    refine ⟨_, up_exec sv ms t hm ht.1, ?_⟩
    simp only
    unfold downActions
    rw [diff_eq ms t hm ht.1]
    simp only
    have e0 : t.filter (fun c => c.name ∉ gnames ms) = [] := by
      rw [List.filter_eq_nil_iff]
      intro c hc
      simpa using mem_gnames.2 (by simpa using hall c hc)
    have e1 : t.filter (fun c => c.name ∈ gnames ms) = t := by
      rw [List.filter_eq_self]
      intro c hc
      simpa using mem_gnames.2 (by simpa using hall c hc)
    rw [e0, e1, List.map_nil, List.append_nil, execAll_append]
    have e2 : (ms.filterMap (changed t)).flatMap (fun p => restore p.1) = ((ms.filterMap (changed t)).map (·.1)).flatMap restore := by
      rw [List.flatMap_map]
    have hnn : names ((ms.filterMap (changed t)).map (·.1)) = (ms.filterMap (changed t)).map (fun p => p.2.name) := by
      unfold names
      rw [List.map_map]
      apply List.map_congr_left
      intro p hp
      exact ((mem_updated ht.1).1 hp).2.2.1
    rw [e2, exec_restores]
    · simp only [Option.bind_some]
      have e3 : (ms.filter (fun m => m.name ∉ names t)).map (fun m => Action.drop m.name) =
          (gnames (ms.filter (fun m => m.name ∉ names t))).map Action.drop := by
        unfold gnames; rw [List.map_map]; rfl
      have hold : ∀ a : DbCol, ((((ms.filterMap (changed t)).map (·.1)).find? (fun c => c.name = a.name)).getD a).name = a.name := by
        intro a
        cases hf : ((ms.filterMap (changed t)).map (·.1)).find? (fun c => c.name = a.name) with
        | none => rfl
        | some b => exact (find_some hf).2
      rw [e3, exec_drops]
      · congr 1
        rw [List.map_append, List.filter_append]
        have p2 : List.filter (fun c => c.name ∉ gnames (ms.filter (fun m => m.name ∉ names t)))
            (((ms.filter (fun m => m.name ∉ names t)).map (toDb sv)).map
              fun a => (((ms.filterMap (changed t)).map (·.1)).find? (fun c => c.name = a.name)).getD a) = [] := by
          rw [List.filter_eq_nil_iff]
          intro c hc
          obtain ⟨a, ha, rfl⟩ := List.mem_map.1 hc
          obtain ⟨m, hmm, rfl⟩ := List.mem_map.1 ha
          rw [hold]
          simp only [decide_eq_true_eq, Decidable.not_not]
          exact mem_gnames.2 ⟨m, hmm, rfl⟩
        rw [p2, List.append_nil, List.map_map]
        have p1 : t.map ((fun a => (((ms.filterMap (changed t)).map (·.1)).find? (fun c => c.name = a.name)).getD a) ∘
            retype sv ((ms.filterMap (changed t)).map fun p => (p.2.name, p.2.type))) = t := by
          apply map_self
          intro c hc
          simp only [Function.comp_apply, retype_name]
          cases hf : ((ms.filterMap (changed t)).map (·.1)).find? (fun c' => c'.name = c.name) with
          | some b =>
            obtain ⟨h1, h2⟩ := find_some hf
            obtain ⟨p, hp, rfl⟩ := List.mem_map.1 h1
            exact eq_of_name ht.1 ((mem_updated ht.1).1 hp).2.1 hc h2
          | none =>
            have hni := find_none hf
            rw [hnn] at hni
            simp only [Option.getD_none]
            apply retype_notin
            rw [List.map_map]
            exact hni
        rw [p1, List.filter_eq_self]
        intro c hc
        simp only [decide_eq_true_eq]
        intro hg
        obtain ⟨m, hmm, e⟩ := mem_gnames.1 hg
        have := (List.mem_filter.1 hmm).2
        simp only [decide_eq_true_eq] at this
        exact this (mem_names.2 ⟨c, hc, e.symm⟩)
      · exact hm.sublist (List.Sublist.map _ List.filter_sublist)
      · intro n hn
        obtain ⟨m, hmm, rfl⟩ := mem_gnames.1 hn
        rw [names_map hold]
        exact mem_names.2 ⟨toDb sv m, List.mem_append_right _ (List.mem_map_of_mem hmm), rfl⟩
    · intro c hc
      obtain ⟨p, hp, rfl⟩ := List.mem_map.1 hc
      exact ht.2 _ ((mem_updated ht.1).1 hp).2.1
    · rw [hnn]
      exact hm.sublist (updated_sublist ms t)
    · intro c hc
      obtain ⟨p, hp, rfl⟩ := List.mem_map.1 hc
      obtain ⟨q1, q2, q3, _⟩ := (mem_updated ht.1).1 hp
      refine ⟨?_, ?_⟩
      · exact mem_names.2 ⟨_, List.mem_append_left _ (List.mem_map_of_mem q2), retype_name _ _ _⟩
      · intro c' hc' e
        rcases List.mem_append.1 hc' with hc' | hc'
        · obtain ⟨a, ha, rfl⟩ := List.mem_map.1 hc'
          rw [retype_name] at e
          have : a = p.1 := eq_of_name ht.1 ha q2 e
          subst this
          exact retype_same _ _ _
        · obtain ⟨m, hmm, rfl⟩ := List.mem_map.1 hc'
          have := (List.mem_filter.1 hmm).2
          simp only [decide_eq_true_eq] at this
          exact absurd (mem_names.2 ⟨p.1, q2, e.symm⟩) this

/-! ## C74: applied once, nothing is left to do -/

/-- C74, exactly: after the migration has been applied to a table, another run reports that there is nothing to do if and only if
the model spells all types as the catalogue does and the nullability of common columns was right from the start.
Full statement: it always reports that. -/
theorem C74_settled_iff_partial (sv : Server) (ms : List GoCol) (t : List DbCol) (hm : ModelOk ms)
    (ht : FromServer sv t) (s : Script) (h : pgMigrate ms t = some s) :
    ∃ r, applyUp sv s (some t) = some r ∧
      (pgMigrate ms r = none ↔
        (∀ m ∈ ms, sv.type m.type = m.type) ∧ ∀ m ∈ ms, ∀ c ∈ t, c.name = m.name → c.nullable = m.nullable) := by
  unfold pgMigrate at h
  simp only at h
  split at h
  · cases h
  · cases h
    refine ⟨_, up_exec sv ms t hm ht.1, ?_⟩
    generalize hr : (t.filter (fun c => c.name ∈ gnames ms)).map (retype sv ((ms.filterMap (changed t)).map fun p => (p.2.name, p.2.type))) ++
        (ms.filter (fun m => m.name ∉ names t)).map (toDb sv) = r
    -- the names of the result are distinct
    have hnd : (names r).Nodup := by
      rw [← hr]
      unfold names
      rw [List.map_append, List.map_map, List.map_map]
      refine List.nodup_append.2 ⟨?_, hm.sublist (List.Sublist.map _ List.filter_sublist), ?_⟩
      · have : (List.map ((fun x => x.name) ∘ retype sv ((ms.filterMap (changed t)).map fun p => (p.2.name, p.2.type)))
            (t.filter (fun c => c.name ∈ gnames ms))) = names (t.filter (fun c => c.name ∈ gnames ms)) := by
          unfold names
          apply List.map_congr_left
          intro c _
          exact retype_name _ _ _
        rw [this]
        exact nodup_filter _ ht.1
      · intro a ha b hb e
        obtain ⟨c, hc, rfl⟩ := List.mem_map.1 ha
        obtain ⟨m, hmm, rfl⟩ := List.mem_map.1 hb
        simp only [Function.comp_apply, retype_name] at e
        have h1 := (List.mem_filter.1 hmm).2
        simp only [decide_eq_true_eq] at h1
        exact h1 (mem_names.2 ⟨c, (List.mem_filter.1 hc).1, e⟩)
    -- the column of the result a column of the model stands for
    have hcol : ∀ m ∈ ms, ∃ c' ∈ r, c'.name = m.name ∧ c'.type = sv.type m.type ∧
        ((∀ c ∈ t, c.name = m.name → c.nullable = m.nullable) ↔ c'.nullable = m.nullable) := by
      intro m hmm
      by_cases hin : m.name ∈ names t
      · obtain ⟨c, hc, e⟩ := mem_names.1 hin
        have hk : c ∈ t.filter (fun c => c.name ∈ gnames ms) := List.mem_filter.2 ⟨hc, by
          simp only [decide_eq_true_eq]
          exact mem_gnames.2 ⟨m, hmm, e.symm⟩⟩
        refine ⟨_, by rw [← hr]; exact List.mem_append_left _ (List.mem_map_of_mem hk), ?_, retype_type hm ht hmm hc e, ?_⟩
        · rw [retype_name, e]
        · rw [(retype_same _ _ _).1]
          constructor
          · intro h; exact h c hc e
          · intro h c2 hc2 e2
            rw [eq_of_name ht.1 hc2 hc (e2.trans e.symm)]
            exact h
      · refine ⟨toDb sv m, hr ▸ List.mem_append_right _ (List.mem_map_of_mem (List.mem_filter.2 ⟨hmm, by simpa using hin⟩)), rfl, rfl, ?_⟩
        constructor
        · intro _; simp [toDb, shown]
        · intro _ c hc e
          exact absurd (mem_names.2 ⟨c, hc, e⟩) hin
    rw [C56_pg_none_iff ms r hm hnd]
    constructor
    · intro h
      refine ⟨fun m hmm => ?_, fun m hmm => ?_⟩
      · obtain ⟨c, hc, e, hty, hnl⟩ := h m hmm
        obtain ⟨c', hc', e', hty', _⟩ := hcol m hmm
        have : c = c' := eq_of_name hnd hc hc' (e.trans e'.symm)
        rw [← hty', ← this, hty]
      · obtain ⟨c, hc, e, hty, hnl⟩ := h m hmm
        obtain ⟨c', hc', e', _, hn'⟩ := hcol m hmm
        have : c = c' := eq_of_name hnd hc hc' (e.trans e'.symm)
        rw [hn', ← this]
        exact hnl
    · rintro ⟨h1, h2⟩ m hmm
      obtain ⟨c', hc', e', hty', hn'⟩ := hcol m hmm
      exact ⟨c', hc', e', hty'.trans (h1 m hmm), hn'.1 (h2 m hmm)⟩

/-- C74 is false of the code for every model with a column of type `bigint` (that is, with a field of type `int64` or `uint64`),
since PostgreSQL shows this type as `int8`: every run writes another migration. -/
theorem C74_bigint_never_settles (sv : Server) (hsv : sv.type (lit "bigint") = lit "int8") (ms : List GoCol) (t : List DbCol)
    (hm : ModelOk ms) (ht : FromServer sv t) (m : GoCol) (hmm : m ∈ ms) (hb : m.type = lit "bigint") :
    ∃ s r, pgMigrate ms t = some s ∧ applyUp sv s (some t) = some r ∧ pgMigrate ms r ≠ none := by
  have hne : lit "int8" ≠ lit "bigint" := by decide +kernel
  have h1 : pgMigrate ms t ≠ none := by
    rw [Ne, C56_pg_none_iff ms t hm ht.1]
    intro h
    obtain ⟨c, hc, _, hty, _⟩ := h m hmm
    have := (ht.2 c hc).1
    rw [hty, hb, hsv] at this
    exact hne this
  obtain ⟨s, hs⟩ := Option.ne_none_iff_exists'.1 h1
  obtain ⟨r, hr, hiff⟩ := C74_settled_iff_partial sv ms t hm ht s hs
  refine ⟨s, r, hs, hr, fun hn => ?_⟩
  have := (hiff.1 hn).1 m hmm
  rw [hb, hsv] at this
  exact hne this

/-! ## Text -/

/-- C56: the clauses of a statement are separated by a comma and a line feed, with none after the last one. -/
theorem C56_text (q : Bytes → Bytes) (table : Bytes) (as : List Action) (hq : (q table).getLast? ≠ some 44) :
    statement q table as =
      "\nALTER TABLE ".toUTF8.toList ++ q table ++ [10] ++ List.intercalate [44, 10] (as.map (Action.text q)) ++ [59] := by
  unfold statement alterText
  simp only
  generalize hh : lit "\nALTER TABLE " ++ q table = hd
  have hh' : "\nALTER TABLE ".toUTF8.toList ++ q table = hd := hh
  rw [hh']
  congr 1
  cases as with
  | nil =>
    rw [List.flatMap_nil, List.append_nil]
    have hl : (hd ++ [10])[(hd ++ [10]).length - 2]? ≠ some 44 := by
      intro h
      have hlen : (hd ++ [10]).length - 2 = hd.length - 1 := by simp
      have hpos : 0 < hd.length := by
        rw [← hh, List.length_append]
        have : 0 < (lit "\nALTER TABLE ").length := by decide +kernel
        omega
      rw [hlen, List.getElem?_append_left (by omega), ← List.getLast?_eq_getElem?, ← hh] at h
      by_cases hn : q table = []
      · rw [hn, List.append_nil] at h
        revert h
        decide +kernel
      · rw [List.getLast?_append, List.getLast?_eq_some_getLast hn] at h
        rw [List.getLast?_eq_some_getLast hn] at hq
        exact hq h
    rw [if_neg hl]
    simp [List.intercalate]
  | cons a as =>
    have key : ∀ (a : Action) (as : List Action),
        (a :: as).flatMap (fun a => a.text q ++ [44, 10]) = List.intercalate [44, 10] ((a :: as).map (Action.text q)) ++ [44, 10] := by
      intro a as
      induction as generalizing a with
      | nil => simp [List.intercalate]
      | cons b as ih =>
        rw [List.flatMap_cons, ih b]
        simp [List.intercalate]
    rw [key, ← List.append_assoc]
    generalize hd ++ [10] ++ List.intercalate [44, 10] ((a :: as).map (Action.text q)) = x
    have e : (x ++ [44, 10]).length - 2 = x.length := by simp
    rw [e, List.getElem?_append_right (by omega), if_pos (by simp), List.take_left]

/-- C56: every clause is written as PostgreSQL expects it, words separated by spaces. -/
theorem C56_clause (q : Bytes → Bytes) (a : Action) : a.text q = 9 :: List.intercalate [32] (clause q a) := by
  have e1 : lit "\tALTER " = 9 :: ("ALTER".toUTF8.toList ++ [32]) := by decide +kernel
  have e2 : lit " SET DATA TYPE " = [32] ++ ("SET".toUTF8.toList ++ ([32] ++ ("DATA".toUTF8.toList ++ ([32] ++ ("TYPE".toUTF8.toList ++ [32]))))) := by
    decide +kernel
  have e3 : lit " SET NOT NULL" = [32] ++ ("SET".toUTF8.toList ++ ([32] ++ ("NOT".toUTF8.toList ++ ([32] ++ "NULL".toUTF8.toList)))) := by
    decide +kernel
  have e4 : lit " SET DEFAULT " = [32] ++ ("SET".toUTF8.toList ++ ([32] ++ ("DEFAULT".toUTF8.toList ++ [32]))) := by decide +kernel
  have e5 : lit "\tADD COLUMN " = 9 :: ("ADD".toUTF8.toList ++ ([32] ++ ("COLUMN".toUTF8.toList ++ [32]))) := by decide +kernel
  have e6 : lit " " = [32] := by decide +kernel
  have e7 : lit " NOT NULL" = [32] ++ ("NOT".toUTF8.toList ++ ([32] ++ "NULL".toUTF8.toList)) := by decide +kernel
  have e8 : lit " DEFAULT " = [32] ++ ("DEFAULT".toUTF8.toList ++ [32]) := by decide +kernel
  have e9 : lit "\tDROP COLUMN " = 9 :: ("DROP".toUTF8.toList ++ ([32] ++ ("COLUMN".toUTF8.toList ++ [32]))) := by decide +kernel
  unfold Action.text clause
  rw [e1, e2, e3, e4, e5, e6, e7, e8, e9]
  cases a with
  | add n t nn v => cases t <;> cases nn <;> cases v <;> simp [List.intercalate]
  | _ => simp [List.intercalate]

/-! ## Examples -/

def exServer : Server := ⟨fun x => if x = lit "bigint" then lit "int8" else x, id⟩

example : pgMigrate [⟨[97], [105], false, none⟩, ⟨[98], [115], true, none⟩] [⟨[97], [105], false, none⟩, ⟨[99], [115], true, none⟩] =
    some ⟨[⟨[97], [105], false, none⟩, ⟨[98], [115], true, none⟩], [.add [98] (some [115]) false none, .drop [99]],
      [.drop [98], .add [99] none false none]⟩ := by decide +kernel
example : ModelOk [⟨[97], [105], false, none⟩, ⟨[98], [115], true, none⟩] := by unfold ModelOk; decide
example : FromServer exServer [⟨[97], [105], false, none⟩, ⟨[99], [115], true, some [48]⟩] := by
  refine ⟨by decide +kernel, fun c hc => ?_⟩
  simp only [List.mem_cons, List.not_mem_nil, or_false] at hc
  rcases hc with rfl | rfl
  · exact ⟨by decide +kernel, by simp⟩
  · exact ⟨by decide +kernel, fun d _ => rfl⟩
example : applyUp exServer ((pgMigrate [⟨[97], [106], false, none⟩] [⟨[97], [105], false, none⟩]).getD ⟨[], [], []⟩)
    (some [⟨[97], [105], false, none⟩]) = some [⟨[97], [106], false, none⟩] := by decide +kernel

end Verif.Props
