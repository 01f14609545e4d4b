import Verif.Model.Config

/-!
# C52: merging configurations
-/

namespace Verif.Props

open Verif Verif.Config

variable {D : Type} {nonempty : (Bytes → Option D) → Bool} {c m r : Config D}

theorem lit_ne {s : String} (h : (lit s).length ≠ 0) : lit s ≠ [] := fun e => h (by rw [e]; rfl)

theorem orElse_ne {x d : Bytes} (h : d ≠ []) : orElse x d ≠ [] := by
  unfold orElse; split <;> assumption

theorem orElse_of_ne {x d : Bytes} (h : x ≠ []) : orElse x d = x := if_neg h
theorem orElse_nil (d : Bytes) : orElse [] d = d := if_pos rfl
theorem orElse_idem {x d : Bytes} : orElse x (orElse x d) = orElse x d := by
  unfold orElse; split <;> rfl

/-- Merging fails only if there are data types to add and no map for them. -/
theorem merge_total : (∃ r, merge nonempty c m = .ok r) ∨ (c.dataTypes = none ∧ ∃ f, m.dataTypes = some f ∧ nonempty f = true) := by
  unfold merge copyMap
  cases hm : m.dataTypes with
  | none => exact .inl ⟨_, rfl⟩
  | some f =>
    cases hc : c.dataTypes with
    | some g => exact .inl ⟨_, rfl⟩
    | none =>
      cases hn : nonempty f with
      | true => exact .inr ⟨rfl, f, rfl, hn⟩
      | false => left; simp only [hn]; exact ⟨_, rfl⟩

/-- What a merged configuration consists of. -/
theorem merge_eq (h : merge nonempty c m = .ok r) : ∃ dt, (m.dataTypes = none → dt = c.dataTypes) ∧
    (∀ f, m.dataTypes = some f → ∀ g, c.dataTypes = some g → dt = some fun k => (f k).or (g k)) ∧
    (∀ f, m.dataTypes = some f → c.dataTypes = none → nonempty f = false ∧ dt = none) ∧
    r = initIfEmpty { c with
      quoteIdentifier := m.quoteIdentifier
      source := m.source.or c.source
      driver := orElse m.driver c.driver
      naming := orElse m.naming c.naming
      strict := m.strict.or c.strict
      tag := orElse m.tag c.tag
      prefix_ := orElse m.prefix_ c.prefix_
      skipEmpty := m.skipEmpty || c.skipEmpty
      filename := orElse m.filename c.filename
      database := match m.database with
        | some d => some ⟨d.package, d.dir, d.filename, d.operator.or none⟩
        | none => c.database
      skipHeader := m.skipHeader || c.skipHeader
      skipModTidy := m.skipModTidy || c.skipModTidy
      migration := m.migration.or c.migration
      dataTypes := dt } := by
  unfold merge copyMap at h
  cases hm : m.dataTypes with
  | none =>
    rw [hm] at h
    cases h
    exact ⟨_, fun _ => rfl, by simp, by simp, rfl⟩
  | some f =>
    rw [hm] at h
    cases hc : c.dataTypes with
    | some g =>
      rw [hc] at h
      cases h
      exact ⟨_, by simp, by simp, by simp, rfl⟩
    | none =>
      rw [hc] at h
      cases hn : nonempty f with
      | true => simp only [hn] at h; cases h
      | false =>
        simp only [hn] at h
        cases h
        exact ⟨_, by simp, by simp, by simp [hn], rfl⟩

/-- C52: after merging, no required setting is empty. -/
theorem C52_required (h : merge nonempty c m = .ok r) :
    r.source ≠ none ∧ r.driver ≠ [] ∧ r.naming ≠ [] ∧ r.tag ≠ [] ∧ r.prefix_ ≠ [] ∧ r.filename ≠ [] ∧ r.dataTypes ≠ none ∧
    (∃ d o, r.database = some d ∧ d.operator = some o ∧ d.package ≠ [] ∧ d.dir ≠ [] ∧ d.filename ≠ [] ∧
      o.package ≠ [] ∧ o.dir ≠ [] ∧ o.filename ≠ []) ∧
    ∀ x, r.migration = some x → x.package ≠ [] ∧ x.dir ≠ [] ∧ x.filename ≠ [] := by
  obtain ⟨dt, _, _, _, rfl⟩ := merge_eq h
  refine ⟨by simp [initIfEmpty], orElse_ne ?_, orElse_ne ?_, orElse_ne ?_, orElse_ne ?_, orElse_ne ?_, by simp [initIfEmpty],
    ⟨_, _, rfl, rfl, orElse_ne ?_, orElse_ne ?_, orElse_ne ?_, orElse_ne (orElse_ne ?_), orElse_ne (orElse_ne ?_), orElse_ne ?_⟩, ?_⟩
  any_goals decide +kernel
  intro x hx
  simp only [initIfEmpty, Option.map_eq_some_iff] at hx
  obtain ⟨y, _, rfl⟩ := hx
  refine ⟨orElse_ne ?_, orElse_ne ?_, orElse_ne ?_⟩ <;> decide +kernel

/-- C52 for the settings that are merged: what the user gives wins.  Full statement: for all settings.  Missing: see `C52_ignored`; flags
can only be switched on. -/
theorem C52_wins_partial (h : merge nonempty c m = .ok r) :
    (∀ s, m.source = some s → r.source = some s) ∧ (m.driver ≠ [] → r.driver = m.driver) ∧ (m.naming ≠ [] → r.naming = m.naming) ∧
    (m.tag ≠ [] → r.tag = m.tag) ∧ (∀ b, m.strict = some b → r.strict = some b) ∧ (m.prefix_ ≠ [] → r.prefix_ = m.prefix_) ∧
    (m.filename ≠ [] → r.filename = m.filename) ∧ r.quoteIdentifier = m.quoteIdentifier ∧ (m.skipEmpty = true → r.skipEmpty = true) ∧
    (m.skipHeader = true → r.skipHeader = true) ∧ (m.skipModTidy = true → r.skipModTidy = true) ∧
    (∀ d, m.database = some d → ∃ d', r.database = some d' ∧ (d.package ≠ [] → d'.package = d.package) ∧ (d.dir ≠ [] → d'.dir = d.dir) ∧
      (d.filename ≠ [] → d'.filename = d.filename) ∧
      ∀ o, d.operator = some o → ∃ o', d'.operator = some o' ∧ (o.package ≠ [] → o'.package = o.package) ∧ (o.dir ≠ [] → o'.dir = o.dir) ∧
        (o.filename ≠ [] → o'.filename = o.filename)) ∧
    (∀ x, m.migration = some x → ∃ x', r.migration = some x' ∧ x'.dsn = x.dsn ∧ (x.package ≠ [] → x'.package = x.package) ∧
      (x.dir ≠ [] → x'.dir = x.dir) ∧ (x.filename ≠ [] → x'.filename = x.filename)) ∧
    (∀ f, m.dataTypes = some f → ∀ g, c.dataTypes = some g → ∃ f', r.dataTypes = some f' ∧ ∀ k v, f k = some v → f' k = some v) := by
  obtain ⟨dt, h1, h2, _, rfl⟩ := merge_eq h
  have key : ∀ {x y d : Bytes}, x ≠ [] → orElse (orElse x y) d = x := by
    intro x y d hx
    rw [orElse_of_ne hx, orElse_of_ne hx]
  refine ⟨?_, key, key, key, ?_, key, key, rfl, ?_, ?_, ?_, ?_, ?_, ?_⟩
  · intro s hs; simp [initIfEmpty, hs]
  · intro b hb; simp [initIfEmpty, hb]
  · intro hb; simp [initIfEmpty, hb]
  · intro hb; simp [initIfEmpty, hb]
  · intro hb; simp [initIfEmpty, hb]
  · intro d hd
    refine ⟨fillDatabase (some d), ?_, fun h => orElse_of_ne h, fun h => orElse_of_ne h, fun h => orElse_of_ne h, ?_⟩
    · simp [initIfEmpty, hd]
    · intro o ho
      refine ⟨_, rfl, ?_, ?_, ?_⟩ <;>
      · intro hne
        simp only [Option.getD_some, ho]
        exact orElse_of_ne hne
  · intro x hx
    refine ⟨fillMigration x, by simp [initIfEmpty, hx], rfl, fun h => orElse_of_ne h, fun h => orElse_of_ne h, fun h => orElse_of_ne h⟩
  · intro f hf g hg
    refine ⟨_, rfl, fun k v hk => ?_⟩
    simp [h2 f hf g hg, hk]

/-- C52 is false of the code for three settings: what the user gives for them is ignored. -/
theorem C52_ignored (h : merge nonempty c m = .ok r) :
    r.readOnly = c.readOnly ∧ r.omitGetters = c.omitGetters ∧ r.sourceMap = c.sourceMap := by
  obtain ⟨dt, _, _, _, rfl⟩ := merge_eq h
  exact ⟨rfl, rfl, rfl⟩

/-- C52 for settings the user leaves out: they keep the value they had.  Full statement: for all settings.  Missing: see `C52_quote_lost`
and `C52_database_reset`. -/
theorem C52_keeps_partial (h : merge nonempty c m = .ok r) :
    (m.source = none → ∀ s, c.source = some s → r.source = some s) ∧ (m.driver = [] → c.driver ≠ [] → r.driver = c.driver) ∧
    (m.naming = [] → c.naming ≠ [] → r.naming = c.naming) ∧ (m.tag = [] → c.tag ≠ [] → r.tag = c.tag) ∧
    (m.strict = none → r.strict = c.strict) ∧ (m.prefix_ = [] → c.prefix_ ≠ [] → r.prefix_ = c.prefix_) ∧
    (m.filename = [] → c.filename ≠ [] → r.filename = c.filename) ∧ (m.skipEmpty = false → r.skipEmpty = c.skipEmpty) ∧
    (m.skipHeader = false → r.skipHeader = c.skipHeader) ∧ (m.skipModTidy = false → r.skipModTidy = c.skipModTidy) ∧
    (m.database = none → ∀ d, c.database = some d → ∃ d', r.database = some d' ∧ (d.package ≠ [] → d'.package = d.package) ∧
      (d.dir ≠ [] → d'.dir = d.dir) ∧ (d.filename ≠ [] → d'.filename = d.filename)) ∧
    (m.migration = none → (c.migration = none → r.migration = none) ∧
      ∀ x, c.migration = some x → ∃ x', r.migration = some x' ∧ x'.dsn = x.dsn ∧ (x.package ≠ [] → x'.package = x.package) ∧
        (x.dir ≠ [] → x'.dir = x.dir) ∧ (x.filename ≠ [] → x'.filename = x.filename)) ∧
    (∀ g, c.dataTypes = some g → ∃ f', r.dataTypes = some f' ∧
      ∀ k, (∀ f, m.dataTypes = some f → f k = none) → f' k = g k) := by
  obtain ⟨dt, h1, h2, _, rfl⟩ := merge_eq h
  have key : ∀ {x y d : Bytes}, x = [] → y ≠ [] → orElse (orElse x y) d = y := by
    intro x y d hx hy
    subst hx
    rw [orElse_nil, orElse_of_ne hy]
  refine ⟨?_, key, key, key, ?_, key, key, ?_, ?_, ?_, ?_, ?_, ?_⟩
  · intro hs s hc; simp [initIfEmpty, hs, hc]
  · intro hb; simp [initIfEmpty, hb]
  · intro hb; simp [initIfEmpty, hb]
  · intro hb; simp [initIfEmpty, hb]
  · intro hb; simp [initIfEmpty, hb]
  · intro hd d hc
    refine ⟨fillDatabase (some d), ?_, fun h => orElse_of_ne h, fun h => orElse_of_ne h, fun h => orElse_of_ne h⟩
    simp [initIfEmpty, hd, hc]
  · intro hx
    refine ⟨fun hc => by simp [initIfEmpty, hx, hc], fun x hc => ?_⟩
    exact ⟨fillMigration x, by simp [initIfEmpty, hx, hc], rfl, fun h => orElse_of_ne h, fun h => orElse_of_ne h, fun h => orElse_of_ne h⟩
  · intro g hg
    refine ⟨_, rfl, fun k hk => ?_⟩
    cases hm : m.dataTypes with
    | none => simp [h1 hm, hg]
    | some f => simp [h2 f hm g hg, hk f hm]

/-- C52 is false of the code for quoting identifiers: left out, it is switched off even if the configuration file has it on. -/
theorem C52_quote_lost (h : merge nonempty c m = .ok r) (_ : c.quoteIdentifier = true) (hm : m.quoteIdentifier = false) :
    r.quoteIdentifier = false := by
  obtain ⟨dt, _, _, _, rfl⟩ := merge_eq h
  exact hm

/-- C52 is false of the code for the settings of the database: if the user gives one of them, those left out fall back to the built-in
defaults, whatever the configuration file says. -/
theorem C52_database_reset (h : merge nonempty c m = .ok r) (d : Database) (hd : m.database = some d) :
    ∃ d', r.database = some d' ∧ (d.package = [] → d'.package = lit "db") ∧ (d.dir = [] → d'.dir = lit "db") ∧
      (d.filename = [] → d'.filename = lit "db.go") := by
  obtain ⟨dt, _, _, _, rfl⟩ := merge_eq h
  refine ⟨fillDatabase (some d), by simp [initIfEmpty, hd], ?_, ?_, ?_⟩ <;>
  · intro e
    simp only [fillDatabase, Option.getD_some, e]
    exact orElse_nil _

theorem orElse_self (x d : Bytes) : orElse (orElse x d) d = orElse x d := by
  by_cases h : x = []
  · subst h
    rw [orElse_nil]
    unfold orElse; split
    · rfl
    · rfl
  · rw [orElse_of_ne h, orElse_of_ne h]

/-- Filling in a configuration that was filled in changes nothing. -/
theorem fillDatabase_idem (d : Option Database) : fillDatabase (some (fillDatabase d)) = fillDatabase d := by
  simp [fillDatabase, orElse_self, orElse_of_ne, orElse_ne, show lit "db" ≠ [] by decide +kernel, show lit "db.go" ≠ [] by decide +kernel,
    show lit "operator.go" ≠ [] by decide +kernel]

theorem fillMigration_idem (x : Migration) : fillMigration (fillMigration x) = fillMigration x := by
  simp [fillMigration, orElse_self]

/-- C52: merging the same configuration again changes nothing. -/
theorem C52_idempotent (hne : ∀ f, nonempty f = false → ∀ k, f k = none) (h : merge nonempty c m = .ok r) : merge nonempty r m = .ok r := by
  obtain ⟨dt, h1, h2, h3, hr⟩ := merge_eq h
  have hdt : r.dataTypes = some (dt.getD fun _ => none) := by rw [hr]; rfl
  have abs : ∀ x y d : Bytes, orElse (orElse x (orElse (orElse x y) d)) d = orElse (orElse x y) d := by
    intro x y d
    by_cases hx : x = []
    · subst hx; rw [orElse_nil, orElse_nil, orElse_self]
    · simp only [orElse_of_ne hx]
  have fin : ∀ dt', dt' = r.dataTypes → initIfEmpty { r with
      quoteIdentifier := m.quoteIdentifier
      source := m.source.or r.source
      driver := orElse m.driver r.driver
      naming := orElse m.naming r.naming
      strict := m.strict.or r.strict
      tag := orElse m.tag r.tag
      prefix_ := orElse m.prefix_ r.prefix_
      skipEmpty := m.skipEmpty || r.skipEmpty
      filename := orElse m.filename r.filename
      database := match m.database with
        | some d => some ⟨d.package, d.dir, d.filename, d.operator.or none⟩
        | none => r.database
      skipHeader := m.skipHeader || r.skipHeader
      skipModTidy := m.skipModTidy || r.skipModTidy
      migration := m.migration.or r.migration
      dataTypes := dt' } = r := by
    rintro _ rfl
    rw [hr]
    simp only [initIfEmpty, abs, Config.mk.injEq, true_and]
    refine ⟨?_, ?_, ?_, ?_, ?_, ?_, ?_, ?_⟩
    · cases m.source <;> simp
    · cases m.strict <;> simp
    · cases m.skipEmpty <;> simp
    · cases m.migration with
      | some x => simp
      | none => cases c.migration <;> simp [fillMigration_idem]
    · cases m.database with
      | some d => simp
      | none => simp [fillDatabase_idem]
    · cases m.skipHeader <;> simp
    · cases m.skipModTidy <;> simp
    · simp
  unfold merge copyMap
  cases hm : m.dataTypes with
  | none =>
    exact congrArg Res.ok (fin _ rfl)
  | some f =>
    rw [hdt]
    refine congrArg Res.ok (fin _ ?_)
    rw [hdt]
    congr 1
    funext k
    cases hc : c.dataTypes with
    | some g =>
      rw [h2 f hm g hc]
      cases hk : f k <;> simp [hk]
    | none =>
      obtain ⟨hn, rfl⟩ := h3 f hm hc
      simp [hne f hn]

section Examples

/-- A configuration a user may write: PostgreSQL, another directory for the database package, one data type. -/
def userConfig : Config Nat :=
  { driver := lit "postgres", quoteIdentifier := true, database := some { dir := lit "internal" },
    dataTypes := some fun k => if k = lit "uuid" then some 1 else none }

/-- It is merged with the built-in defaults. -/
example : ∃ r, merge (fun _ => true) init userConfig = .ok r ∧ r.driver = lit "postgres" ∧ r.naming = lit "snake_case" ∧
    r.quoteIdentifier = true ∧ (∃ d o, r.database = some d ∧ d.operator = some o ∧ d.package = lit "db" ∧ d.dir = lit "internal" ∧
      o.dir = lit "internal") ∧ ∃ f, r.dataTypes = some f ∧ f (lit "uuid") = some 1 :=
  ⟨_, rfl, by decide +kernel, by decide +kernel, rfl, ⟨_, _, rfl, rfl, by decide +kernel, by decide +kernel, by decide +kernel⟩,
    _, rfl, by decide +kernel⟩

/-- Merged again with a configuration that says nothing, identifiers are no longer quoted. -/
example : ∃ r r', merge (fun _ => true) init userConfig = .ok r ∧ merge (fun _ => true) r {} = .ok r' ∧ r.quoteIdentifier = true ∧
    r'.quoteIdentifier = false ∧ r'.driver = lit "postgres" :=
  ⟨_, _, rfl, rfl, rfl, rfl, by decide +kernel⟩

/-- Without `Init` there is no map to copy to. -/
example : merge (fun _ => true) ({} : Config Nat) userConfig = .panic := rfl

end Examples

end Verif.Props
