import Verif.Spec.Command
import Verif.Model.Command
import Verif.Props.Config

/-!
# C95: a run uses the configuration that was given
-/

namespace Verif.Props

open Verif Verif.Config Verif.Command Verif.Spec.Command

variable {D F : Type} (Y : Yaml D F)

private theorem find_current (w : Dir F) (f : F) : find w = some f ↔ Current w f := by
  unfold find Current
  show candidates.findSome? w = some f ↔ _
  generalize candidates = l
  induction l with
  | nil => simp
  | cons a l ih =>
    rw [List.findSome?_cons]
    cases ha : w a with
    | some g =>
      constructor
      · intro h
        exact ⟨[], a, l, rfl, by rw [ha]; exact h, by simp⟩
      · rintro ⟨pre, n, post, h1, h2, h3⟩
        cases pre with
        | nil => cases h1; rw [ha] at h2; exact h2
        | cons b pre => cases h1; have := h3 _ List.mem_cons_self; rw [ha] at this; cases this
    | none =>
      simp only
      rw [ih]
      constructor
      · rintro ⟨pre, n, post, h1, h2, h3⟩
        refine ⟨a :: pre, n, post, by rw [h1]; rfl, h2, ?_⟩
        intro m hm
        rcases List.mem_cons.1 hm with rfl | hm
        · exact ha
        · exact h3 m hm
      · rintro ⟨pre, n, post, h1, h2, h3⟩
        cases pre with
        | nil => cases h1; rw [ha] at h2; cases h2
        | cons b pre => cases h1; exact ⟨pre, n, post, rfl, h2, fun m hm => h3 m (List.mem_cons_of_mem _ hm)⟩

private theorem find_none (w : Dir F) : find w = none ↔ NoFile w := List.findSome?_eq_none_iff

private theorem default_current {w : Dir F} {f : F} (h : Current w f) {c : Config D} (hd : Y.decode f init = .ok c) :
    defaultConfig Y w = .ok c := by
  unfold defaultConfig
  rw [(find_current w f).2 h]
  simp only [hd]

private theorem default_none {w : Dir F} (h : NoFile w) : defaultConfig Y w = .ok init := by
  unfold defaultConfig
  rw [(find_none w).2 h]

private theorem given (x d : Bytes) : Given x d (orElse x d) := by
  constructor
  · intro h; exact orElse_of_ne h
  · rintro rfl; exact orElse_nil d

private theorem given_self (x d : Bytes) : Given x d (orElse (orElse x x) d) := by
  have : orElse x x = x := by unfold orElse; split <;> simp_all
  rw [this]; exact given x d

private theorem fill_of (d : Option Database) : DatabaseOf (d.getD {}) (fillDatabase d) :=
  ⟨given _ _, given _ _, given _ _, _, rfl, given _ _, given _ _, given _ _⟩

/-- Merging a configuration with one that agrees with it except for the sources. -/
private theorem merge_same (c : Config D) (s : Option (List Bytes)) :
    ∃ r, merge Y.nonempty c { c with source := s.or c.source } = .ok r ∧ Used { c with source := s.or c.source } r ∧ Rest c r ∧
      r.migration = c.migration.map fillMigration := by
  have hdb : (match c.database with
      | some d => some (⟨d.package, d.dir, d.filename, d.operator.or none⟩ : Database)
      | none => c.database) = c.database := by
    cases hd : c.database with
    | none => rfl
    | some d => cases d; simp
  have hself : ∀ x : Bytes, orElse x x = x := by intro x; unfold orElse; split <;> simp_all
  have key : ∀ dt : Option (Bytes → Option D), (∀ k, (dt.getD fun _ => none) k = (c.dataTypes.getD fun _ => none) k) →
      ∃ r, r = initIfEmpty { c with
        quoteIdentifier := c.quoteIdentifier
        source := (s.or c.source).or c.source
        driver := orElse c.driver c.driver
        naming := orElse c.naming c.naming
        strict := c.strict.or c.strict
        tag := orElse c.tag c.tag
        prefix_ := orElse c.prefix_ c.prefix_
        skipEmpty := c.skipEmpty || c.skipEmpty
        filename := orElse c.filename c.filename
        database := match c.database with
          | some d => some ⟨d.package, d.dir, d.filename, d.operator.or ((none : Option Operator))⟩
          | none => c.database
        skipHeader := c.skipHeader || c.skipHeader
        skipModTidy := c.skipModTidy || c.skipModTidy
        migration := c.migration.or c.migration
        dataTypes := dt } ∧ Used { c with source := s.or c.source } r ∧ Rest c r ∧
        r.migration = c.migration.map fillMigration := by
    intro dt hdt
    refine ⟨_, rfl, ?_, ⟨rfl, rfl, rfl⟩, ?_⟩
    · constructor
      · simp only [initIfEmpty]
        cases s <;> cases c.source <;> simp
      · exact given_self _ _
      · exact given_self _ _
      · exact given_self _ _
      · rfl
      · simp only [initIfEmpty, Option.or_self]
      · simp only [initIfEmpty, Bool.or_self]
      · exact given_self _ _
      · exact given_self _ _
      · simp only [initIfEmpty]
        rw [hdb]
        exact ⟨_, rfl, fill_of _⟩
      · simp only [initIfEmpty, Bool.or_self]
      · simp only [initIfEmpty, Bool.or_self]
      · exact ⟨_, rfl, hdt⟩
    · simp only [initIfEmpty, Option.or_self]
  obtain ⟨r, hr⟩ | ⟨h1, f, h2, _⟩ := merge_total (nonempty := Y.nonempty) (c := c) (m := { c with source := s.or c.source })
  · obtain ⟨dt, h1, h2, _, rfl⟩ := merge_eq hr
    obtain ⟨r, rfl, k1, k2, k3⟩ := key dt (by
      cases hdt : c.dataTypes with
      | none => rw [h1 hdt, hdt]; intro k; rfl
      | some f => rw [h2 f hdt f hdt]; intro k; simp)
    exact ⟨_, hr, k1, k2, k3⟩
  · have h2 : c.dataTypes = some f := h2
    rw [h1] at h2; cases h2

/-! ## Without the flag -/

/-- C95. `sqlgen` uses the settings of the configuration file of the directory. -/
theorem C95_file (w : Dir F) (f : F) (h : Current w f) (c : Config D) (hd : Y.decode f init = .ok c) :
    ∃ r, root Y w [] = .ok r ∧ Used c r ∧ Rest c r := by
  obtain ⟨r, h1, h2, h3, _⟩ := merge_same Y c none
  refine ⟨r, ?_, h2, h3⟩
  unfold root generate
  rw [default_current Y h hd]
  exact h1

/-- C95. Without a configuration file it uses the built-in settings. -/
theorem C95_builtin (w : Dir F) (h : NoFile w) : ∃ r, root Y w [] = .ok r ∧ Used (init : Config D) r ∧ Rest (init : Config D) r := by
  obtain ⟨r, h1, h2, h3, _⟩ := merge_same Y (init : Config D) none
  refine ⟨r, ?_, h2, h3⟩
  unfold root generate
  rw [default_none Y h]
  exact h1

/-- C95. `sqlgen generate source` uses the same settings, except for the source. -/
theorem C95_source (w : Dir F) (src : Bytes) (c : Config D)
    (hc : (∃ f, Current w f ∧ Y.decode f init = .ok c) ∨ NoFile w ∧ c = init) :
    ∃ r, source Y w src = .ok r ∧ Used { c with source := some [src] } r ∧ Rest c r := by
  obtain ⟨r, h1, h2, h3, _⟩ := merge_same Y c (some [src])
  refine ⟨r, ?_, h2, h3⟩
  have hd : defaultConfig Y w = .ok c := by
    rcases hc with ⟨f, h, hd⟩ | ⟨h, rfl⟩
    · exact default_current Y h hd
    · exact default_none Y h
  unfold source generate
  rw [hd]
  exact h1

/-! ## With the flag -/

/-- With the flag, the settings of the given file are merged into those of the directory. -/
private theorem flag_merge {w : Dir F} {path : Bytes} (hp : path ≠ []) {c0 : Config D} (h0 : defaultConfig Y w = .ok c0) {f : F}
    (hf : w path = some f) {c : Config D} (hd : Y.decode f init = .ok c) : root Y w path = merge Y.nonempty c0 c := by
  unfold root generate loadConfigFrom
  rw [h0, hf]
  show (if path ≠ [] then _ else _) = _
  rw [if_pos hp]
  show (Y.decode f init >>= fun cfg => _) = _
  rw [hd]
  rfl

/-- C95, partial. `sqlgen -c path` uses the settings of the given file if the directory has no configuration file.  Missing: with a
configuration file, whose settings are mixed in (`C95_flag_mixed`); and the settings that are lost (`C95_flag_lost`). -/
theorem C95_flag_partial (w : Dir F) (h : NoFile w) (path : Bytes) (hp : path ≠ []) (f : F) (hf : w path = some f) (c : Config D)
    (hd : Y.decode f init = .ok c) (hs : c.source ≠ none) (hst : c.strict ≠ none) (hdb : c.database ≠ none) :
    ∃ r, root Y w path = .ok r ∧ Used c r := by
  rw [flag_merge Y hp (default_none Y h) hf hd]
  have gd : ∀ x d : Bytes, Given x d (orElse (orElse x d) d) := by
    intro x d; rw [orElse_self]; exact given x d
  have key : ∀ dt : Option (Bytes → Option D), (∀ k, (dt.getD fun _ => none) k = (c.dataTypes.getD fun _ => none) k) →
      ∃ r, r = initIfEmpty { (init : Config D) with
        quoteIdentifier := c.quoteIdentifier
        source := c.source.or (init : Config D).source
        driver := orElse c.driver (init : Config D).driver
        naming := orElse c.naming (init : Config D).naming
        strict := c.strict.or (init : Config D).strict
        tag := orElse c.tag (init : Config D).tag
        prefix_ := orElse c.prefix_ (init : Config D).prefix_
        skipEmpty := c.skipEmpty || (init : Config D).skipEmpty
        filename := orElse c.filename (init : Config D).filename
        database := match c.database with
          | some d => some ⟨d.package, d.dir, d.filename, d.operator.or ((none : Option Operator))⟩
          | none => (init : Config D).database
        skipHeader := c.skipHeader || (init : Config D).skipHeader
        skipModTidy := c.skipModTidy || (init : Config D).skipModTidy
        migration := c.migration.or (init : Config D).migration
        dataTypes := dt } ∧ Used c r := by
    intro dt hdt
    refine ⟨_, rfl, ?_⟩
    constructor
    · simp only [initIfEmpty]
      cases hc : c.source with
      | none => exact absurd hc hs
      | some s => rfl
    · exact gd _ _
    · exact gd _ _
    · exact gd _ _
    · rfl
    · simp only [initIfEmpty]
      cases hc : c.strict with
      | none => exact absurd hc hst
      | some s => rfl
    · simp only [initIfEmpty]; exact Bool.or_false _
    · exact gd _ _
    · exact gd _ _
    · simp only [initIfEmpty]
      cases hc : c.database with
      | none => exact absurd hc hdb
      | some d =>
        simp only [Option.or_none, Option.getD_some]
        exact ⟨_, rfl, fill_of (some d)⟩
    · simp only [initIfEmpty]; exact Bool.or_false _
    · simp only [initIfEmpty]; exact Bool.or_false _
    · exact ⟨_, rfl, hdt⟩
  obtain ⟨r, hr⟩ | ⟨h1, _⟩ := merge_total (nonempty := Y.nonempty) (c := init) (m := c)
  · obtain ⟨dt, h1, h2, _, rfl⟩ := merge_eq hr
    obtain ⟨r, rfl, k⟩ := key dt (by
      cases hdt : c.dataTypes with
      | none => rw [h1 hdt]; intro k; rfl
      | some g => rw [h2 g hdt _ rfl]; intro k; simp)
    exact ⟨_, hr, k⟩
  · cases h1

/-- C95, false: with the flag, settings of the file of the directory remain in force: what it turns on stays on, whatever the
given file says, and its data types and migrations are used if the given file has no others. -/
theorem C95_flag_mixed (w : Dir F) (f0 : F) (h : Current w f0) (c0 : Config D) (h0 : Y.decode f0 init = .ok c0) (path : Bytes)
    (hp : path ≠ []) (f : F) (hf : w path = some f) (c : Config D) (hd : Y.decode f init = .ok c) (r : Config D)
    (hr : root Y w path = .ok r) :
    (c0.skipModTidy = true → r.skipModTidy = true) ∧ (c0.skipEmpty = true → r.skipEmpty = true) ∧
    (c0.skipHeader = true → r.skipHeader = true) ∧
    (c.migration = none → r.migration = c0.migration.map fillMigration) ∧
    (∀ g k v, c0.dataTypes = some g → g k = some v → (∀ g', c.dataTypes = some g' → g' k = none) →
      ∃ m, r.dataTypes = some m ∧ m k = some v) := by
  rw [flag_merge Y hp (default_current Y h h0) hf hd] at hr
  obtain ⟨dt, h1, h2, _, rfl⟩ := merge_eq hr
  refine ⟨fun e => by simp [initIfEmpty, e], fun e => by simp [initIfEmpty, e], fun e => by simp [initIfEmpty, e],
    fun e => by simp [initIfEmpty, e], ?_⟩
  intro g k v hg hk hn
  refine ⟨_, rfl, ?_⟩
  cases hc : c.dataTypes with
  | none => rw [h1 hc, hg]; exact hk
  | some g' =>
    rw [h2 g' hc g hg]
    show (g' k).or (g k) = some v
    rw [hn g' hc, hk]
    rfl

/-- C95, false: with the flag, three settings of the given file are never used, but those of the directory. -/
theorem C95_flag_lost (w : Dir F) (c0 : Config D) (h0 : (∃ f0, Current w f0 ∧ Y.decode f0 init = .ok c0) ∨ NoFile w ∧ c0 = init)
    (path : Bytes) (hp : path ≠ []) (f : F) (hf : w path = some f) (c : Config D) (hd : Y.decode f init = .ok c) (r : Config D)
    (hr : root Y w path = .ok r) : Rest c0 r := by
  have hd0 : defaultConfig Y w = .ok c0 := by
    rcases h0 with ⟨f0, h, h0⟩ | ⟨h, rfl⟩
    · exact default_current Y h h0
    · exact default_none Y h
  rw [flag_merge Y hp hd0 hf hd] at hr
  exact C52_ignored hr

/-- C95. A file that does not exist or cannot be read is an error. -/
theorem C95_flag_error (w : Dir F) (c0 : Config D) (h0 : (∃ f0, Current w f0 ∧ Y.decode f0 init = .ok c0) ∨ NoFile w ∧ c0 = init)
    (path : Bytes) (hp : path ≠ []) (hf : ∀ f, w path = some f → Y.decode f init = .err) : root Y w path = .err := by
  have hd0 : defaultConfig Y w = .ok c0 := by
    rcases h0 with ⟨f0, h, h0⟩ | ⟨h, rfl⟩
    · exact default_current Y h h0
    · exact default_none Y h
  have hl : loadConfigFrom Y w path = .err := by
    unfold loadConfigFrom
    cases hw : w path with
    | none => rfl
    | some f => exact hf f hw
  unfold root
  rw [hd0]
  show (if path ≠ [] then _ else _) = _
  rw [if_pos hp, hl]
  rfl

/-- C95, false: if the configuration file of the directory cannot be read, every run panics, even one with another file given, and
so does writing it anew. -/
theorem C95_broken (w : Dir F) (f : F) (h : Current w f) (hd : Y.decode f init = .err) (path src : Bytes) (a : Answer) (ok : Bool) :
    root Y w path = .panic ∧ source Y w src = .panic ∧ setup Y w true a ok = .panic := by
  have hp : defaultConfig Y w = .panic := by
    unfold defaultConfig
    rw [(find_current w f).2 h]
    simp only [hd]
  unfold root source setup
  rw [hp]
  exact ⟨rfl, rfl, rfl⟩

/-! ## A new configuration file -/

/-- C95. After `sqlgen init` the next run uses the answers, and all other settings as before. `hY`: what is written is what
is read; `strict` and the other settings are written then. -/
theorem C95_init (w : Dir F) (force : Bool) (hw : force = true ∨ w (lit "sqlgen.yml") = none) (c : Config D)
    (hc : (∃ f, Current w f ∧ Y.decode f init = .ok c) ∨ NoFile w ∧ c = init) (a : Answer)
    (hn : a.naming = lit "snake_case" ∨ a.naming = lit "camelCase" ∨ a.naming = lit "PascalCase")
    (hY : Y.decode (Y.encode { c with driver := a.driver, naming := a.naming, tag := a.tag, strict := some a.strict }) init =
      .ok { c with driver := a.driver, naming := a.naming, tag := a.tag, strict := some a.strict }) :
    ∃ w' r, setup Y w force a true = .ok w' ∧ (∀ n, n ≠ lit "sqlgen.yml" → w' n = w n) ∧ root Y w' [] = .ok r ∧
      Used { c with driver := a.driver, naming := a.naming, tag := a.tag, strict := some a.strict } r ∧ Rest c r := by
  have hd : defaultConfig Y w = .ok c := by
    rcases hc with ⟨f, h, hd⟩ | ⟨h, rfl⟩
    · exact default_current Y h hd
    · exact default_none Y h
  have ha : answered a c = { c with driver := a.driver, naming := a.naming, tag := a.tag, strict := some a.strict } := by
    unfold answered
    rw [if_pos]
    simp only [List.mem_cons, List.not_mem_nil, or_false]
    rcases hn with h | h | h
    · exact .inl h
    · exact .inr (.inr h)
    · exact .inr (.inl h)
  obtain ⟨r, h1, h2, h3⟩ := C95_file Y
    (fun n => if n = lit "sqlgen.yml" then some (Y.encode (answered a c)) else w n) (Y.encode (answered a c))
    ⟨[], lit "sqlgen.yml", _, rfl, if_pos rfl, by simp⟩ _ (by rw [ha]; exact hY)
  refine ⟨_, r, ?_, fun n hn => if_neg hn, h1, h2, h3⟩
  unfold setup
  rw [if_neg, hd]
  · rfl
  · rcases hw with rfl | hw
    · simp
    · rw [hw]; simp

/-- C95. `sqlgen init` leaves an existing file as it is without the flag for it, and all files if the last question is answered no. -/
theorem C95_init_keeps (w : Dir F) (a : Answer) (force ok : Bool)
    (h : force = false ∧ (∃ f, w (lit "sqlgen.yml") = some f) ∨ ok = false) (w' : Dir F) (hs : setup Y w force a ok = .ok w') : w' = w := by
  unfold setup at hs
  split at hs
  · cases hs; rfl
  · rename_i hf
    rcases h with ⟨rfl, f, hf'⟩ | rfl
    · rw [hf'] at hf; exact absurd rfl hf
    · cases hd : defaultConfig Y w with
      | ok c => rw [hd] at hs; cases hs; rfl
      | err => rw [hd] at hs; cases hs
      | panic => rw [hd] at hs; cases hs

/-! ## Concrete cases -/

/-- Files that are configurations, one that cannot be read. -/
private def plainYaml : Yaml Unit (Option (Config Unit)) where
  decode := fun f _ => match f with | some c => .ok c | none => .err
  encode := some
  nonempty := fun _ => true

/-- Two configuration files, the second of which does not count, another file, and one that cannot be read. -/
private def someDir : Dir (Option (Config Unit)) := fun n =>
  if n = lit ".sqlgen.yml" then some (some { (init : Config Unit) with skipModTidy := true, driver := lit "sqlite" })
  else if n = lit "sqlgen.yaml" then some none
  else if n = lit "other.yml" then some (some { (init : Config Unit) with driver := lit "postgres", omitGetters := true })
  else none

private theorem someCurrent : Current someDir (some { (init : Config Unit) with skipModTidy := true, driver := lit "sqlite" }) :=
  ⟨[lit "sqlgen.yml"], lit ".sqlgen.yml", [lit ".sqlgen.yaml", lit "sqlgen.yaml"], rfl, by unfold someDir; rw [if_pos rfl], by
    intro m hm; rw [List.mem_singleton.1 hm]; unfold someDir; decide +kernel⟩

/-- The file of the directory counts; `other.yml` cannot turn off what it turns on, and its own setting is lost. -/
example : (match root plainYaml someDir (lit "other.yml") with
    | .ok r => decide (r.driver = lit "postgres" ∧ r.skipModTidy = true ∧ r.omitGetters = false)
    | _ => false) = true := by decide +kernel

example : ∃ r, root plainYaml someDir [] = .ok r ∧ r.driver = lit "sqlite" :=
  let ⟨r, h1, h2, _⟩ := C95_file plainYaml someDir _ someCurrent _ rfl
  ⟨r, h1, h2.driver.1 (by decide +kernel)⟩

example : ∃ w' r, setup plainYaml someDir false ⟨lit "postgres", lit "camelCase", lit "db", false⟩ true = .ok w' ∧
    root plainYaml w' [] = .ok r ∧ r.driver = lit "postgres" ∧ r.strict = some false :=
  let ⟨w', r, h1, _, h2, h3, _⟩ := C95_init plainYaml someDir false (.inr (by unfold someDir; decide +kernel)) _ (.inl ⟨_, someCurrent, rfl⟩)
    ⟨lit "postgres", lit "camelCase", lit "db", false⟩ (.inr (.inl rfl)) rfl
  ⟨w', r, h1, h2, h3.driver.1 (by decide +kernel), h3.strict⟩

/-- A directory whose only file cannot be read. -/
example : root plainYaml (fun n => if n = lit "sqlgen.yml" then some none else none) (lit "other.yml") = .panic :=
  (C95_broken plainYaml _ none ⟨[], lit "sqlgen.yml", _, rfl, if_pos rfl, by simp⟩ rfl _ [] ⟨[], [], [], true⟩ true).1

example : NoFile (fun _ => none : Dir (Option (Config Unit))) := fun _ _ => rfl

end Verif.Props
