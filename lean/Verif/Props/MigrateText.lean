import Verif.Lemmas.MigrateRead

/-!
# C106: the script of a migration is read as it is meant

What is left after reading the script of `Migrate` as a database and the tool that runs it do.
-/

namespace Verif.Props

open Verif Verif.Migrate Verif.Spec.Ddl

variable {S : Server} {q md5 : Bytes → Bytes} {table : Bytes} {pks : List Bytes}

/-- All names in a script. -/
def scriptNames (md5 : Bytes → Bytes) (table : Bytes) (pks : List Bytes) (s : Script) : List Bytes :=
  table :: keyName md5 pks :: (pks ++ (s.create.map (·.name) ++ (s.up.map target ++ s.down.map target)))

theorem clauses_of {as : List Action} {cs : List Clause} (hS : Sound S) (h : List.Forall₂ (Says S) as cs) (hn : ∀ a ∈ as, NameOk S q (target a)) :
    ∃ ps, List.Forall₂ (fun a p => Toks S (a.text q) p) as ps ∧ (∀ p ∈ ps, Whole false p) ∧ (∀ p ∈ ps, p ≠ []) ∧ ps.mapM (clause S) = some cs := by
  induction h with
  | nil => exact ⟨[], .nil, by simp, by simp, rfl⟩
  | @cons a c as cs hc _ ih =>
    obtain ⟨ps, h1, h2, h3, h4⟩ := ih fun a ha => hn a (by simp [ha])
    obtain ⟨p, g1, g2, g3, g4⟩ := toks_says hS hc (hn a (by simp))
    exact ⟨p :: ps, .cons g1 h1, by simpa using ⟨g2, h2⟩, by simpa using ⟨g3, h3⟩, by simp [g4, h4]⟩

/-- A clause that is read, or a column to be added without a type. -/
def Written (S : Server) (a : Action) : Prop :=
  (∃ c, Says S a c) ∨ ∃ n nn v, a = .add n none nn v ∧ ∀ x, v = some x → ∃ d, symbols S x = some d ∧ Whole false d

/-- The clauses of a script, one of them without a type. -/
theorem clauses_bare {as : List Action} (hS : Sound S) (h : ∀ a ∈ as, Written S a) (hn : ∀ a ∈ as, NameOk S q (target a)) :
    ∃ ps, List.Forall₂ (fun a p => Toks S (a.text q) p) as ps ∧ (∀ p ∈ ps, Whole false p) ∧ (∀ p ∈ ps, p ≠ []) ∧
      ((∃ n nn v, Action.add n none nn v ∈ as) → ps.mapM (clause S) = none) := by
  induction as with
  | nil => exact ⟨[], .nil, by simp, by simp, by simp⟩
  | cons a as ih =>
    obtain ⟨ps, h1, h2, h3, h4⟩ := ih (fun a ha => h a (by simp [ha])) fun a ha => hn a (by simp [ha])
    rcases h a (by simp) with ⟨c, hc⟩ | ⟨n, nn, v, rfl, hv⟩
    · obtain ⟨p, g1, g2, g3, g4⟩ := toks_says hS hc (hn a (by simp))
      refine ⟨p :: ps, .cons g1 h1, by simpa using ⟨g2, h2⟩, by simpa using ⟨g3, h3⟩, ?_⟩
      rintro ⟨n, nn, v, hm⟩
      rcases List.mem_cons.1 hm with rfl | hm
      · cases c <;> simp only [Says] at hc
      · simp [g4, h4 ⟨n, nn, v, hm⟩]
    · obtain ⟨p, g1, g2, g3, g4⟩ := toks_bare hS (nn := nn) (v := v) (hn (.add n none nn v) (by simp)) hv
      exact ⟨p :: ps, .cons g1 h1, by simpa using ⟨g2, h2⟩, by simpa using ⟨g3, h3⟩, fun _ => by simp [g4]⟩

/-- C106: a database that reads the script of a migration finds what is meant: the table with its columns and key is created, then
altered; and altered back.  Whatever the types, the defaults and the names are, as long as types and defaults are such by themselves and
names have no quotes. -/
theorem C106_reads_partial (hS : Sound S) {s : Script} (hn : ∀ n ∈ scriptNames md5 table pks s, NameOk S q n) (hne : s.create ≠ [])
    {cols : List Col} (hc : List.Forall₂ (fun m c => ColOf S m.name m.type (!m.nullable) m.dflt c) s.create cols)
    {us ds : List Clause} (hu : List.Forall₂ (Says S) s.up us) (hd : List.Forall₂ (Says S) s.down ds)
    (hl : S.lax = true ∨ (s.up ≠ [] ∧ s.down ≠ [])) :
    script S (scriptText q md5 table pks s) =
      some (some [.create table cols (if pks = [] then none else some (keyName md5 pks, pks)), .alter table us], some [.alter table ds]) := by
  have hn' : ∀ n, n ∈ scriptNames md5 table pks s ↔ n = table ∨ n = keyName md5 pks ∨ n ∈ pks ∨ (∃ m ∈ s.create, m.name = n) ∨
      (∃ a ∈ s.up, target a = n) ∨ ∃ a ∈ s.down, target a = n := by simp [scriptNames]
  have ht := hn table ((hn' _).2 (.inl rfl))
  obtain ⟨cs, c, ec, h1, h2, h3⟩ := toks_create hS (md5 := md5) ht hne (fun m hm => hn _ ((hn' _).2 (.inr (.inr (.inr (.inl ⟨m, hm, rfl⟩))))))
    (fun n h => hn _ ((hn' _).2 (.inr (.inr (.inl h))))) (hn _ ((hn' _).2 (.inr (.inl rfl)))) hc
  obtain ⟨ps, g1, g2, g3, g4⟩ := clauses_of hS hu fun a ha => hn _ ((hn' _).2 (.inr (.inr (.inr (.inr (.inl ⟨a, ha, rfl⟩))))))
  obtain ⟨ps', k1, k2, k3, k4⟩ := clauses_of hS hd fun a ha => hn _ ((hn' _).2 (.inr (.inr (.inr (.inr (.inr ⟨a, ha, rfl⟩))))))
  obtain ⟨u, eu, u1, u2⟩ := toks_alter hS ht g1 g2
  obtain ⟨d, ed, d1, d2⟩ := toks_alter hS ht k1 k2
  have main : ∀ (as : List Action) (ps : List (List Sym)) (cs : List Clause), List.Forall₂ (fun a p => Toks S (a.text q) p) as ps →
      (∀ p ∈ ps, Whole false p) → (∀ p ∈ ps, p ≠ []) → ps.mapM (clause S) = some cs → (S.lax = true ∨ as ≠ []) →
      stmt S (kw "ALTER" :: kw "TABLE" :: .name table :: joinS ps) = some (.alter table cs) := by
    intro as ps cs f1 f2 f3 f4 f5
    rw [stmt_alter f2 f3]
    split
    · rename_i e
      subst e
      cases f1
      simp only [List.mapM_nil, Option.pure_def, Option.some.injEq] at f4
      subst f4
      rw [if_pos (f5.resolve_right (by simp))]
    · rw [f4]; rfl
  rw [script_toks hS ec eu ed h1 u1 d1 h2 u2 d2]
  simp [h3, main _ _ _ g1 g2 g3 g4 (hl.imp_right And.left), main _ _ _ k1 k2 k3 k4 (hl.imp_right And.right)]

/-- C106: a column that is dropped cannot be added again: the way back has no type for it and is refused as a whole, although the way
there is done. -/
theorem C106_no_way_back (hS : Sound S) {s : Script} (hn : ∀ n ∈ scriptNames md5 table pks s, NameOk S q n) (hne : s.create ≠ [])
    {cols : List Col} (hc : List.Forall₂ (fun m c => ColOf S m.name m.type (!m.nullable) m.dflt c) s.create cols)
    {us : List Clause} (hu : List.Forall₂ (Says S) s.up us) (hup : s.up ≠ []) (hd : ∀ a ∈ s.down, Written S a)
    (hb : ∃ n nn v, Action.add n none nn v ∈ s.down) :
    script S (scriptText q md5 table pks s) =
      some (some [.create table cols (if pks = [] then none else some (keyName md5 pks, pks)), .alter table us], none) := by
  have hn' : ∀ n, n ∈ scriptNames md5 table pks s ↔ n = table ∨ n = keyName md5 pks ∨ n ∈ pks ∨ (∃ m ∈ s.create, m.name = n) ∨
      (∃ a ∈ s.up, target a = n) ∨ ∃ a ∈ s.down, target a = n := by simp [scriptNames]
  have ht := hn table ((hn' _).2 (.inl rfl))
  obtain ⟨cs, c, ec, h1, h2, h3⟩ := toks_create hS (md5 := md5) ht hne (fun m hm => hn _ ((hn' _).2 (.inr (.inr (.inr (.inl ⟨m, hm, rfl⟩))))))
    (fun n h => hn _ ((hn' _).2 (.inr (.inr (.inl h))))) (hn _ ((hn' _).2 (.inr (.inl rfl)))) hc
  obtain ⟨ps, g1, g2, g3, g4⟩ := clauses_of hS hu fun a ha => hn _ ((hn' _).2 (.inr (.inr (.inr (.inr (.inl ⟨a, ha, rfl⟩))))))
  obtain ⟨ps', k1, k2, k3, k4⟩ := clauses_bare hS hd fun a ha => hn _ ((hn' _).2 (.inr (.inr (.inr (.inr (.inr ⟨a, ha, rfl⟩))))))
  obtain ⟨u, eu, u1, u2⟩ := toks_alter hS ht g1 g2
  obtain ⟨d, ed, d1, d2⟩ := toks_alter hS ht k1 k2
  have hps : ps ≠ [] := by rintro rfl; exact hup (List.forall₂_nil_right_iff.1 g1)
  have hps' : ps' ≠ [] := by
    rintro rfl
    obtain ⟨n, nn, v, hm⟩ := hb
    rw [List.forall₂_nil_right_iff.1 k1] at hm
    cases hm
  rw [script_toks hS ec eu ed h1 u1 d1 h2 u2 d2]
  simp [h3, stmt_alter g2 g3, stmt_alter k2 k3, if_neg hps, if_neg hps', g4, k4 hb]

/-! ## PostgreSQL -/

theorem typeOf_value {t : Bytes} {ty : List Sym} (h : Value S t ty) : TypeOf S t ty false none := by
  obtain ⟨h1, h2, h3, h4⟩ := h
  refine ⟨ty, h1, h3, ?_⟩
  unfold column
  rw [(takeWhile_all h4).1, (takeWhile_all h4).2]
  simp [h2, attrs]

/-- What a column has: a type, and perhaps a default. -/
def Typed (S : Server) (t : Bytes) (d : Option Bytes) : Prop := (∃ ty, Value S t ty) ∧ ∀ x, d = some x → ∃ v, Value S x v

theorem colOf_typed {n t : Bytes} {nn : Bool} {d : Option Bytes} (h : Typed S t d) : ∃ c, ColOf S n t nn d c := by
  obtain ⟨⟨ty, hty⟩, hd⟩ := h
  cases d with
  | none => exact ⟨⟨n, ty, nn, none⟩, false, none, typeOf_value hty, rfl, by simp, rfl⟩
  | some x =>
    obtain ⟨v, hv⟩ := hd x rfl
    exact ⟨⟨n, ty, nn, some v⟩, false, none, typeOf_value hty, rfl, by simp, v, hv, rfl, .inr rfl⟩

theorem forall₂_exists {α β : Type} {R : α → β → Prop} {l : List α} (h : ∀ a ∈ l, ∃ b, R a b) : ∃ l', List.Forall₂ R l l' := by
  induction l with
  | nil => exact ⟨[], .nil⟩
  | cons a l ih =>
    obtain ⟨b, hb⟩ := h a (by simp)
    obtain ⟨l', hl⟩ := ih fun a ha => h a (by simp [ha])
    exact ⟨b :: l', .cons hb hl⟩

/-- C106: on PostgreSQL the way there is always read, and it says for the columns what the model says; the way back is read exactly if no
column is dropped. -/
theorem C106_way_back_iff (hS : Sound S) {ms : List GoCol} {ex : List DbCol} {s : Script} (h : pgMigrate ms ex = some s)
    (hm : (ms.map (·.name)).Nodup) (hx : (ex.map (·.name)).Nodup)
    (tm : ∀ m ∈ ms, Typed S m.type m.dflt) (tx : ∀ c ∈ ex, Typed S c.type c.dflt)
    (hn : ∀ n ∈ table :: keyName md5 pks :: (pks ++ (ms.map (·.name) ++ ex.map (·.name))), NameOk S q n) :
    ∃ cols us d, script S (scriptText q md5 table pks s) =
        some (some [.create table cols (if pks = [] then none else some (keyName md5 pks, pks)), .alter table us], d) ∧
      List.Forall₂ (fun m c => ColOf S m.name m.type (!m.nullable) m.dflt c) ms cols ∧ List.Forall₂ (Says S) s.up us ∧
      (d.isSome = true ↔ ∀ c ∈ ex, ∃ m ∈ ms, m.name = c.name) := by
  have hdiff := Spec.Migrate.diff_eq ms ex hm hx
  unfold pgMigrate at h
  simp only at h
  split at h
  · cases h
  rename_i hnone
  simp only [Option.some.injEq] at h
  rw [hdiff] at h hnone
  subst h
  have hn' : ∀ n, (n = table ∨ n = keyName md5 pks ∨ n ∈ pks ∨ (∃ m ∈ ms, m.name = n) ∨ ∃ c ∈ ex, c.name = n) → NameOk S q n := by
    intro n hh
    exact hn n (by simpa using hh)
  have hsays : ∀ a, (a ∈ upActions (diff ms ex) → ∃ c, Says S a c) := by
    rw [hdiff]
    intro a ha
    simp only [upActions, List.mem_append, List.mem_map] at ha
    rcases ha with (⟨p, hp, rfl⟩ | ⟨m, hp, rfl⟩) | ⟨c, hp, rfl⟩
    · obtain ⟨h1, -⟩ := (Spec.Migrate.mem_updated hx).1 hp
      obtain ⟨⟨ty, hty⟩, -⟩ := tm _ h1
      exact ⟨.setType p.2.name ty, rfl, hty⟩
    · obtain ⟨c, hc⟩ := colOf_typed (n := m.name) (nn := !m.nullable) (tm m (List.mem_of_mem_filter hp))
      exact ⟨.add c, hc⟩
    · exact ⟨.drop c.name, rfl⟩
  rw [hdiff] at hsays
  obtain ⟨us, hus⟩ := forall₂_exists hsays
  obtain ⟨cols, hcols⟩ := forall₂_exists fun m (hm' : m ∈ ms) => colOf_typed (n := m.name) (nn := !m.nullable) (tm m hm')
  have written : ∀ a ∈ downActions ⟨ms.filter (fun m => m.name ∉ Spec.Migrate.names ex), ms.filterMap (Spec.Migrate.changed ex), ex.filter (fun c => c.name ∉ Spec.Migrate.gnames ms)⟩,
      (∃ c, Says S a c) ∨ ∃ c ∈ ex.filter (fun c => c.name ∉ Spec.Migrate.gnames ms), a = .add c.name none (!c.nullable) c.dflt := by
    intro a ha
    simp only [downActions, List.mem_append, List.mem_map, List.mem_flatMap] at ha
    rcases ha with (⟨p, hp, ha⟩ | ⟨m, hp, rfl⟩) | ⟨c, hp, rfl⟩
    · obtain ⟨-, h1, -⟩ := (Spec.Migrate.mem_updated hx).1 hp
      obtain ⟨⟨ty, hty⟩, hd⟩ := tx _ h1
      left
      simp only [restore, List.mem_append, List.mem_singleton] at ha
      rcases ha with (rfl | ha) | ha
      · exact ⟨.setType p.1.name ty, rfl, hty⟩
      · split at ha
        · cases ha
        · rw [List.mem_singleton.1 ha]
          exact ⟨.setNotNull p.1.name, rfl⟩
      · cases hdf : p.1.dflt with
        | none => rw [hdf] at ha; cases ha
        | some v =>
          rw [hdf] at ha
          rw [List.mem_singleton.1 ha]
          obtain ⟨w, w1, w2, w3, -⟩ := hd v hdf
          exact ⟨.setDefault p.1.name w, rfl, w1, w2, w3⟩
    · exact .inl ⟨.drop m.name, rfl⟩
    · exact .inr ⟨c, hp, rfl⟩
  have nonempty : upActions ⟨ms.filter (fun m => m.name ∉ Spec.Migrate.names ex), ms.filterMap (Spec.Migrate.changed ex), ex.filter (fun c => c.name ∉ Spec.Migrate.gnames ms)⟩ ≠ [] ∧
      downActions ⟨ms.filter (fun m => m.name ∉ Spec.Migrate.names ex), ms.filterMap (Spec.Migrate.changed ex), ex.filter (fun c => c.name ∉ Spec.Migrate.gnames ms)⟩ ≠ [] := by
    simp only at hnone
    generalize ms.filter (fun m => m.name ∉ Spec.Migrate.names ex) = x at hnone
    generalize ms.filterMap (Spec.Migrate.changed ex) = y at hnone
    constructor
    · intro e
      simp only [upActions, List.append_eq_nil_iff, List.map_eq_nil_iff] at e
      exact hnone ⟨e.1.2, e.1.1⟩
    · intro e
      simp only [downActions, List.append_eq_nil_iff, List.map_eq_nil_iff] at e
      refine hnone ⟨e.1.2, ?_⟩
      cases y with
      | nil => rfl
      | cons p y => simp [restore] at e
  have mne : ms ≠ [] := by
    rintro rfl
    exact hnone ⟨rfl, rfl⟩
  have targets : ∀ a, (a ∈ upActions ⟨ms.filter (fun m => m.name ∉ Spec.Migrate.names ex), ms.filterMap (Spec.Migrate.changed ex), ex.filter (fun c => c.name ∉ Spec.Migrate.gnames ms)⟩ ∨
      a ∈ downActions ⟨ms.filter (fun m => m.name ∉ Spec.Migrate.names ex), ms.filterMap (Spec.Migrate.changed ex), ex.filter (fun c => c.name ∉ Spec.Migrate.gnames ms)⟩) →
      (∃ m ∈ ms, m.name = target a) ∨ ∃ c ∈ ex, c.name = target a := by
    intro a ha
    simp only [upActions, downActions, List.mem_append, List.mem_map, List.mem_flatMap] at ha
    rcases ha with ((⟨p, hp, rfl⟩ | ⟨m, hp, rfl⟩) | ⟨c, hp, rfl⟩) | ((⟨p, hp, ha⟩ | ⟨m, hp, rfl⟩) | ⟨c, hp, rfl⟩)
    · exact .inl ⟨p.2, ((Spec.Migrate.mem_updated hx).1 hp).1, rfl⟩
    · exact .inl ⟨m, List.mem_of_mem_filter hp, rfl⟩
    · exact .inr ⟨c, List.mem_of_mem_filter hp, rfl⟩
    · refine .inr ⟨p.1, ((Spec.Migrate.mem_updated hx).1 hp).2.1, ?_⟩
      simp only [restore, List.mem_append, List.mem_singleton] at ha
      rcases ha with (rfl | ha) | ha
      · rfl
      · split at ha
        · cases ha
        · rw [List.mem_singleton.1 ha]; rfl
      · cases hdf : p.1.dflt with
        | none => rw [hdf] at ha; cases ha
        | some v => rw [hdf] at ha; rw [List.mem_singleton.1 ha]; rfl
    · exact .inl ⟨m, List.mem_of_mem_filter hp, rfl⟩
    · exact .inr ⟨c, List.mem_of_mem_filter hp, rfl⟩
  have hnames : ∀ n ∈ scriptNames md5 table pks ⟨ms, upActions ⟨ms.filter (fun m => m.name ∉ Spec.Migrate.names ex), ms.filterMap (Spec.Migrate.changed ex), ex.filter (fun c => c.name ∉ Spec.Migrate.gnames ms)⟩,
      downActions ⟨ms.filter (fun m => m.name ∉ Spec.Migrate.names ex), ms.filterMap (Spec.Migrate.changed ex), ex.filter (fun c => c.name ∉ Spec.Migrate.gnames ms)⟩⟩, NameOk S q n := by
    intro n hh
    apply hn'
    simp only [scriptNames, List.mem_cons, List.mem_append, List.mem_map] at hh
    rcases hh with h | h | h | h | ⟨a, ha, rfl⟩ | ⟨a, ha, rfl⟩
    · exact .inl h
    · exact .inr (.inl h)
    · exact .inr (.inr (.inl h))
    · exact .inr (.inr (.inr (.inl h)))
    · exact .inr (.inr (.inr (targets a (.inl ha))))
    · exact .inr (.inr (.inr (targets a (.inr ha))))
  have hrest : (∀ c ∈ ex, ∃ m ∈ ms, m.name = c.name) ↔ ex.filter (fun c => c.name ∉ Spec.Migrate.gnames ms) = [] := by
    simp [List.filter_eq_nil_iff, Spec.Migrate.gnames]
  by_cases hr : ex.filter (fun c => c.name ∉ Spec.Migrate.gnames ms) = []
  · obtain ⟨ds, hds⟩ := forall₂_exists fun a ha => (written a ha).resolve_right (by rw [hr]; simp)
    exact ⟨cols, us, _, C106_reads_partial hS hnames mne hcols hus hds (.inr nonempty), hcols, hus, by simpa [hrest] using hr⟩
  · obtain ⟨c, hc⟩ := List.exists_mem_of_ne_nil _ hr
    refine ⟨cols, us, _, C106_no_way_back hS hnames mne hcols hus nonempty.1 ?_ ⟨c.name, !c.nullable, c.dflt, ?_⟩, hcols, hus, by simpa [hrest] using hr⟩
    · intro a ha
      rcases written a ha with h | ⟨c, hc, rfl⟩
      · exact .inl h
      · refine .inr ⟨_, _, _, rfl, fun x e => ?_⟩
        obtain ⟨v, v1, -, v3, -⟩ := (tx c (List.mem_of_mem_filter hc)).2 x e
        exact ⟨v, v1, v3⟩
    · simp only [downActions, List.mem_append, List.mem_map]
      exact .inr ⟨c, hc, rfl⟩

end Verif.Props
