import Verif.Lemmas.Keyed

/-!
# Properties C89 and C90: the generated statements at work on a database
-/

namespace Verif.Props

open Verif Verif.Gen Verif.Spec Verif.Spec.Gen Verif.Spec.Sql Verif.Spec.Store Verif.Store

variable {F X V : Type}

/-! ### C89 -/

/-- C89. The generated INSERT is read by the database as an insert into the table of the model, with the declared
columns and the values of their fields; for PostgreSQL it returns all columns. -/
theorem C89_insert (g : Cfg) (D : Dialect) (t : Table F) (hn : Named g D t) (ht : NoTemplates t)
    (hi : pick t (insertPos t) ≠ []) :
    ∃ text fields, g.genInsertOne t = .ok (text, fields) ∧ ∀ (V : Type) (rec : F → V),
      (Spec.bind g.style text (fields.map rec)).bind (Sql.read D) =
        some (.insert (tableName D t) ((pick t (insertPos t)).map (colName D)) ((pick t (insertPos t)).map fun c => rec c.field)
          (if g.postgres then t.columns.map (colName D) else [])) := by
  obtain ⟨text, fs, e, hb⟩ := C20_insert_one g t (templatesOk ht)
  exact ⟨text, fs, e, fun V rec => by rw [hb V rec, Option.bind_some, read_insertB hn ht hi]⟩

/-- C89. The generated SELECT is read as one of all columns in order, from the row with the key of the record. -/
theorem C89_find (g : Cfg) (D : Dialect) (t : Table F) (hw : WF t) (hn : Named g D t) (ht : NoTemplates t)
    (hk : pick t (keyPos t) ≠ []) :
    ∃ text fields, g.genFindByPK t = .ok (text, fields) ∧ ∀ (V : Type) (rec : F → V),
      (Spec.bind g.style text (fields.map rec)).bind (Sql.read D) =
        some (.select (t.columns.map (colName D)) (tableName D t)
          ((pick t (keyPos t)).map fun c => (colName D c, rec c.field))) := by
  have hp : t.hasPK = true := by
    cases ha : t.auto with
    | some i => simp [Table.hasPK, ha]
    | none =>
      cases hkk : t.keys with
      | nil => simp [keyPos, ha, hkk, pick] at hk
      | cons => simp [Table.hasPK, hkk]
  obtain ⟨text, fs, e, hb⟩ := C21_find_by_key_partial g t hw (templatesOk ht) hp
    (.inr fun c hc => (ht c (mem_of_pick hc)).1)
  exact ⟨text, fs, e, fun V rec => by rw [hb V rec, Option.bind_some, read_findB hn ht hk]⟩

/-- C89, for the UPDATE, as far as its parameters are numbered correctly (C22): it is read as one of the columns that are
not keys, in the row with the key of the record. -/
theorem C89_update_partial (g : Cfg) (D : Dialect) (t : Table F) (hw : WF t) (hn : Named g D t) (ht : NoTemplates t)
    (hk : pick t (keyPos t) ≠ []) (hu : pick t (updatePos t) ≠ [])
    (hs : 2 ≤ (pick t (keyPos t)).length ∨ g.style = .anon ∨ t.columns.length = (updatePos t).length + 1) :
    ∃ text fields, g.genUpdateByPK t = .ok (text, fields) ∧ ∀ (V : Type) (rec : F → V),
      (Spec.bind g.style text (fields.map rec)).bind (Sql.read D) =
        some (.update (tableName D t) ((pick t (updatePos t)).map fun c => (colName D c, rec c.field))
          ((pick t (keyPos t)).map fun c => (colName D c, rec c.field))) := by
  have hp : t.hasPK = true := by
    cases ha : t.auto with
    | some i => simp [Table.hasPK, ha]
    | none =>
      cases hkk : t.keys with
      | nil => simp [keyPos, ha, hkk, pick] at hk
      | cons => simp [Table.hasPK, hkk]
  obtain ⟨text, fs, e, hb⟩ := C22_update_by_key_partial g t hw (templatesOk ht) hp
    (hs.imp id fun h => ⟨fun c hc => (ht c (mem_of_pick hc)).1, h⟩)
  exact ⟨text, fs, e, fun V rec => by rw [hb V rec, Option.bind_some, read_updateB hn ht hu hk]⟩

/-- C89, for the DELETE, if names need no quotes or are written with quotes: it is read as one from the same table, of
the row with the key of the record. -/
theorem C89_delete_partial (g : Cfg) (D : Dialect) (t : Table F) (hw : WF t) (hn : Named g D t) (hb : BareNames g D t)
    (hk : pick t (keyPos t) ≠ []) (rec : F → V) :
    ∃ text as, Helpers.deleteByPK g.style (Helpers.ofTable g t : Helpers.Mdl (F → V) V) rec = .ok (text, as) ∧
      (Spec.bind g.style text as).bind (Sql.read D) =
        some (.delete (tableName D t) ((pick t (keyPos t)).map fun c => (colName D c, rec c.field))) := by
  obtain ⟨hh, -⟩ := keyB_eq (g := g) hw hk rec
  obtain ⟨text, as, e, h⟩ := C30_delete_by_key g.style (Helpers.ofTable g t : Helpers.Mdl (F → V) V) hh rec
  refine ⟨text, as, e, ?_⟩
  rw [h, Option.bind_some]
  exact read_deleteB hw hn hb hk rec

private theorem bare_eq_some {D : Dialect} {s : String} {n : Name} (hw : Wordy D s) :
    bare D s = some n ↔ Sql.Plain D s.toList ∧ D.fold false s.toList = n := by
  unfold bare Sql.Plain
  have h0 : s.toList ≠ [] := by simpa using hw.1
  by_cases h1 : D.reserved (upper s.toList) = true <;>
    by_cases h2 : (s.toList.head?.map Char.isDigit).getD false = true <;> simp [h1, h2, h0]
  exact fun _ c hc => hw.2 c hc

private theorem mapM_eq_map {α β : Type} (f : α → Option β) (g : α → β) (l : List α) :
    l.mapM f = some (l.map g) ↔ ∀ a ∈ l, f a = some (g a) := by
  induction l with
  | nil => simp
  | cons a l ih =>
    simp only [List.mapM_cons, Option.bind_eq_bind, Option.bind_eq_some_iff, Option.pure_def, Option.some.injEq,
      List.map_cons, List.forall_mem_cons]
    constructor
    · rintro ⟨x, hx, y, hy, e⟩
      obtain ⟨rfl, rfl⟩ := List.cons.inj e
      exact ⟨hx, ih.1 hy⟩
    · rintro ⟨h1, h2⟩
      exact ⟨_, h1, _, ih.2 h2, rfl⟩

/-- C89, exactly when the DELETE means the table and the columns of the model, for models generated without quotes
around names (as is the default): when no name is a reserved word, begins with a digit, or has characters whose case is
changed in names without quotes. -/
theorem C89_delete_iff (g : Cfg) (D : Dialect) (t : Table F) (hw : WF t) (hq : IsQuote D.quote)
    (hg : g.quoteNames = false) (ho : t.ownTable = none) (hk : pick t (keyPos t) ≠ []) (h1 : Wordy D t.name)
    (h2 : ∀ c ∈ pick t (keyPos t), Wordy D c.name) (rec : F → V) :
    ∃ text as, Helpers.deleteByPK g.style (Helpers.ofTable g t : Helpers.Mdl (F → V) V) rec = .ok (text, as) ∧
      ((Spec.bind g.style text as).bind (Sql.read D) =
        some (.delete (tableName D t) ((pick t (keyPos t)).map fun c => (colName D c, rec c.field))) ↔
        Bare D t.name ∧ ∀ c ∈ pick t (keyPos t), Bare D c.name) := by
  obtain ⟨hh, hkb⟩ := keyB_eq (g := g) hw hk rec
  obtain ⟨text, as, e, h⟩ := C30_delete_by_key g.style (Helpers.ofTable g t : Helpers.Mdl (F → V) V) hh rec
  refine ⟨text, as, e, ?_⟩
  have ht : (Helpers.ofTable g t : Helpers.Mdl (F → V) V).table = t.name := by
    simp [Helpers.ofTable, Cfg.genTableName, ho, Cfg.ident, hg]
  have hkt : keyTxt g t = fun c => c.name := by funext c; simp [keyTxt, Cfg.ident, hg]
  rw [h, Option.bind_some, ht, hkb, hkt, read_delete_words hq h1 h2 hk]
  have htn : tableName D t = D.fold true t.name.toList := by simp [tableName, ho]
  constructor
  · intro e
    obtain ⟨tn, e1, e2⟩ := Option.bind_eq_some_iff.1 e
    obtain ⟨ns, e3, e4⟩ := Option.map_eq_some_iff.1 e2
    obtain ⟨e5, e6⟩ := Stmt.delete.inj e4
    have hl := mapM_length _ _ _ e3
    have hns : ns = (pick t (keyPos t)).map (colName D) := by
      have := congrArg (List.map Prod.fst) e6
      rw [List.map_fst_zip (by simp [hl])] at this
      simpa [Function.comp_def] using this
    subst hns
    subst e5
    have h3 := (bare_eq_some h1).1 e1
    refine ⟨⟨h3.1, by rw [h3.2, htn]⟩, fun c hc => ?_⟩
    have := (bare_eq_some (h2 c hc)).1 ((mapM_eq_map _ _ _).1 e3 c hc)
    exact ⟨this.1, this.2⟩
  · rintro ⟨b1, b2⟩
    rw [(bare_eq_some h1).2 ⟨b1.1, b1.2⟩, (mapM_eq_map _ (colName D) _).2 fun c hc =>
      (bare_eq_some (h2 c hc)).2 ⟨(b2 c hc).1, (b2 c hc).2⟩]
    simp [htn, List.zip_map']

/-- C89, refuted for tables whose name is a reserved word, such as `user` and `order` in PostgreSQL: INSERT works, DELETE is
refused by the database, whatever the record. -/
theorem C89_reserved_never (g : Cfg) (D : Dialect) (t : Table F) (hw : WF t) (hq : IsQuote D.quote)
    (hg : g.quoteNames = false) (ho : t.ownTable = none) (hk : pick t (keyPos t) ≠ []) (h1 : Wordy D t.name)
    (h2 : ∀ c ∈ pick t (keyPos t), Wordy D c.name) (hr : D.reserved (upper t.name.toList) = true) (rec : F → V) :
    ∃ text as, Helpers.deleteByPK g.style (Helpers.ofTable g t : Helpers.Mdl (F → V) V) rec = .ok (text, as) ∧
      (Spec.bind g.style text as).bind (Sql.read D) = none := by
  obtain ⟨hh, hkb⟩ := keyB_eq (g := g) hw hk rec
  obtain ⟨text, as, e, h⟩ := C30_delete_by_key g.style (Helpers.ofTable g t : Helpers.Mdl (F → V) V) hh rec
  refine ⟨text, as, e, ?_⟩
  have ht : (Helpers.ofTable g t : Helpers.Mdl (F → V) V).table = t.name := by
    simp [Helpers.ofTable, Cfg.genTableName, ho, Cfg.ident, hg]
  have hkt : keyTxt g t = fun c => c.name := by funext c; simp [keyTxt, Cfg.ident, hg]
  rw [h, Option.bind_some, ht, hkb, hkt, read_delete_words hq h1 h2 hk]
  simp [bare, hr]

/-- C89, refuted where names without quotes are turned into lower case (PostgreSQL): for a table whose name has capital
letters, DELETE is read as one from the table in lower case, which is another one. -/
theorem C89_other_table (g : Cfg) (D : Dialect) (t : Table F) (hw : WF t) (hq : IsQuote D.quote)
    (hg : g.quoteNames = false) (ho : t.ownTable = none) (hk : pick t (keyPos t) ≠ []) (h1 : Sql.Plain D t.name.toList)
    (h2 : ∀ c ∈ pick t (keyPos t), Bare D c.name) (hl : D.fold false t.name.toList ≠ D.fold true t.name.toList)
    (rec : F → V) :
    ∃ text as, Helpers.deleteByPK g.style (Helpers.ofTable g t : Helpers.Mdl (F → V) V) rec = .ok (text, as) ∧
      (Spec.bind g.style text as).bind (Sql.read D) =
        some (.delete (D.fold false t.name.toList) ((pick t (keyPos t)).map fun c => (colName D c, rec c.field))) ∧
      D.fold false t.name.toList ≠ tableName D t := by
  obtain ⟨hh, hkb⟩ := keyB_eq (g := g) hw hk rec
  obtain ⟨text, as, e, h⟩ := C30_delete_by_key g.style (Helpers.ofTable g t : Helpers.Mdl (F → V) V) hh rec
  refine ⟨text, as, e, ?_, by simpa [tableName, ho] using hl⟩
  have ht : (Helpers.ofTable g t : Helpers.Mdl (F → V) V).table = t.name := by
    simp [Helpers.ofTable, Cfg.genTableName, ho, Cfg.ident, hg]
  have hkt : keyTxt g t = fun c => c.name := by funext c; simp [keyTxt, Cfg.ident, hg]
  rw [h, Option.bind_some, ht, hkb, hkt]
  refine Verif.Sql.read_delete hq (Verif.Sql.nameTxt_plain D _ h1) ⟨fun c hc => ?_, hk⟩ (fun c => rec c.field)
  have hb := h2 c hc
  unfold colName
  rw [← hb.2]
  exact Verif.Sql.nameTxt_plain D _ hb.1

/-- PostgreSQL, with some of its reserved words. -/
def storePg : Dialect where
  quote := '"'
  fold q n := if q then n else lower n
  reserved w := [w] ⊆ ["USER".toList, "ORDER".toList, "GROUP".toList, "TABLE".toList]

def storeUser (name : String) : Table Nat :=
  { name := name, keys := [0],
    columns := [⟨"id", 10, 0, false, none, none⟩, ⟨"name", 13, 1, false, none, none⟩, ⟨"group", 15, 2, false, none, none⟩] }

def storeCfg (q : Bool) : Cfg := { style := .numbered, quoteId := fun s => "\"" ++ s ++ "\"", postgres := true, quoteNames := q }

theorem storeNamed (q : Bool) (n : String) (hn : n ≠ "" ∧ '"' ∉ n.toList) : Named (storeCfg q) storePg (storeUser n) := by
  have hq : ∀ s : String, s ≠ "" → '"' ∉ s.toList → Quoted (storeCfg q) storePg s := by
    intro s h0 h1
    refine ⟨?_, h1, h0⟩
    simp [storeCfg, storePg]
  refine ⟨.inr rfl, hq n hn.1 hn.2, ?_⟩
  intro c hc
  simp only [storeUser, List.mem_cons, List.not_mem_nil, or_false] at hc
  rcases hc with rfl | rfl | rfl <;> exact hq _ (by decide) (by decide)

theorem storeWF (n : String) : WF (storeUser n) := by
  refine ⟨by simp [storeUser], ?_, by simp [storeUser], by simp [storeUser], by simp [storeUser]⟩
  intro i c h
  match i, h with
  | 0, h => simp [storeUser] at h; subst h; rfl
  | 1, h => simp [storeUser] at h; subst h; rfl
  | 2, h => simp [storeUser] at h; subst h; rfl
  | n + 3, h => simp [storeUser] at h

example : NoTemplates (storeUser "user") ∧ pick (storeUser "user") (insertPos (storeUser "user")) ≠ [] ∧
    tableName storePg (storeUser "User") = "User".toList ∧
    Sql.read storePg (insertB (storeCfg false) (storeUser "user") (fun f => f)) =
      some (.insert "user".toList ["id".toList, "name".toList, "group".toList] [10, 13, 15]
        ["id".toList, "name".toList, "group".toList]) := by
  refine ⟨?_, by decide, rfl, by decide +kernel⟩
  intro c hc
  simp only [storeUser, List.mem_cons, List.not_mem_nil, or_false] at hc
  rcases hc with rfl | rfl | rfl <;> simp
example : BareNames (storeCfg true) storePg (storeUser "user") := ⟨fun _ => .inl rfl, fun _ _ => .inl ⟨rfl, by decide⟩⟩
example : Wordy storePg "user" ∧ storePg.reserved (upper "user".toList) = true ∧ Bare storePg "id" ∧
    Sql.Plain storePg "Users".toList ∧ storePg.fold false "Users".toList ≠ storePg.fold true "Users".toList := by
  refine ⟨⟨by decide, by decide⟩, by decide, ⟨⟨by decide, by decide, by decide, by decide⟩, by decide⟩,
    ⟨by decide, by decide, by decide, by decide⟩, by decide⟩

/-! ### C90 -/

section Keyed

variable [DecidableEq F] [DecidableEq X] [DecidableEq V] {E : Env F X V} {t : Table F} {Ok : F → X → Prop}

omit [DecidableEq F] [DecidableEq X] [DecidableEq V] in
/-- A table without rows keeps no records. -/
theorem C90_empty (E : Env F X V) (Ok : F → X → Prop) (t : Table F) (σ : Sql.Store V)
    (hσ : σ (tableName E.D t) = some (tableOf E.D t [])) : Keeps E Ok t (fun _ => none) σ :=
  ⟨[], hσ, ⟨fun k s h => by simp at h, fun row h => by simp at h, .nil⟩⟩

/-- C90, for keys given by the program: whatever the sequence of inserts, finds, updates and deletes, every call gives what
it would on a map from keys to records, the table has the records of the map afterwards, and no other table has changed. -/
theorem C90_keyed_store (h : Setup E t Ok) (hw : AllWritten t) (ha : t.auto = none) (ops : List (Store.Op F X)) (hf : ∀ o ∈ ops, Fine Ok t o)
    (m : Map F X) (σ : Sql.Store V) (hk : Keeps E Ok t m σ) :
    (performs E t ops σ).1 = (acts t ops m).1 ∧ Keeps E Ok t (acts t ops m).2 (performs E t ops σ).2 ∧
      ∀ n, n ≠ tableName E.D t → (performs E t ops σ).2 n = σ n := by
  induction ops generalizing m σ with
  | nil => exact ⟨rfl, hk, fun _ _ => rfl⟩
  | cons o os ih =>
    obtain ⟨σ', e, hk', hn⟩ := perform_ok h hw (.inl ha) (hf o (by simp)) hk
    obtain ⟨h1, h2, h3⟩ := ih (fun o ho => hf o (by simp [ho])) _ σ' hk'
    simp only [performs, acts, e]
    exact ⟨by rw [h1], h2, fun n hne => by rw [h3 n hne, hn n hne]⟩

/-- C90, for keys made up by the database: as before, with each insert storing the record under a new key, which the record
then has. -/
theorem C90_made_up_keys (h : Setup E t Ok) (hw : AllWritten t) {c : GCol F} (ha : t.autoCol = some c) (hfs : (t.columns.map (·.field)).Nodup)
    (hi : pick t (insertPos t) ≠ []) (hx : MadeUp E t Ok c) (ops : List (Store.Op F X)) (hf : ∀ o ∈ ops, Fine Ok t o)
    (m : Map F X) (σ : Sql.Store V) (hk : Keeps E Ok t m σ) :
    ∃ m', Acts t ops m (performs E t ops σ).1 m' ∧ Keeps E Ok t m' (performs E t ops σ).2 ∧
      ∀ n, n ≠ tableName E.D t → (performs E t ops σ).2 n = σ n := by
  induction ops generalizing m σ with
  | nil => exact ⟨m, .nil, hk, fun _ _ => rfl⟩
  | cons o os ih =>
    have hstep : ∃ out m' σ', perform E t o σ = (out, σ') ∧ Act t o m out m' ∧ After E Ok t m' σ σ' := by
      cases o with
      | insert r =>
        obtain ⟨rows, hσ, hh⟩ := hk
        exact insert_auto h hw ha hfs hi hx hh hσ (r := r) (hf (.insert r) (by simp)).1
      | find r =>
        obtain ⟨σ', e, hk'⟩ := perform_ok h hw (o := .find r) (.inr fun r => by simp) (hf _ (by simp)) hk
        exact ⟨_, _, σ', e, by simp [Act], hk'⟩
      | update r =>
        obtain ⟨σ', e, hk'⟩ := perform_ok h hw (o := .update r) (.inr fun r => by simp) (hf _ (by simp)) hk
        exact ⟨_, _, σ', e, by simp [Act], hk'⟩
      | delete r =>
        obtain ⟨σ', e, hk'⟩ := perform_ok h hw (o := .delete r) (.inr fun r => by simp) (hf _ (by simp)) hk
        exact ⟨_, _, σ', e, by simp [Act], hk'⟩
    obtain ⟨out, m', σ', e, hact, hk', hn⟩ := hstep
    obtain ⟨m'', h1, h2, h3⟩ := ih (fun o ho => hf o (by simp [ho])) m' σ' hk'
    simp only [performs, e]
    exact ⟨m'', .cons hact h1, h2, fun n hne => by rw [h3 n hne, hn n hne]⟩

private theorem acts_untouched (k : List X) (ops : List (Store.Op F X)) (hk : ∀ o ∈ ops, keyOf t o.record ≠ k) (m : Map F X) :
    (acts t ops m).2 k = m k := by
  induction ops generalizing m with
  | nil => rfl
  | cons o os ih =>
    have h1 : keyOf t o.record ≠ k := hk o (by simp)
    have : (act t o m).2 k = m k := by
      cases o with
      | insert r => simp only [act]; split <;> simp [put]; exact fun e => absurd e.symm h1
      | find r => simp only [act]; split <;> rfl
      | update r => simp only [act]; split <;> simp [put]; exact fun e => absurd e.symm h1
      | delete r => simp only [act, put]; exact if_neg fun e => h1 e.symm
    simp only [acts]
    rw [ih (fun o ho => hk o (by simp [ho])), this]

/-- C90, for one record: what `InsertOne` stored is found by `FindByPK`, whatever is done with other keys in between. -/
theorem C90_reads_back (h : Setup E t Ok) (hw : AllWritten t) (ha : t.auto = none) (m : Map F X) (σ : Sql.Store V) (hk : Keeps E Ok t m σ)
    (r r' : F → X) (hr : Good Ok t r) (hr' : Good Ok t r') (hkey : keyOf t r' = keyOf t r)
    (ops : List (Store.Op F X)) (hf : ∀ o ∈ ops, Fine Ok t o) (ho : ∀ o ∈ ops, keyOf t o.record ≠ keyOf t r)
    (σ₁ : Sql.Store V) (hin : insertOne E t r σ = (.ok r, σ₁)) :
    (findByPK E t r' (performs E t ops σ₁).2).1 = .ok (load t r r') := by
  obtain ⟨σ', e, hk', -⟩ := perform_ok h hw (.inl ha) (o := .insert r) ⟨hr, by simp⟩ hk
  have e' : perform E t (.insert r) σ = (.ok r, σ₁) := hin
  rw [e] at e'
  have hm : m (keyOf t r) = none := by
    cases hm : m (keyOf t r) with
    | none => rfl
    | some s => simp [act, hm] at e'
  have hσ : σ' = σ₁ := congrArg Prod.snd e'
  subst hσ
  obtain ⟨-, hk2, -⟩ := C90_keyed_store h hw ha ops hf _ σ' hk'
  obtain ⟨σ'', e2, -⟩ := perform_ok h hw (.inl ha) (o := .find r') ⟨hr', by simp⟩ hk2
  have e3 : findByPK E t r' (performs E t ops σ').2 = _ := e2
  rw [e3]
  have h4 : (acts t ops (act t (.insert r) m).2).2 (keyOf t r) = some r := by
    rw [acts_untouched _ ops ho]
    simp [act, hm, put]
  simp only [act, hkey] at h4 ⊢
  rw [h4]

omit [DecidableEq F] [DecidableEq X] in
/-- C90, refuted for tables with a reserved word as name, if names are not quoted (as is the default): no record is ever
deleted. -/
theorem C90_reserved_never (hw : WF t) (hq : IsQuote E.D.quote) (hg : E.g.quoteNames = false) (ho : t.ownTable = none)
    (hk : pick t (keyPos t) ≠ []) (h1 : Wordy E.D t.name) (h2 : ∀ c ∈ pick t (keyPos t), Wordy E.D c.name)
    (hr : E.D.reserved (upper t.name.toList) = true) (r : F → X) (σ : Sql.Store V) :
    deleteByPK E t r σ = (.failed, σ) := by
  obtain ⟨text, as, e, h⟩ := C89_reserved_never E.g E.D t hw hq hg ho hk h1 h2 hr fun f => E.enc f (r f)
  simp only [deleteByPK, deleteVia, e, sendTo, h, execOnly]

omit [DecidableEq F] [DecidableEq X] in
/-- C90, refuted where names without quotes are turned into lower case: for a table whose name has capital letters,
`DeleteByPK` leaves its records where they are, and succeeds on a table with that name in lower case, if there is one. -/
theorem C90_other_table (hw : WF t) (hq : IsQuote E.D.quote) (hg : E.g.quoteNames = false) (ho : t.ownTable = none)
    (hk : pick t (keyPos t) ≠ []) (h1 : Sql.Plain E.D t.name.toList) (h2 : ∀ c ∈ pick t (keyPos t), Bare E.D c.name)
    (hl : E.D.fold false t.name.toList ≠ E.D.fold true t.name.toList) (r : F → X) (σ : Sql.Store V) :
    (deleteByPK E t r σ).2 (tableName E.D t) = σ (tableName E.D t) ∧
    (σ (E.D.fold false t.name.toList) = none → deleteByPK E t r σ = (.failed, σ)) ∧
    ∀ T, σ (E.D.fold false t.name.toList) = some T → (∀ c ∈ pick t (keyPos t), colName E.D c ∈ T.cols) →
      deleteByPK E t r σ = (.ok r, σ.put (E.D.fold false t.name.toList)
        { T with rows := T.rows.filter fun row => !Sql.holds E.null ((pick t (keyPos t)).map fun c =>
          (colName E.D c, E.enc c.field (r c.field))) row }) := by
  obtain ⟨text, as, e, h, hne⟩ := C89_other_table E.g E.D t hw hq hg ho hk h1 h2 hl fun f => E.enc f (r f)
  simp only [deleteByPK, deleteVia, e, sendTo, h]
  cases hσ : σ (E.D.fold false t.name.toList) with
  | none => simp [exec, hσ, execOnly]
  | some T =>
    refine ⟨?_, by simp, ?_⟩
    · simp only [exec, hσ]
      split
      · rfl
      · simp [Sql.Store.put, Ne.symm hne]
    · rintro _ ⟨⟩ hT
      simp only [exec, hσ]
      rw [if_neg]
      · rfl
      · simpa using hT

/-- Numbers; NULL is `none`, and keys are numbered from 1. -/
def storeEnv (q : Bool) : Env Nat Nat (Option Nat) where
  g := storeCfg q
  D := storePg
  null := none
  gen T := some (T.rows.foldr (fun row n => max n ((row "id".toList).getD 0)) 0 + 1)
  enc _ x := some x
  dec _ v _ := v
  toId v := v

theorem storeSetup (q : Bool) (t : Table Nat) (ht : t = storeUser "people" ∨ t = { storeUser "people" with auto := some 0 }) :
    Setup (storeEnv q) t (fun _ _ => True) := by
  have hb : Bare storePg "people" ∧ Bare storePg "id" :=
    ⟨⟨⟨by decide, by decide, by decide, by decide⟩, by decide⟩, ⟨⟨by decide, by decide, by decide, by decide⟩, by decide⟩⟩
  have hn := storeNamed q "people" (by decide)
  rcases ht with rfl | rfl
  · refine ⟨storeWF _, rfl, hn, ⟨fun _ => .inr hb.1, ?_⟩, ?_, by clear hn; revert q; decide, by simp [storeUser], ?_, ?_⟩
    · intro c hc
      simp [storeUser, pick, keyPos] at hc
      subst hc
      exact .inr hb.2
    · simp [NoTemplates, storeUser]
    · intros; rfl
    · intros; simp [storeEnv]
  · refine ⟨⟨(storeWF "").1, (storeWF "").2, (storeWF "").3, (storeWF "").4, by simp [storeUser]⟩, rfl,
      ⟨hn.1, hn.2, hn.3⟩, ⟨fun _ => .inr hb.1, ?_⟩, ?_, by clear hn; revert q; decide, by simp [storeUser], ?_, ?_⟩
    · intro c hc
      simp [storeUser, pick, keyPos] at hc
      subst hc
      exact .inr hb.2
    · simp [NoTemplates, storeUser]
    · intros; rfl
    · intros; simp [storeEnv]

theorem storeWritten (n : String) (a : Option Nat) : AllWritten { storeUser n with auto := a } := by simp [AllWritten, storeUser]

/-- A store with just the table of a model. -/
def storeOnly (t : Table Nat) : Sql.Store (Option Nat) :=
  fun n => if n = tableName storePg t then some (tableOf storePg t []) else none

def storeRec (a b c : Nat) : Nat → Nat := fun f => if f = 10 then a else if f = 13 then b else c

def storeShow (t : Table Nat) (ops : List (Store.Op Nat Nat)) : List (Option (List Nat)) :=
  (performs (storeEnv false) t ops (storeOnly t)).1.map fun
    | .ok r => some ((genAddrs t).map r)
    | _ => none

example : Keeps (storeEnv false) (fun _ _ => True) (storeUser "people") (fun _ => none) (storeOnly (storeUser "people")) :=
  C90_empty _ _ _ _ (if_pos rfl)
example (o : Store.Op Nat Nat) : Fine (fun _ _ => True) (storeUser "people") o := ⟨fun _ _ => trivial, fun _ _ => by decide⟩
example : storeShow (storeUser "people") [.insert (storeRec 7 1 2), .insert (storeRec 7 3 3), .update (storeRec 7 5 6),
    .find (storeRec 7 0 0), .delete (storeRec 7 0 0), .find (storeRec 7 0 0)] =
    [some [7, 1, 2], none, some [7, 5, 6], some [7, 5, 6], some [7, 0, 0], none] := by decide +kernel
example : storeShow { storeUser "people" with auto := some 0 } [.insert (storeRec 0 1 2), .insert (storeRec 0 3 4),
    .find (storeRec 2 0 0)] = [some [1, 1, 2], some [2, 3, 4], some [2, 3, 4]] := by decide +kernel
/-- a table called `user` -/
example : storeShow (storeUser "user") [.insert (storeRec 7 1 2), .delete (storeRec 7 0 0), .find (storeRec 7 0 0)] =
    [some [7, 1, 2], none, some [7, 1, 2]] := by decide +kernel
/-- keys numbered from 1 are new -/
example : MadeUp (storeEnv false) { storeUser "people" with auto := some 0 } (fun _ _ => True)
    ⟨"id", 10, 0, false, none, none⟩ := by
  intro rows
  refine ⟨_, trivial, rfl, rfl, ?_⟩
  intro row hrow
  have hle : ∀ l : List (Row (Option Nat)), row ∈ l →
      (row "id".toList).getD 0 ≤ l.foldr (fun row n => max n ((row "id".toList).getD 0)) 0 := by
    intro l
    induction l with
    | nil => simp
    | cons r l ih =>
      intro hm
      rcases List.mem_cons.1 hm with rfl | hm
      · exact Nat.le_max_right _ _
      · have := ih hm
        simp only [List.foldr_cons]
        omega
  have := hle rows hrow
  intro e
  have e' : row "id".toList = some (rows.foldr (fun row n => max n ((row "id".toList).getD 0)) 0 + 1) := e
  rw [e'] at this
  simp only [Option.getD_some] at this
  omega

end Keyed

end Verif.Props
