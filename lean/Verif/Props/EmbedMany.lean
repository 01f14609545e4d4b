import Verif.Lemmas.EmbedMany

/-! # C105: batches, upserts and queries with Go structs -/

namespace Verif.Props

open Verif Verif.Addrs Verif.Gen Verif.Embed Verif.Spec Verif.Spec.Gen Verif.Spec.Store Verif.Spec.Embed Verif.Spec.Sql Verif.Store

variable {X V : Type} [DecidableEq V] {G : Values X} {E : Store.Env Path X V} {t : Table Path} {br : Brand} {K : Compare V}

/-! ## Queries -/

theorem run_rel {α β : Type} (get : Ans V → Store.Ret α) (get' : Ans V → Store.Ret β) (P : Store.Ret α → Store.Ret β → Prop)
    (hP : ∀ a, P (get a) (get' a)) (hf : P .failed .failed) (hp : P .panicked .panicked) (q : Res (Verif.Stmt V)) (σ : Sql.Store V) :
    P (Store.runStmt E br K get q σ).1 (Store.runStmt E br K get' q σ).1 ∧
      (Store.runStmt E br K get q σ).2 = (Store.runStmt E br K get' q σ).2 := by
  cases q with
  | ok s => exact ⟨hP _, rfl⟩
  | err => exact ⟨hf, rfl⟩
  | panic => exact ⟨hp, rfl⟩

/-- C105, partial: a query gives new structs loaded with the rows that satisfy the condition, in the order asked for, from the offset on
and not more than the limit; if one of these rows cannot be read, none is given.  Missing: as for C92. -/
theorem C105_query_partial (h : Typed.Shape E.g E.D t) (hs : Struct (genAddrs t)) (hG : Lawful G (genAddrs t)) (hn : Spelled E.g E.D t)
    (m : Map Path V) (σ : Sql.Store V) (hk : Store.Keeps (raw E) (KeyCell E t) t m σ) (q : Store.Query Path X)
    (hq : Possible G E br t (.query q)) :
    ∃ a, queryAll G E br K t q σ = (a, σ) ∧ Moves G E K t (.query q) m (.list a) m := by
  obtain ⟨h1, h2, h3⟩ := hq
  obtain ⟨l, hl, e⟩ := C92_query_partial (raw E) t (KeyCell E t) K (byCells K E.null) br (raw_setup h) (agrees_raw K (KeyCell E t)) hn m σ hk (queryOf E q) h1 h2 h3
    (fun _ => E.null)
  have hr := run_rel (E := E) (br := br) (K := K) (Store.rowsOf (raw E) t fun _ => E.null) (rowsOf G E t)
    (fun a b => ∀ ss, a = .ok ss → Lists G E (genAddrs t) ss b) (fun a ss ha => rowsOf_lists hs hG _ a ss ha)
    (by simp) (by simp) (queryStmt E.g.style (Store.info E t) (Store.selectOf E q)) σ
  have e' : Store.runStmt E br K (Store.rowsOf (raw E) t fun _ => E.null) (queryStmt E.g.style (Store.info E t) (Store.selectOf E q)) σ =
      (.ok ((firstOf q.limit (l.drop q.offset)).map fun s => Spec.Store.load t s fun _ => E.null), σ) := by
    rw [select_raw]; exact e
  rw [e'] at hr
  refine ⟨_, Prod.ext rfl hr.2.symm, rfl, l, hl, lists_load (hr.1 _ rfl)⟩

/-- C105, queries for one record. -/
theorem C105_query_one_partial (h : Typed.Shape E.g E.D t) (hs : Struct (genAddrs t)) (hG : Lawful G (genAddrs t)) (hn : Spelled E.g E.D t)
    (m : Map Path V) (σ : Sql.Store V) (hk : Store.Keeps (raw E) (KeyCell E t) t m σ) (q : Store.Query Path X)
    (hq : Possible G E br t (.queryOne q)) :
    ∃ a, queryOne G E br K t q σ = (a, σ) ∧ Moves G E K t (.queryOne q) m (.first a) m := by
  obtain ⟨h1, h2⟩ := hq
  obtain ⟨l, hl, e⟩ := C92_query_one_partial (raw E) t (KeyCell E t) K (byCells K E.null) br (raw_setup h) (agrees_raw K (KeyCell E t)) hn m σ hk (queryOf E q) h1 h2
    (fun _ => E.null)
  have hr := run_rel (E := E) (br := br) (K := K) (Store.rowOf (raw E) t fun _ => E.null) (rowOf G E t)
    (fun a b => (a = .noRows → b = .noRows) ∧ ∀ s, a = .ok s → (∃ r, b = .ok r ∧ Loads G E (genAddrs t) s (blank G) (.ok, r)) ∨
      b = .failed ∧ ∃ c ∈ genAddrs t, E.dec c (s c) (start G (blank G) c) = none)
    (fun a => ⟨rowOf_noRows hs hG _ a, fun s ha => rowOf_loads hs hG _ a s ha⟩)
    (by simp) (by simp) (queryOneStmt E.g.style (Store.info E t) (Store.selectOf E q)) σ
  have e' := e
  change Store.runStmt E br K (Store.rowOf (raw E) t fun _ => E.null)
    (queryOneStmt E.g.style (Store.info E t) (Store.selectOf (raw E) (queryOf E q))) σ = _ at e'
  rw [← select_raw] at e'
  rw [e'] at hr
  refine ⟨_, Prod.ext rfl hr.2.symm, rfl, l, hl, ?_⟩
  have el : ∀ s : Path → V, ∀ c ∈ genAddrs t, Spec.Store.load t s (fun _ => E.null) c = s c := fun s c hc => if_pos hc
  cases l with
  | nil => exact hr.1.1 rfl
  | cons s l =>
    rcases hr.1.2 _ rfl with ⟨r, e1, e2⟩ | ⟨e1, c, hc, e2⟩
    · exact .inl ⟨r, e1, loads_congr (el s) e2⟩
    · exact .inr ⟨e1, c, hc, by rw [← el s c hc]; exact e2⟩

/-! ## Batches -/

omit [DecidableEq V] in
private theorem given_good {r : Obj X} (hr : ∀ c ∈ pick t (keyPos t), cells G E r c.field ≠ E.null) :
    Good (KeyCell E t) t (cells G E r) := by
  intro c _ hcf
  obtain ⟨k, hk', e⟩ := List.mem_map.1 hcf
  have := hr k hk'
  rwa [e] at this

private theorem batch_ok (h : Typed.Shape E.g E.D t) (hw : AllWritten t) (hs : Struct (genAddrs t)) (hG : Lawful G (genAddrs t))
    {U : List (GCol Path)} (hU : Upd t U) (hUn : (U.map (colName E.D)).Nodup) (hU0 : U ≠ []) (e : Existing) (ru : Rules)
    {rs : List (Obj X)} (hr : ∀ r ∈ rs, Good (KeyCell E t) t (cells G E r)) {m : Map Path V} {σ : Sql.Store V}
    (hk : Store.Keeps (raw E) (KeyCell E t) t m σ) {q : Res (Option (Txt × List V))} {q0 : Txt × List V} (hq : q = .ok (some q0))
    (hx : Store.sendBulk (raw E) ru q0 σ = execBulk E.null E.gen ru (Store.bulkOf (raw E) t (rs.map (cells G E))
      (conflictOf E.D (Store.targetFor (raw E) t) U e)) σ) :
    if ru = .onConflict ∧ e = .replace ∧ ¬ ((rs.map (cells G E)).map (keyOf t)).Nodup then
      Embed.runMany G E ru t rs q σ = ((.failed, rs), σ)
    else match storeAll t e (U.map (·.field)) (rs.map (cells G E)) m with
    | none => Embed.runMany G E ru t rs q σ = ((.duplicate, rs), σ)
    | some (m', ss) => ∃ a σ', Embed.runMany G E ru t rs q σ = (a, σ') ∧
        (if E.g.postgres then LoadsAll G E (genAddrs t) ss rs a else a = (.ok, rs)) ∧ Store.After (raw E) (KeyCell E t) t m' σ σ' := by
  obtain ⟨rows, hσ, hh⟩ := hk
  have hF : Store.FullSetup (raw E) t (KeyCell E t) := ⟨raw_setup h, hw⟩
  have hb := execBulk_ok hF hU hUn hU0 (tg := Store.targetFor (raw E) t) (by
    intro ns e
    unfold Store.targetFor at e
    cases hp : (raw E).g.postgres <;> simp [hp] at e
    exact e.symm) e ru E.g.postgres (rs := rs.map (cells G E)) (by simpa using hr) hh hσ
  have hx' : Store.sendBulk E ru q0 σ = execBulk (raw E).null (raw E).gen ru ⟨tableName (raw E).D t, t.columns.map (colName (raw E).D),
      (rs.map (cells G E)).map fun r => t.columns.map fun c => (raw E).enc c.field (r c.field),
      conflictOf (raw E).D (Store.targetFor (raw E) t) U e,
      if E.g.postgres then t.columns.map (colName (raw E).D) else []⟩ σ := hx
  simp only [← hx'] at hb
  simp only [hq, Embed.runMany, all_readable hs rs, if_true]
  by_cases hc : ru = .onConflict ∧ e = .replace ∧ ¬ ((rs.map (cells G E)).map (keyOf t)).Nodup
  · rw [if_pos hc] at hb ⊢
    rw [hb]
    cases E.g.postgres <;> rfl
  · rw [if_neg hc] at hb ⊢
    cases es : storeAll t e (U.map (·.field)) (rs.map (cells G E)) m with
    | none =>
      rw [es] at hb
      simp only at hb ⊢
      rw [hb]
      cases E.g.postgres <;> rfl
    | some b =>
      obtain ⟨m', ss⟩ := b
      rw [es] at hb
      obtain ⟨rows', xs, e1, hh', hsame⟩ := hb
      simp only
      rw [e1]
      refine ⟨_, _, rfl, ?_, after_put hh'⟩
      cases E.g.postgres with
      | true =>
        have hl : ss.length ≤ rs.length := by simpa using storeAll_length _ _ _ _ _ _ es
        have hrows : (xs.map fun row => (t.columns.map (colName (raw E).D)).map row) = ss.map fun s => (genAddrs t).map s := by
          clear hl es e1
          induction hsame with
          | nil => rfl
          | @cons s row ss xs hsr hsame ih =>
            rw [List.map_cons, List.map_cons, ih, List.cons.injEq]
            refine ⟨?_, rfl⟩
            simp only [genAddrs, List.map_map]
            exact List.map_congr_left fun c hc => hsr.2 c hc
        simp only [if_true, Embed.queryRows]
        rw [hrows]
        exact loadRows_all hs hG ss rs hl
      | false => simp [Embed.execMany]

section
variable (h : Typed.Shape E.g E.D t) (hw : AllWritten t) (hs : Struct (genAddrs t)) (hG : Lawful G (genAddrs t))
  (hn : HelperNames E.g E.D t) (hst : E.g.style = if E.g.postgres then .numbered else .anon) (ha : t.auto = none)

include h hw hs hG hn hst ha

/-- C105, partial: a batch insert stores the rows of structs with new and different keys, all of them, and otherwise none; for PostgreSQL,
the structs are loaded with their rows one after the other, up to the first that cannot be read: all of them are stored then, and the call
fails. -/
theorem C105_insert_partial {ru : Rules} (hru : E.g.postgres = true → ru = .onConflict) {m : Map Path V} {σ : Sql.Store V}
    (hk : Store.Keeps (raw E) (KeyCell E t) t m σ) (rs : List (Obj X)) (hr : Possible G E br t (.insert rs)) :
    ∃ a m' σ', Embed.insertMany G E ru t rs σ = (a, σ') ∧ Moves G E K t (.insert rs) m (.many a) m' ∧
      Store.After (raw E) (KeyCell E t) t m' σ σ' := by
  have hF : Store.FullSetup (raw E) t (KeyCell E t) := ⟨raw_setup h, hw⟩
  unfold Embed.insertMany
  rw [insertPg_congr (Store.mdl E t) (g := cells G E) rs fun r _ => values_eq (E := E) hs r,
    insertMy_congr (Store.mdl E t) (g := cells G E) rs fun r _ => values_eq (E := E) hs r]
  by_cases hne : rs = []
  · subst hne
    refine ⟨(.ok, []), m, σ, ?_, ?_, hk, fun _ _ => rfl⟩
    · simp only [List.map_nil, (C26_empty (Store.mdl E t)).1, (C26_empty (Store.mdl E t)).2, ite_self, Embed.runMany]
      rfl
    · simp only [Moves, List.map_nil, List.nodup_nil, List.not_mem_nil, false_imp_iff, implies_true, and_self, if_true]
      refine ⟨by funext k; simp [withKey], ?_⟩
      split
      · exact .done
      · trivial
  · obtain ⟨q, e1, e2⟩ := send_insertMany (E := raw E) hF hn hst ha hru (rs := rs.map (cells G E)) (by simpa using hne) σ
    have e1' : (if E.g.postgres then Helpers.insertPg (Store.mdl E t) (rs.map (cells G E))
        else Helpers.insertMy (Store.mdl E t) (rs.map (cells G E))) = .ok (some q) := by
      have : (rs.map (cells G E)).map (Store.vals (raw E)) = rs.map (cells G E) := List.map_id _
      rw [this] at e1
      exact e1
    have := batch_ok (G := G) h hw hs hG (U := t.columns) ⟨fun c hc => hc, hs.once⟩ h.names (columns_ne hF) .error ru
      (fun r hr' => given_good (hr r hr')) hk e1' e2
    rw [if_neg (by simp), storeAll_error] at this
    simp only [List.map_map, List.forall_mem_map, Function.comp_def] at this
    simp only [Moves]
    by_cases hc : (rs.map fun r => keyOf t (cells G E r)).Nodup ∧ ∀ r ∈ rs, m (keyOf t (cells G E r)) = none
    · rw [if_pos hc] at this
      obtain ⟨a, σ', h1, h2, h3⟩ := this
      exact ⟨a, _, σ', h1, by rw [if_pos hc]; exact ⟨rfl, h2⟩, h3⟩
    · rw [if_neg hc] at this
      exact ⟨_, m, σ, this, by rw [if_neg hc]; exact ⟨rfl, rfl⟩, hk, fun _ _ => rfl⟩

/-- C105, upserts of several structs, as in C91. -/
theorem C105_upsert_partial {m : Map Path V} {σ : Sql.Store V} (hk : Store.Keeps (raw E) (KeyCell E t) t m σ) (w : Wish)
    (rs : List (Obj X)) (hr : Possible G E br t (.upsert w rs)) :
    ∃ a m' σ', Embed.upsertMany G E (rulesOf E.g) t w rs σ = (a, σ') ∧ Moves G E K t (.upsert w rs) m (.many a) m' ∧
      Store.After (raw E) (KeyCell E t) t m' σ σ' := by
  have hF : Store.FullSetup (raw E) t (KeyCell E t) := ⟨raw_setup h, hw⟩
  obtain ⟨hne, hwish, hr⟩ := hr
  unfold Embed.upsertMany
  rw [upsertPg_congr (Store.mdl E t) (g := cells G E) _ rs fun r _ => values_eq (E := E) hs r,
    upsertMy_congr (Store.mdl E t) (g := cells G E) _ _ rs fun r _ => values_eq (E := E) hs r]
  obtain ⟨q, e1, e2⟩ := send_upsertMany (E := raw E) hF hn hst ha w hwish (rs := rs.map (cells G E)) (by simpa using hne) σ
  have e1' : (if E.g.postgres then Helpers.upsertPg (Store.mdl E t) { doNothing := w.keep, omitted := w.omitted } (rs.map (cells G E))
      else Helpers.upsertMy (Store.mdl E t) (!w.keep) w.omitted (rs.map (cells G E))) = .ok (some q) := by
    have : (rs.map (cells G E)).map (Store.vals (raw E)) = rs.map (cells G E) := List.map_id _
    rw [this] at e1
    exact e1
  obtain ⟨m', ss, hst'⟩ := storeAll_total (t := t) (e := existing w) (by unfold existing; cases w.keep <;> simp)
    ((replaced E.g t w).map (·.field)) (rs.map (cells G E)) m
  have hcond : (rulesOf E.g = .onConflict ∧ existing w = .replace ∧ ¬ ((rs.map (cells G E)).map (keyOf t)).Nodup) ↔
      (E.g.postgres = true ∧ w.keep = false ∧ ¬ (rs.map fun r => keyOf t (cells G E r)).Nodup) := by
    unfold rulesOf existing
    rw [List.map_map]
    cases E.g.postgres <;> cases w.keep <;> simp; rfl
  have hgood := fun r hr' => given_good (hr r hr')
  have main : if rulesOf E.g = .onConflict ∧ existing w = .replace ∧ ¬ ((rs.map (cells G E)).map (keyOf t)).Nodup then
      Embed.runMany G E (rulesOf E.g) t rs (.ok (some q)) σ = ((.failed, rs), σ)
    else ∃ a σ', Embed.runMany G E (rulesOf E.g) t rs (.ok (some q)) σ = (a, σ') ∧
        (if E.g.postgres then LoadsAll G E (genAddrs t) ss rs a else a = (.ok, rs)) ∧
        Store.After (raw E) (KeyCell E t) t m' σ σ' := by
    cases hkp : w.keep with
    | true =>
      have hex : existing w = .keep := by simp [existing, hkp]
      have hcf : conflictOf E.D (Store.targetFor (raw E) t) (replaced E.g t w) (existing w) =
          conflictOf E.D (Store.targetFor (raw E) t) t.columns (existing w) := by rw [hex]; rfl
      have := batch_ok (G := G) h hw hs hG (U := t.columns) ⟨fun c hc => hc, hs.once⟩ h.names (columns_ne hF) (existing w) (rulesOf E.g)
        hgood hk rfl (e2.trans (by rw [show (raw E).D = E.D from rfl, show (raw E).g = E.g from rfl, hcf]; rfl))
      rw [if_neg (by simp [hex])] at this ⊢
      have hsame : storeAll t .keep ((replaced E.g t w).map (·.field)) (rs.map (cells G E)) m =
          storeAll t .keep (t.columns.map (·.field)) (rs.map (cells G E)) m := by
        have : ∀ (u v : List Path) (rs : List (Path → V)) (m : Map Path V), storeAll t .keep u rs m = storeAll t .keep v rs m := by
          intro u v rs
          induction rs with
          | nil => intro m; rfl
          | cons r rs ih =>
            intro m
            have : store t .keep u r m = store t .keep v r m := by unfold store; cases m (keyOf t r) <;> rfl
            simp only [storeAll, this, ih]
        exact this _ _ _ _
      rw [hex] at hst' this
      rw [← hsame, hst'] at this
      exact this
    | false =>
      have hw' := hwish.resolve_left (by simp [hkp])
      have := batch_ok (G := G) h hw hs hG (U := replaced E.g t w) ⟨replaced_sub E.g w, hs.once⟩
        (h.names.sublist (List.filter_sublist.map _)) hw' (existing w) (rulesOf E.g) hgood hk rfl e2
      rw [hst'] at this
      exact this
  rw [e1']
  simp only [Moves]
  rw [if_congr hcond rfl rfl] at main
  by_cases hc : E.g.postgres = true ∧ w.keep = false ∧ ¬ (rs.map fun r => keyOf t (cells G E r)).Nodup
  · rw [if_pos hc] at main
    exact ⟨_, m, σ, main, by rw [if_pos hc]; exact ⟨rfl, rfl⟩, hk, fun _ _ => rfl⟩
  · rw [if_neg hc] at main
    obtain ⟨a, σ', h1, h2, h3⟩ := main
    exact ⟨a, m', σ', h1, by rw [if_neg hc]; exact ⟨ss, hst', h2⟩, h3⟩

/-- C105, upserts of one struct, as in C91. -/
theorem C105_upsert_one_partial {m : Map Path V} {σ : Sql.Store V} (hk : Store.Keeps (raw E) (KeyCell E t) t m σ) (w : Wish)
    (r : Obj X) (hr : Possible G E br t (.upsertOne w r)) :
    ∃ a m' σ', Embed.upsertOne G E (rulesOf E.g) t w r σ = (a, σ') ∧ Moves G E K t (.upsertOne w r) m (.one a) m' ∧
      Store.After (raw E) (KeyCell E t) t m' σ σ' := by
  have hF : Store.FullSetup (raw E) t (KeyCell E t) := ⟨raw_setup h, hw⟩
  obtain ⟨hwish, hkk, hr⟩ := hr
  have hread : readable G E t r = true := by simpa using all_readable (G := G) (E := E) hs [r]
  obtain ⟨q, e1, -⟩ := send_upsertOne (E := raw E) hF hn hst ha w hwish hkk (cells G E r) σ
  have e1' : (if E.g.postgres
      then Helpers.upsertOnePg (Store.mdl E t) { doNothing := w.keep, omitted := w.omitted } (keyArg G E (genAddrs t) r)
      else Helpers.upsertOneMy (Store.mdl E t) (!w.keep) w.omitted (keyArg G E (genAddrs t) r)) = .ok q := by
    rw [upsertOnePg_congr (Store.mdl E t) (b := cells G E r) _ (values_eq (E := E) hs r),
      upsertOneMy_congr (Store.mdl E t) (b := cells G E r) _ _ (values_eq (E := E) hs r)]
    exact e1
  obtain ⟨c1, c2⟩ := C91_upsert_one (E := raw E) hF hs.once hn hst ha w hwish hkk hk (given_good hr)
  unfold Embed.upsertOne
  simp only [hread, if_true, e1', Moves]
  have hup : Store.upsertOne (raw E) (rulesOf (raw E).g) t w (cells G E r) σ =
      (if E.g.postgres then Store.queryRow (raw E) t (cells G E r) (Store.sendBulk E (rulesOf E.g) q σ).1
        else Store.execOnly (cells G E r) (Store.sendBulk E (rulesOf E.g) q σ).1, (Store.sendBulk E (rulesOf E.g) q σ).2) := by
    simp only [Store.upsertOne, e1]
    rfl
  rw [hup] at c1 c2
  simp only [show (raw E).g = E.g from rfl] at c1 c2
  have hq := query_sim (E := E) hs hG r (cells G E r) (Store.sendBulk E (rulesOf E.g) q σ).1
  have hx := exec_sim r (cells G E r) (Store.sendBulk E (rulesOf E.g) q σ).1
  by_cases hc : w.keep = true ∧ (m (keyOf t (cells G E r))).isSome
  · obtain ⟨σ', e, hafter⟩ := c1 ⟨hc.1, by rw [← Option.isSome_iff_ne_none]; exact hc.2⟩
    simp only [Prod.mk.injEq] at e
    refine ⟨_, m, σ', Prod.ext rfl e.2, ?_, hafter⟩
    rw [if_pos hc]
    refine ⟨rfl, ?_⟩
    by_cases hp : E.g.postgres = true
    · simp only [hp, if_true] at e ⊢
      have e' : Store.queryRow (raw E) t (cells G E r) (Store.sendBulk E (rulesOf E.g) q σ).1 = .noRows := e.1
      rw [e'] at hq
      exact hq
    · simp only [hp, Bool.false_eq_true, if_false] at e ⊢
      have e' : Store.execOnly (cells G E r) (Store.sendBulk E (rulesOf E.g) q σ).1 = .ok (cells G E r) := e.1
      rw [e'] at hx
      exact hx.2
  · obtain ⟨σ', e, hafter⟩ := c2 (by rw [← Option.isSome_iff_ne_none]; exact hc)
    simp only [Prod.mk.injEq] at e
    refine ⟨_, _, σ', Prod.ext rfl e.2, ?_, hafter⟩
    rw [if_neg hc]
    refine ⟨rfl, ?_⟩
    by_cases hp : E.g.postgres = true
    · simp only [hp, if_true] at e ⊢
      have e' : Store.queryRow (raw E) t (cells G E r) (Store.sendBulk E (rulesOf E.g) q σ).1 = .ok _ := e.1
      rw [e'] at hq
      exact loads_load hq
    · simp only [hp, Bool.false_eq_true, if_false] at e ⊢
      have e' : Store.execOnly (cells G E r) (Store.sendBulk E (rulesOf E.g) q σ).1 = .ok (cells G E r) := e.1
      rw [e'] at hx
      exact hx.2

end

/-! ## Updates and deletes -/

/-- C105, updates with conditions. -/
theorem C105_update_partial (h : Typed.Shape E.g E.D t) (hs : Struct (genAddrs t)) (hn : Spelled E.g E.D t)
    (m : Map Path V) (σ : Sql.Store V) (hk : Store.Keeps (raw E) (KeyCell E t) t m σ) (u : Store.Change Path X)
    (hu : Possible G E br t (.update u)) :
    ∃ m' σ', Store.updateAll E br K t u σ = (.ok (), σ') ∧ Moves G E K t (.update u) m (.done (.ok ())) m' ∧
      Store.After (raw E) (KeyCell E t) t m' σ σ' := by
  obtain ⟨h1, h2, h3, h4, h5, h6⟩ := hu
  obtain ⟨l, σ', hl, e, hk', ho⟩ := C92_update_partial (raw E) t (KeyCell E t) K (byCells K E.null) br (raw_setup h)
    (agrees_raw K (KeyCell E t)) hn hs.once m σ hk (changeOf E u) h1 (by simpa [changeOf] using h2)
    (by simpa [changeOf, List.map_map, Function.comp_def] using h3)
    (by
      intro p hp
      obtain ⟨p', hp', rfl⟩ := List.mem_map.1 hp
      exact h4 p' hp') h5 h6
  refine ⟨_, σ', ?_, ⟨rfl, l, hl, rfl⟩, hk', ho⟩
  unfold Store.updateAll
  rw [update_raw]
  exact e

/-- C105, deletes with conditions. -/
theorem C105_delete_partial (h : Typed.Shape E.g E.D t) (hn : Spelled E.g E.D t)
    (m : Map Path V) (σ : Sql.Store V) (hk : Store.Keeps (raw E) (KeyCell E t) t m σ) (u : Store.Removal Path X)
    (hu : Possible G E br t (.delete u)) :
    ∃ m' σ', Store.deleteAll E br K t u σ = (.ok (), σ') ∧ Moves G E K t (.delete u) m (.done (.ok ())) m' ∧
      Store.After (raw E) (KeyCell E t) t m' σ σ' := by
  obtain ⟨h1, h2, h3⟩ := hu
  obtain ⟨l, σ', hl, e, hk', ho⟩ := C92_delete_partial (raw E) t (KeyCell E t) K (byCells K E.null) br (raw_setup h)
    (agrees_raw K (KeyCell E t)) hn m σ hk (removalOf E u) h1 h2 h3
  refine ⟨_, σ', ?_, ⟨rfl, l, hl, rfl⟩, hk', ho⟩
  unfold Store.deleteAll
  rw [delete_raw]
  exact e

/-! ## Sequences -/

/-- C105, partial: sequences of any calls, with any structs: each does to the rows and to the structs what `Moves` says, and no other
table is touched.  Missing: batches with keys that the database makes up. -/
theorem C105_moves_partial (h : Typed.Shape E.g E.D t) (hw : AllWritten t) (hs : Struct (genAddrs t)) (hG : Lawful G (genAddrs t))
    (hn : HelperNames E.g E.D t) (hsp : Spelled E.g E.D t) (hst : E.g.style = if E.g.postgres then .numbered else .anon)
    (ha : t.auto = none) (os : List (Move X)) (ho : ∀ o ∈ os, Possible G E br t o) (m : Map Path V) (σ : Sql.Store V)
    (hk : Store.Keeps (raw E) (KeyCell E t) t m σ) :
    ∃ m', AllMoves G E K t os m (moves G E br K (rulesOf E.g) t os σ).1 m' ∧
      Store.After (raw E) (KeyCell E t) t m' σ (moves G E br K (rulesOf E.g) t os σ).2 := by
  induction os generalizing m σ with
  | nil => exact ⟨m, .nil, hk, fun _ _ => rfl⟩
  | cons o os ih =>
    have step : ∃ m', Moves G E K t o m (move G E br K (rulesOf E.g) t o σ).1 m' ∧
        Store.After (raw E) (KeyCell E t) t m' σ (move G E br K (rulesOf E.g) t o σ).2 := by
      have ho' := ho o (by simp)
      cases o with
      | one o =>
        obtain ⟨m', h1, h2, h3⟩ := struct_step h hw hs hG (by simp [Table.autoCol, ha]) o ho' m σ hk
        exact ⟨m', h1, h2, h3⟩
      | insert rs =>
        obtain ⟨a, m', σ', h1, h2, h3⟩ := C105_insert_partial (K := K) (br := br) h hw hs hG hn hst ha (ru := rulesOf E.g) (fun hp => by simp [rulesOf, hp]) hk rs ho'
        simp only [move, h1]
        exact ⟨m', h2, h3⟩
      | upsert w rs =>
        obtain ⟨a, m', σ', h1, h2, h3⟩ := C105_upsert_partial (K := K) (br := br) h hw hs hG hn hst ha hk w rs ho'
        simp only [move, h1]
        exact ⟨m', h2, h3⟩
      | upsertOne w r =>
        obtain ⟨a, m', σ', h1, h2, h3⟩ := C105_upsert_one_partial (K := K) (br := br) h hw hs hG hn hst ha hk w r ho'
        simp only [move, h1]
        exact ⟨m', h2, h3⟩
      | query q =>
        obtain ⟨a, h1, h2⟩ := C105_query_partial (K := K) h hs hG hsp m σ hk q ho'
        simp only [move, h1]
        exact ⟨m, h2, hk, fun _ _ => rfl⟩
      | queryOne q =>
        obtain ⟨a, h1, h2⟩ := C105_query_one_partial (K := K) h hs hG hsp m σ hk q ho'
        simp only [move, h1]
        exact ⟨m, h2, hk, fun _ _ => rfl⟩
      | update u =>
        obtain ⟨m', σ', h1, h2, h3⟩ := C105_update_partial (K := K) h hs hsp m σ hk u ho'
        simp only [move, h1]
        exact ⟨m', h2, h3⟩
      | delete u =>
        obtain ⟨m', σ', h1, h2, h3⟩ := C105_delete_partial (K := K) h hsp m σ hk u ho'
        simp only [move, h1]
        exact ⟨m', h2, h3⟩
    obtain ⟨m', h1, h2⟩ := step
    obtain ⟨m'', h3, h4⟩ := ih (fun o ho' => ho o (by simp [ho'])) m' _ h2.1
    exact ⟨m'', .cons h1 h3, h4.1, fun n hne => by rw [← h2.2 n hne]; exact h4.2 n hne⟩

end Verif.Props
