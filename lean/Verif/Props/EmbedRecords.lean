import Verif.Props.EmbedMany

/-! # C105: structs without nil embedded pointers -/

namespace Verif.Props

open Verif Verif.Addrs Verif.Gen Verif.Embed Verif.Spec Verif.Spec.Gen Verif.Spec.Store Verif.Spec.Embed Verif.Spec.Sql Verif.Store

variable {X V : Type} [DecidableEq X] [DecidableEq V] {G : Values X} {E : Store.Env Path X V} {t : Table Path} {br : Brand} {K : Compare V}
  {Ok : Path → X → Prop}

omit [DecidableEq X] [DecidableEq V] in
private theorem load_has (h : Store.Setup E t Ok) (hs : Struct (genAddrs t)) (hG : Lawful G (genAddrs t)) (r : Obj X) {v : List V}
    {s s' : Path → X} (e : Store.scan (other E E.enc (careful E Ok) E.toId) (genAddrs t) v s = some s') :
    ∃ r', Embed.load G E t r v = (.ok, r') ∧ Has (genAddrs t) s' r' := by
  obtain ⟨r1, h1, h2⟩ := addrs_ok hs hG r
  obtain ⟨g1, g2, g3, -⟩ := careful_scan h (genAddrs t) (fun _ hc => hc) hs.once v s s' r1 e
  unfold Embed.load
  simp only [h1]
  rcases hr : Embed.scan E (genAddrs t) v r1 with ⟨b, r2⟩
  rw [hr] at g1 g2 g3
  simp only at g1 g2 g3
  subst g1
  refine ⟨r2, rfl, fun c hc => ⟨fun p hp hne => ?_, g3 c hc⟩⟩
  rw [g2]
  exact (h2 c hc).1 p hp hne

omit [DecidableEq X] [DecidableEq V] in
private theorem loadRows_has (h : Store.Setup E t Ok) (hs : Struct (genAddrs t)) (hG : Lawful G (genAddrs t)) :
    ∀ (l : List (List V)) (rs : List (Obj X)) (out : List (Path → X)), (∀ r ∈ rs, Whole (genAddrs t) r) →
      Store.scanRows (other E E.enc (careful E Ok) E.toId) t l (rs.map (·.val)) = some out →
      ∃ rs', loadRows G E t l rs = (.ok, rs') ∧ List.Forall₂ (Has (genAddrs t)) out rs' := by
  intro l
  induction l with
  | nil =>
    intro rs out hw e
    simp only [Store.scanRows, Option.some.injEq] at e
    subst e
    refine ⟨rs, rfl, ?_⟩
    rw [List.forall₂_map_left_iff, List.forall₂_same]
    exact fun r hr c hc => ⟨hw r hr c hc, rfl⟩
  | cons v l ih =>
    intro rs out hw e
    cases rs with
    | nil => simp [Store.scanRows] at e
    | cons r rs =>
      simp only [List.map_cons, Store.scanRows, Option.bind_eq_some_iff, Option.map_eq_some_iff] at e
      obtain ⟨s', e1, out', e2, rfl⟩ := e
      obtain ⟨r', g1, g2⟩ := load_has (G := G) h hs hG r e1
      obtain ⟨rs', g3, g4⟩ := ih rs out' (fun r hr => hw r (by simp [hr])) e2
      exact ⟨r' :: rs', by simp only [loadRows, g1, g3], .cons g2 g4⟩

omit [DecidableEq X] in
private theorem many_has (h : Store.Setup E t Ok) (hs : Struct (genAddrs t)) (hG : Lawful G (genAddrs t)) {rs : List (Obj X)}
    (hw : ∀ r ∈ rs, Whole (genAddrs t) r) (ru : Rules) (q : Res (Option (Txt × List V))) (σ : Sql.Store V) :
    (∀ out, (Store.runMany (other E E.enc (careful E Ok) E.toId) ru t (rs.map (·.val)) q σ).1 = .ok out →
      ∃ rs', (Embed.runMany G E ru t rs q σ).1 = (.ok, rs') ∧ List.Forall₂ (Has (genAddrs t)) out rs') ∧
    ((Store.runMany (other E E.enc (careful E Ok) E.toId) ru t (rs.map (·.val)) q σ).1 = .duplicate →
      (Embed.runMany G E ru t rs q σ).1 = (.duplicate, rs)) ∧
    (Store.runMany (other E E.enc (careful E Ok) E.toId) ru t (rs.map (·.val)) q σ).2 = (Embed.runMany G E ru t rs q σ).2 := by
  have hsame : List.Forall₂ (Has (genAddrs t)) (rs.map (·.val)) rs := by
    rw [List.forall₂_map_left_iff, List.forall₂_same]
    exact fun r hr c hc => ⟨hw r hr c hc, rfl⟩
  unfold Store.runMany Embed.runMany
  rw [if_pos (all_readable hs rs)]
  cases q with
  | err => exact ⟨by simp, by simp, rfl⟩
  | panic => exact ⟨by simp, by simp, rfl⟩
  | ok q =>
    cases q with
    | none =>
      refine ⟨fun out e => ?_, by simp, rfl⟩
      simp only [Store.Out.ok.injEq] at e
      subst e
      exact ⟨rs, rfl, hsame⟩
    | some q =>
      simp only [show Store.sendBulk (other E E.enc (careful E Ok) E.toId) ru q σ = Store.sendBulk E ru q σ from rfl]
      rcases Store.sendBulk E ru q σ with ⟨a, σ'⟩
      refine ⟨fun out e => ?_, fun e => ?_, trivial⟩
      · by_cases hp : E.g.postgres = true
        · simp only [other_postgres, hp, if_true] at e ⊢
          cases a with
          | rows l =>
            simp only [Store.queryRows] at e
            split at e
            · rename_i o eo
              simp only [Store.Out.ok.injEq] at e
              subst e
              exact loadRows_has h hs hG l rs _ hw eo
            · cases e
          | done => simp only [Store.queryRows, Store.Out.ok.injEq] at e; subst e; exact ⟨rs, rfl, hsame⟩
          | duplicate => cases e
          | refused => cases e
        · simp only [other_postgres, hp, Bool.false_eq_true, if_false] at e ⊢
          cases a with
          | rows l => simp only [Store.execMany, Store.Out.ok.injEq] at e; subst e; exact ⟨rs, rfl, hsame⟩
          | done => simp only [Store.execMany, Store.Out.ok.injEq] at e; subst e; exact ⟨rs, rfl, hsame⟩
          | duplicate => cases e
          | refused => cases e
      · by_cases hp : E.g.postgres = true
        · simp only [other_postgres, hp, if_true] at e ⊢
          cases a with
          | rows l =>
            simp only [Store.queryRows] at e
            split at e <;> cases e
          | done => cases e
          | duplicate => rfl
          | refused => cases e
        · simp only [other_postgres, hp, Bool.false_eq_true, if_false] at e ⊢
          cases a <;> first | rfl | cases e

section
variable (h : Store.Setup E t Ok) (hw : AllWritten t) (hs : Struct (genAddrs t)) (hG : Lawful G (genAddrs t))
  (hnil : ∀ c ∈ genAddrs t, lastPtr c = true → ∀ x, G.isNil x = true → E.enc c x = E.null)
  (hn : HelperNames E.g E.D t) (hst : E.g.style = if E.g.postgres then .numbered else .anon) (ha : t.auto = none)

omit [DecidableEq X] [DecidableEq V] in
private theorem values_whole (hs : Struct (genAddrs t))
    (hnil : ∀ c ∈ genAddrs t, lastPtr c = true → ∀ x, G.isNil x = true → E.enc c x = E.null) {r : Obj X} (hr : Whole (genAddrs t) r) :
    (Store.mdl E t).values (keyArg G E (genAddrs t) r) = (Store.mdl E t).values (Store.vals E r.val) := by
  have : ∀ c ∈ genValues t, keyArg G E (genAddrs t) r c = E.enc c (r.val c) := by
    intro c hc
    unfold keyArg
    rw [arg_eq hs E r (values_mem c hc), cells_whole hnil hr (values_mem c hc)]
  exact List.map_congr_left this

include h hw hs hG hnil hn hst ha

/-- C105, partial: a batch insert of structs without nil embedded pointers is one of records (C91); the structs have the same fields
afterwards. -/
theorem C105_records_insert_partial {ru : Rules} (hru : E.g.postgres = true → ru = .onConflict) {m : Map Path X} {σ : Sql.Store V}
    (hk : Store.Keeps E Ok t m σ) (rs : List (Obj X)) (hr : ∀ r ∈ rs, Whole (genAddrs t) r ∧ Good Ok t r.val) :
    (((rs.map fun r => keyOf t r.val).Nodup ∧ ∀ r ∈ rs, m (keyOf t r.val) = none) →
      ∃ rs' σ', Embed.insertMany G E ru t rs σ = ((.ok, rs'), σ') ∧ List.Forall₂ (Has (genAddrs t)) (rs.map (·.val)) rs' ∧
        Store.After E Ok t (fun k => (withKey t (rs.map (·.val)) k).or (m k)) σ σ') ∧
    (¬ ((rs.map fun r => keyOf t r.val).Nodup ∧ ∀ r ∈ rs, m (keyOf t r.val) = none) →
      Embed.insertMany G E ru t rs σ = ((.duplicate, rs), σ)) := by
  have hF : Store.FullSetup (other E E.enc (careful E Ok) E.toId) t Ok := ⟨careful_setup h, hw⟩
  have hC := C91_insert (E := other E E.enc (careful E Ok) E.toId) hF hs.once hn hst ha hru (m := m) (σ := σ) hk (rs.map (·.val))
    (by simpa using fun r hr' => (hr r hr').2)
  simp only [List.map_map, List.forall_mem_map, Function.comp_def] at hC
  have hM := many_has (G := G) (E := E) h hs hG (fun r hr' => (hr r hr').1) ru
    (if E.g.postgres then Helpers.insertPg (Store.mdl E t) (rs.map (keyArg G E (genAddrs t)))
      else Helpers.insertMy (Store.mdl E t) (rs.map (keyArg G E (genAddrs t)))) σ
  have he : Store.insertMany (other E E.enc (careful E Ok) E.toId) ru t (rs.map (·.val)) σ =
      Store.runMany (other E E.enc (careful E Ok) E.toId) ru t (rs.map (·.val))
        (if E.g.postgres then Helpers.insertPg (Store.mdl E t) (rs.map (keyArg G E (genAddrs t)))
          else Helpers.insertMy (Store.mdl E t) (rs.map (keyArg G E (genAddrs t)))) σ := by
    rw [insertPg_congr (Store.mdl E t) (g := fun r => Store.vals E r.val) rs fun r hr' => values_whole hs hnil (hr r hr').1,
      insertMy_congr (Store.mdl E t) (g := fun r => Store.vals E r.val) rs fun r hr' => values_whole hs hnil (hr r hr').1]
    unfold Store.insertMany
    simp only [List.map_map]
    rfl
  rw [← he] at hM
  constructor
  · intro hc
    obtain ⟨σ', e, hafter⟩ := hC.1 hc
    rw [e] at hM
    obtain ⟨rs', e1, e2⟩ := hM.1 _ rfl
    exact ⟨rs', σ', Prod.ext e1 hM.2.2.symm, e2, hafter⟩
  · intro hc
    have e := hC.2 hc
    rw [e] at hM
    exact Prod.ext (hM.2.1 rfl) hM.2.2.symm

/-- C105, upserts of structs without nil embedded pointers are upserts of records (C91). -/
theorem C105_records_upsert_partial (w : Wish) (hwish : w.keep = true ∨ replaced E.g t w ≠ []) {m : Map Path X} {σ : Sql.Store V}
    (hk : Store.Keeps E Ok t m σ) (rs : List (Obj X)) (hne : rs ≠ []) (hr : ∀ r ∈ rs, Whole (genAddrs t) r ∧ Good Ok t r.val)
    (hd : E.g.postgres = true → w.keep = false → (rs.map fun r => keyOf t r.val).Nodup) :
    ∃ m' ss rs' σ', storeAll t (existing w) ((replaced E.g t w).map (·.field)) (rs.map (·.val)) m = some (m', ss) ∧
      Embed.upsertMany G E (rulesOf E.g) t w rs σ = ((.ok, rs'), σ') ∧
      List.Forall₂ (Has (genAddrs t)) (if E.g.postgres then into t ss (rs.map (·.val)) else rs.map (·.val)) rs' ∧
      Store.After E Ok t m' σ σ' := by
  have hF : Store.FullSetup (other E E.enc (careful E Ok) E.toId) t Ok := ⟨careful_setup h, hw⟩
  have hC := upsertMany_ok (E := other E E.enc (careful E Ok) E.toId) hF hs.once hn hst ha w hwish (m := m) (σ := σ) hk
    (rs := rs.map (·.val)) (by simpa using hne) (by simpa using fun r hr' => (hr r hr').2)
  rw [if_neg (by
    rintro ⟨h1, h2, h3⟩
    rw [List.map_map] at h3
    exact h3 (hd h1 h2))] at hC
  obtain ⟨m', ss, σ', e0, e, hafter⟩ := hC
  have hM := many_has (G := G) (E := E) h hs hG (fun r hr' => (hr r hr').1) (rulesOf E.g)
    (if E.g.postgres then Helpers.upsertPg (Store.mdl E t) { doNothing := w.keep, omitted := w.omitted } (rs.map (keyArg G E (genAddrs t)))
      else Helpers.upsertMy (Store.mdl E t) (!w.keep) w.omitted (rs.map (keyArg G E (genAddrs t)))) σ
  have he : Store.upsertMany (other E E.enc (careful E Ok) E.toId) (rulesOf E.g) t w (rs.map (·.val)) σ =
      Store.runMany (other E E.enc (careful E Ok) E.toId) (rulesOf E.g) t (rs.map (·.val))
        (if E.g.postgres
          then Helpers.upsertPg (Store.mdl E t) { doNothing := w.keep, omitted := w.omitted } (rs.map (keyArg G E (genAddrs t)))
          else Helpers.upsertMy (Store.mdl E t) (!w.keep) w.omitted (rs.map (keyArg G E (genAddrs t)))) σ := by
    rw [upsertPg_congr (Store.mdl E t) (g := fun r => Store.vals E r.val) _ rs fun r hr' => values_whole hs hnil (hr r hr').1,
      upsertMy_congr (Store.mdl E t) (g := fun r => Store.vals E r.val) _ _ rs fun r hr' => values_whole hs hnil (hr r hr').1]
    unfold Store.upsertMany
    simp only [List.map_map]
    rfl
  have e' : Store.upsertMany (other E E.enc (careful E Ok) E.toId) (rulesOf E.g) t w (rs.map (·.val)) σ =
      (.ok (if E.g.postgres then into t ss (rs.map (·.val)) else rs.map (·.val)), σ') := e
  rw [← he, e'] at hM
  obtain ⟨rs', e1, e2⟩ := hM.1 _ rfl
  exact ⟨m', ss, rs', σ', e0, Prod.ext e1 hM.2.2.symm, e2, hafter⟩

end

omit [DecidableEq X] [DecidableEq V] in
mutual
private theorem clause_other (dec : Path → V → X → Option X) (c : Cond Path X) :
    Store.clause (other E E.enc dec E.toId) c = Store.clause E c := by
  cases c with
  | and cs => simp only [Store.clause, clauses_other dec cs]
  | or cs => simp only [Store.clause, clauses_other dec cs]
  | cmp op c x => rfl
  | isIn neg c xs => rfl
  | null neg c => rfl
  | between neg c a b => rfl
private theorem clauses_other (dec : Path → V → X → Option X) (cs : List (Cond Path X)) :
    Store.clauses (other E E.enc dec E.toId) cs = Store.clauses E cs := by
  cases cs with
  | nil => rfl
  | cons c cs => simp only [Store.clauses, clause_other dec c, clauses_other dec cs]
end

omit [DecidableEq X] [DecidableEq V] in
private theorem newRows_has (h : Store.Setup E t Ok) (hs : Struct (genAddrs t)) (hG : Lawful G (genAddrs t)) (z : Path → X) :
    ∀ (l : List (List V)) (ss : List (Path → X)),
      (l.mapM fun v => Store.scan (other E E.enc (careful E Ok) E.toId) (genAddrs t) v z) = some ss →
      ∃ rs, newRows G E t l = .ok rs ∧ List.Forall₂ (Has (genAddrs t)) ss rs := by
  intro l
  induction l with
  | nil =>
    intro ss e
    simp only [List.mapM_nil, Option.pure_def, Option.some.injEq] at e
    subst e
    exact ⟨[], rfl, .nil⟩
  | cons v l ih =>
    intro ss e
    simp only [List.mapM_cons, Option.bind_eq_bind, Option.bind_eq_some_iff, Option.pure_def, Option.some.injEq] at e
    obtain ⟨s, e1, ss', e2, rfl⟩ := e
    obtain ⟨r, g1, g2⟩ := load_has (G := G) h hs hG (blank G) e1
    obtain ⟨rs, g3, g4⟩ := ih ss' e2
    exact ⟨r :: rs, by simp only [newRows, g1, g3], .cons g2 g4⟩

/-- C105, partial: if all that is stored are records, queries give structs with the fields of those that satisfy the condition, as in
C92, none of whose embedded pointers is nil. -/
theorem C105_records_query_partial (h : Store.Setup E t Ok) (hs : Struct (genAddrs t)) (hG : Lawful G (genAddrs t))
    {O : Comp Path X} (hA : Agrees K E.null E.enc Ok t O) (hn : Spelled E.g E.D t) (m : Map Path X) (σ : Sql.Store V)
    (hk : Store.Keeps E Ok t m σ) (q : Store.Query Path X) (hq : ProperQuery Ok t q) (hsel : q.select = [] ∨ q.select = t.columns)
    (ho : q.offset = 0 ∨ q.limit ≠ 0 ∨ br = .postgres) :
    ∃ l rs, Found O t m q.where_ q.orderBy l ∧ queryAll G E br K t q σ = (.ok rs, σ) ∧
      List.Forall₂ (Has (genAddrs t)) (firstOf q.limit (l.drop q.offset)) rs := by
  obtain ⟨l, hl, e⟩ := C92_query_partial (other E E.enc (careful E Ok) E.toId) t Ok K O br (careful_setup h) hA hn m σ hk q hq hsel ho G.zero
  have hr := run_rel (E := E) (br := br) (K := K) (Store.rowsOf (other E E.enc (careful E Ok) E.toId) t G.zero) (rowsOf G E t)
    (fun a b => ∀ ss, a = .ok ss → ∃ rs, b = .ok rs ∧ List.Forall₂ (Has (genAddrs t)) ss rs)
    (by
      intro a ss ea
      cases a with
      | rows v =>
        simp only [Store.rowsOf] at ea
        cases em : v.mapM fun v => Store.scan (other E E.enc (careful E Ok) E.toId) (genAddrs t) v G.zero with
        | none => simp [em] at ea
        | some ss' =>
          simp only [em, Store.Ret.ok.injEq] at ea
          subst ea
          exact newRows_has h hs hG G.zero v ss' em
      | done => simp only [Store.rowsOf, Store.Ret.ok.injEq] at ea; subst ea; exact ⟨[], rfl, .nil⟩
      | duplicate => cases ea
      | refused => cases ea)
    (by simp) (by simp) (queryStmt E.g.style (Store.info E t) (Store.selectOf E q)) σ
  have e' : Store.runStmt E br K (Store.rowsOf (other E E.enc (careful E Ok) E.toId) t G.zero)
      (queryStmt E.g.style (Store.info E t) (Store.selectOf E q)) σ =
      (.ok ((firstOf q.limit (l.drop q.offset)).map fun s => Spec.Store.load t s G.zero), σ) := by
    rw [← e]
    unfold Store.queryAll Store.selectOf
    rw [show Store.clause (other E E.enc (careful E Ok) E.toId) = Store.clause E from funext (clause_other _)]
    rfl
  rw [e'] at hr
  obtain ⟨rs, e1, e2⟩ := hr.1 _ rfl
  refine ⟨l, rs, hl, Prod.ext e1 hr.2.symm, ?_⟩
  rw [List.forall₂_map_left_iff] at e2
  exact e2.imp fun s r hr c hc => ⟨(hr c hc).1, by rw [(hr c hc).2]; exact if_pos hc⟩

end Verif.Props
