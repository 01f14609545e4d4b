import Verif.Props.Wrap
import Verif.Props.Bulk

/-!
# Property C100, where records in wrapped columns are lost
-/

namespace Verif.Props

open Verif Verif.Gen Verif.Spec Verif.Spec.Gen Verif.Spec.Sql Verif.Spec.Store Verif.Spec.Wrap Verif.Store Verif.Wrap

variable {F X V : Type} [DecidableEq F] [DecidableEq X] [DecidableEq V] {E : Env F X V} {B : Funs V} {val scan : F → Ex Unit} {t : Table F}
  {Ok : F → X → Prop}

/-! ### Finding, when keys are compared as they are -/

omit [DecidableEq F] [DecidableEq X] [DecidableEq V] in
/-- The SELECT compares with the values of the key fields as they are: if there are no templates for them, and if there is one but the key
has one column. -/
private theorem find_text (h : Texts E val scan t) (hk : (∀ c ∈ pick t (keyPos t), c.sqlVal = none) ∨ ∃ c u, pick t (keyPos t) = [c] ∧
      c.sqlVal = some u ∧ u ≠ [.hole] ∧ ∀ s, Piece.lit s ∈ u → s ≠ "") :
    ∃ text fs, E.g.genFindByPK t = .ok (text, fs) ∧ ∀ rec : F → V,
      Spec.bind E.g.style text (fs.map rec) = some (findB E.g t fun c => [.val (rec c.field)]) := by
  rcases hk with hk | ⟨c, u, hc, hu, hne⟩
  · obtain ⟨text, fs, e, hb⟩ := C21_find_by_key_partial E.g t h.wf (templates h) h.key (.inr hk)
    refine ⟨text, fs, e, fun rec => ?_⟩
    rw [hb]
    unfold findB
    have : equalB E.g (valB rec) (pick t (keyPos t)) = equalB E.g (fun c => [.val (rec c.field)]) (pick t (keyPos t)) := by
      have hv : ∀ c ∈ pick t (keyPos t), valB rec c = [.val (rec c.field)] := fun c hc => by simp [valB, hk c hc, wrap]
      match pick t (keyPos t), hv with
      | [], _ => rfl
      | [c], hv => simp [equalB, hv c (by simp)]
      | a :: b :: l, hv =>
        simp only [equalB]
        rw [List.map_congr_left hv]
    rw [this]
  · obtain ⟨text, fs, e, hb⟩ := C21_single_key_not_wrapped E.g t h.wf (templates h) h.key c u hc hu hne
    exact ⟨text, fs, e, fun rec => (hb V rec).1⟩

omit [DecidableEq X] in
private theorem find_rows (h : Texts E val scan t) (hk : (∀ c ∈ pick t (keyPos t), c.sqlVal = none) ∨ ∃ c u, pick t (keyPos t) = [c] ∧
      c.sqlVal = some u ∧ u ≠ [.hole] ∧ ∀ s, Piece.lit s ∈ u → s ≠ "") {rows : List (Row V)} {σ : Sql.Store V}
    (hσ : σ (tableName E.D t) = some (tableOf E.D t rows)) (r : F → X) :
    Wrap.findByPK E B t r σ =
      (match ((rows.filter (Sql.holds E.null ((pick t (keyPos t)).map fun c => (colName E.D c, E.enc c.field (r c.field))))).take 1).mapM
          (outs B E.D scan t) with
        | some l => queryRow E t r (.rows l)
        | none => .failed, σ) := by
  obtain ⟨text, fs, e, hb⟩ := find_text h hk
  have hb := hb (written E r)
  have hkn := keys_ne h
  have hc := cols_of h.named hkn (fun c => mem_of_pick)
  have hne : t.columns ≠ [] := by
    intro e; apply hkn; simp [pick, e]
  have hread : Spec.Wrap.read E.D (findB E.g t fun c => [.val (written E r c.field)]) = some (.select (t.columns.map (scanEx E.D scan))
        (tableName E.D t) ((pick t (keyPos t)).map fun c => (colName E.D c, .val (E.enc c.field (r c.field))))) := by
    unfold findB
    simp only [tableB_eq, equalB_condT]
    exact Wrap.read_select h.named.quote (tableTxt_reads h.named) hne (readB_reads h) hc
      (x' := fun c => .val (written E r c.field)) (fun c _ => itemTxt_atom (Verif.Sql.idle_val _ _).lexes (atom_val _ _))
  have hp : pairs B ((pick t (keyPos t)).map fun c => (colName E.D c, Ex.val (E.enc c.field (r c.field)))) =
      some ((pick t (keyPos t)).map fun c => (colName E.D c, E.enc c.field (r c.field))) :=
    pairs_map B _ (fun c : GCol F => Ex.val (E.enc c.field (r c.field))) _ _ fun c _ => rfl
  have hkey : (((pick t (keyPos t)).map fun c => (colName E.D c, E.enc c.field (r c.field))).all
      fun p => (tableOf E.D t rows).cols.contains p.1) = true := by
    simp only [List.all_map, List.all_eq_true, Function.comp_apply, tableOf, List.contains_iff_mem]
    intro c hc
    exact List.mem_map_of_mem (mem_of_pick hc)
  have heq : (fun row => evals B (at_ (tableOf E.D t rows) row) (t.columns.map (scanEx E.D scan))) = outs B E.D scan t :=
    funext fun row => eval_scans h rows row
  have hb' : Spec.bind E.g.style text (args E r fs) = some (findB E.g t fun c => [.val (written E r c.field)]) := hb
  simp only [Wrap.findByPK, e, sendEx, hb', Option.bind_some, hread, execute, hσ, hp, hkey, Bool.true_eq_false, if_false, heq]
  change (queryRow E t r (match ((rows.filter (Sql.holds E.null
      ((pick t (keyPos t)).map fun c => (colName E.D c, E.enc c.field (r c.field))))).take 1).mapM (outs B E.D scan t) with
    | some l => (Ans.rows l, σ)
    | none => (Ans.refused, σ)).1, (match ((rows.filter (Sql.holds E.null
      ((pick t (keyPos t)).map fun c => (colName E.D c, E.enc c.field (r c.field))))).take 1).mapM (outs B E.D scan t) with
    | some l => (Ans.rows l, σ)
    | none => (Ans.refused, σ)).2) = _
  cases ((rows.filter (Sql.holds E.null ((pick t (keyPos t)).map fun c => (colName E.D c, E.enc c.field (r c.field))))).take 1).mapM
      (outs B E.D scan t) <;> rfl

/-! ### Keys with a function -/

/-- All keys in the table were written by the function. -/
def KeysWrapped (E : Env F X V) (B : Funs V) (val : F → Ex Unit) (c : GCol F) (rows : List (Row V)) : Prop :=
  ∀ row ∈ rows, ∃ x, apply B (val c.field) (E.enc c.field x) = some (row (colName E.D c))

omit [DecidableEq X] in
/-- C100, refuted for a key of one column with a function for values: the record is inserted under what the function makes of the key,
but found and deleted under the key as it is.  If these are never the same, then whatever the sequence of inserts, finds and deletes, no
find finds anything, and no record is ever deleted. -/
theorem C100_wrapped_key_lost (h : Texts E val scan t) {c : GCol F} {u : Tmpl} (ha : t.auto = none) (hc : pick t (keyPos t) = [c])
    (hu : c.sqlVal = some u) (hne : u ≠ [.hole] ∧ ∀ s, Piece.lit s ∈ u → s ≠ "") (hw : AllWritten t)
    (hd : ∀ x y, apply B (val c.field) (E.enc c.field x) ≠ some (E.enc c.field y)) (ops : List (Store.Op F X))
    (hno : ∀ r, .update r ∉ ops) (rows : List (Row V)) (hrows : KeysWrapped E B val c rows) (σ : Sql.Store V)
    (hσ : σ (tableName E.D t) = some (tableOf E.D t rows)) :
    (∃ rows', (Wrap.performs E B t ops σ).2 (tableName E.D t) = some (tableOf E.D t rows') ∧ rows <+: rows' ∧ KeysWrapped E B val c rows') ∧
      ∀ (i : Nat) (r : F → X), ops[i]? = some (.find r) → (Wrap.performs E B t ops σ).1[i]? = some .noRows := by
  have hstep : ∀ (o : Store.Op F X), (∀ r, o ≠ .update r) → ∀ rows, KeysWrapped E B val c rows → ∀ σ : Sql.Store V,
      σ (tableName E.D t) = some (tableOf E.D t rows) → (∃ rows', (Wrap.perform E B t o σ).2 (tableName E.D t) = some (tableOf E.D t rows') ∧
        rows <+: rows' ∧ KeysWrapped E B val c rows') ∧ ∀ r, o = .find r → (Wrap.perform E B t o σ).1 = .noRows := by
    intro o ho rows hrows σ hσ
    have hnone : ∀ r : F → X, rows.filter (Sql.holds E.null [(colName E.D c, E.enc c.field (r c.field))]) = [] := by
      intro r
      rw [List.filter_eq_nil_iff]
      intro row hrow hh
      obtain ⟨x, hx⟩ := hrows row hrow
      simp only [Sql.holds, List.all_cons, List.all_nil, Bool.and_true, decide_eq_true_eq] at hh
      exact hd x (r c.field) (by rw [hx, hh.1])
    cases o with
    | update r => exact absurd rfl (ho r)
    | find r =>
      have := find_rows (B := B) h (.inr ⟨c, u, hc, hu, hne.1, hne.2⟩) hσ r
      simp only [hc, List.map_cons, List.map_nil, hnone] at this
      simp only [Wrap.perform, this]
      exact ⟨⟨rows, hσ, List.prefix_rfl, hrows⟩, fun _ _ => rfl⟩
    | delete r =>
      refine ⟨⟨rows, ?_, List.prefix_rfl, hrows⟩, fun _ e => by simp at e⟩
      obtain ⟨q, e, hs⟩ := send_delete (E := E) (B := B) h.wf h.named h.bare (keys_ne h) r σ
      have e0 : Helpers.deleteByPK E.g.style (Helpers.ofTable E.g t : Helpers.Mdl (F → V) V) (fun f => E.enc f (r f)) = .ok q := e
      have hp := pairs_map B (colName E.D) (fun c : GCol F => Ex.val (E.enc c.field (r c.field))) (fun c => E.enc c.field (r c.field))
        (pick t (keyPos t)) fun c _ => rfl
      simp only [hc, List.map_cons, List.map_nil] at hs hp
      have hcol : (tableOf E.D t rows).cols.contains (colName E.D c) = true := by
        simp only [tableOf, List.contains_iff_mem]
        exact List.mem_map_of_mem (mem_of_pick (is := keyPos t) (by rw [hc]; simp))
      have hkeep : rows.filter (fun row => !Sql.holds E.null [(colName E.D c, E.enc c.field (r c.field))] row) = rows := by
        rw [List.filter_eq_self]
        intro row hrow
        have := List.filter_eq_nil_iff.1 (hnone r) row hrow
        simpa using this
      simp only [Wrap.perform, Wrap.deleteByPK, e0, hs, execute, hp, exec, hσ, List.all_cons, List.all_nil, hcol, Bool.and_true,
        Bool.true_eq_false, if_false]
      simp [Sql.Store.put, tableOf, hkeep]
    | insert r =>
      refine ⟨?_, fun _ e => by simp at e⟩
      have hac : t.autoCol = none := by simp [Table.autoCol, ha]
      have hin : c ∈ pick t (insertPos t) := inserted hw (mem_of_pick (is := keyPos t) (by rw [hc]; simp)) (by simp [hac])
      obtain ⟨text, fs, e, hs⟩ := send_insert (B := B) h (List.ne_nil_of_mem hin) r σ
      simp only [Wrap.perform, Wrap.insertOne, e, hs]
      cases hev : evals B (fun _ => none) ((pick t (insertPos t)).map (valEx E val r)) with
      | none =>
        simp only [execute, hσ, hev]
        exact ⟨rows, rfl, List.prefix_rfl, hrows⟩
      | some vs =>
        obtain ⟨rfl, hall⟩ := evals_inv B _ _ E.null _ _ hev
        obtain ⟨v, hv⟩ := hall c hin
        have hz : ((pick t (insertPos t)).map (colName E.D)).zip
            ((pick t (insertPos t)).map fun a => (eval B (fun _ => none) (valEx E val r a)).getD E.null) =
            (pick t (insertPos t)).map fun a => (colName E.D a, (eval B (fun _ => none) (valEx E val r a)).getD E.null) := by
          simp [List.zip_map']
        have hrow := assign_in (colName E.D) (fun a => (eval B (fun _ => none) (valEx E val r a)).getD E.null) (pick t (insertPos t))
          (pick_nodup h insertPos_nodup) (blank E.null E.gen (tableOf E.D t rows)) c hin
        have hvc : apply B (val c.field) (E.enc c.field (r c.field)) = some v := hv
        have hnew : KeysWrapped E B val c (rows ++ [assign ((pick t (insertPos t)).map fun a =>
            (colName E.D a, (eval B (fun _ => none) (valEx E val r a)).getD E.null)) (blank E.null E.gen (tableOf E.D t rows))]) := by
          intro row hm
          rcases List.mem_append.1 hm with hm | hm
          · exact hrows row hm
          · have : row = _ := List.mem_singleton.1 hm
            subst this
            exact ⟨r c.field, by rw [hrow, hvc, hv]; rfl⟩
        rcases execute_insert B E.null E.gen hσ ((pick t (insertPos t)).map (colName E.D)) hev
          (if E.g.postgres then t.columns.map (scanEx E.D scan) else []) with h1 | h1
        · rw [h1]
          exact ⟨rows, hσ, List.prefix_rfl, hrows⟩
        · rw [h1, hz]
          exact ⟨_, by simp [Sql.Store.put, tableOf], List.prefix_append _ _, hnew⟩
  induction ops generalizing rows σ with
  | nil => exact ⟨⟨rows, hσ, List.prefix_rfl, hrows⟩, fun i r hi => by simp at hi⟩
  | cons o os ih =>
    obtain ⟨⟨rows1, h1, h2, h3⟩, h4⟩ := hstep o (fun r e => hno r (by simp [e])) rows hrows σ hσ
    obtain ⟨⟨rows2, h5, h6, h7⟩, h8⟩ := ih (fun r hr => hno r (by simp [hr])) rows1 h3 _ h1
    refine ⟨⟨rows2, h5, h2.trans h6, h7⟩, fun i r hi => ?_⟩
    cases i with
    | zero =>
      have : o = .find r := by simpa using hi
      simp [Wrap.performs, h4 r this]
    | succ i => simpa [Wrap.performs] using h8 i r (by simpa using hi)

/-! ### Batches -/

private theorem rowsLoop_sql {R V : Type} (m : Helpers.Mdl R V) (x : List String) (ph : Nat → Txt) (drop : Option Nat) (i : Nat) (data : List R) :
    Helpers.rowsLoop { m with sqlColumns := x } ph drop i data = Helpers.rowsLoop m ph drop i data := by
  induction data generalizing i with
  | nil => rfl
  | cons r rs ih => simp only [Helpers.rowsLoop, ih]

omit [DecidableEq X] in
/-- C100, refuted for `Insert` (other than PostgreSQL): it writes the values of the fields as they are, whatever functions the columns
have. -/
theorem C100_batch_raw (hp : E.g.postgres = false) (ru : Rules) (rs : List (F → X)) (σ : Sql.Store V) :
    insertMany E ru t rs σ = insertMany E ru (strip t) rs σ := by
  have hm : ∀ data, Helpers.insertMy (mdl E t) data = Helpers.insertMy (mdl E (strip t)) data := by
    intro data
    have hm : mdl E (strip t) = { mdl E t with sqlColumns := (mdl E (strip t)).sqlColumns } := by
      have h1 : (strip t).insertColumns = t.insertColumns.map bareCol := by
        unfold Table.insertColumns
        rw [strip_columns, List.zipIdx_map, List.filter_map, List.map_map, List.map_map]
        rfl
      have h2 : (strip t).keyCols = t.keyCols.map bareCol := strip_pick t t.keys
      have h3 : E.g.genPK (strip t) = E.g.genPK t := by
        unfold Cfg.genPK
        rw [strip_autoCol, h2]
        cases t.autoCol with
        | some c => rfl
        | none =>
          match t.keyCols with
          | [] => rfl
          | [c] => rfl
          | _ :: _ :: _ => rfl
      have h4 : genCompositeKey (strip t) = genCompositeKey t := by
        unfold genCompositeKey
        rw [strip_autoCol, h2]
        cases t.autoCol with
        | some c => rfl
        | none =>
          match t.keyCols with
          | [] => rfl
          | [c] => rfl
          | a :: b :: l =>
            simp only [Option.map_none, List.map_cons, List.map_map]
            rfl
      have h5 : genValues (strip t) = genValues t := by
        unfold genValues
        rw [h1, List.map_map]
        rfl
      have h6 : E.g.genColumns (strip t) = E.g.genColumns t := by
        unfold Cfg.genColumns
        rw [strip_columns, List.map_map]
        rfl
      unfold mdl Helpers.ofTable
      simp only [h1, h3, h4, h5, h6, strip_autoCol, List.length_map]
      cases t.autoCol <;> rfl
    rw [hm]
    have hl := fun ph drop i => rowsLoop_sql (mdl E t) (mdl E (strip t)).sqlColumns ph drop i data
    cases data with
    | nil => rfl
    | cons r rs =>
      unfold Helpers.insertMy
      simp only [hl]
      rfl
  unfold insertMany
  simp only [hp, Bool.false_eq_true, if_false, hm]
  unfold runMany
  simp only [hp, Bool.false_eq_true, if_false]

/-- C100, refuted for `Insert`, what becomes of it: `FindByPK` gives what the functions for reading make of values that no function has
written. -/
theorem C100_batch_misread (h : Texts E val scan t) (hk : ∀ c ∈ pick t (keyPos t), c.sqlVal = none) (hs : Setup E (strip t) Ok)
    {m : Map F X} {σ : Sql.Store V} (hm : Keeps E Ok t m σ) {r s : F → X} (hr : Good Ok t r) (hmr : m (keyOf t r) = some s) :
    Wrap.findByPK E B t r σ =
      (match t.columns.mapM fun c => apply B (scan c.field) (E.enc c.field (s c.field)) with
        | some l => queryRow E t r (.rows [l])
        | none => .failed, σ) := by
  obtain ⟨rows, hσ, hh⟩ := hm
  rw [find_rows h (.inl hk) hσ r]
  have hh' : Holds E.enc E.D Ok (strip t) m rows := (strip_holds t _ _ _ _ _).2 hh
  have hr' : Good Ok (strip t) r := (strip_good t Ok r).2 hr
  have hkc : keyCond E (strip t) r = (pick t (keyPos t)).map fun c => (colName E.D c, E.enc c.field (r c.field)) := by
    unfold keyCond
    rw [strip_keyPos, strip_pick, List.map_map]
    rfl
  obtain ⟨hks, hg, row, hrow, hrep⟩ := hh.stored _ _ hmr
  have hf : ∀ row ∈ rows, Sql.holds E.null ((pick t (keyPos t)).map fun c => (colName E.D c, E.enc c.field (r c.field))) row = true ↔
      ∃ s, m (keyOf t r) = some s ∧ Rep E.enc E.D t s row ∧ keyOf t s = keyOf t r := by
    intro row hrow
    have := found hs hh' hr' hrow
    rw [hkc] at this
    simpa only [strip_keyOf, strip_rep] using this
  cases hfl : rows.filter (Sql.holds E.null ((pick t (keyPos t)).map fun c => (colName E.D c, E.enc c.field (r c.field)))) with
  | nil =>
    rw [List.filter_eq_nil_iff] at hfl
    exact absurd ((hf row hrow).2 ⟨s, hmr, hrep, hks⟩) (hfl row hrow)
  | cons row0 l =>
    have h0 : row0 ∈ rows.filter (Sql.holds E.null ((pick t (keyPos t)).map fun c => (colName E.D c, E.enc c.field (r c.field)))) := by
      simp [hfl]
    obtain ⟨hr0, hc0⟩ := List.mem_filter.1 h0
    obtain ⟨s0, hs0, hrep0, -⟩ := (hf row0 hr0).1 hc0
    rw [hmr] at hs0
    cases hs0
    have ho : outs B E.D scan t row0 = t.columns.mapM fun c => apply B (scan c.field) (E.enc c.field (s c.field)) := by
      unfold outs
      have : ∀ l : List (GCol F), (∀ c ∈ l, c ∈ t.columns) → (l.mapM fun c => apply B (scan c.field) (row0 (colName E.D c))) =
          l.mapM fun c => apply B (scan c.field) (E.enc c.field (s c.field)) := by
        intro l
        induction l with
        | nil => intro _; rfl
        | cons c l ih =>
          intro hl
          simp only [List.mapM_cons, hrep0 c (hl c (by simp)), ih fun c hc => hl c (by simp [hc])]
      exact this _ fun c hc => hc
    simp only [List.take_succ_cons, List.take_zero, List.mapM_cons, List.mapM_nil, ho]
    cases t.columns.mapM fun c => apply B (scan c.field) (E.enc c.field (s c.field)) <;> rfl

/-- C100, refuted: a record that `Insert` stored, in a column whose function for reading fails on values that were not written by the other
one, can no longer be read. -/
theorem C100_batch_lost (h : Texts E val scan t) (hk : ∀ c ∈ pick t (keyPos t), c.sqlVal = none) (hs : FullSetup E (strip t) Ok)
    (hf : (t.columns.map (·.field)).Nodup) (hn : HelperNames E.g E.D t) (ha : t.auto = none) (hst : E.g.style = .anon)
    (hp : E.g.postgres = false) {ru : Rules} {m : Map F X} {σ : Sql.Store V} (hm : Keeps E Ok t m σ) (rs : List (F → X))
    (hr : ∀ r ∈ rs, Good Ok t r) (hnew : (rs.map (keyOf t)).Nodup ∧ ∀ r ∈ rs, m (keyOf t r) = none) {r : F → X} (hrm : r ∈ rs)
    {c : GCol F} (hc : c ∈ t.columns) (hbad : apply B (scan c.field) (E.enc c.field (r c.field)) = none) :
    ∃ σ', insertMany E ru t rs σ = (.ok rs, σ') ∧ Wrap.findByPK E B t r σ' = (.failed, σ') := by
  obtain ⟨σ', e, hk', -⟩ := (C91_insert (t := strip t) hs (by rw [strip_columns, List.map_map]; exact hf) 
    (by unfold HelperNames; rw [strip_columns, strip_keyPos, strip_pick, List.forall_mem_map, List.length_map]; exact hn)
    (by simp [hp, hst]) ha (ru := ru) (by simp [hp]) ((strip_keeps t _ _ _ _).2 hm) rs fun r hr' => (strip_good t Ok r).2 (hr r hr')).1
    (by rw [show keyOf (X := X) (strip t) = keyOf t from funext (strip_keyOf t)]; exact hnew)
  rw [← C100_batch_raw hp] at e
  refine ⟨σ', e, ?_⟩
  rw [strip_keeps] at hk'
  have hw : withKey (strip t) rs (keyOf t r) = some r := by
    unfold withKey
    simp only [strip_keyOf]
    cases hx : rs.find? fun r' => decide (keyOf t r' = keyOf t r) with
    | none =>
      have := List.find?_eq_none.1 hx r hrm
      simp at this
    | some r' =>
      have h1 := List.mem_of_find?_eq_some hx
      have h2 : keyOf t r' = keyOf t r := by simpa using List.find?_some hx
      rw [List.inj_on_of_nodup_map hnew.1 h1 hrm h2]
  have := C100_batch_misread (B := B) h hk hs.toSetup hk' (r := r) (s := r) (hr r hrm) (by simp only [hw, Option.some_or])
  rw [this]
  have hnone : (t.columns.mapM fun c => apply B (scan c.field) (E.enc c.field (r c.field))) = none := by
    have : ∀ l : List (GCol F), c ∈ l → (l.mapM fun c => apply B (scan c.field) (E.enc c.field (r c.field))) = none := by
      intro l
      induction l with
      | nil => intro hc; simp at hc
      | cons a l ih =>
        intro hc
        rw [List.mapM_cons]
        rcases List.mem_cons.1 hc with rfl | hc
        · rw [hbad]; rfl
        · rw [ih hc]
          cases apply B (scan a.field) (E.enc a.field (r a.field)) <;> rfl
    exact this _ hc
  rw [hnone]

end Verif.Props
