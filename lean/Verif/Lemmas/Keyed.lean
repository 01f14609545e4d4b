import Verif.Lemmas.Store
import Verif.Spec.Keyed

/-!
# Lemmas about the helpers at work on a database
-/

namespace Verif.Store

open Verif Verif.Gen Verif.Spec Verif.Spec.Gen Verif.Spec.Sql Verif.Spec.Store

set_option linter.unusedSectionVars false

variable {F X V : Type} [DecidableEq F] [DecidableEq X] [DecidableEq V]

variable {E : Env F X V} {t : Table F} {Ok : F → X → Prop} (h : Setup E t Ok)

/-! ## Columns -/

theorem assign_notin (sets : List (Name × V)) (row : Row V) (n : Name) (hn : n ∉ sets.map (·.1)) :
    assign sets row n = row n := by
  induction sets generalizing row with
  | nil => rfl
  | cons p sets ih =>
    simp only [List.map_cons, List.mem_cons, not_or] at hn
    have := ih (fun m => if m = p.1 then p.2 else row m) hn.2
    simp only [assign, List.foldl_cons] at this ⊢
    rw [this, if_neg hn.1]

theorem assign_in {α : Type} (nm : α → Name) (v : α → V) (l : List α) (hl : (l.map nm).Nodup) (row : Row V) (c : α)
    (hc : c ∈ l) : assign (l.map fun c => (nm c, v c)) row (nm c) = v c := by
  induction l generalizing row with
  | nil => simp at hc
  | cons a l ih =>
    simp only [List.map_cons, List.nodup_cons] at hl
    rcases List.mem_cons.1 hc with rfl | hc
    · have := assign_notin (l.map fun c => (nm c, v c)) (fun m => if m = nm c then v c else row m) (nm c)
        (by simpa [Function.comp_def] using hl.1)
      simp only [assign, List.map_cons, List.foldl_cons] at this ⊢
      rw [this]; simp
    · exact ih hl.2 _ hc

include h

theorem pick_names {is : List Nat} (hi : is.Nodup) : ((pick t is).map (colName E.D)).Nodup := by
  unfold pick
  rw [List.Nodup, List.pairwise_map, List.pairwise_filterMap]
  refine List.Pairwise.imp ?_ hi
  intro i j hij a ha b hb e
  obtain ⟨hi', rfl⟩ := List.getElem?_eq_some_iff.1 ha
  obtain ⟨hj', rfl⟩ := List.getElem?_eq_some_iff.1 hb
  apply hij
  have := (List.Nodup.getElem_inj_iff h.names (i := i) (j := j) (hi := by simpa using hi') (hj := by simpa using hj')).1
  exact this (by simpa using e)

theorem keyPos_nodup : (keyPos t).Nodup := by
  unfold keyPos
  cases t.auto with
  | some i => simp
  | none => exact h.wf.sorted.imp (fun hlt => Nat.ne_of_lt hlt)

omit h in
theorem insertPos_nodup : (insertPos t).Nodup := List.nodup_range.filter _
omit h in
theorem updatePos_nodup : (updatePos t).Nodup := List.nodup_range.filter _

omit h in
theorem not_readonly (hw : AllWritten t) (i : Nat) : isReadonly t i = false := by
  unfold isReadonly
  cases e : t.columns[i]? with
  | none => rfl
  | some c => simpa using hw c (List.mem_of_getElem? e)

theorem keyPos_ne : keyPos t ≠ [] := by
  have := h.key
  unfold keyPos
  cases e : t.auto with
  | some i => simp
  | none => simpa [Table.hasPK, e] using this

theorem keyPos_lt : ∀ i ∈ keyPos t, i < t.columns.length := by
  unfold keyPos
  cases e : t.auto with
  | some i => simpa using h.wf.auto i e
  | none => exact h.wf.keys

theorem keyCols_ne : pick t (keyPos t) ≠ [] := by
  obtain ⟨i, l, e⟩ := List.exists_cons_of_ne_nil (keyPos_ne h)
  have hi := keyPos_lt h i (by simp [e])
  simp [pick, e, List.getElem?_eq_getElem hi]

/-- Columns are keys or updated. -/
theorem covered (hw : AllWritten t) {c : GCol F} (hc : c ∈ t.columns) : c ∈ pick t (updatePos t) ∨ c ∈ pick t (keyPos t) := by
  obtain ⟨i, hi⟩ := List.getElem?_of_mem hc
  have hlt : i < t.columns.length := (List.getElem?_eq_some_iff.1 hi).1
  by_cases hk : i ∈ keyPos t
  · exact .inr (mem_pick.2 ⟨i, hk, hi⟩)
  · refine .inl (mem_pick.2 ⟨i, ?_, hi⟩)
    simp only [updatePos, List.mem_filter, List.mem_range, not_readonly hw, hlt, true_and]
    unfold keyPos at hk
    cases e : t.auto with
    | none => rw [e] at hk; simpa using hk
    | some j =>
      rw [e] at hk
      have := h.single j e
      have hij : i ≠ j := by simpa using hk
      have : i ∉ t.keys := fun hm => hij (this i hm)
      simpa [this] using Ne.symm hij

/-- No updated column has the name of a key. -/
theorem key_not_updated {c : GCol F} (hc : c ∈ pick t (keyPos t)) : colName E.D c ∉ (pick t (updatePos t)).map (colName E.D) := by
  intro hm
  obtain ⟨d, hd, e⟩ := List.mem_map.1 hm
  obtain ⟨i, hi, hic⟩ := mem_pick.1 hc
  obtain ⟨j, hj, hjd⟩ := mem_pick.1 hd
  obtain ⟨hi', rfl⟩ := List.getElem?_eq_some_iff.1 hic
  obtain ⟨hj', rfl⟩ := List.getElem?_eq_some_iff.1 hjd
  have := (List.Nodup.getElem_inj_iff h.names (i := j) (j := i) (hi := by simpa using hj') (hj := by simpa using hi')).1
    (by simpa using e)
  subst this
  simp only [updatePos, List.mem_filter, Bool.and_eq_true] at hj
  unfold keyPos at hi
  cases e : t.auto with
  | none => rw [e] at hi; simp [hi] at hj
  | some k =>
    rw [e] at hi hj
    have : j = k := by simpa using hi
    simp [this] at hj

omit h in
theorem inserted (hw : AllWritten t) {c : GCol F} (hc : c ∈ t.columns) (ha : t.autoCol ≠ some c) : c ∈ pick t (insertPos t) := by
  obtain ⟨i, hi⟩ := List.getElem?_of_mem hc
  have hlt : i < t.columns.length := (List.getElem?_eq_some_iff.1 hi).1
  refine mem_pick.2 ⟨i, ?_, hi⟩
  simp only [insertPos, List.mem_filter, List.mem_range, not_readonly hw, hlt, true_and]
  cases e : t.auto with
  | none => simp
  | some j =>
    have : j ≠ i := by
      rintro rfl
      exact ha (by simp [Table.autoCol, e, hi])
    simpa using this

/-! ## Keys -/

theorem enc_inj {c : GCol F} (hc : c ∈ t.columns) {x y : X} (hx : Ok c.field x) (hy : Ok c.field y)
    (e : E.enc c.field x = E.enc c.field y) : x = y := by
  have h1 := h.back c hc x x hx
  have h2 := h.back c hc y x hy
  rw [e, h2] at h1
  exact (Option.some.inj h1).symm

/-- What is compared with the key of a record. -/
def keyCond (E : Env F X V) (t : Table F) (r : F → X) : List (Name × V) :=
  (pick t (keyPos t)).map fun c => (colName E.D c, E.enc c.field (r c.field))

theorem holds_iff {s r : F → X} {row : Row V} (hs : Good Ok t s) (hr : Good Ok t r) (hrep : Rep E.enc E.D t s row) :
    Sql.holds E.null (keyCond E t r) row = true ↔ keyOf t s = keyOf t r := by
  simp only [keyOf, Sql.holds, keyCond, List.all_map, List.all_eq_true, Function.comp_apply, decide_eq_true_eq,
    List.map_inj_left]
  refine forall_congr' fun c => forall_congr' fun hc => ?_
  have hm := mem_of_pick hc
  rw [hrep c hm]
  constructor
  · rintro ⟨e, -⟩
    exact enc_inj h hm (hs c hm) (hr c hm) e
  · intro e
    rw [e]
    exact ⟨rfl, h.keyed c hc _ (hr c hm)⟩

theorem keys_equal_iff {s r : F → X} {row row' : Row V} (hs : Good Ok t s) (hr : Good Ok t r)
    (hrep : Rep E.enc E.D t s row) (hrep' : Rep E.enc E.D t r row') :
    (((pick t (keyPos t)).map (colName E.D)).all fun k => decide (row k = row' k)) = true ↔ keyOf t s = keyOf t r := by
  simp only [keyOf, List.all_map, List.all_eq_true, Function.comp_apply, decide_eq_true_eq, List.map_inj_left]
  refine forall_congr' fun c => forall_congr' fun hc => ?_
  have hm := mem_of_pick hc
  rw [hrep c hm, hrep' c hm]
  exact ⟨enc_inj h hm (hs c hm) (hr c hm), fun e => by rw [e]⟩

/-- Rows with the key of a record represent what is stored under it. -/
theorem found {m : Map F X} {rows : List (Row V)} (hh : Holds E.enc E.D Ok t m rows) {r : F → X} (hr : Good Ok t r)
    {row : Row V} (hrow : row ∈ rows) :
    Sql.holds E.null (keyCond E t r) row = true ↔ ∃ s, m (keyOf t r) = some s ∧ Rep E.enc E.D t s row ∧ keyOf t s = keyOf t r := by
  obtain ⟨s, hs, hrep⟩ := hh.only row hrow
  obtain ⟨-, hg, -⟩ := hh.stored _ _ hs
  rw [holds_iff h hg hr hrep]
  constructor
  · intro e
    exact ⟨s, by rw [← e]; exact hs, hrep, e⟩
  · rintro ⟨s', hs', hrep', e⟩
    obtain ⟨-, hg', -⟩ := hh.stored _ _ hs'
    rw [← e]
    unfold keyOf
    rw [List.map_inj_left]
    intro c hc
    have hm := mem_of_pick hc
    exact enc_inj h hm (hg c hm) (hg' c hm) (by rw [← hrep c hm, hrep' c hm])

/-! ## Scanning -/

theorem scan_load {s : F → X} {row : Row V} (hs : Good Ok t s) (hrep : Rep E.enc E.D t s row) (l : List (GCol F))
    (hl : ∀ c ∈ l, c ∈ t.columns) (r : F → X) :
    scan E (l.map (·.field)) ((l.map (colName E.D)).map row) r =
      some (fun f => if f ∈ l.map (·.field) then s f else r f) := by
  induction l generalizing r with
  | nil => simp [scan]
  | cons c l ih =>
    have hc := hl c (by simp)
    simp only [List.map_cons, scan, hrep c hc, h.back c hc _ _ (hs c hc), Option.bind_some]
    rw [ih (fun d hd => hl d (by simp [hd]))]
    congr 1
    funext f
    by_cases h1 : f ∈ l.map (·.field)
    · simp [h1]
    · by_cases h2 : f = c.field <;> simp [h1, h2, setField]

theorem scan_row {s : F → X} {row : Row V} (hs : Good Ok t s) (hrep : Rep E.enc E.D t s row) (r : F → X) :
    scan E (genAddrs t) ((t.columns.map (colName E.D)).map row) r = some (load t s r) :=
  scan_load h hs hrep t.columns (fun _ hc => hc) r

/-! ## Operations -/

/-- The values written for a record. -/
def written (E : Env F X V) (r : F → X) : F → V := fun f => E.enc f (r f)

theorem send_insert_to (hi : pick t (insertPos t) ≠ []) (db : Runs V) (r : F → X) (σ : Sql.Store V) :
    ∃ text fs, E.g.genInsertOne t = .ok (text, fs) ∧ sendTo E db (text, args E r fs) σ =
      db (.insert (tableName E.D t) ((pick t (insertPos t)).map (colName E.D))
        ((pick t (insertPos t)).map fun c => E.enc c.field (r c.field))
        (if E.g.postgres then t.columns.map (colName E.D) else [])) σ := by
  obtain ⟨text, fs, e, hb⟩ := Props.C20_insert_one E.g t (templatesOk h.plain)
  refine ⟨text, fs, e, ?_⟩
  have hb := hb V (written E r)
  unfold sendTo
  change (match (Spec.bind E.g.style text (fs.map (written E r))).bind (Sql.read E.D) with
    | some s => db s σ
    | none => (Ans.refused, σ)) = _
  rw [hb, Option.bind_some, read_insertB h.named h.plain hi]
  rfl

theorem send_insert (hi : pick t (insertPos t) ≠ []) (r : F → X) (σ : Sql.Store V) :
    ∃ text fs, E.g.genInsertOne t = .ok (text, fs) ∧ send E (text, args E r fs) σ =
      exec E.null E.gen (.insert (tableName E.D t) ((pick t (insertPos t)).map (colName E.D))
        ((pick t (insertPos t)).map fun c => E.enc c.field (r c.field))
        (if E.g.postgres then t.columns.map (colName E.D) else [])) σ :=
  send_insert_to h hi _ r σ

theorem send_find_to (db : Runs V) (r : F → X) (σ : Sql.Store V) :
    ∃ text fs, E.g.genFindByPK t = .ok (text, fs) ∧ sendTo E db (text, args E r fs) σ =
      db (.select (t.columns.map (colName E.D)) (tableName E.D t) (keyCond E t r)) σ := by
  obtain ⟨text, fs, e, hb⟩ := Props.C21_find_by_key_partial E.g t h.wf (templatesOk h.plain) h.key
    (.inr fun c hc => (h.plain c (mem_of_pick hc)).1)
  refine ⟨text, fs, e, ?_⟩
  have hb := hb V (written E r)
  unfold sendTo
  change (match (Spec.bind E.g.style text (fs.map (written E r))).bind (Sql.read E.D) with
    | some s => db s σ
    | none => (Ans.refused, σ)) = _
  rw [hb, Option.bind_some, read_findB h.named h.plain (keyCols_ne h)]
  rfl

theorem send_find (r : F → X) (σ : Sql.Store V) :
    ∃ text fs, E.g.genFindByPK t = .ok (text, fs) ∧ send E (text, args E r fs) σ =
      exec E.null E.gen (.select (t.columns.map (colName E.D)) (tableName E.D t) (keyCond E t r)) σ :=
  send_find_to h _ r σ

theorem update_length (hw : AllWritten t) (h1 : (pick t (keyPos t)).length = 1) : t.columns.length = (updatePos t).length + 1 := by
  have hk : (keyPos t).length = 1 := by
    have e : (pick t (keyPos t)).length = (keyPos t).length := by
      have : ∀ l : List Nat, (∀ i ∈ l, i < t.columns.length) → (pick t l).length = l.length := by
        intro l
        induction l with
        | nil => intro _; rfl
        | cons i l ih =>
          intro hl
          have := hl i (by simp)
          simp only [pick, List.filterMap_cons, List.getElem?_eq_getElem this, List.length_cons] at ih ⊢
          rw [ih (fun j hj => hl j (by simp [hj]))]
      exact this _ (keyPos_lt h)
    omega
  obtain ⟨k, hk⟩ := List.length_eq_one_iff.1 hk
  have hlt := keyPos_lt h k (by simp [hk])
  have e : updatePos t = (List.range t.columns.length).filter (fun i => decide (i ≠ k)) := by
    unfold updatePos
    apply List.filter_congr
    intro i _
    simp only [not_readonly hw]
    unfold keyPos at hk
    cases e : t.auto with
    | none =>
      rw [e] at hk
      simp only at hk
      simp [hk]
    | some j =>
      rw [e] at hk
      have hj : j = k := by simpa using hk
      subst hj
      have hs := h.single j e
      by_cases hij : i = j
      · simp [hij]
      · have : i ∉ t.keys := fun hm => hij (hs i hm)
        simp [hij, this, Ne.symm hij]
  rw [e]
  have : ∀ n, k < n → ((List.range n).filter fun i => decide (i ≠ k)).length + 1 = n := by
    intro n hn
    have h1 := List.length_eq_countP_add_countP (fun i => decide (i ≠ k)) (l := List.range n)
    have h2 : (List.range n).countP (fun a => decide (¬ (decide (a ≠ k)) = true)) = 1 := by
      have h3 := List.count_eq_one_of_mem (List.nodup_range (n := n)) (List.mem_range.2 hn)
      rw [List.count] at h3
      rw [← h3]
      apply List.countP_congr
      intro a _
      simp
    rw [List.length_range, h2, List.countP_eq_length_filter] at h1
    exact h1.symm
  exact (this _ hlt).symm

theorem send_update_to (hl : 2 ≤ (pick t (keyPos t)).length ∨ E.g.style = .anon ∨ t.columns.length = (updatePos t).length + 1)
    (hu : pick t (updatePos t) ≠ []) (db : Runs V) (r : F → X) (σ : Sql.Store V) :
    ∃ text fs, E.g.genUpdateByPK t = .ok (text, fs) ∧ sendTo E db (text, args E r fs) σ =
      db (.update (tableName E.D t)
        ((pick t (updatePos t)).map fun c => (colName E.D c, E.enc c.field (r c.field))) (keyCond E t r)) σ := by
  have hs : 2 ≤ (pick t (keyPos t)).length ∨ (∀ c ∈ pick t (keyPos t), c.sqlVal = none) ∧
      (E.g.style = .anon ∨ t.columns.length = (updatePos t).length + 1) := by
    exact hl.imp_right fun hl => ⟨fun c hc => (h.plain c (mem_of_pick hc)).1, hl⟩
  obtain ⟨text, fs, e, hb⟩ := Props.C22_update_by_key_partial E.g t h.wf (templatesOk h.plain) h.key hs
  refine ⟨text, fs, e, ?_⟩
  have hb := hb V (written E r)
  unfold sendTo
  change (match (Spec.bind E.g.style text (fs.map (written E r))).bind (Sql.read E.D) with
    | some s => db s σ
    | none => (Ans.refused, σ)) = _
  rw [hb, Option.bind_some, read_updateB h.named h.plain hu (keyCols_ne h)]
  rfl

theorem send_update (hl : 2 ≤ (pick t (keyPos t)).length ∨ E.g.style = .anon ∨ t.columns.length = (updatePos t).length + 1)
    (hu : pick t (updatePos t) ≠ []) (r : F → X) (σ : Sql.Store V) :
    ∃ text fs, E.g.genUpdateByPK t = .ok (text, fs) ∧ send E (text, args E r fs) σ =
      exec E.null E.gen (.update (tableName E.D t)
        ((pick t (updatePos t)).map fun c => (colName E.D c, E.enc c.field (r c.field))) (keyCond E t r)) σ :=
  send_update_to h hl hu _ r σ

/-- If all columns are written, the key has the right number. -/
theorem update_numbered (hw : AllWritten t) :
    2 ≤ (pick t (keyPos t)).length ∨ E.g.style = .anon ∨ t.columns.length = (updatePos t).length + 1 := by
  by_cases h2 : 2 ≤ (pick t (keyPos t)).length
  · exact .inl h2
  · have := List.length_pos_iff.2 (keyCols_ne h)
    exact .inr (.inr (update_length h hw (by omega)))

theorem send_delete_to (db : Runs V) (r : F → X) (σ : Sql.Store V) :
    ∃ q, Helpers.deleteByPK E.g.style (Helpers.ofTable E.g t : Helpers.Mdl (F → V) V) (written E r) = .ok q ∧
      sendTo E db q σ = db (.delete (tableName E.D t) (keyCond E t r)) σ := by
  obtain ⟨hk, -⟩ := keyB_eq (g := E.g) h.wf (keyCols_ne h) (written E r)
  obtain ⟨text, as, e, hb⟩ := Props.C30_delete_by_key E.g.style (Helpers.ofTable E.g t : Helpers.Mdl (F → V) V) hk (written E r)
  refine ⟨(text, as), e, ?_⟩
  unfold sendTo
  have hr := read_deleteB h.wf h.named h.bare (keyCols_ne h) (written E r)
  change (match (Spec.bind E.g.style text as).bind (Sql.read E.D) with
    | some s => db s σ
    | none => (Ans.refused, σ)) = _
  rw [hb, Option.bind_some]
  change (match Sql.read E.D (bs "DELETE FROM " ++ bs (E.g.genTableName t) ++ bs " WHERE " ++ _ ++ bs ";") with
    | some s => db s σ
    | none => (Ans.refused, σ)) = _
  rw [hr]
  rfl

theorem send_delete (r : F → X) (σ : Sql.Store V) :
    ∃ q, Helpers.deleteByPK E.g.style (Helpers.ofTable E.g t : Helpers.Mdl (F → V) V) (written E r) = .ok q ∧
      send E q σ = exec E.null E.gen (.delete (tableName E.D t) (keyCond E t r)) σ :=
  send_delete_to h _ r σ

/-! ## What the database does -/

theorem key_known (r : F → X) (rows : List (Row V)) :
    ((keyCond E t r).all fun p => (tableOf E.D t rows).cols.contains p.1) = true := by
  simp only [keyCond, List.all_map, List.all_eq_true, Function.comp_apply, tableOf, List.contains_iff_mem]
  intro c hc
  exact List.mem_map_of_mem (mem_of_pick hc)

omit h in
theorem cols_known (is : List Nat) (rows : List (Row V)) :
    (((pick t is).map (colName E.D)).all fun n => (tableOf E.D t rows).cols.contains n) = true := by
  simp only [List.all_map, List.all_eq_true, Function.comp_apply, tableOf, List.contains_iff_mem]
  intro c hc
  exact List.mem_map_of_mem (mem_of_pick hc)

omit h in
theorem all_known (rows : List (Row V)) :
    ((t.columns.map (colName E.D)).all fun n => (tableOf E.D t rows).cols.contains n) = true := by
  simp only [List.all_map, List.all_eq_true, Function.comp_apply, tableOf, List.contains_iff_mem]
  intro c hc
  exact List.mem_map_of_mem hc

theorem find_ok {m : Map F X} {rows : List (Row V)} (hh : Holds E.enc E.D Ok t m rows) {σ : Sql.Store V}
    (hσ : σ (tableName E.D t) = some (tableOf E.D t rows)) {r : F → X} (hr : Good Ok t r) :
    findByPK E t r σ = ((act t (.find r) m).1, σ) ∧ (act t (.find r) m).2 = m := by
  obtain ⟨text, fs, e, hs⟩ := send_find h r σ
  have hx : exec E.null E.gen (.select (t.columns.map (colName E.D)) (tableName E.D t) (keyCond E t r)) σ =
      (.rows (((rows.filter (Sql.holds E.null (keyCond E t r))).take 1).map fun row => (t.columns.map (colName E.D)).map row), σ) := by
    have h1 := all_known (E := E) (t := t) rows
    have h2 := key_known h r rows
    simp only [exec, hσ, h1, h2]
    simp [tableOf]
  simp only [send] at hs
  simp only [findByPK, findVia, e, hs, hx]
  cases hm : m (keyOf t r) with
  | none =>
    have hf : rows.filter (Sql.holds E.null (keyCond E t r)) = [] := by
      rw [List.filter_eq_nil_iff]
      intro row hrow hc
      obtain ⟨s, hs, -⟩ := (found h hh hr hrow).1 hc
      simp [hm] at hs
    simp [act, hm, hf, queryRow]
  | some s =>
    obtain ⟨hk, hg, row, hrow, hrep⟩ := hh.stored _ _ hm
    have hc := (found h hh hr hrow).2 ⟨s, hm, hrep, hk⟩
    cases hf : rows.filter (Sql.holds E.null (keyCond E t r)) with
    | nil =>
      rw [List.filter_eq_nil_iff] at hf
      exact absurd hc (hf row hrow)
    | cons row0 l =>
      have h0 : row0 ∈ rows.filter (Sql.holds E.null (keyCond E t r)) := by simp [hf]
      obtain ⟨hr0, hc0⟩ := List.mem_filter.1 h0
      obtain ⟨s0, hs0, hrep0, hk0⟩ := (found h hh hr hr0).1 hc0
      rw [hm] at hs0
      cases hs0
      have := scan_row h hg hrep0 r
      simp only [act, hm, List.take_succ_cons, List.take_zero, List.map_cons, List.map_nil, queryRow, this, and_self]

omit h in
theorem once_map {rows : List (Row V)} (ho : rows.Pairwise (Apart E.D t)) (f : Row V → Row V)
    (hf : ∀ row ∈ rows, ∀ c ∈ pick t (keyPos t), f row (colName E.D c) = row (colName E.D c)) :
    (rows.map f).Pairwise (Apart E.D t) := by
  rw [List.pairwise_map]
  refine ho.imp_of_mem fun {a b} ha hb hab => ?_
  obtain ⟨c, hc, hne⟩ := hab
  exact ⟨c, hc, by rw [hf a ha c hc, hf b hb c hc]; exact hne⟩

theorem delete_ok {m : Map F X} {rows : List (Row V)} (hh : Holds E.enc E.D Ok t m rows) {σ : Sql.Store V}
    (hσ : σ (tableName E.D t) = some (tableOf E.D t rows)) {r : F → X} (hr : Good Ok t r) :
    ∃ rows', deleteByPK E t r σ = ((act t (.delete r) m).1, σ.put (tableName E.D t) (tableOf E.D t rows')) ∧
      Holds E.enc E.D Ok t (act t (.delete r) m).2 rows' := by
  obtain ⟨q, e, hs⟩ := send_delete h r σ
  refine ⟨rows.filter fun row => !Sql.holds E.null (keyCond E t r) row, ?_, ?_, ?_, hh.once.filter _⟩
  · have h2 := key_known h r rows
    have hx : exec E.null E.gen (.delete (tableName E.D t) (keyCond E t r)) σ = (.done none, σ.put (tableName E.D t)
        (tableOf E.D t (rows.filter fun row => !Sql.holds E.null (keyCond E t r) row))) := by
      simp only [exec, hσ, h2]
      simp [tableOf]
    unfold deleteByPK
    change (match Helpers.deleteByPK E.g.style (Helpers.ofTable E.g t : Helpers.Mdl (F → V) V) (written E r) with
      | .ok q =>
        let a := send E q σ
        (execOnly r a.1, a.2)
      | _ => (.failed, σ)) = _
    rw [e]
    simp only [hs, hx, execOnly, act]
  · intro k s hk
    simp only [act, put] at hk
    by_cases hkr : k = keyOf t r
    · simp [hkr] at hk
    · rw [if_neg hkr] at hk
      obtain ⟨h1, h2, row, h3, h4⟩ := hh.stored _ _ hk
      refine ⟨h1, h2, row, List.mem_filter.2 ⟨h3, ?_⟩, h4⟩
      have := (holds_iff h h2 hr h4).not.2 (by rw [h1]; exact hkr)
      simpa using this
  · intro row hrow
    obtain ⟨h1, h2⟩ := List.mem_filter.1 hrow
    obtain ⟨s, hs1, hs2⟩ := hh.only row h1
    obtain ⟨-, hg, -⟩ := hh.stored _ _ hs1
    refine ⟨s, ?_, hs2⟩
    have := (holds_iff h hg hr hs2).not.1 (by simpa using h2)
    simp [act, put, this, hs1]

theorem update_ok (hw : AllWritten t) (hu : pick t (updatePos t) ≠ []) {m : Map F X} {rows : List (Row V)} (hh : Holds E.enc E.D Ok t m rows)
    {σ : Sql.Store V} (hσ : σ (tableName E.D t) = some (tableOf E.D t rows)) {r : F → X} (hr : Good Ok t r) :
    ∃ rows', updateByPK E t r σ = ((act t (.update r) m).1, σ.put (tableName E.D t) (tableOf E.D t rows')) ∧
      Holds E.enc E.D Ok t (act t (.update r) m).2 rows' := by
  obtain ⟨text, fs, e, hs⟩ := send_update h (update_numbered h hw) hu r σ
  let sets := (pick t (updatePos t)).map fun c => (colName E.D c, E.enc c.field (r c.field))
  have hrep : ∀ s row, Rep E.enc E.D t s row → keyOf t s = keyOf t r → Rep E.enc E.D t r (assign sets row) := by
    intro s row hrep hk c hc
    by_cases hcu : c ∈ pick t (updatePos t)
    · exact assign_in (colName E.D) (fun c => E.enc c.field (r c.field)) _ (pick_names h updatePos_nodup) row c hcu
    · have hck := (covered h hw hc).resolve_left hcu
      rw [assign_notin _ _ _ (by simpa [sets, Function.comp_def] using key_not_updated h hck), hrep c hc]
      have := List.map_inj_left.1 hk c hck
      rw [this]
  refine ⟨rows.map fun row => if Sql.holds E.null (keyCond E t r) row then assign sets row else row, ?_, ?_, ?_, ?_⟩
  · have h2 := key_known h r rows
    have h1 : known (tableOf E.D t rows) (sets.map (·.1)) = true := by
      have e1 : sets.map (·.1) = (pick t (updatePos t)).map (colName E.D) := by simp [sets, Function.comp_def]
      rw [e1]
      unfold known
      rw [cols_known, Bool.and_true, decide_eq_true_eq]
      exact pick_names h updatePos_nodup
    have hx : exec E.null E.gen (.update (tableName E.D t) sets (keyCond E t r)) σ = (.done none, σ.put (tableName E.D t)
        (tableOf E.D t (rows.map fun row => if Sql.holds E.null (keyCond E t r) row then assign sets row else row))) := by
      simp only [exec, hσ, h1, h2]
      simp [tableOf]
    simp only [send] at hs
    simp only [updateByPK, updateVia, e, hs, execOnly, act, sets] at hx ⊢
    simp only [hx]
  · intro k s hk
    simp only [act] at hk
    by_cases hp : (m (keyOf t r)).isSome = true
    · rw [if_pos hp] at hk
      simp only [put] at hk
      by_cases hkr : k = keyOf t r
      · rw [if_pos hkr] at hk
        obtain ⟨s0, hs0⟩ := Option.isSome_iff_exists.1 hp
        obtain ⟨h1, h2, row, h3, h4⟩ := hh.stored _ _ hs0
        have : s = r := (Option.some.inj hk).symm
        subst this
        have hc := (holds_iff h h2 hr h4).2 h1
        exact ⟨hkr.symm, hr, assign sets row, List.mem_map.2 ⟨row, h3, by simp [hc]⟩, hrep s0 row h4 h1⟩
      · rw [if_neg hkr] at hk
        obtain ⟨h1, h2, row, h3, h4⟩ := hh.stored _ _ hk
        have hc := (holds_iff h h2 hr h4).not.2 (by rw [h1]; exact hkr)
        exact ⟨h1, h2, row, List.mem_map.2 ⟨row, h3, by simp [hc]⟩, h4⟩
    · rw [if_neg hp] at hk
      obtain ⟨h1, h2, row, h3, h4⟩ := hh.stored _ _ hk
      have hkr : keyOf t s ≠ keyOf t r := by
        intro e
        rw [← e, h1] at hp
        simp [hk] at hp
      have hc := (holds_iff h h2 hr h4).not.2 hkr
      exact ⟨h1, h2, row, List.mem_map.2 ⟨row, h3, by simp [hc]⟩, h4⟩
  · intro row' hrow'
    obtain ⟨row, hrow, rfl⟩ := List.mem_map.1 hrow'
    obtain ⟨s, hs1, hs2⟩ := hh.only row hrow
    obtain ⟨-, hg, -⟩ := hh.stored _ _ hs1
    by_cases hc : Sql.holds E.null (keyCond E t r) row = true
    · have hk := (holds_iff h hg hr hs2).1 hc
      refine ⟨r, ?_, by simpa [hc] using hrep s row hs2 hk⟩
      have hp : (m (keyOf t r)).isSome = true := by rw [← hk, hs1]; rfl
      simp [act, hp, put]
    · have hk := (holds_iff h hg hr hs2).not.1 hc
      refine ⟨s, ?_, by simpa [hc] using hs2⟩
      by_cases hp : (m (keyOf t r)).isSome = true <;> simp [act, hp, put, hk, hs1]
  · refine once_map hh.once _ fun row _ c hc => ?_
    split
    · exact assign_notin _ _ _ (by simpa [sets, Function.comp_def] using key_not_updated h hc)
    · rfl

/-- The row made by an insert. -/
def newRow (E : Env F X V) (t : Table F) (rows : List (Row V)) (r : F → X) : Row V :=
  assign ((pick t (insertPos t)).map fun c => (colName E.D c, E.enc c.field (r c.field)))
    (blank E.null E.gen (tableOf E.D t rows))

theorem newRow_in (hw : AllWritten t) {rows : List (Row V)} {r : F → X} {c : GCol F} (hc : c ∈ t.columns) (ha : t.autoCol ≠ some c) :
    newRow E t rows r (colName E.D c) = E.enc c.field (r c.field) :=
  assign_in (colName E.D) (fun c => E.enc c.field (r c.field)) _ (pick_names h insertPos_nodup) _ c (inserted hw hc ha)

omit h in
theorem autoCol_mem {c : GCol F} (ha : t.autoCol = some c) : c ∈ t.columns := by
  unfold Table.autoCol at ha
  cases e : t.auto with
  | none => simp [e] at ha
  | some i => rw [e] at ha; exact List.mem_of_getElem? ha

theorem newRow_auto {rows : List (Row V)} {r : F → X} {c : GCol F} (ha : t.autoCol = some c) :
    newRow E t rows r (colName E.D c) = E.gen (tableOf E.D t rows) := by
  unfold newRow
  rw [assign_notin]
  · simp [blank, tableOf, ha]
  · simp only [List.map_map, Function.comp_def]
    intro hm
    obtain ⟨d, hd, e⟩ := List.mem_map.1 hm
    obtain ⟨j, hj, hjd⟩ := mem_pick.1 hd
    cases hau : t.auto with
    | none => simp [Table.autoCol, hau] at ha
    | some i =>
      have hic : t.columns[i]? = some c := by simpa [Table.autoCol, hau] using ha
      obtain ⟨hi', rfl⟩ := List.getElem?_eq_some_iff.1 hic
      obtain ⟨hj', rfl⟩ := List.getElem?_eq_some_iff.1 hjd
      have := (List.Nodup.getElem_inj_iff h.names (i := j) (j := i) (hi := by simpa using hj') (hj := by simpa using hi')).1
        (by simpa using e)
      subst this
      simp [insertPos, hau] at hj

theorem insert_exec {m : Map F X} {rows : List (Row V)} (hh : Holds E.enc E.D Ok t m rows) {σ : Sql.Store V}
    (hσ : σ (tableName E.D t) = some (tableOf E.D t rows)) {r s : F → X} (hs : Good Ok t s)
    (hrep : Rep E.enc E.D t s (newRow E t rows r)) :
    exec E.null E.gen (.insert (tableName E.D t) ((pick t (insertPos t)).map (colName E.D))
        ((pick t (insertPos t)).map fun c => E.enc c.field (r c.field))
        (if E.g.postgres then t.columns.map (colName E.D) else [])) σ =
      if (m (keyOf t s)).isSome then (.duplicate, σ) else
        (if E.g.postgres then .rows [(t.columns.map (colName E.D)).map (newRow E t rows r)]
          else .done (t.autoCol.map fun c => newRow E t rows r (colName E.D c)),
          σ.put (tableName E.D t) (tableOf E.D t (rows ++ [newRow E t rows r]))) := by
  have h1 : known (tableOf E.D t rows) ((pick t (insertPos t)).map (colName E.D)) = true := by
    unfold known
    rw [cols_known, Bool.and_true, decide_eq_true_eq]
    exact pick_names h insertPos_nodup
  have h2 : ((if E.g.postgres = true then t.columns.map (colName E.D) else []).all
      fun n => (tableOf E.D t rows).cols.contains n) = true := by
    cases E.g.postgres with
    | true => exact all_known rows
    | false => rfl
  have hz : ((pick t (insertPos t)).map (colName E.D)).zip ((pick t (insertPos t)).map fun c => E.enc c.field (r c.field)) =
      (pick t (insertPos t)).map fun c => (colName E.D c, E.enc c.field (r c.field)) := by simp [List.zip_map']
  have hrow : assign (((pick t (insertPos t)).map (colName E.D)).zip
      ((pick t (insertPos t)).map fun c => E.enc c.field (r c.field))) (blank E.null E.gen (tableOf E.D t rows)) =
      newRow E t rows r := by rw [hz]; rfl
  have h3 : ((tableOf E.D t rows).key.any fun k => decide (newRow E t rows r k = E.null)) = false := by
    rw [List.any_eq_false]
    simp only [tableOf, List.mem_map, decide_eq_true_eq]
    rintro k ⟨c, hc, rfl⟩
    have hm := mem_of_pick hc
    rw [hrep c hm]
    exact h.keyed c hc _ (hs c hm)
  have h4 : ((tableOf E.D t rows).rows.any fun r' => (tableOf E.D t rows).key.all fun k =>
      decide (r' k = newRow E t rows r k)) = (m (keyOf t s)).isSome := by
    rw [Bool.eq_iff_iff, List.any_eq_true]
    constructor
    · rintro ⟨row, hrow, hk⟩
      obtain ⟨s0, hs0, hrep0⟩ := hh.only row hrow
      obtain ⟨-, hg, -⟩ := hh.stored _ _ hs0
      rw [← (keys_equal_iff h hg hs hrep0 hrep).1 hk, hs0]
      rfl
    · intro hp
      obtain ⟨s0, hs0⟩ := Option.isSome_iff_exists.1 hp
      obtain ⟨hk, hg, row, hrow, hrep0⟩ := hh.stored _ _ hs0
      exact ⟨row, hrow, (keys_equal_iff h hg hs hrep0 hrep).2 hk⟩
  have hne : t.columns ≠ [] := by
    intro e
    exact keyCols_ne h (by simp [pick, e])
  simp only [exec, hσ, hrow, h1, h2, h3, h4]
  cases m (keyOf t s) with
  | some x => simp
  | none =>
    cases E.g.postgres with
    | true => simp [hne, tableOf]
    | false => simp [tableOf, Function.comp_def]

theorem insert_holds {m : Map F X} {rows : List (Row V)} (hh : Holds E.enc E.D Ok t m rows) {s : F → X} {row : Row V}
    (hs : Good Ok t s) (hrep : Rep E.enc E.D t s row) (hm : m (keyOf t s) = none) :
    Holds E.enc E.D Ok t (put m (keyOf t s) (some s)) (rows ++ [row]) := by
  constructor
  · intro k s' hk
    simp only [put] at hk
    by_cases hks : k = keyOf t s
    · rw [if_pos hks] at hk
      have : s' = s := (Option.some.inj hk).symm
      subst this
      exact ⟨hks.symm, hs, row, by simp, hrep⟩
    · rw [if_neg hks] at hk
      obtain ⟨h1, h2, row', h3, h4⟩ := hh.stored _ _ hk
      exact ⟨h1, h2, row', by simp [h3], h4⟩
  · intro row' hrow
    rcases List.mem_append.1 hrow with h1 | h1
    · obtain ⟨s', h2, h3⟩ := hh.only row' h1
      refine ⟨s', ?_, h3⟩
      have : keyOf t s' ≠ keyOf t s := by
        intro e
        rw [e, hm] at h2
        simp at h2
      simp [put, this, h2]
    · have : row' = row := by simpa using h1
      subst this
      exact ⟨s, by simp [put], hrep⟩
  · rw [List.pairwise_append]
    refine ⟨hh.once, by simp, fun a ha b hb => ?_⟩
    have : b = row := by simpa using hb
    subst this
    obtain ⟨s', h2, h3⟩ := hh.only a ha
    by_contra hc
    have e : keyOf t s' = keyOf t s := (keys_equal_iff h (hh.stored _ _ h2).2.1 hs h3 hrep).1 (by
      simp only [List.all_map, List.all_eq_true, Function.comp_apply, decide_eq_true_eq]
      intro c hcm
      by_contra hne
      exact hc ⟨c, hcm, hne⟩)
    rw [e, hm] at h2
    simp at h2

omit h in
theorem load_self (t : Table F) (s : F → X) : load t s s = s := by funext f; simp [load]

/-- What an operation leaves behind. -/
def After (E : Env F X V) (Ok : F → X → Prop) (t : Table F) (m : Map F X) (σ σ' : Sql.Store V) : Prop :=
  Keeps E Ok t m σ' ∧ ∀ n, n ≠ tableName E.D t → σ' n = σ n

omit h in
theorem after_put {m : Map F X} {σ : Sql.Store V} {rows : List (Row V)} (hh : Holds E.enc E.D Ok t m rows) :
    After E Ok t m σ (σ.put (tableName E.D t) (tableOf E.D t rows)) :=
  ⟨⟨rows, by simp [Sql.Store.put], hh⟩, fun n hn => by simp [Sql.Store.put, hn]⟩

theorem insert_ok (hw : AllWritten t) (ha : t.auto = none) {m : Map F X} {rows : List (Row V)} (hh : Holds E.enc E.D Ok t m rows)
    {σ : Sql.Store V} (hσ : σ (tableName E.D t) = some (tableOf E.D t rows)) {r : F → X} (hr : Good Ok t r) :
    ∃ σ', insertOne E t r σ = ((act t (.insert r) m).1, σ') ∧ After E Ok t (act t (.insert r) m).2 σ σ' := by
  have hac : t.autoCol = none := by simp [Table.autoCol, ha]
  have hrep : Rep E.enc E.D t r (newRow E t rows r) := fun c hc => newRow_in h hw hc (by simp [hac])
  have hi : pick t (insertPos t) ≠ [] := by
    obtain ⟨c, l, e⟩ := List.exists_cons_of_ne_nil (keyCols_ne h)
    have := inserted hw (mem_of_pick (c := c) (is := keyPos t) (by simp [e])) (by simp [hac])
    exact List.ne_nil_of_mem this
  obtain ⟨text, fs, e, hs⟩ := send_insert h hi r σ
  rw [insert_exec h hh hσ hr hrep] at hs
  simp only [send] at hs
  cases hm : m (keyOf t r) with
  | some s0 =>
    refine ⟨σ, ?_, ⟨rows, hσ, by simpa [act, hm] using hh⟩, fun _ _ => rfl⟩
    simp only [insertOne, insertVia, e, hs, hm, Option.isSome_some, if_true, act, queryRow, execOnly, hac]
    cases E.g.postgres <;> rfl
  | none =>
    refine ⟨σ.put (tableName E.D t) (tableOf E.D t (rows ++ [newRow E t rows r])), ?_,
      after_put (by simpa [act, hm] using insert_holds h hh hr hrep hm)⟩
    have hsc := scan_row h hr hrep r
    simp only [insertOne, insertVia, e, hs, hm, Option.isSome_none, Bool.false_eq_true, if_false, act, hac]
    cases E.g.postgres with
    | true => simp only [if_true, queryRow, hsc, load_self]
    | false => rfl

theorem insert_auto (hw : AllWritten t) {c : GCol F} (ha : t.autoCol = some c) (hf : (t.columns.map (·.field)).Nodup)
    (hi : pick t (insertPos t) ≠ []) (hx : MadeUp E t Ok c) {m : Map F X} {rows : List (Row V)}
    (hh : Holds E.enc E.D Ok t m rows) {σ : Sql.Store V} (hσ : σ (tableName E.D t) = some (tableOf E.D t rows)) {r : F → X}
    (hr : Good Ok t r) :
    ∃ out m' σ', insertOne E t r σ = (out, σ') ∧ Act t (.insert r) m out m' ∧ After E Ok t m' σ σ' := by
  obtain ⟨x, hok, henc, hid, hnew⟩ := hx rows
  let s : F → X := fun f => if f = c.field then x else r f
  have hcm := autoCol_mem ha
  have hother : ∀ d ∈ t.columns, d.field = c.field → d = c := fun d hd e => List.inj_on_of_nodup_map hf hd hcm e
  have hsg : Good Ok t s := by
    intro d hd
    by_cases e : d.field = c.field
    · simpa [s, e] using hok
    · simpa [s, e] using hr d hd
  have hrep : Rep E.enc E.D t s (newRow E t rows r) := by
    intro d hd
    by_cases e : d.field = c.field
    · have := hother d hd e
      subst this
      rw [newRow_auto h ha]
      simpa [s] using henc.symm
    · rw [newRow_in h hw hd (fun e' => e (by rw [ha] at e'; cases e'; rfl))]
      simp [s, e]
  have hkp : pick t (keyPos t) = [c] := by
    cases hau : t.auto with
    | none => simp [Table.autoCol, hau] at ha
    | some i =>
      have hic : t.columns[i]? = some c := by simpa [Table.autoCol, hau] using ha
      simp [pick, keyPos, hau, hic]
  have hks : keyOf t s = [x] := by simp [keyOf, hkp, s]
  have hm : m (keyOf t s) = none := by
    cases hm : m (keyOf t s) with
    | none => rfl
    | some s0 =>
      obtain ⟨hk, hg, row, hrow, hrep0⟩ := hh.stored _ _ hm
      have : s0 c.field = x := by simpa [keyOf, hkp, s] using hk
      exact absurd (by rw [hrep0 c hcm, this, henc]) (hnew row hrow)
  obtain ⟨text, fs, e, hs⟩ := send_insert h hi r σ
  rw [insert_exec h hh hσ hsg hrep] at hs
  simp only [send] at hs
  refine ⟨.ok s, put m (keyOf t s) (some s), σ.put (tableName E.D t) (tableOf E.D t (rows ++ [newRow E t rows r])), ?_, ?_,
    after_put (insert_holds h hh hsg hrep hm)⟩
  · have hsc := scan_row h hsg hrep r
    have hl : load t s r = s := by
      funext f
      by_cases hfm : f ∈ t.columns.map (·.field)
      · simp [load, hfm]
      · have : f ≠ c.field := fun e => hfm (e ▸ List.mem_map_of_mem hcm)
        simp [load, hfm, s, this]
    simp only [insertOne, insertVia, e, hs, hm, Option.isSome_none, Bool.false_eq_true, if_false, ha]
    cases E.g.postgres with
    | true => simp only [if_true, queryRow, hsc, hl]
    | false =>
      simp only [Bool.false_eq_true, if_false, Option.map_some, execAuto, newRow_auto h ha, hid]
      rfl
  · rw [hks] at hm ⊢
    simp only [Act, ha]
    exact ⟨x, hm, rfl⟩

theorem perform_ok (hw : AllWritten t) {o : Store.Op F X} (ho : t.auto = none ∨ ∀ r, o ≠ .insert r) (hf : Fine Ok t o) {m : Map F X} {σ : Sql.Store V}
    (hk : Keeps E Ok t m σ) :
    ∃ σ', perform E t o σ = ((act t o m).1, σ') ∧ After E Ok t (act t o m).2 σ σ' := by
  obtain ⟨rows, hσ, hh⟩ := hk
  obtain ⟨hr, hu⟩ := hf
  cases o with
  | insert r => exact insert_ok h hw (ho.resolve_right fun e => e r rfl) hh hσ hr
  | find r =>
    obtain ⟨h1, h2⟩ := find_ok h hh hσ (r := r) hr
    exact ⟨σ, h1, ⟨rows, hσ, by rw [h2]; exact hh⟩, fun _ _ => rfl⟩
  | update r =>
    obtain ⟨rows', h1, h2⟩ := update_ok h hw (hu r rfl) hh hσ hr
    exact ⟨_, h1, after_put h2⟩
  | delete r =>
    obtain ⟨rows', h1, h2⟩ := delete_ok h hh hσ hr
    exact ⟨_, h1, after_put h2⟩

end Verif.Store
