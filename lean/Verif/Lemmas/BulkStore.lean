import Verif.Lemmas.Bulk
import Verif.Lemmas.Keyed
import Verif.Model.Bulk

/-!
# Lemmas about batch inserts and upserts at work on a database
-/

namespace Verif.Store

open Verif Verif.Gen Verif.Spec Verif.Spec.Gen Verif.Spec.Sql Verif.Spec.Store

set_option linter.unusedSectionVars false

variable {F X V : Type} [DecidableEq F] [DecidableEq X] [DecidableEq V]

variable {E : Env F X V} {t : Table F} {Ok : F → X → Prop} (h : FullSetup E t Ok)

/-- The clause for what is to be done with existing records. -/
def conflictOf (D : Dialect) (tg : Option (List Name)) (U : List (GCol F)) : Existing → Conflict
  | .error => .error
  | .keep => .skip tg
  | .replace => .update tg (U.map (colName D))

/-- The columns replaced. -/
structure Upd (t : Table F) (U : List (GCol F)) : Prop where
  sub : ∀ c ∈ U, c ∈ t.columns
  fields : (t.columns.map (·.field)).Nodup

omit [DecidableEq F] in
theorem inj_of_nodup {α β : Type} {f : α → β} {l : List α} (hl : (l.map f).Nodup) {a b : α} (ha : a ∈ l) (hb : b ∈ l)
    (e : f a = f b) : a = b := by
  obtain ⟨i, hi, rfl⟩ := List.mem_iff_getElem.1 ha
  obtain ⟨j, hj, rfl⟩ := List.mem_iff_getElem.1 hb
  have := (List.Nodup.getElem_inj_iff hl (i := i) (j := j) (hi := by simpa using hi) (hj := by simpa using hj)).1 (by simpa using e)
  subst this; rfl

/-- The record after a replacement. -/
def merged (U : List (GCol F)) (r s : F → X) : F → X := fun f => if f ∈ U.map (·.field) then r f else s f

include h

theorem merged_rep {U : List (GCol F)} (hU : Upd t U) (hUn : (U.map (colName E.D)).Nodup) {r s : F → X} {row old : Row V}
    (hrep : Rep E.enc E.D t r row) (hold : Rep E.enc E.D t s old) :
    Rep E.enc E.D t (merged U r s) (assign ((U.map (colName E.D)).map fun n => (n, row n)) old) := by
  intro c hc
  rw [List.map_map]
  by_cases hcu : c ∈ U
  · have := assign_in (colName E.D) (fun c => row (colName E.D c)) U hUn old c hcu
    simp only [Function.comp_def]
    rw [this, hrep c hc]
    have : c.field ∈ U.map (·.field) := List.mem_map_of_mem hcu
    simp only [merged, if_pos this]
  · rw [assign_notin, hold c hc]
    · have : c.field ∉ U.map (·.field) := by
        intro hm
        obtain ⟨d, hd, e⟩ := List.mem_map.1 hm
        have := inj_of_nodup hU.fields (hU.sub d hd) hc e
        exact hcu (this ▸ hd)
      simp only [merged, if_neg this]
    · simp only [List.map_map, Function.comp_def]
      intro hm
      obtain ⟨d, hd, e⟩ := List.mem_map.1 hm
      have := inj_of_nodup h.names (hU.sub d hd) hc e
      exact hcu (this ▸ hd)

omit h in
theorem merged_key {U : List (GCol F)} {r s : F → X} (hk : keyOf t s = keyOf t r) : keyOf t (merged U r s) = keyOf t r := by
  unfold keyOf at hk ⊢
  rw [List.map_inj_left] at hk ⊢
  intro c hc
  simp only [merged]
  split
  · rfl
  · exact hk c hc

omit h in
theorem merged_good {U : List (GCol F)} {r s : F → X} (hr : Good Ok t r) (hs : Good Ok t s) : Good Ok t (merged U r s) := by
  intro c hc
  simp only [merged]
  split
  · exact hr c hc
  · exact hs c hc

/-- Rows that represent a record, or the absence of both. -/
def Same (E : Env F X V) (Ok : F → X → Prop) (t : Table F) : List (F → X) → List (Row V) → Prop :=
  List.Forall₂ fun s row => Good Ok t s ∧ Rep E.enc E.D t s row

theorem putRow_ok {tg : Option (List Name)} {U : List (GCol F)} (hU : Upd t U) (hUn : (U.map (colName E.D)).Nodup) (e : Existing)
    {m : Map F X} {rows : List (Row V)} (hh : Holds E.enc E.D Ok t m rows) {r : F → X} (hr : Good Ok t r) {row : Row V}
    (hrep : Rep E.enc E.D t r row) :
    match store t e (U.map (·.field)) r m with
    | none => putRow ((pick t (keyPos t)).map (colName E.D)) (conflictOf E.D tg U e) row rows = none
    | some (m', s) => ∃ rows' x, putRow ((pick t (keyPos t)).map (colName E.D)) (conflictOf E.D tg U e) row rows = some (rows', x) ∧
        Holds E.enc E.D Ok t m' rows' ∧ Same E Ok t s.toList x.toList := by
  have key : ∀ row0 ∈ rows, ∀ s0, m (keyOf t s0) = some s0 → Rep E.enc E.D t s0 row0 →
      (sameKey ((pick t (keyPos t)).map (colName E.D)) row row0 = true ↔ keyOf t r = keyOf t s0) := by
    intro row0 _ s0 hs0 hrep0
    exact keys_equal_iff h.toSetup hr (hh.stored _ _ hs0).2.1 hrep hrep0
  cases hm : m (keyOf t r) with
  | none =>
    have hf : rows.find? (sameKey ((pick t (keyPos t)).map (colName E.D)) row) = none := by
      rw [List.find?_eq_none]
      intro row0 hrow0 hk
      obtain ⟨s0, hs0, hrep0⟩ := hh.only row0 hrow0
      have := (key row0 hrow0 s0 hs0 hrep0).1 hk
      rw [← this, hm] at hs0
      simp at hs0
    have e1 : store t e (U.map (·.field)) r m = some (put m (keyOf t r) (some r), some r) := by
      simp only [store, hm]
    rw [e1]
    refine ⟨rows ++ [row], some row, by simp only [putRow, hf], insert_holds h.toSetup hh hr hrep hm, ?_⟩
    exact .cons ⟨hr, hrep⟩ .nil
  | some s =>
    obtain ⟨hk, hg, row1, hrow1, hrep1⟩ := hh.stored _ _ hm
    have hs1 : m (keyOf t s) = some s := by rw [hk]; exact hm
    have hsame := (key row1 hrow1 s hs1 hrep1).2 hk.symm
    cases hf : rows.find? (sameKey ((pick t (keyPos t)).map (colName E.D)) row) with
    | none =>
      rw [List.find?_eq_none] at hf
      exact absurd hsame (hf row1 hrow1)
    | some old =>
      have hold := List.mem_of_find?_eq_some hf
      have hok := List.find?_some hf
      obtain ⟨s0, hs0, hrep0⟩ := hh.only old hold
      have hk0 := (key old hold s0 hs0 hrep0).1 hok
      rw [← hk0, hm] at hs0
      cases hs0
      cases e with
      | error => simp only [store, hm, putRow, hf, conflictOf]
      | keep =>
        simp only [store, hm, putRow, hf, conflictOf]
        exact ⟨rows, none, rfl, hh, .nil⟩
      | replace =>
        simp only [store, hm, putRow, hf, conflictOf]
        refine ⟨_, _, rfl, ?_, ?_⟩
        · constructor
          · intro k s' hks
            simp only [put] at hks
            by_cases hkr : k = keyOf t r
            · rw [if_pos hkr] at hks
              have : s' = merged U r s := (Option.some.inj hks).symm
              subst this
              refine ⟨by rw [merged_key hk, hkr], merged_good hr hg, _, ?_, merged_rep h hU hUn hrep hrep1⟩
              exact List.mem_map.2 ⟨row1, hrow1, by simp [hsame]⟩
            · rw [if_neg hkr] at hks
              obtain ⟨h1, h2, row2, h3, h4⟩ := hh.stored _ _ hks
              have hc := (key row2 h3 s' (by rw [h1]; exact hks) h4).not.2 (by rw [h1]; exact Ne.symm hkr)
              exact ⟨h1, h2, row2, List.mem_map.2 ⟨row2, h3, by simp [hc]⟩, h4⟩
          · intro row' hrow'
            obtain ⟨row2, hrow2, rfl⟩ := List.mem_map.1 hrow'
            obtain ⟨s2, hs2, hrep2⟩ := hh.only row2 hrow2
            by_cases hc : sameKey ((pick t (keyPos t)).map (colName E.D)) row row2 = true
            · have hk2 := (key row2 hrow2 s2 hs2 hrep2).1 hc
              rw [← hk2, hm] at hs2
              cases hs2
              refine ⟨merged U r s, ?_, by simpa [hc] using merged_rep h hU hUn hrep hrep2⟩
              rw [merged_key hk]
              unfold put
              rw [if_pos rfl]
              rfl
            · have hk2 := (key row2 hrow2 s2 hs2 hrep2).not.1 hc
              exact ⟨s2, by simp [put, Ne.symm hk2, hs2], by simpa [hc] using hrep2⟩
          · refine once_map hh.once _ fun row2 _ c hc => ?_
            by_cases hs : sameKey ((pick t (keyPos t)).map (colName E.D)) row row2 = true
            · simp only [hs, if_true]
              have hcr : row (colName E.D c) = row2 (colName E.D c) := by
                simp only [sameKey, List.all_map, List.all_eq_true, Function.comp_apply, decide_eq_true_eq] at hs
                exact hs c hc
              by_cases hcu : c ∈ U
              · rw [List.map_map]
                have := assign_in (colName E.D) (fun c => row (colName E.D c)) U hUn row2 c hcu
                simp only [Function.comp_def]
                rw [this, hcr]
              · refine assign_notin _ _ _ ?_
                simp only [List.map_map, Function.comp_def]
                intro hm
                obtain ⟨d, hd, e⟩ := List.mem_map.1 hm
                have := inj_of_nodup h.names (hU.sub d hd) (mem_of_pick hc) e
                exact hcu (this ▸ hd)
            · simp [hs]
        · exact .cons ⟨merged_good hr hg, merged_rep h hU hUn hrep hrep0⟩ .nil

theorem putRows_ok {tg : Option (List Name)} {U : List (GCol F)} (hU : Upd t U) (hUn : (U.map (colName E.D)).Nodup) (e : Existing)
    {rs : List (F → X)} {new : List (Row V)} (hs : Same E Ok t rs new)
    {m : Map F X} {rows : List (Row V)} (hh : Holds E.enc E.D Ok t m rows) :
    match storeAll t e (U.map (·.field)) rs m with
    | none => putRows ((pick t (keyPos t)).map (colName E.D)) (conflictOf E.D tg U e) new rows = none
    | some (m', ss) => ∃ rows' xs, putRows ((pick t (keyPos t)).map (colName E.D)) (conflictOf E.D tg U e) new rows = some (rows', xs) ∧
        Holds E.enc E.D Ok t m' rows' ∧ Same E Ok t ss xs := by
  induction hs generalizing m rows with
  | nil => exact ⟨rows, [], rfl, hh, .nil⟩
  | @cons r row rs new hr hs ih =>
    have h1 := putRow_ok h (tg := tg) hU hUn e hh hr.1 hr.2
    cases e1 : store t e (U.map (·.field)) r m with
    | none =>
      rw [e1] at h1
      simp only [storeAll, e1, Option.bind_none]
      simp only at h1
      simp only [putRows, h1]
      rfl
    | some a =>
      obtain ⟨m1, s⟩ := a
      rw [e1] at h1
      obtain ⟨rows1, x, p1, hh1, hs1⟩ := h1
      have h2 := ih hh1
      cases e2 : storeAll t e (U.map (·.field)) rs m1 with
      | none =>
        rw [e2] at h2
        simp only [storeAll, e1, Option.bind_some, e2, Option.map_none]
        simp only at h2
        simp [putRows, p1, h2]
      | some b =>
        obtain ⟨m2, ss⟩ := b
        rw [e2] at h2
        obtain ⟨rows2, xs, p2, hh2, hs2⟩ := h2
        simp only [storeAll, e1, Option.bind_some, e2, Option.map_some]
        exact ⟨rows2, x.toList ++ xs, by simp [putRows, p1, p2], hh2, List.rel_append hs1 hs2⟩

/-- The rows made from records. -/
def madeRows (E : Env F X V) (t : Table F) (rows : List (Row V)) (rs : List (F → X)) : List (Row V) :=
  rs.map fun r => assign ((t.columns.map (colName E.D)).zip (t.columns.map fun c => E.enc c.field (r c.field)))
    (blank E.null E.gen (tableOf E.D t rows))

theorem madeRows_same (rows : List (Row V)) {rs : List (F → X)} (hr : ∀ r ∈ rs, Good Ok t r) :
    Same E Ok t rs (madeRows E t rows rs) := by
  unfold madeRows Same
  rw [List.forall₂_map_right_iff, List.forall₂_same]
  intro r hm
  refine ⟨hr r hm, fun c hc => ?_⟩
  have hz : (t.columns.map (colName E.D)).zip (t.columns.map fun c => E.enc c.field (r c.field)) =
      t.columns.map fun c => (colName E.D c, E.enc c.field (r c.field)) := by simp [List.zip_map']
  rw [hz]
  exact assign_in (colName E.D) (fun c => E.enc c.field (r c.field)) _ h.names _ c hc

theorem repeated_iff {rs : List (F → X)} {new : List (Row V)} (hs : Same E Ok t rs new) :
    repeated ((pick t (keyPos t)).map (colName E.D)) new = true ↔ ¬ (rs.map (keyOf t)).Nodup := by
  induction hs with
  | nil => simp [repeated]
  | @cons r row rs new hr hs ih =>
    have : new.any (sameKey ((pick t (keyPos t)).map (colName E.D)) row) = true ↔ keyOf t r ∈ rs.map (keyOf t) := by
      clear ih
      induction hs with
      | nil => simp
      | @cons s row2 rs new hs2 hs ih =>
        rw [List.any_cons, Bool.or_eq_true, ih, List.map_cons, List.mem_cons]
        exact or_congr (keys_equal_iff h.toSetup hr.1 hs2.1 hr.2 hs2.2) Iff.rfl
    simp only [repeated, Bool.or_eq_true, this, ih, List.map_cons, List.nodup_cons, not_and_or, not_not]

omit h in
theorem same_mem {rs : List (F → X)} {new : List (Row V)} (hs : Same E Ok t rs new) {row : Row V} (hrow : row ∈ new) :
    ∃ s, Good Ok t s ∧ Rep E.enc E.D t s row := by
  induction hs with
  | nil => simp at hrow
  | cons hr hs ih =>
    rcases List.mem_cons.1 hrow with rfl | hrow
    · exact ⟨_, hr⟩
    · exact ih hrow

/-- What the statement of a batch helper does. -/
theorem execBulk_ok {tg : Option (List Name)} {U : List (GCol F)} (hU : Upd t U) (hUn : (U.map (colName E.D)).Nodup) (hU0 : U ≠ [])
    (htg : ∀ ns, tg = some ns → ns = (pick t (keyPos t)).map (colName E.D)) (e : Existing) (ru : Rules) (ret : Bool)
    {rs : List (F → X)} (hr : ∀ r ∈ rs, Good Ok t r) {m : Map F X} {rows : List (Row V)} (hh : Holds E.enc E.D Ok t m rows)
    {σ : Sql.Store V} (hσ : σ (tableName E.D t) = some (tableOf E.D t rows)) :
    let a := execBulk E.null E.gen ru ⟨tableName E.D t, t.columns.map (colName E.D),
      rs.map fun r => t.columns.map fun c => E.enc c.field (r c.field), conflictOf E.D tg U e,
      if ret then t.columns.map (colName E.D) else []⟩ σ
    if ru = .onConflict ∧ e = .replace ∧ ¬ (rs.map (keyOf t)).Nodup then a = (.refused, σ)
    else match storeAll t e (U.map (·.field)) rs m with
    | none => a = (.duplicate, σ)
    | some (m', ss) => ∃ rows' xs, a = (if ret then .rows (xs.map fun row => (t.columns.map (colName E.D)).map row) else .done none,
        σ.put (tableName E.D t) (tableOf E.D t rows')) ∧ Holds E.enc E.D Ok t m' rows' ∧ Same E Ok t ss xs := by
  intro a
  have hne : t.columns ≠ [] := fun e => keyCols_ne h.toSetup (by simp [pick, e])
  have h1 : known (tableOf E.D t rows) (t.columns.map (colName E.D)) = true := by
    unfold known
    rw [all_known, Bool.and_true, decide_eq_true_eq]
    exact h.names
  have h2 : ((rs.map fun r => t.columns.map fun c => E.enc c.field (r c.field)).any fun vs =>
      decide (vs.length ≠ (t.columns.map (colName E.D)).length)) = false := by
    rw [List.any_eq_false]
    simp only [List.mem_map]
    rintro vs ⟨r, -, rfl⟩
    simp
  have h3 : ((if ret = true then t.columns.map (colName E.D) else []).all
      fun n => (tableOf E.D t rows).cols.contains n) = true := by
    cases ret with
    | true => exact all_known rows
    | false => rfl
  have h4 : targetOk (tableOf E.D t rows).key (conflictOf E.D tg U e) = true := by
    cases e <;> cases htg' : tg with
    | none => rfl
    | some ns => first | rfl | (rw [htg ns htg']; simp [conflictOf, targetOk, tableOf])
  have h5 : known (tableOf E.D t rows) (updated (conflictOf E.D tg U e)) = true := by
    cases e with
    | error => rfl
    | keep => rfl
    | replace =>
      unfold known conflictOf updated
      rw [Bool.and_eq_true, decide_eq_true_eq]
      refine ⟨hUn, ?_⟩
      simp only [List.all_map, List.all_eq_true, Function.comp_apply, tableOf, List.contains_iff_mem]
      intro c hc
      exact List.mem_map_of_mem (hU.sub c hc)
  have hs := madeRows_same h rows hr
  have hnew : ((rs.map fun r => t.columns.map fun c => E.enc c.field (r c.field)).map fun vs =>
      assign ((t.columns.map (colName E.D)).zip vs) (blank E.null E.gen (tableOf E.D t rows))) = madeRows E t rows rs := by
    simp [madeRows, Function.comp_def]
  have h6 : ((madeRows E t rows rs).any fun row => (tableOf E.D t rows).key.any fun k => decide (row k = E.null)) = false := by
    rw [List.any_eq_false]
    intro row hrow
    obtain ⟨s, hs1, hs2⟩ := same_mem hs hrow
    simp only [tableOf, List.any_eq_true, List.mem_map, decide_eq_true_eq, not_exists]
    rintro k ⟨⟨c, hc, rfl⟩, hk⟩
    rw [hs2 c (mem_of_pick hc)] at hk
    exact h.keyed c hc _ (hs1 c (mem_of_pick hc)) hk
  have h7 : updated (conflictOf E.D tg U e) ≠ [] ↔ e = .replace := by
    cases e <;> simp [conflictOf, updated, hU0]
  have h8 := repeated_iff h hs
  have h9 := putRows_ok h (tg := tg) hU hUn e hs hh
  have ea : a = if ru = .onConflict ∧ e = .replace ∧ ¬ (rs.map (keyOf t)).Nodup then (.refused, σ) else
      match putRows (tableOf E.D t rows).key (conflictOf E.D tg U e) (madeRows E t rows rs) (tableOf E.D t rows).rows with
      | none => (.duplicate, σ)
      | some (rows', out) =>
        (if (if ret = true then t.columns.map (colName E.D) else []) = [] then .done none
          else .rows (out.map fun row => (if ret = true then t.columns.map (colName E.D) else []).map row),
          σ.put (tableName E.D t) { tableOf E.D t rows with rows := rows' }) := by
    simp only [a, execBulk, hσ]
    rw [hnew]
    simp only [h1, h2, h3, h4, h5, h6, h7, Bool.true_eq_false, Bool.false_eq_true, false_or]
    have : (repeated (tableOf E.D t rows).key (madeRows E t rows rs) = true) = ¬ (rs.map (keyOf t)).Nodup := propext h8
    simp only [this]
    rfl
  rw [ea]
  by_cases hc : ru = .onConflict ∧ e = .replace ∧ ¬ (rs.map (keyOf t)).Nodup
  · rw [if_pos hc, if_pos hc]
  · rw [if_neg hc, if_neg hc]
    cases e1 : storeAll t e (U.map (·.field)) rs m with
    | none =>
      rw [e1] at h9
      simp only [tableOf] at h9 ⊢
      simp only [h9]
    | some b =>
      obtain ⟨m', ss⟩ := b
      rw [e1] at h9
      obtain ⟨rows', xs, p, hh', hs'⟩ := h9
      refine ⟨rows', xs, ?_, hh', hs'⟩
      simp only [tableOf] at p ⊢
      simp only [p]
      cases ret with
      | true => simp [hne]
      | false => simp

theorem scanRows_ok {ss : List (F → X)} {xs : List (Row V)} (hs : Same E Ok t ss xs) {rs : List (F → X)}
    (hl : ss.length ≤ rs.length) :
    scanRows E t (xs.map fun row => (t.columns.map (colName E.D)).map row) rs = some (into t ss rs) := by
  induction hs generalizing rs with
  | nil => cases rs <;> simp [scanRows, into]
  | @cons s row ss xs hsr hs ih =>
    cases rs with
    | nil => simp at hl
    | cons r rs =>
      simp only [List.map_cons, scanRows, scan_row h.toSetup hsr.1 hsr.2, Option.bind_some, ih (by simpa using hl), Option.map_some, into]

omit h in
theorem storeAll_length (e : Existing) (upd : List F) (rs : List (F → X)) (m m' : Map F X) (ss : List (F → X))
    (hs : storeAll t e upd rs m = some (m', ss)) : ss.length ≤ rs.length := by
  induction rs generalizing m m' ss with
  | nil => simp only [storeAll, Option.some.injEq, Prod.mk.injEq] at hs; simp [← hs.2]
  | cons r rs ih =>
    simp only [storeAll, Option.bind_eq_some_iff, Option.map_eq_some_iff, Prod.exists, Prod.mk.injEq] at hs
    obtain ⟨m1, s, -, m2, ss', h2, rfl, rfl⟩ := hs
    have := ih _ _ _ h2
    have hs : s.toList.length ≤ 1 := by cases s <;> simp
    simp only [List.length_append, List.length_cons]
    omega

/-! ## The statements -/

section
open Verif.Helpers Verif.Spec.Helpers Verif.Sql

variable (hn : HelperNames E.g E.D t)
include hn

theorem ident_reads {c : GCol F} (hc : c ∈ t.columns) : NameTxt E.D (E.g.ident c.name) (colName E.D c) := by
  have hq : NameTxt E.D _ (colName E.D c) := nameTxt_of_quoted (h.named.cols c hc)
  unfold Cfg.ident
  rcases hn.1 c hc with h1 | h1
  · simpa [h1] using hq
  · have hp : NameTxt E.D c.name (colName E.D c) := by
      unfold colName; rw [← h1.2]; exact nameTxt_plain E.D _ h1.1
    cases E.g.quoteNames
    · exact hp
    · exact hq

theorem helper_cols {l : List (GCol F)} (hl : l ≠ []) (hs : ∀ c ∈ l, c ∈ t.columns) :
    Cols E.D (fun c : GCol F => E.g.ident c.name) (colName E.D) l :=
  ⟨fun c hc => ident_reads h hn (hs c hc), hl⟩

omit hn in
theorem ident_inj {c d : GCol F} (hc : c ∈ t.columns) (hd : d ∈ t.columns) (e : E.g.ident c.name = E.g.ident d.name) : c = d := by
  have h1 := (h.named.cols c hc).1
  have h2 := (h.named.cols d hd).1
  have e' : c.name = d.name := by
    unfold Cfg.ident at e
    cases hq : E.g.quoteNames with
    | false => simpa [hq] using e
    | true =>
      simp only [hq, if_true] at e
      rw [e, h2] at h1
      have : d.name.toList = c.name.toList := by simpa using h1
      exact (String.toList_inj.1 this).symm
  exact inj_of_nodup h.wf.names hc hd e'

omit hn in
theorem columns_ne : t.columns ≠ [] := fun e => keyCols_ne h.toSetup (by simp [pick, e])

omit hn in
theorem mdl_sql : (mdl E t).sqlColumns = t.columns.map fun c => E.g.ident c.name := by
  have : (t.columns.any fun c => c.sqlScan.isSome) = false := by
    rw [List.any_eq_false]
    intro c hc
    simp [(h.plain c hc).2]
  simp only [mdl, ofTable, Cfg.genSqlColumns, this, Bool.false_eq_true, if_false]
  cases t.columns.mapM E.g.sqlColumn <;> rfl

omit hn in
theorem mdl_values (ha : t.auto = none) (r : F → V) : (mdl E t).values r = t.columns.map fun c => r c.field := by
  have : t.insertColumns = t.columns := by
    unfold Table.insertColumns
    rw [List.filter_eq_self.2]
    · simp
    · rintro ⟨c, i⟩ hm
      simp [h.writable c (List.mem_of_getElem? (by simpa using List.mem_zipIdx_iff_getElem?.1 hm)), ha]
  simp [mdl, ofTable, genValues, this, Function.comp_def]

omit h hn in
theorem without_filter {l : List String} (hl : l.Nodup) {is : List Nat} {ns : List String}
    (hk : is.map (fun i => l[i]?) = ns.map some) : without is l = l.filter (· ∉ ns) := by
  have hmem : ∀ i (hi : i < l.length), i ∈ is ↔ l[i] ∈ ns := by
    intro i hi
    constructor
    · intro hm
      have : l[i]? ∈ is.map (fun i => l[i]?) := List.mem_map_of_mem hm
      rw [hk, List.getElem?_eq_getElem hi] at this
      simpa using this
    · intro hm
      have : some l[i] ∈ ns.map some := List.mem_map_of_mem hm
      rw [← hk] at this
      obtain ⟨j, hj, e⟩ := List.mem_map.1 this
      obtain ⟨hj', e'⟩ := List.getElem?_eq_some_iff.1 e
      have := (List.Nodup.getElem_inj_iff hl (hi := hj') (hj := hi)).1 e'
      exact this ▸ hj
  unfold without
  have : (l.zipIdx.filter fun p => !is.contains p.2) = l.zipIdx.filter fun p => decide (p.1 ∉ ns) := by
    apply List.filter_congr
    rintro ⟨c, i⟩ hm
    have := List.mem_zipIdx_iff_getElem?.1 hm
    obtain ⟨hi, rfl⟩ := List.getElem?_eq_some_iff.1 (by simpa using this)
    have := hmem i hi
    by_cases hc : i ∈ is
    · simp [hc, this.1 hc]
    · simp [hc, this.not.1 hc]
  rw [this]
  have e : (l.zipIdx.filter fun p => decide (p.1 ∉ ns)).map (·.1) = ((l.zipIdx.map (·.1)).filter fun c => decide (c ∉ ns)) := by
    rw [List.filter_map]; rfl
  rw [e]
  simp

omit hn in
/-- The key as the helpers see it. -/
theorem mdl_key' (hq : E.g.quoteNames = false ∨ (pick t (keyPos t)).length = 1) (ha : t.auto = none) : KeyOk (mdl E t) ∧ HasKey (mdl E t) ∧
    keyNamesOf (mdl E t) = (pick t (keyPos t)).map (keyTxt E.g t) ∧
    keyNamesOf (mdl E t) = (pick t (keyPos t)).map (fun c => E.g.ident c.name) ∧
    ((∃ n i v, (mdl E t).key = .single false n i v) ∧ (pick t (keyPos t)).length = 1 ∨
      (∃ ns is v, (mdl E t).key = .comp ns is v) ∧ (pick t (keyPos t)).length ≠ 1) := by
  have hcol : t.autoCol = none := by simp [Table.autoCol, ha]
  have hkc : pick t (keyPos t) = t.keyCols := by simp [keyPos, ha, pick, Table.keyCols]
  have hget : ∀ c ∈ t.keyCols, t.columns[c.pos]? = some c := by
    intro c hc
    obtain ⟨k, hk, e⟩ := List.mem_filterMap.1 hc
    rw [h.wf.pos k c e]; exact e
  have hne := keyCols_ne h.toSetup
  refine ⟨?_, (keyB_eq h.wf hne (fun f => E.null)).1, ?_⟩
  · rw [hkc] at hne hq
    unfold KeyOk
    simp only [mdl, ofTable, hcol, Cfg.genPK, genCompositeKey]
    match e : t.keyCols, hne with
    | [c], _ => simp [Cfg.genColumns, hget c (by simp [e])]
    | a :: b :: l, _ =>
      simp only
      rw [← e]
      have hqn : E.g.quoteNames = false := by simpa [e] using hq
      constructor
      · rw [List.pairwise_map]
        have : t.keyCols.Pairwise (fun a b => a.pos < b.pos) := by
          unfold Table.keyCols
          rw [List.pairwise_filterMap]
          refine h.wf.sorted.imp ?_
          intro i j hij a ha b hb
          rw [h.wf.pos i a ha, h.wf.pos j b hb]
          exact hij
        exact this
      · simp only [List.map_map]
        apply List.map_congr_left
        intro c hc
        simp [Cfg.genColumns, hget c hc, Cfg.ident, hqn]
  · unfold keyTxt keyNamesOf
    rw [hkc] at hne hq ⊢
    simp only [mdl, ofTable, hcol, Cfg.genPK, genCompositeKey]
    match e : t.keyCols, hne with
    | [c], _ => simp
    | a :: b :: l, _ =>
      have hqn : E.g.quoteNames = false := by simpa [e] using hq
      simp [Cfg.ident, hqn]

theorem mdl_key (ha : t.auto = none) : KeyOk (mdl E t) ∧ HasKey (mdl E t) ∧
    keyNamesOf (mdl E t) = (pick t (keyPos t)).map (keyTxt E.g t) ∧
    keyNamesOf (mdl E t) = (pick t (keyPos t)).map (fun c => E.g.ident c.name) ∧
    ((∃ n i v, (mdl E t).key = .single false n i v) ∧ (pick t (keyPos t)).length = 1 ∨
      (∃ ns is v, (mdl E t).key = .comp ns is v) ∧ (pick t (keyPos t)).length ≠ 1) := mdl_key' h hn.2 ha

omit h hn in
theorem map_filter_str (txt : GCol F → String) (l : List (GCol F)) (p : String → Bool) :
    (l.map txt).filter p = (l.filter fun c => p (txt c)).map txt := by
  rw [List.filter_map]; rfl

/-- The columns to be updated, as the helpers find them. -/
theorem replaced_texts (ha : t.auto = none) (w : Wish) :
    ((mdl E t).columns.filter fun c => decide (c ∉ w.omitted ++ keyNamesOf (mdl E t))) =
      (replaced E.g t w).map fun c => E.g.ident c.name := by
  change ((t.columns.map fun c => E.g.ident c.name).filter _) = _
  rw [map_filter_str]
  congr 1
  apply List.filter_congr
  intro c hc
  rw [(mdl_key h hn ha).2.2.2.1]
  have : E.g.ident c.name ∈ (pick t (keyPos t)).map (fun c => E.g.ident c.name) ↔ c.name ∈ (pick t (keyPos t)).map (·.name) := by
    constructor
    · intro hm
      obtain ⟨d, hd, e⟩ := List.mem_map.1 hm
      have := ident_inj h (mem_of_pick hd) hc e
      exact List.mem_map.2 ⟨d, hd, by rw [this]⟩
    · intro hm
      obtain ⟨d, hd, e⟩ := List.mem_map.1 hm
      exact List.mem_map.2 ⟨d, hd, by simp only [e]⟩
  simp only [List.mem_append, not_or, this]
  rw [← Bool.decide_and, decide_eq_decide]
  exact and_comm

/-- The statement of a batch helper, as the database reads it. -/
def bulkOf (E : Env F X V) (t : Table F) (rs : List (F → X)) (c : Conflict) : Bulk V :=
  ⟨tableName E.D t, t.columns.map (colName E.D), rs.map fun r => t.columns.map fun c => E.enc c.field (r c.field), c,
    if E.g.postgres then t.columns.map (colName E.D) else []⟩

/-- The conflict target is only named for PostgreSQL. -/
def targetFor (E : Env F X V) (t : Table F) : Option (List Name) :=
  if E.g.postgres then some ((pick t (keyPos t)).map (colName E.D)) else none

omit h hn in
theorem sendBulk_eq {ru : Rules} {text : Txt} {as : List V} {b : List (BSym V)} {x : Bulk V} (σ : Sql.Store V)
    (h1 : Spec.bind E.g.style text as = some b) (h2 : readBulk ru E.D b = some x) :
    sendBulk E ru (text, as) σ = execBulk E.null E.gen ru x σ := by
  simp [sendBulk, h1, h2]

omit h hn in
theorem mdl_table : (mdl E t).table = E.g.genTableName t := rfl

variable (hst : E.g.style = if E.g.postgres then .numbered else .anon) (ha : t.auto = none)

omit hn in
include ha in
theorem mdl_full' (hq : E.g.quoteNames = false ∨ (pick t (keyPos t)).length = 1) : Full (mdl E t) ∧ Props.insCols (mdl E t) = (t.columns.map fun c => E.g.ident c.name) ∧
    GroupOk V E.g.style (Props.insCols (mdl E t)).length (mdl E t).placeholders ∧
    ∀ r, Props.insRow (mdl E t) r = t.columns.map fun c => r c.field := by
  obtain ⟨h1, h2, h3⟩ := Props.C26_generated_full (V := V) E.g t ha h.writable (columns_ne h)
  refine ⟨h1, h2, h3, fun r => ?_⟩
  have h4 : autoPos (mdl E t) = [] := by
    have hk := (mdl_key' h hq ha).2.2.2.2
    unfold autoPos
    rcases hk with ⟨⟨n, i, v, e⟩, -⟩ | ⟨⟨ns, is, v, e⟩, -⟩ <;> simp [e]
  unfold Props.insRow
  rw [h4, without_nil, mdl_values h ha]

include ha in
theorem mdl_full : Full (mdl E t) ∧ Props.insCols (mdl E t) = (t.columns.map fun c => E.g.ident c.name) ∧
    GroupOk V E.g.style (Props.insCols (mdl E t)).length (mdl E t).placeholders ∧
    ∀ r, Props.insRow (mdl E t) r = t.columns.map fun c => r c.field := mdl_full' h ha hn.2

include hst ha

omit hn in
theorem text_insertMany (hq : E.g.quoteNames = false ∨ (pick t (keyPos t)).length = 1) {rs : List (F → X)} (hne : rs ≠ []) :
    ∃ text as, (if E.g.postgres then insertPg (mdl E t) (rs.map (vals E)) else insertMy (mdl E t) (rs.map (vals E))) =
        .ok (some (text, as)) ∧
      Spec.bind E.g.style text as = some (insertRowsB (verb false) (E.g.genTableName t) (t.columns.map fun c => E.g.ident c.name)
        (rs.map fun r => t.columns.map fun c => E.enc c.field (r c.field)) ++
          if E.g.postgres then returningB (t.columns.map fun c => E.g.ident c.name) else bs ";") := by
  obtain ⟨hf, hcols, hg, hrow⟩ := mdl_full' h ha hq
  have hko := (mdl_key' h hq ha).1
  have hd : rs.map (vals E) ≠ [] := by simpa using hne
  have hrows : (rs.map (vals E)).map (Props.insRow (mdl E t)) = rs.map fun r => t.columns.map fun c => E.enc c.field (r c.field) := by
    simp only [List.map_map]
    apply List.map_congr_left
    intro r _
    simp [hrow, vals]
  cases hp : E.g.postgres with
  | true =>
    rw [hp] at hst
    simp only [if_true] at hst
    rw [hst] at hg
    obtain ⟨text, as, e, -, hb⟩ := Props.C26_insert_pg_partial (mdl E t) hko hf hg (rs.map (vals E)) hd
    refine ⟨text, as, by simpa using e, ?_⟩
    rw [hcols, hrows, mdl_sql h, mdl_table] at hb
    rw [hst, hb]
    simp [verb]
  | false =>
    rw [hp] at hst
    simp only [Bool.false_eq_true, if_false] at hst
    obtain ⟨text, as, e, -, hb⟩ := Props.C26_insert_my_partial (mdl E t) hko hf (by rw [hcols]; simpa using columns_ne h)
      (rs.map (vals E)) hd
    refine ⟨text, as, by simpa using e, ?_⟩
    rw [hcols, hrows, mdl_table] at hb
    rw [hst, hb]
    simp [verb]

theorem send_insertMany {ru : Rules} (hru : E.g.postgres = true → ru = .onConflict) {rs : List (F → X)} (hne : rs ≠ [])
    (σ : Sql.Store V) :
    ∃ q, (if E.g.postgres then insertPg (mdl E t) (rs.map (vals E)) else insertMy (mdl E t) (rs.map (vals E))) = .ok (some q) ∧
      sendBulk E ru q σ = execBulk E.null E.gen ru (bulkOf E t rs .error) σ := by
  obtain ⟨text, as, e, hb⟩ := text_insertMany h hst ha hn.2 hne
  have hc := helper_cols h hn (columns_ne h) (fun c hc => hc)
  have htb := genTableName_reads h.named h.bare
  have hv : ∀ vs ∈ rs.map fun r => t.columns.map fun c => E.enc c.field (r c.field), vs ≠ [] := by
    intro vs hm
    obtain ⟨r, -, rfl⟩ := List.mem_map.1 hm
    simpa using columns_ne h
  have hr0 : (rs.map fun r => t.columns.map fun c => E.enc c.field (r c.field)) ≠ [] := by simpa using hne
  refine ⟨(text, as), e, sendBulk_eq σ hb ?_⟩
  cases hp : E.g.postgres with
  | true =>
    rw [hru hp]
    have := read_plain_returning h.named.quote htb hc hr0 hv hc
    simpa [bulkOf, hp] using this
  | false =>
    have := read_plain h.named.quote ru false (by simp) htb hc hr0 hv
    simpa [bulkOf, hp] using this

/-- What is done with existing records. -/
def existing (w : Wish) : Existing := if w.keep then .keep else .replace

omit h hn hst ha in
theorem replaced_sub (g : Cfg) (w : Wish) : ∀ c ∈ replaced g t w, c ∈ t.columns := fun _ hc => (List.mem_filter.1 hc).1

theorem read_conflict_pg {verb' : String} (hvb : verb' = "INSERT INTO ") (w : Wish) (hw : w.keep = true ∨ replaced E.g t w ≠ [])
    {rs : List (F → X)} (hne : rs ≠ []) (hp : E.g.postgres = true) :
    readBulk .onConflict E.D (insertRowsB verb' (mdl E t).table (t.columns.map fun c => E.g.ident c.name)
        (rs.map fun r => t.columns.map fun c => E.enc c.field (r c.field)) ++
      Props.conflictTextB (mdl E t) { doNothing := w.keep, omitted := w.omitted }
        ((t.columns.map fun c => E.g.ident c.name).filter
          (· ∉ Props.leftOut (mdl E t) { doNothing := w.keep, omitted := w.omitted }))) =
      some (bulkOf E t rs (conflictOf E.D (targetFor E t) (replaced E.g t w) (existing w))) := by
  subst hvb
  have hc := helper_cols h hn (columns_ne h) (fun c hc => hc)
  have htb := genTableName_reads h.named h.bare
  have hv : ∀ vs ∈ rs.map fun r => t.columns.map fun c => E.enc c.field (r c.field), vs ≠ [] := by
    intro vs hm
    obtain ⟨r, -, rfl⟩ := List.mem_map.1 hm
    simpa using columns_ne h
  have hr0 : (rs.map fun r => t.columns.map fun c => E.enc c.field (r c.field)) ≠ [] := by simpa using hne
  have hk : Cols E.D (keyTxt E.g t) (colName E.D) (pick t (keyPos t)) := ⟨keyTxt_reads h.named h.bare, keyCols_ne h.toSetup⟩
  have ht : targetOf (mdl E t) { doNothing := w.keep, omitted := w.omitted } = (pick t (keyPos t)).map (keyTxt E.g t) := by
    rw [← (mdl_key h hn ha).2.2.1]; rfl
  have hl : Props.leftOut (mdl E t) { doNothing := w.keep, omitted := w.omitted } = w.omitted ++ keyNamesOf (mdl E t) := by
    simp [Props.leftOut, mdl, ofTable]
  have hup : (t.columns.map fun c => E.g.ident c.name).filter (· ∉ w.omitted ++ keyNamesOf (mdl E t)) =
      (replaced E.g t w).map fun c => E.g.ident c.name := replaced_texts h hn ha w
  unfold Props.conflictTextB
  rw [ht, hl, hup, mdl_sql h, mdl_table]
  cases hkp : w.keep with
  | true =>
    have := read_conflict h.named.quote htb hc hr0 hv hk hc hc true
    simpa [bulkOf, hp, verb, conflictOf, existing, hkp, targetFor] using this
  | false =>
    have hu := helper_cols h hn (hw.resolve_left (by simp [hkp])) (replaced_sub E.g w)
    have := read_conflict h.named.quote htb hc hr0 hv hk hu hc false
    simpa [bulkOf, hp, verb, conflictOf, existing, hkp, targetFor] using this

omit hst in
/-- With several keys, MySQL's `UpsertOne` panics. -/
theorem upsertOne_panics (w : Wish) (hkp : ¬ w.keep = true) (hl : ¬ (pick t (keyPos t)).length = 1) (r : F → X) :
    upsertOneMy (mdl E t) (!w.keep) w.omitted (vals E r) = .panic := by
  rcases (mdl_key h hn ha).2.2.2.2 with ⟨-, h1⟩ | ⟨⟨ns, is, v, ek⟩, -⟩
  · exact absurd h1 hl
  · have hh := (mdl_key h hn ha).2.1
    have hns : ns ≠ [] := by
      simp only [HasKey, ek] at hh
      exact hh.1
    have := Props.C28_upsert_one_composite_panics (mdl E t) (vals E r) ns is v ek hns w.omitted
    simpa [hkp] using this

omit hst hn in
theorem rows_many (rs : List (F → X)) : (rs.map (vals E)).map (mdl E t).values =
    rs.map fun r => t.columns.map fun c => E.enc c.field (r c.field) := by
  simp only [List.map_map]
  apply List.map_congr_left
  intro r _
  simp [mdl_values h ha, vals]

omit hst hn ha in
theorem rows_ne (rs : List (F → X)) : ∀ vs ∈ rs.map fun r => t.columns.map fun c => E.enc c.field (r c.field), vs ≠ [] := by
  intro vs hm
  obtain ⟨r, -, rfl⟩ := List.mem_map.1 hm
  simpa using columns_ne h

/-- The text of `Upsert` for MySQL and SQLite. -/
theorem text_upsertMany (w : Wish) {rs : List (F → X)} (hne : rs ≠ []) (hp : E.g.postgres = false) :
    ∃ text as, upsertMy (mdl E t) (!w.keep) w.omitted (rs.map (vals E)) = .ok (some (text, as)) ∧
      Spec.bind E.g.style text as = some (if w.keep then
        insertRowsB (verb true) (E.g.genTableName t) (t.columns.map fun c => E.g.ident c.name)
          (rs.map fun r => t.columns.map fun c => E.enc c.field (r c.field)) ++ bs ";"
        else insertRowsB (verb false) (E.g.genTableName t) (t.columns.map fun c => E.g.ident c.name)
          (rs.map fun r => t.columns.map fun c => E.enc c.field (r c.field)) ++
          (onDuplicateB "=VALUES(" ((replaced E.g t w).map fun c => E.g.ident c.name) ++ if true then bs ";" else [])) := by
  obtain ⟨hf, hcols, hg, hrow⟩ := mdl_full h hn ha
  obtain ⟨hko, hhk, -, hkn, hks⟩ := mdl_key h hn ha
  have hd : rs.map (vals E) ≠ [] := by simpa using hne
  rw [hp] at hst
  simp only [Bool.false_eq_true, if_false] at hst
  have hcols' : (mdl E t).columns = t.columns.map fun c => E.g.ident c.name := rfl
  have hg' : GroupOk V .anon (mdl E t).columns.length (mdl E t).placeholders := by
    rw [hst, hcols] at hg; exact hg
  obtain ⟨text, as, e, hb⟩ : ∃ text as, upsertMy (mdl E t) (!w.keep) w.omitted (rs.map (vals E)) = .ok (some (text, as)) ∧
      Spec.bind .anon text as = some (insertRowsB (Props.verbOf (!w.keep)) (mdl E t).table (mdl E t).columns
        ((rs.map (vals E)).map (mdl E t).values) ++
        (if !w.keep then onDuplicateB "=VALUES(" ((replaced E.g t w).map fun c => E.g.ident c.name) else []) ++ bs ";") := by
    rcases hks with ⟨⟨n, i, v, ek⟩, -⟩ | ⟨⟨ns, is, v, ek⟩, -⟩
    · obtain ⟨text, as, e, hb⟩ := Props.C28_upsert_single_partial (mdl E t) hf hg' n i v ek (!w.keep) w.omitted (rs.map (vals E)) hd
      refine ⟨text, as, e, ?_⟩
      rw [← replaced_texts h hn ha w]
      have : keyNamesOf (mdl E t) = [n] := by simp [keyNamesOf, ek]
      rw [this]
      exact hb
    · obtain ⟨text, as, e, hb⟩ := Props.C28_upsert_composite_partial (mdl E t) hf hko hg' ns is v ek (!w.keep) w.omitted
        (rs.map (vals E)) hd
      refine ⟨text, as, e, ?_⟩
      have hnn : keyNamesOf (mdl E t) = ns := by simp [keyNamesOf, ek]
      have hko' : is.Pairwise (· < ·) ∧ is.map (fun i => (mdl E t).columns[i]?) = ns.map some := by
        simpa [KeyOk, ek] using hko
      have hnd : (mdl E t).columns.Nodup := by
        rw [hcols']
        refine List.Nodup.map_on ?_ (List.Nodup.of_map _ h.names)
        intro c hc d hd e
        exact ident_inj h hc hd e
      rw [without_filter hnd hko'.2] at hb
      rw [← replaced_texts h hn ha w, hnn]
      rw [List.filter_filter] at hb
      have ef : ((mdl E t).columns.filter fun a => decide (a ∉ w.omitted) && decide (a ∉ ns)) =
          (mdl E t).columns.filter fun c => decide (c ∉ w.omitted ++ ns) := by
        apply List.filter_congr
        intro c _
        rw [← Bool.decide_and, decide_eq_decide, List.mem_append, not_or]
      rw [ef] at hb
      exact hb
  refine ⟨text, as, e, ?_⟩
  rw [hcols', rows_many h ha, mdl_table] at hb
  rw [hst, hb]
  cases w.keep <;> simp [verb, Props.verbOf]

/-- The text of `UpsertOne` for MySQL and SQLite. -/
theorem text_upsertOne (w : Wish) (hk : w.keep = true ∨ (pick t (keyPos t)).length = 1) (r : F → X) (hp : E.g.postgres = false) :
    ∃ text as, upsertOneMy (mdl E t) (!w.keep) w.omitted (vals E r) = .ok (text, as) ∧
      Spec.bind E.g.style text as = some (if w.keep then
        insertRowsB (verb true) (E.g.genTableName t) (t.columns.map fun c => E.g.ident c.name)
          ([r].map fun r => t.columns.map fun c => E.enc c.field (r c.field)) ++ bs ";"
        else insertRowsB (verb false) (E.g.genTableName t) (t.columns.map fun c => E.g.ident c.name)
          ([r].map fun r => t.columns.map fun c => E.enc c.field (r c.field)) ++
          (onDuplicateB " =VALUES(" ((replaced E.g t w).map fun c => E.g.ident c.name) ++ if false then bs ";" else [])) := by
  obtain ⟨hko, hhk, -, hkn, hks⟩ := mdl_key h hn ha
  rw [hp] at hst
  simp only [Bool.false_eq_true, if_false] at hst
  have hcols' : (mdl E t).columns = t.columns.map fun c => E.g.ident c.name := rfl
  have hval : (mdl E t).values (vals E r) = t.columns.map fun c => E.enc c.field (r c.field) := by
    simp [mdl_values h ha, vals]
  have hvl : ((mdl E t).values (vals E r)).length = (mdl E t).columns.length := by rw [hval, hcols']; simp
  have hcn : (mdl E t).columns ≠ [] := by rw [hcols']; simpa using columns_ne h
  obtain ⟨text, as, e, hb⟩ : ∃ text as, upsertOneMy (mdl E t) (!w.keep) w.omitted (vals E r) = .ok (text, as) ∧
      Spec.bind .anon text as = some (insertRowsB (Props.verbOf (!w.keep)) (mdl E t).table (mdl E t).columns
        [(mdl E t).values (vals E r)] ++
        (if !w.keep then onDuplicateB " =VALUES(" ((replaced E.g t w).map fun c => E.g.ident c.name) else bs ";")) := by
    rcases hks with ⟨⟨n, i, v, ek⟩, -⟩ | ⟨⟨ns, is, v, ek⟩, hl⟩
    · obtain ⟨text, as, e, hb⟩ := Props.C28_upsert_one_partial (mdl E t) (vals E r) hvl hcn false n i v ek (!w.keep) w.omitted
      refine ⟨text, as, e, ?_⟩
      rw [← replaced_texts h hn ha w]
      have : keyNamesOf (mdl E t) = [n] := by simp [keyNamesOf, ek]
      rw [this]
      have ef : ((mdl E t).columns.filter fun c => decide (c ∉ n :: w.omitted)) =
          (mdl E t).columns.filter fun c => decide (c ∉ w.omitted ++ [n]) := by
        apply List.filter_congr
        intro c _
        rw [decide_eq_decide]
        simp [and_comm]
      rw [ef] at hb
      exact hb
    · have hkp : w.keep = true := hk.resolve_right hl
      obtain ⟨text, as, e, hb⟩ := Props.C28_upsert_one_ignore_partial (mdl E t) (vals E r) hvl hcn ns is v ek w.omitted
      refine ⟨text, as, by simpa [hkp] using e, ?_⟩
      simpa [hkp, Props.verbOf] using hb
  refine ⟨text, as, e, ?_⟩
  rw [hcols', hval, mdl_table] at hb
  rw [hst, hb]
  cases w.keep <;> simp [verb, Props.verbOf]

/-- What a database reads in a statement of MySQL's. -/
theorem read_my (w : Wish) (hw : w.keep = true ∨ replaced E.g t w ≠ []) {rs : List (F → X)} (hne : rs ≠ []) (hp : E.g.postgres = false)
    {eq : String} (he : Lit V E.D.quote eq [.sym '=', .word "VALUES".toList, .sym '(']) (semi : Bool) :
    readBulk .onDuplicate E.D (if w.keep then
        insertRowsB (verb true) (E.g.genTableName t) (t.columns.map fun c => E.g.ident c.name)
          (rs.map fun r => t.columns.map fun c => E.enc c.field (r c.field)) ++ bs ";"
        else insertRowsB (verb false) (E.g.genTableName t) (t.columns.map fun c => E.g.ident c.name)
          (rs.map fun r => t.columns.map fun c => E.enc c.field (r c.field)) ++
          (onDuplicateB eq ((replaced E.g t w).map fun c => E.g.ident c.name) ++ if semi then bs ";" else [])) =
      some (bulkOf E t rs (conflictOf E.D (targetFor E t) (replaced E.g t w) (existing w))) := by
  have hc := helper_cols h hn (columns_ne h) (fun c hc => hc)
  have htb := genTableName_reads h.named h.bare
  have hr0 : (rs.map fun r => t.columns.map fun c => E.enc c.field (r c.field)) ≠ [] := by simpa using hne
  cases hkp : w.keep with
  | true =>
    have := read_plain h.named.quote .onDuplicate true (by simp) htb hc hr0 (rows_ne h rs)
    simpa [bulkOf, hp, conflictOf, existing, hkp, targetFor] using this
  | false =>
    have hu := helper_cols h hn (hw.resolve_left (by simp [hkp])) (replaced_sub E.g w)
    have := read_duplicate h.named.quote htb hc hr0 (rows_ne h rs) hu he semi
    simpa [bulkOf, hp, conflictOf, existing, hkp, targetFor] using this

omit hst ha in
/-- … and when it reads nothing. -/
theorem refused_my (w : Wish) {rs : List (F → X)} (hne : rs ≠ []) (ru : Rules)
    (hru : ru = .onConflict ∨ w.keep = false ∧ replaced E.g t w = [])
    {eq : String} (he : Lit V E.D.quote eq [.sym '=', .word "VALUES".toList, .sym '(']) (semi : Bool) :
    readBulk ru E.D (if w.keep then
        insertRowsB (verb true) (E.g.genTableName t) (t.columns.map fun c => E.g.ident c.name)
          (rs.map fun r => t.columns.map fun c => E.enc c.field (r c.field)) ++ bs ";"
        else insertRowsB (verb false) (E.g.genTableName t) (t.columns.map fun c => E.g.ident c.name)
          (rs.map fun r => t.columns.map fun c => E.enc c.field (r c.field)) ++
          (onDuplicateB eq ((replaced E.g t w).map fun c => E.g.ident c.name) ++ if semi then bs ";" else [])) = none := by
  have hc := helper_cols h hn (columns_ne h) (fun c hc => hc)
  have htb := genTableName_reads h.named h.bare
  have hr0 : (rs.map fun r => t.columns.map fun c => E.enc c.field (r c.field)) ≠ [] := by simpa using hne
  cases hkp : w.keep with
  | true =>
    have hru : ru = .onConflict := by simpa [hkp] using hru
    subst hru
    have := refused_ignore h.named.quote htb hc hr0 (rows_ne h rs)
    simpa using this
  | false =>
    have := refused_duplicate h.named.quote ru htb hc hr0 (rows_ne h rs)
      (fun c hc => ident_reads h hn (replaced_sub E.g w c hc)) he semi (hru.imp id And.right)
    simpa using this

omit hst in
/-- Nothing is read if there is nothing after `DO UPDATE SET`. -/
theorem refused_pg (w : Wish) (hk : w.keep = false) (hw : replaced E.g t w = []) {rs : List (F → X)} (hne : rs ≠ []) :
    readBulk .onConflict E.D (insertRowsB "INSERT INTO " (mdl E t).table (t.columns.map fun c => E.g.ident c.name)
        (rs.map fun r => t.columns.map fun c => E.enc c.field (r c.field)) ++
      Props.conflictTextB (mdl E t) { doNothing := w.keep, omitted := w.omitted }
        ((t.columns.map fun c => E.g.ident c.name).filter
          (· ∉ Props.leftOut (mdl E t) { doNothing := w.keep, omitted := w.omitted }))) = none := by
  have hc := helper_cols h hn (columns_ne h) (fun c hc => hc)
  have htb := genTableName_reads h.named h.bare
  have hr0 : (rs.map fun r => t.columns.map fun c => E.enc c.field (r c.field)) ≠ [] := by simpa using hne
  have hkc : Cols E.D (keyTxt E.g t) (colName E.D) (pick t (keyPos t)) := ⟨keyTxt_reads h.named h.bare, keyCols_ne h.toSetup⟩
  have ht : targetOf (mdl E t) { doNothing := w.keep, omitted := w.omitted } = (pick t (keyPos t)).map (keyTxt E.g t) := by
    rw [← (mdl_key h hn ha).2.2.1]; rfl
  have hl : Props.leftOut (mdl E t) { doNothing := w.keep, omitted := w.omitted } = w.omitted ++ keyNamesOf (mdl E t) := by
    simp [Props.leftOut, mdl, ofTable]
  have hup : (t.columns.map fun c => E.g.ident c.name).filter (· ∉ w.omitted ++ keyNamesOf (mdl E t)) =
      (replaced E.g t w).map fun c => E.g.ident c.name := replaced_texts h hn ha w
  unfold Props.conflictTextB
  rw [ht, hl, hup, hw, mdl_sql h, mdl_table]
  have := refused_conflict h.named.quote htb hc hr0 (rows_ne h rs) hkc hc
  simpa [hk, verb] using this

theorem text_pg (hp : E.g.postgres = true) (w : Wish) :
    (∀ {rs : List (F → X)}, rs ≠ [] → ∃ text as, upsertPg (mdl E t) { doNothing := w.keep, omitted := w.omitted } (rs.map (vals E)) =
        .ok (some (text, as)) ∧ Spec.bind E.g.style text as = some (insertRowsB "INSERT INTO " (mdl E t).table
          (t.columns.map fun c => E.g.ident c.name) (rs.map fun r => t.columns.map fun c => E.enc c.field (r c.field)) ++
      Props.conflictTextB (mdl E t) { doNothing := w.keep, omitted := w.omitted }
        ((t.columns.map fun c => E.g.ident c.name).filter
          (· ∉ Props.leftOut (mdl E t) { doNothing := w.keep, omitted := w.omitted })))) ∧
    ∀ r : F → X, ∃ text as, upsertOnePg (mdl E t) { doNothing := w.keep, omitted := w.omitted } (vals E r) =
        .ok (text, as) ∧ Spec.bind E.g.style text as = some (insertRowsB "INSERT INTO " (mdl E t).table
          (t.columns.map fun c => E.g.ident c.name) ([r].map fun r => t.columns.map fun c => E.enc c.field (r c.field)) ++
      Props.conflictTextB (mdl E t) { doNothing := w.keep, omitted := w.omitted }
        ((t.columns.map fun c => E.g.ident c.name).filter
          (· ∉ Props.leftOut (mdl E t) { doNothing := w.keep, omitted := w.omitted }))) := by
  obtain ⟨hf, hcols, hg, hrow⟩ := mdl_full h hn ha
  obtain ⟨hko, hhk, -⟩ := mdl_key h hn ha
  rw [hp] at hst
  simp only [if_true] at hst
  rw [hst] at hg ⊢
  constructor
  · intro rs hne
    obtain ⟨text, as, e, -, hb⟩ := Props.C27_upsert_text (mdl E t) hko hhk hf hg { doNothing := w.keep, omitted := w.omitted }
      (rs.map (vals E)) (by simpa using hne)
    refine ⟨text, as, e, ?_⟩
    have hrows : (rs.map (vals E)).map (Props.insRow (mdl E t)) = rs.map fun r => t.columns.map fun c => E.enc c.field (r c.field) := by
      simp only [List.map_map]
      apply List.map_congr_left
      intro r _
      simp [hrow, vals]
    rw [hcols, hrows] at hb
    exact hb
  · intro r
    obtain ⟨text, as, e, -, hb⟩ := Props.C27_upsert_one_text (mdl E t) hko hhk hf hg { doNothing := w.keep, omitted := w.omitted }
      (vals E r)
    refine ⟨text, as, e, ?_⟩
    rw [hcols, hrow] at hb
    exact hb

/-- The rules of the database the statements are written for. -/
def rulesOf (g : Cfg) : Rules := if g.postgres then .onConflict else .onDuplicate

theorem send_upsertMany (w : Wish) (hw : w.keep = true ∨ replaced E.g t w ≠ []) {rs : List (F → X)} (hne : rs ≠ []) (σ : Sql.Store V) :
    ∃ q, (if E.g.postgres then upsertPg (mdl E t) { doNothing := w.keep, omitted := w.omitted } (rs.map (vals E))
        else upsertMy (mdl E t) (!w.keep) w.omitted (rs.map (vals E))) = .ok (some q) ∧
      sendBulk E (rulesOf E.g) q σ = execBulk E.null E.gen (rulesOf E.g)
          (bulkOf E t rs (conflictOf E.D (targetFor E t) (replaced E.g t w) (existing w))) σ := by
  unfold rulesOf
  cases hp : E.g.postgres with
  | true =>
    obtain ⟨text, as, e, hb⟩ := (text_pg h hn hst ha hp w).1 hne
    exact ⟨(text, as), by simpa using e, sendBulk_eq σ hb (read_conflict_pg h hn hst ha rfl w hw hne hp)⟩
  | false =>
    obtain ⟨text, as, e, hb⟩ := text_upsertMany h hn hst ha w hne hp
    exact ⟨(text, as), by simpa using e,
      sendBulk_eq σ hb (read_my h hn hst ha w hw hne hp (lit_eq_values' h.named.quote) true)⟩

/-- `UpsertOne` works for single keys, and in MySQL only keeps existing records with others. -/
theorem send_upsertOne (w : Wish) (hw : w.keep = true ∨ replaced E.g t w ≠ [])
    (hk : E.g.postgres = true ∨ w.keep = true ∨ (pick t (keyPos t)).length = 1) (r : F → X) (σ : Sql.Store V) :
    ∃ q, (if E.g.postgres then upsertOnePg (mdl E t) { doNothing := w.keep, omitted := w.omitted } (vals E r)
        else upsertOneMy (mdl E t) (!w.keep) w.omitted (vals E r)) = .ok q ∧
      sendBulk E (rulesOf E.g) q σ = execBulk E.null E.gen (rulesOf E.g)
          (bulkOf E t [r] (conflictOf E.D (targetFor E t) (replaced E.g t w) (existing w))) σ := by
  unfold rulesOf
  cases hp : E.g.postgres with
  | true =>
    obtain ⟨text, as, e, hb⟩ := (text_pg h hn hst ha hp w).2 r
    exact ⟨(text, as), by simpa using e, sendBulk_eq σ hb (read_conflict_pg h hn hst ha rfl w hw (rs := [r]) (by simp) hp)⟩
  | false =>
    obtain ⟨text, as, e, hb⟩ := text_upsertOne h hn hst ha w (hk.resolve_left (by simp [hp])) r hp
    exact ⟨(text, as), by simpa using e,
      sendBulk_eq σ hb (read_my h hn hst ha w hw (rs := [r]) (by simp) hp (lit_eq_values h.named.quote) false)⟩

omit h hn hst ha in
theorem sendBulk_refused {ru : Rules} {text : Txt} {as : List V} {b : List (BSym V)} (σ : Sql.Store V)
    (h1 : Spec.bind E.g.style text as = some b) (h2 : readBulk ru E.D b = none) :
    sendBulk E ru (text, as) σ = (.refused, σ) := by
  simp [sendBulk, h1, h2]

/-- Upserts that are refused: nothing would be replaced, or MySQL's statements are sent to SQLite. -/
theorem upsertMany_refused (w : Wish) (ru : Rules) (hru : (E.g.postgres = false ∧ ru = .onConflict) ∨
      (ru = rulesOf E.g ∧ w.keep = false ∧ replaced E.g t w = [])) {rs : List (F → X)} (hne : rs ≠ []) (σ : Sql.Store V) :
    upsertMany E ru t w rs σ = (.failed, σ) := by
  unfold upsertMany
  cases hp : E.g.postgres with
  | true =>
    obtain ⟨rfl, hk, h0⟩ := hru.resolve_left (by simp [hp])
    obtain ⟨text, as, e, hb⟩ := (text_pg h hn hst ha hp w).1 hne
    have := sendBulk_refused (ru := .onConflict) σ hb (refused_pg h hn ha w hk h0 hne)
    simp only [if_true, e, runMany, rulesOf, hp, this, queryRows]
  | false =>
    obtain ⟨text, as, e, hb⟩ := text_upsertMany h hn hst ha w hne hp
    have := sendBulk_refused (ru := ru) σ hb (refused_my h hn w hne ru (hru.imp And.right And.right)
      (lit_eq_values' h.named.quote) true)
    simp only [Bool.false_eq_true, if_false, e, runMany, hp, this, execMany]

theorem upsertOne_refused (w : Wish) (ru : Rules) (hru : (E.g.postgres = false ∧ ru = .onConflict) ∨
      (ru = rulesOf E.g ∧ w.keep = false ∧ replaced E.g t w = [])) (r : F → X) (σ : Sql.Store V) :
    upsertOne E ru t w r σ = (.failed, σ) := by
  unfold upsertOne
  cases hp : E.g.postgres with
  | true =>
    obtain ⟨rfl, hk, h0⟩ := hru.resolve_left (by simp [hp])
    obtain ⟨text, as, e, hb⟩ := (text_pg h hn hst ha hp w).2 r
    have := sendBulk_refused (ru := .onConflict) σ hb (refused_pg h hn ha w hk h0 (rs := [r]) (by simp))
    simp only [if_true, e, rulesOf, hp, this, queryRow]
  | false =>
    by_cases hk : w.keep = true ∨ (pick t (keyPos t)).length = 1
    · obtain ⟨text, as, e, hb⟩ := text_upsertOne h hn hst ha w hk r hp
      have := sendBulk_refused (ru := ru) σ hb (refused_my h hn w (rs := [r]) (by simp) ru (hru.imp And.right And.right)
        (lit_eq_values h.named.quote) false)
      simp only [Bool.false_eq_true, if_false, e, this, execOnly]
    · simp only [Bool.false_eq_true, if_false, upsertOne_panics h hn ha w (fun h1 => hk (.inl h1)) (fun h1 => hk (.inr h1)) r]

end

end Verif.Store
