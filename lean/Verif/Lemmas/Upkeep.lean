import Verif.Lemmas.Keyed
import Verif.Model.Upkeep

/-!
# Lemmas about the helpers at work on a database that fills in columns
-/

namespace Verif.Upkeep

open Verif Verif.Gen Verif.Spec Verif.Spec.Gen Verif.Spec.Sql Verif.Spec.Store Verif.Store Verif.Spec.Upkeep

set_option linter.unusedSectionVars false

variable {F X V : Type} [DecidableEq F] [DecidableEq X] [DecidableEq V]

variable {E : Store.Env F X V} {t : Table F} {Ok : F → X → Prop} {K : Keeper V} {u : Care F X}

/-! ## Fields -/

theorem readFields_iff (hk : Kept t) {c : GCol F} (hc : c ∈ t.columns) : c.field ∈ readFields t ↔ c.readonly = true := by
  simp only [readFields, List.mem_map, List.mem_filter]
  constructor
  · rintro ⟨d, ⟨hd, hr⟩, e⟩
    exact List.inj_on_of_nodup_map hk.fields hd hc e ▸ hr
  · intro hr
    exact ⟨c, ⟨hc, hr⟩, rfl⟩

theorem key_care (hk : Kept t) (hc : Cares E.enc E.null E.D Ok K u t) (now : Nat) (s : Option (F → X)) (r : F → X) :
    keyOf t (u now s r) = keyOf t r := by
  unfold keyOf
  rw [List.map_inj_left]
  intro c hcm
  refine hc.others now s r _ fun hf => ?_
  rw [readFields_iff hk (mem_of_pick hcm), hk.keys c hcm] at hf
  exact absurd hf (by simp)

theorem key_keep (hk : Kept t) (s r : F → X) : keyOf t (keep t s r) = keyOf t r := by
  unfold keyOf
  rw [List.map_inj_left]
  intro c hcm
  refine if_neg fun hf => ?_
  rw [readFields_iff hk (mem_of_pick hcm), hk.keys c hcm] at hf
  exact absurd hf (by simp)

theorem good_keep {s r : F → X} (hs : Good Ok t s) (hr : Good Ok t r) : Good Ok t (keep t s r) := by
  intro c hc
  unfold keep
  split
  · exact hs c hc
  · exact hr c hc

theorem insert_written {i : Nat} {c : GCol F} (hi : i ∈ insertPos t) (hc : t.columns[i]? = some c) : c.readonly = false := by
  simp only [insertPos, List.mem_filter, isReadonly, hc, Bool.and_eq_true] at hi
  simpa using hi.2.1

theorem update_written {i : Nat} {c : GCol F} (hi : i ∈ updatePos t) (hc : t.columns[i]? = some c) : c.readonly = false := by
  simp only [updatePos, List.mem_filter, isReadonly, hc, Bool.and_eq_true] at hi
  simpa using hi.2.1.1

theorem pick_insert_written {c : GCol F} (hc : c ∈ pick t (insertPos t)) : c.readonly = false := by
  obtain ⟨i, hi, h⟩ := mem_pick.1 hc
  exact insert_written hi h

theorem pick_update_written {c : GCol F} (hc : c ∈ pick t (updatePos t)) : c.readonly = false := by
  obtain ⟨i, hi, h⟩ := mem_pick.1 hc
  exact update_written hi h

theorem inserted {c : GCol F} (hc : c ∈ t.columns) (hr : c.readonly = false) (ha : t.autoCol ≠ some c) :
    c ∈ pick t (insertPos t) := by
  obtain ⟨i, hi⟩ := List.getElem?_of_mem hc
  have hlt : i < t.columns.length := (List.getElem?_eq_some_iff.1 hi).1
  refine mem_pick.2 ⟨i, ?_, hi⟩
  have h1 : isReadonly t i = false := by simp [isReadonly, hi, hr]
  simp only [insertPos, List.mem_filter, List.mem_range, h1, hlt, true_and]
  cases e : t.auto with
  | none => simp
  | some j =>
    have : j ≠ i := by
      rintro rfl
      exact ha (by simp [Table.autoCol, e, hi])
    simpa using this

section
variable (h : Setup E t Ok)
include h

theorem covered {c : GCol F} (hc : c ∈ t.columns) (hr : c.readonly = false) :
    c ∈ pick t (updatePos t) ∨ c ∈ pick t (keyPos t) := by
  obtain ⟨i, hi⟩ := List.getElem?_of_mem hc
  have hlt : i < t.columns.length := (List.getElem?_eq_some_iff.1 hi).1
  by_cases hk : i ∈ keyPos t
  · exact .inr (mem_pick.2 ⟨i, hk, hi⟩)
  · refine .inl (mem_pick.2 ⟨i, ?_, hi⟩)
    have h1 : isReadonly t i = false := by simp [isReadonly, hi, hr]
    simp only [updatePos, List.mem_filter, List.mem_range, h1, hlt, true_and]
    unfold keyPos at hk
    cases e : t.auto with
    | none => rw [e] at hk; simpa using hk
    | some j =>
      rw [e] at hk
      have := h.single j e
      have hij : i ≠ j := by simpa using hk
      have : i ∉ t.keys := fun hm => hij (this i hm)
      simpa [this] using Ne.symm hij

/-- Names of columns that are only read are in no list of names of columns that are written. -/
theorem readonly_not_in {l : List (GCol F)} (hl : ∀ d ∈ l, d ∈ t.columns ∧ d.readonly = false) {c : GCol F}
    (hc : c ∈ t.columns) (hr : c.readonly = true) : colName E.D c ∉ l.map (colName E.D) := by
  intro hm
  obtain ⟨d, hd, e⟩ := List.mem_map.1 hm
  have := List.inj_on_of_nodup_map h.names (hl d hd).1 hc e
  subst this
  rw [(hl d hd).2] at hr
  simp at hr

/-- The row of an insert, before the database fills it in. -/
theorem newRow_raw (hk : Kept t) {rows : List (Row V)} {r s : F → X}
    (hs : ∀ c ∈ t.columns, t.autoCol ≠ some c → s c.field = r c.field)
    (ha : ∀ c, t.autoCol = some c → E.enc c.field (s c.field) = E.gen (tableOf E.D t rows)) :
    ∀ c ∈ t.columns, newRow E t rows r (colName E.D c) = if c.readonly then E.null else E.enc c.field (s c.field) := by
  intro c hc
  by_cases hr : c.readonly = true
  · rw [if_pos hr]
    unfold newRow
    rw [assign_notin]
    · have : t.autoCol.map (colName E.D) ≠ some (colName E.D c) := by
        intro e
        obtain ⟨d, hd, e'⟩ := Option.map_eq_some_iff.1 e
        have := List.inj_on_of_nodup_map h.names (autoCol_mem hd) hc e'
        subst this
        have : d ∈ pick t (keyPos t) := by
          cases hau : t.auto with
          | none => simp [Table.autoCol, hau] at hd
          | some i =>
            have hic : t.columns[i]? = some d := by simpa [Table.autoCol, hau] using hd
            simp [pick, keyPos, hau, hic]
        rw [hk.keys d this] at hr
        simp at hr
      simp [blank, tableOf, this]
    · simpa [Function.comp_def] using
        readonly_not_in h (l := pick t (insertPos t)) (fun d hd => ⟨mem_of_pick hd, pick_insert_written hd⟩) hc hr
  · rw [if_neg hr]
    by_cases hac : t.autoCol = some c
    · rw [newRow_auto h hac, ha c hac]
    · rw [hs c hc hac]
      exact assign_in (colName E.D) (fun c => E.enc c.field (r c.field)) _ (pick_names h insertPos_nodup) _ c
        (inserted hc (by simpa using hr) hac)

/-! ## What the database does -/

theorem insert_run (hk : Kept t) (hc : Cares E.enc E.null E.D Ok K u t) {m : Map F X} {rows : List (Row V)}
    (hh : Holds E.enc E.D Ok t m rows) {σ : Sql.Store V} (hσ : σ (tableName E.D t) = some (tableOf E.D t rows)) (now : Nat)
    {r s : F → X} (hs : Good Ok t s)
    (hrow : ∀ c ∈ t.columns, newRow E t rows r (colName E.D c) = if c.readonly then E.null else E.enc c.field (s c.field)) :
    run E.null E.gen K now (.insert (tableName E.D t) ((pick t (insertPos t)).map (colName E.D))
        ((pick t (insertPos t)).map fun c => E.enc c.field (r c.field))
        (if E.g.postgres then t.columns.map (colName E.D) else [])) σ =
      if (m (keyOf t s)).isSome then (.duplicate, σ) else
        (if E.g.postgres then
            .rows [(t.columns.map (colName E.D)).map (K.touch (tableName E.D t) now none (newRow E t rows r))]
          else .done (t.autoCol.map fun c => K.touch (tableName E.D t) now none (newRow E t rows r) (colName E.D c)),
          σ.put (tableName E.D t) (tableOf E.D t (rows ++ [K.touch (tableName E.D t) now none (newRow E t rows r)]))) := by
  have hrep := hc.new now s _ hs hrow
  have hgood : Good Ok t (u now none s) := hc.good now none s (by simp) hs
  have hkey : keyOf t (u now none s) = keyOf t s := key_care hk hc now none s
  have h1 : known (tableOf E.D t rows) ((pick t (insertPos t)).map (colName E.D)) = true := by
    unfold known
    rw [cols_known, Bool.and_true, decide_eq_true_eq]
    exact pick_names h insertPos_nodup
  have h2 : ((if E.g.postgres = true then t.columns.map (colName E.D) else []).all
      fun n => (tableOf E.D t rows).cols.contains n) = true := by
    cases E.g.postgres with
    | true => exact all_known rows
    | false => rfl
  have hz : ((pick t (insertPos t)).map (colName E.D)).zip ((pick t (insertPos t)).map fun c => E.enc c.field (r c.field)) =
      (pick t (insertPos t)).map fun c => (colName E.D c, E.enc c.field (r c.field)) := by simp [List.zip_map']
  have hnew : assign (((pick t (insertPos t)).map (colName E.D)).zip
      ((pick t (insertPos t)).map fun c => E.enc c.field (r c.field))) (blank E.null E.gen (tableOf E.D t rows)) =
      newRow E t rows r := by rw [hz]; rfl
  have hg : ((pick t (insertPos t)).map (colName E.D)).any (K.guarded (tableName E.D t)) = false := by
    simp only [List.any_map, List.any_eq_false, Function.comp_apply, Bool.not_eq_true]
    intro c hcm
    exact hc.guarded c (mem_of_pick hcm) (pick_insert_written hcm)
  have h3 : ((tableOf E.D t rows).key.any fun k =>
      decide (K.touch (tableName E.D t) now none (newRow E t rows r) k = E.null)) = false := by
    rw [List.any_eq_false]
    simp only [tableOf, List.mem_map, decide_eq_true_eq]
    rintro k ⟨c, hcm, rfl⟩
    have hm := mem_of_pick hcm
    rw [hrep c hm]
    exact h.keyed c hcm _ (hgood c hm)
  have h4 : ((tableOf E.D t rows).rows.any fun r' => (tableOf E.D t rows).key.all fun k =>
      decide (r' k = K.touch (tableName E.D t) now none (newRow E t rows r) k)) = (m (keyOf t s)).isSome := by
    rw [Bool.eq_iff_iff, List.any_eq_true, ← hkey]
    constructor
    · rintro ⟨row, hrow, hke⟩
      obtain ⟨s0, hs0, hrep0⟩ := hh.only row hrow
      obtain ⟨-, hg, -⟩ := hh.stored _ _ hs0
      rw [← (keys_equal_iff h hg hgood hrep0 hrep).1 hke, hs0]
      rfl
    · intro hp
      obtain ⟨s0, hs0⟩ := Option.isSome_iff_exists.1 hp
      obtain ⟨hke, hg, row, hrow, hrep0⟩ := hh.stored _ _ hs0
      exact ⟨row, hrow, (keys_equal_iff h hg hgood hrep0 hrep).2 hke⟩
  have hne : t.columns ≠ [] := by
    intro e
    exact keyCols_ne h (by simp [pick, e])
  simp only [run, hσ, hnew, h1, h2, h3, h4, hg]
  cases m (keyOf t s) with
  | some x => simp
  | none =>
    cases E.g.postgres with
    | true => simp [hne, tableOf]
    | false => simp [tableOf, Function.comp_def]

theorem insert_keyed (hk : Kept t) (hc : Cares E.enc E.null E.D Ok K u t) (ha : t.autoCol = none) {m : Map F X}
    {rows : List (Row V)} (hh : Holds E.enc E.D Ok t m rows) {σ : Sql.Store V}
    (hσ : σ (tableName E.D t) = some (tableOf E.D t rows)) (now : Nat) {r : F → X} (hr : Good Ok t r) :
    ∃ σ', insertVia E (run E.null E.gen K now) t r σ = ((Spec.Upkeep.act E.g.postgres t u now (.insert r) m).1, σ') ∧
      After E Ok t (Spec.Upkeep.act E.g.postgres t u now (.insert r) m).2 σ σ' := by
  have hrow := newRow_raw h hk (rows := rows) (r := r) (s := r) (fun _ _ _ => rfl) (by simp [ha])
  have hrep := hc.new now r _ hr hrow
  have hgood : Good Ok t (u now none r) := hc.good now none r (by simp) hr
  have hkey : keyOf t (u now none r) = keyOf t r := key_care hk hc now none r
  have hi : pick t (insertPos t) ≠ [] := by
    obtain ⟨c, l, e⟩ := List.exists_cons_of_ne_nil (keyCols_ne h)
    have hcm : c ∈ pick t (keyPos t) := by simp [e]
    exact List.ne_nil_of_mem (inserted (mem_of_pick hcm) (hk.keys c hcm) (by simp [ha]))
  obtain ⟨text, fs, e, hs⟩ := send_insert_to h hi (run E.null E.gen K now) r σ
  rw [insert_run h hk hc hh hσ now hr hrow] at hs
  cases hm : m (keyOf t r) with
  | some s0 =>
    refine ⟨σ, ?_, ⟨rows, hσ, by simpa [Spec.Upkeep.act, hm] using hh⟩, fun _ _ => rfl⟩
    simp only [insertVia, e, hs, hm, Option.isSome_some, if_true, Spec.Upkeep.act, queryRow, execOnly, ha]
    cases E.g.postgres <;> rfl
  | none =>
    refine ⟨_, ?_, after_put (rows := rows ++ [K.touch (tableName E.D t) now none (newRow E t rows r)]) ?_⟩
    · have hsc := scan_row h hgood hrep r
      simp only [insertVia, e, hs, hm, Option.isSome_none, Bool.false_eq_true, if_false, Spec.Upkeep.act, ha]
      cases E.g.postgres with
      | true => simp only [if_true, queryRow, hsc]
      | false => rfl
    · have := insert_holds h hh hgood hrep (by rw [hkey]; exact hm)
      rw [hkey] at this
      simpa [Spec.Upkeep.act, hm] using this

theorem insert_made (hk : Kept t) (hc : Cares E.enc E.null E.D Ok K u t) {c : GCol F} (ha : t.autoCol = some c)
    (hi : pick t (insertPos t) ≠ []) (hx : MadeUp E t Ok c) {m : Map F X} {rows : List (Row V)}
    (hh : Holds E.enc E.D Ok t m rows) {σ : Sql.Store V} (hσ : σ (tableName E.D t) = some (tableOf E.D t rows)) (now : Nat)
    {r : F → X} (hr : Good Ok t r) :
    ∃ out m' σ', insertVia E (run E.null E.gen K now) t r σ = (out, σ') ∧
      Spec.Upkeep.Act E.g.postgres t u now (.insert r) m out m' ∧ After E Ok t m' σ σ' := by
  obtain ⟨x, hok, henc, hid, hnew⟩ := hx rows
  let s : F → X := fun f => if f = c.field then x else r f
  have hcm := autoCol_mem ha
  have hother : ∀ d ∈ t.columns, d.field = c.field → d = c := fun d hd e => List.inj_on_of_nodup_map hk.fields hd hcm e
  have hsg : Good Ok t s := by
    intro d hd
    by_cases e : d.field = c.field
    · simpa [s, e] using hok
    · simpa [s, e] using hr d hd
  have hrow := newRow_raw h hk (rows := rows) (r := r) (s := s)
    (fun d hd hne => if_neg fun e => hne (by rw [hother d hd e]; exact ha))
    (fun d hd => by
      rw [ha] at hd
      cases hd
      simpa [s] using henc)
  have hkp : pick t (keyPos t) = [c] := by
    cases hau : t.auto with
    | none => simp [Table.autoCol, hau] at ha
    | some i =>
      have hic : t.columns[i]? = some c := by simpa [Table.autoCol, hau] using ha
      simp [pick, keyPos, hau, hic]
  have hrep := hc.new now s _ hsg hrow
  have hgood : Good Ok t (u now none s) := hc.good now none s (by simp) hsg
  have hkey : keyOf t (u now none s) = keyOf t s := key_care hk hc now none s
  have hks : keyOf t s = [x] := by simp [keyOf, hkp, s]
  have hm : m (keyOf t s) = none := by
    cases hm : m (keyOf t s) with
    | none => rfl
    | some s0 =>
      obtain ⟨hk0, hg, row, hrow0, hrep0⟩ := hh.stored _ _ hm
      have : s0 c.field = x := by simpa [keyOf, hkp, s] using hk0
      exact absurd (by rw [hrep0 c hcm, this, henc]) (hnew row hrow0)
  obtain ⟨text, fs, e, hs⟩ := send_insert_to h hi (run E.null E.gen K now) r σ
  rw [insert_run h hk hc hh hσ now hsg hrow] at hs
  refine ⟨.ok (if E.g.postgres then load t (u now none s) s else s), put m (keyOf t s) (some (u now none s)), _, ?_, ?_,
    after_put (rows := rows ++ [K.touch (tableName E.D t) now none (newRow E t rows r)]) ?_⟩
  · have hsc := scan_row h hgood hrep r
    have hl : load t (u now none s) r = load t (u now none s) s := by
      funext f
      by_cases hfm : f ∈ t.columns.map (·.field)
      · simp [load, hfm]
      · have : f ≠ c.field := fun e => hfm (e ▸ List.mem_map_of_mem hcm)
        simp [load, hfm, s, this]
    simp only [insertVia, e, hs, hm, Option.isSome_none, Bool.false_eq_true, if_false, ha]
    cases E.g.postgres with
    | true => simp only [if_true, queryRow, hsc, hl]
    | false =>
      have hv : K.touch (tableName E.D t) now none (newRow E t rows r) (colName E.D c) = E.gen (tableOf E.D t rows) := by
        rw [hrep c hcm, ← henc]
        have : u now none s c.field = x := by simpa [keyOf, hkp, s] using hkey
        rw [this]
      simp only [Bool.false_eq_true, if_false, Option.map_some, execAuto, hv, hid]
      rfl
  · simp only [Spec.Upkeep.Act, ha]
    refine ⟨x, by rw [← hks]; exact hm, ?_⟩
    change _ = Spec.Upkeep.act E.g.postgres t u now (.insert s) m
    simp [Spec.Upkeep.act, hm]
  · have := insert_holds h hh hgood hrep (by rw [hkey]; exact hm)
    rwa [hkey] at this

theorem update_run (hk : Kept t) (hc : Cares E.enc E.null E.D Ok K u t)
    (hl : 2 ≤ (pick t (keyPos t)).length ∨ E.g.style = .anon ∨ t.columns.length = (updatePos t).length + 1)
    (hu : pick t (updatePos t) ≠ []) {m : Map F X} {rows : List (Row V)} (hh : Holds E.enc E.D Ok t m rows)
    {σ : Sql.Store V} (hσ : σ (tableName E.D t) = some (tableOf E.D t rows)) (now : Nat) {r : F → X} (hr : Good Ok t r) :
    ∃ rows', updateVia E (run E.null E.gen K now) t r σ =
        ((Spec.Upkeep.act E.g.postgres t u now (.update r) m).1, σ.put (tableName E.D t) (tableOf E.D t rows')) ∧
      Holds E.enc E.D Ok t (Spec.Upkeep.act E.g.postgres t u now (.update r) m).2 rows' := by
  obtain ⟨text, fs, e, hs⟩ := send_update_to h hl hu (run E.null E.gen K now) r σ
  let sets := (pick t (updatePos t)).map fun c => (colName E.D c, E.enc c.field (r c.field))
  let new : Row V → Row V := fun row => K.touch (tableName E.D t) now (some row) (assign sets row)
  have hset : ∀ s row, Rep E.enc E.D t s row → keyOf t s = keyOf t r → Rep E.enc E.D t (keep t s r) (assign sets row) := by
    intro s row hrep hke c hcm
    by_cases hro : c.readonly = true
    · have hn := readonly_not_in h (l := pick t (updatePos t)) (fun d hd => ⟨mem_of_pick hd, pick_update_written hd⟩) hcm hro
      rw [assign_notin _ _ _ (by simpa [sets, Function.comp_def] using hn), hrep c hcm]
      simp [keep, (readFields_iff hk hcm).2 hro]
    · have hnf : c.field ∉ readFields t := fun hf => hro ((readFields_iff hk hcm).1 hf)
      simp only [keep, hnf, if_false]
      rcases covered h hcm (by simpa using hro) with hcu | hck
      · exact assign_in (colName E.D) (fun c => E.enc c.field (r c.field)) _ (pick_names h updatePos_nodup) row c hcu
      · rw [assign_notin _ _ _ (by simpa [sets, Function.comp_def] using key_not_updated h hck), hrep c hcm]
        have := List.map_inj_left.1 hke c hck
        rw [this]
  have hrep : ∀ s row, Good Ok t s → Rep E.enc E.D t s row → keyOf t s = keyOf t r →
      Rep E.enc E.D t (u now (some s) (keep t s r)) (new row) :=
    fun s row hg hrep hke => hc.changed now s _ row _ hg (good_keep hg hr) hrep (hset s row hrep hke)
  have hgood : ∀ s, Good Ok t s → Good Ok t (u now (some s) (keep t s r)) :=
    fun s hg => hc.good now (some s) _ (by simpa using hg) (good_keep hg hr)
  have hkey : ∀ s, keyOf t (u now (some s) (keep t s r)) = keyOf t r :=
    fun s => by rw [key_care hk hc, key_keep hk]
  refine ⟨rows.map fun row => if Sql.holds E.null (keyCond E t r) row then new row else row, ?_, ?_, ?_, ?_⟩
  · have h2 := key_known h r rows
    have e1 : sets.map (·.1) = (pick t (updatePos t)).map (colName E.D) := by simp [sets, Function.comp_def]
    have h1 : known (tableOf E.D t rows) (sets.map (·.1)) = true := by
      rw [e1]
      unfold known
      rw [cols_known, Bool.and_true, decide_eq_true_eq]
      exact pick_names h updatePos_nodup
    have h3 : (sets.map (·.1)).any (K.guarded (tableName E.D t)) = false := by
      rw [e1]
      simp only [List.any_map, List.any_eq_false, Function.comp_apply, Bool.not_eq_true]
      intro c hcm
      exact hc.guarded c (mem_of_pick hcm) (pick_update_written hcm)
    have hx : run E.null E.gen K now (.update (tableName E.D t) sets (keyCond E t r)) σ = (.done none,
        σ.put (tableName E.D t)
          (tableOf E.D t (rows.map fun row => if Sql.holds E.null (keyCond E t r) row then new row else row))) := by
      simp only [run, hσ, h1, h2, h3]
      simp [tableOf, new]
    have hout : (Spec.Upkeep.act E.g.postgres t u now (.update r) m).1 = .ok r := by
      simp only [Spec.Upkeep.act]
      split <;> rfl
    rw [hout]
    simp only [updateVia, e, hs, execOnly, sets] at hx ⊢
    simp only [hx]
  · intro k s hms
    simp only [Spec.Upkeep.act] at hms
    cases hp : m (keyOf t r) with
    | some s0 =>
      rw [hp] at hms
      simp only [put] at hms
      by_cases hkr : k = keyOf t r
      · rw [if_pos hkr] at hms
        obtain ⟨h1, h2, row, h3, h4⟩ := hh.stored _ _ hp
        have : s = u now (some s0) (keep t s0 r) := (Option.some.inj hms).symm
        subst this
        have hcd := (holds_iff h h2 hr h4).2 h1
        exact ⟨(hkey s0).trans hkr.symm, hgood s0 h2, new row, List.mem_map.2 ⟨row, h3, by simp [hcd]⟩, hrep s0 row h2 h4 h1⟩
      · rw [if_neg hkr] at hms
        obtain ⟨h1, h2, row, h3, h4⟩ := hh.stored _ _ hms
        have hcd := (holds_iff h h2 hr h4).not.2 (by rw [h1]; exact hkr)
        exact ⟨h1, h2, row, List.mem_map.2 ⟨row, h3, by simp [hcd]⟩, h4⟩
    | none =>
      rw [hp] at hms
      have hms : m k = some s := hms
      obtain ⟨h1, h2, row, h3, h4⟩ := hh.stored _ _ hms
      have hkr : keyOf t s ≠ keyOf t r := by
        intro e
        rw [← e, h1, hms] at hp
        simp at hp
      have hcd := (holds_iff h h2 hr h4).not.2 hkr
      exact ⟨h1, h2, row, List.mem_map.2 ⟨row, h3, by simp [hcd]⟩, h4⟩
  · intro row' hrow'
    obtain ⟨row, hrow, rfl⟩ := List.mem_map.1 hrow'
    obtain ⟨s, hs1, hs2⟩ := hh.only row hrow
    obtain ⟨-, hg, -⟩ := hh.stored _ _ hs1
    by_cases hcd : Sql.holds E.null (keyCond E t r) row = true
    · have hke := (holds_iff h hg hr hs2).1 hcd
      refine ⟨u now (some s) (keep t s r), ?_, by simpa [hcd] using hrep s row hg hs2 hke⟩
      have hp : m (keyOf t r) = some s := by rw [← hke, hs1]
      rw [hkey]
      simp [Spec.Upkeep.act, hp, put]
    · have hke := (holds_iff h hg hr hs2).not.1 hcd
      refine ⟨s, ?_, by simpa [hcd] using hs2⟩
      cases hp : m (keyOf t r) <;> simp [Spec.Upkeep.act, hp, put, hke, hs1]
  · refine once_map hh.once _ fun row hrow c hcm => ?_
    split
    next hcd =>
      obtain ⟨s, -, hs2, hke⟩ := (found h hh hr hrow).1 hcd
      obtain ⟨s', hs1', hs2'⟩ := hh.only row hrow
      obtain ⟨-, hg, -⟩ := hh.stored _ _ hs1'
      have hke' := (holds_iff h hg hr hs2').1 hcd
      have hm := mem_of_pick hcm
      rw [hrep s' row hg hs2' hke' c hm, hs2' c hm]
      have e1 := List.map_inj_left.1 (hkey s') c hcm
      have e2 := List.map_inj_left.1 hke' c hcm
      rw [e1, e2]
    · rfl

theorem find_run (now : Nat) (r : F → X) (σ : Sql.Store V) :
    findVia E (run E.null E.gen K now) t r σ = findByPK E t r σ := by
  obtain ⟨text, fs, e, hs⟩ := send_find_to h (run E.null E.gen K now) r σ
  obtain ⟨text', fs', e', hs'⟩ := send_find h r σ
  rw [e] at e'
  cases e'
  simp only [send] at hs'
  simp only [findByPK, findVia, e, hs, hs', run]

theorem delete_run (now : Nat) (r : F → X) (σ : Sql.Store V) :
    deleteVia E (run E.null E.gen K now) t r σ = deleteByPK E t r σ := by
  obtain ⟨q, e, hs⟩ := send_delete_to h (run E.null E.gen K now) r σ
  obtain ⟨q', e', hs'⟩ := send_delete h r σ
  rw [e] at e'
  cases e'
  simp only [send] at hs'
  unfold deleteByPK deleteVia
  change (match Helpers.deleteByPK E.g.style (Helpers.ofTable E.g t : Helpers.Mdl (F → V) V) (written E r) with
    | .ok q =>
      let a := sendTo E (run E.null E.gen K now) q σ
      (execOnly r a.1, a.2)
    | _ => (.failed, σ)) = (match Helpers.deleteByPK E.g.style (Helpers.ofTable E.g t : Helpers.Mdl (F → V) V) (written E r) with
    | .ok q =>
      let a := sendTo E (exec E.null E.gen) q σ
      (execOnly r a.1, a.2)
    | _ => (.failed, σ))
  rw [e]
  simp only [hs, hs', run]

/-- One operation. -/
theorem perform_run (hk : Kept t) (hc : Cares E.enc E.null E.D Ok K u t)
    (ha : ∀ c, t.autoCol = some c → pick t (insertPos t) ≠ [] ∧ MadeUp E t Ok c) {o : Store.Op F X}
    (hl : (∃ r, o = .update r) →
      2 ≤ (pick t (keyPos t)).length ∨ E.g.style = .anon ∨ t.columns.length = (updatePos t).length + 1)
    (hf : Fine Ok t o) (now : Nat) {m : Map F X} {σ : Sql.Store V} (hm : Keeps E Ok t m σ) :
    ∃ out m' σ', perform E K t now o σ = (out, σ') ∧ Spec.Upkeep.Act E.g.postgres t u now o m out m' ∧
      After E Ok t m' σ σ' := by
  obtain ⟨rows, hσ, hh⟩ := hm
  obtain ⟨hr, hu⟩ := hf
  cases o with
  | insert r =>
    cases hac : t.autoCol with
    | some c => exact insert_made h hk hc hac (ha c hac).1 (ha c hac).2 hh hσ now hr
    | none =>
      obtain ⟨σ', h1, h2⟩ := insert_keyed h hk hc hac hh hσ now (r := r) hr
      refine ⟨_, _, σ', h1, ?_, h2⟩
      unfold Spec.Upkeep.Act
      rw [hac]
  | find r =>
    obtain ⟨h1, h2⟩ := find_ok h hh hσ (r := r) hr
    refine ⟨_, _, σ, (find_run h now r σ).trans h1, rfl, ⟨rows, hσ, ?_⟩, fun _ _ => rfl⟩
    change Holds E.enc E.D Ok t (Store.act t (.find r) m).2 rows
    rw [h2]
    exact hh
  | update r =>
    obtain ⟨rows', h1, h2⟩ := update_run h hk hc (hl ⟨r, rfl⟩) (hu r rfl) hh hσ now hr
    exact ⟨_, _, _, h1, rfl, after_put h2⟩
  | delete r =>
    obtain ⟨rows', h1, h2⟩ := delete_ok h hh hσ (r := r) hr
    exact ⟨_, _, _, (delete_run h now r σ).trans h1, rfl, after_put h2⟩

end

end Verif.Upkeep
