import Verif.Lemmas.CondStore

/-!
# Lemmas about what statements with conditions do to the records of a table
-/

namespace Verif.Store

open Verif Verif.Gen Verif.Spec Verif.Spec.Gen Verif.Spec.Sql Verif.Spec.Store Verif.Sql

set_option linter.unusedSectionVars false

variable {F X V : Type} [DecidableEq F] [DecidableEq X] [DecidableEq V]

variable {E : Env F X V} {t : Table F} {Ok : F → X → Prop} {K : Compare V} {O : Comp F X}

theorem forall₂_pairwise {A B : Type} {R : A → B → Prop} {P : A → A → Prop} {Q : B → B → Prop} {a : List A} {b : List B}
    (hr : List.Forall₂ R a b) (ha : a.Pairwise P) (hpq : ∀ x y x' y', R x x' → R y y' → P x y → Q x' y') : b.Pairwise Q := by
  induction hr with
  | nil => exact List.Pairwise.nil
  | @cons x x' a b hx hr ih =>
    rw [List.pairwise_cons] at ha ⊢
    refine ⟨fun y' hy' => ?_, ih ha.2⟩
    obtain ⟨i, hi, rfl⟩ := List.mem_iff_getElem.1 hy'
    have hlen := hr.length_eq
    exact hpq _ _ _ _ hx (hr.get (by omega) hi) (ha.1 _ (List.getElem_mem _))

theorem forall₂_left {A B : Type} {R : A → B → Prop} {a : List A} {b : List B} (hr : List.Forall₂ R a b) {x : A} (hx : x ∈ a) :
    ∃ y ∈ b, R x y := by
  induction hr with
  | nil => simp at hx
  | @cons x' y' a b h1 hr ih =>
    rcases List.mem_cons.1 hx with rfl | hx
    · exact ⟨y', by simp, h1⟩
    · obtain ⟨y, hy, h⟩ := ih hx
      exact ⟨y, by simp [hy], h⟩

theorem forall₂_right {A B : Type} {R : A → B → Prop} {a : List A} {b : List B} (hr : List.Forall₂ R a b) {y : B} (hy : y ∈ b) :
    ∃ x ∈ a, R x y := forall₂_left hr.flip hy

/-- A row and the stored record it represents. -/
def Shows (E : Env F X V) (Ok : F → X → Prop) (t : Table F) (m : Map F X) (row : Row V) (s : F → X) : Prop :=
  m (keyOf t s) = some s ∧ Good Ok t s ∧ Rep E.enc E.D t s row

theorem shows_of {m : Map F X} {rows : List (Row V)} (hh : Holds E.enc E.D Ok t m rows) {row : Row V} (hr : row ∈ rows) :
    ∃ s, Shows E Ok t m row s := by
  obtain ⟨s, hs, hrep⟩ := hh.only row hr
  exact ⟨s, hs, (hh.stored _ _ hs).2.1, hrep⟩

theorem records {m : Map F X} {rows : List (Row V)} (hh : Holds E.enc E.D Ok t m rows) {rs : List (Row V)}
    (hs : ∀ r ∈ rs, r ∈ rows) : ∃ l, List.Forall₂ (Shows E Ok t m) rs l := by
  induction rs with
  | nil => exact ⟨[], .nil⟩
  | cons r rs ih =>
    obtain ⟨s, h1⟩ := shows_of hh (hs r (by simp))
    obtain ⟨l, hl⟩ := ih fun x hx => hs x (by simp [hx])
    exact ⟨s :: l, .cons h1 hl⟩

section
variable (h : Setup E t Ok)
include h

theorem shows_same {m : Map F X} {row : Row V} {s s' : F → X} (h1 : Shows E Ok t m row s) (h2 : Shows E Ok t m row s') :
    s = s' := by
  have hk : keyOf t s = keyOf t s' := by
    rw [← keys_equal_iff h h1.2.1 h2.2.1 h1.2.2 h2.2.2]
    simp
  have := h1.1
  rw [hk, h2.1] at this
  exact (Option.some.inj this).symm

theorem apart_keys {m : Map F X} {a b : Row V} {s s' : F → X} (h1 : Shows E Ok t m a s) (h2 : Shows E Ok t m b s')
    (hab : Apart E.D t a b) : keyOf t s ≠ keyOf t s' := by
  obtain ⟨c, hc, hne⟩ := hab
  intro e
  rw [← keys_equal_iff h h1.2.1 h2.2.1 h1.2.2 h2.2.2] at e
  simp only [List.all_map, List.all_eq_true, Function.comp_apply, decide_eq_true_eq] at e
  exact hne (e c hc)

variable (hA : Agrees K E.null E.enc Ok t O)
include hA

/-- The rows chosen are those of the records found. -/
theorem chosen_found {m : Map F X} {rows : List (Row V)} (hh : Holds E.enc E.D Ok t m rows) {w : Option (Cond F X)}
    (hw : ProperWhere Ok t w) {o : List (GCol F × Bool)} (ho : ∀ p ∈ o, p.1 ∈ t.columns) :
    ∃ l, List.Forall₂ (Shows E Ok t m)
        (chosen K E.null (w.map (ast E)) (o.map fun p => (colName E.D p.1, p.2)) none rows) l ∧ Found O t m w o l := by
  have hp := K.perm (o.map fun p => (colName E.D p.1, p.2)) (rows.filter (selects K E.null (w.map (ast E))))
  have hsrt := K.sorted (o.map fun p => (colName E.D p.1, p.2)) (rows.filter (selects K E.null (w.map (ast E))))
  have hch : chosen K E.null (w.map (ast E)) (o.map fun p => (colName E.D p.1, p.2)) none rows =
    K.arrange (o.map fun p => (colName E.D p.1, p.2)) (rows.filter (selects K E.null (w.map (ast E)))) := rfl
  rw [hch]
  generalize K.arrange (o.map fun p => (colName E.D p.1, p.2)) (rows.filter (selects K E.null (w.map (ast E)))) = rs at hp hsrt
  have hmem : ∀ r, r ∈ rs ↔ r ∈ rows ∧ selects K E.null (w.map (ast E)) r = true := fun r => by
    rw [hp.mem_iff, List.mem_filter]
  obtain ⟨l, hl⟩ := records hh (rs := rs) fun r hr => ((hmem r).1 hr).1
  refine ⟨l, hl, ⟨fun s => ⟨fun hs => ?_, fun hs => ?_⟩, ?_, ?_⟩⟩
  · obtain ⟨r, hr, h1⟩ := forall₂_right hl hs
    exact ⟨h1.1, (selects_iff hA h1.2.2 h1.2.1 hw).1 ((hmem r).1 hr).2⟩
  · obtain ⟨-, hg, row, hrow, hrep⟩ := hh.stored _ _ hs.1
    have h1 := (selects_iff hA hrep hg hw).2 hs.2
    obtain ⟨s', hs', h2⟩ := forall₂_left hl ((hmem row).2 ⟨hrow, h1⟩)
    rw [shows_same h ⟨hs.1, hg, hrep⟩ h2]
    exact hs'
  · have h1 : rs.Pairwise (Apart E.D t) :=
      (hh.once.filter _).perm hp.symm fun {a b} ⟨c, hc, hne⟩ => ⟨c, hc, fun e => hne e.symm⟩
    rw [List.Nodup, List.pairwise_map]
    exact forall₂_pairwise hl h1 fun _ _ _ _ hx hy hxy => apart_keys h hx hy hxy
  · refine forall₂_pairwise hl hsrt fun x y x' y' hx hy hxy => ?_
    rw [← precedes_eq hA hy.2.2 hx.2.2 hy.2.1 hx.2.1 o ho]
    exact hxy

omit hA h in
theorem has_cols (rows : List (Row V)) {w : Option (Cond F X)} (hw : ProperWhere Ok t w) {o : List (GCol F × Bool)}
    (ho : ∀ p ∈ o, p.1 ∈ t.columns) {cs : List (GCol F)} (hc : ∀ c ∈ cs, c ∈ t.columns) :
    hasCols (tableOf E.D t rows) (cs.map (colName E.D) ++
      namesIn (w.map (ast E)) (o.map fun p => (colName E.D p.1, p.2))) = true := by
  simp only [hasCols, List.all_eq_true, tableOf, List.contains_iff_mem, namesIn, List.mem_append]
  rintro n (hn | hn | hn)
  · obtain ⟨c, hc', rfl⟩ := List.mem_map.1 hn
    exact List.mem_map_of_mem (hc c hc')
  · cases w with
    | none => simp at hn
    | some c => exact cols_cond c (hw c rfl) n hn
  · rw [List.map_map] at hn
    obtain ⟨p, hp, rfl⟩ := List.mem_map.1 hn
    exact List.mem_map_of_mem (ho p hp)

omit hA h in
theorem limitTo_positive {A : Type} (n : Nat) (l : List A) : limitTo (positive n) l = firstOf n l := by
  unfold positive firstOf
  by_cases e : n = 0 <;> simp [e, limitTo]

omit hA h in
theorem firstOf_forall₂ {A B : Type} {R : A → B → Prop} (n : Nat) {a : List A} {b : List B} (hr : List.Forall₂ R a b) :
    List.Forall₂ R (firstOf n a) (firstOf n b) := by
  unfold firstOf
  by_cases e : n = 0
  · simpa [e] using hr
  · simpa [e] using List.forall₂_take n hr

omit hA in
theorem scan_all {m : Map F X} {rs : List (Row V)} {l : List (F → X)} (hl : List.Forall₂ (Shows E Ok t m) rs l)
    (zero : F → X) :
    (rs.map fun row => (t.columns.map (colName E.D)).map row).mapM (fun v => scan E (genAddrs t) v zero) =
      some (l.map fun s => load t s zero) := by
  induction hl with
  | nil => rfl
  | cons h1 _ ih =>
    rw [List.map_cons, List.mapM_cons, scan_row h h1.2.1 h1.2.2 zero, ih]
    rfl

/-- What a select answers. -/
theorem select_exec {m : Map F X} {rows : List (Row V)} (hh : Holds E.enc E.D Ok t m rows) {σ : Sql.Store V}
    (hσ : σ (tableName E.D t) = some (tableOf E.D t rows)) {q : Query F X} (hq : ProperQuery Ok t q) (l f : Option Nat) :
    ∃ rs a, Found O t m q.where_ q.orderBy a ∧ List.Forall₂ (Shows E Ok t m) rs a ∧
      execWide K E.null (wideOf E t q (q.where_.map (ast E)) l f) σ =
        (.rows ((limitTo l (rs.drop (f.getD 0))).map fun row => ((selected t q).map (colName E.D)).map row), σ) := by
  obtain ⟨a, ha, hf⟩ := chosen_found h hA hh hq.where_ hq.order
  refine ⟨_, a, hf, ha, ?_⟩
  have hc : ∀ c ∈ selected t q, c ∈ t.columns := by
    unfold selected
    by_cases e : q.select = []
    · rw [if_pos e]; exact fun _ hc => hc
    · rw [if_neg e]; exact hq.select
  have h1 := has_cols (E := E) rows hq.where_ hq.order hc
  unfold wideOf execWide
  simp only [hσ, h1, Bool.true_eq_false, if_false]
  rfl

theorem queryAll_ok (hn : Spelled E.g E.D t) {br : Brand} {m : Map F X} {σ : Sql.Store V} (hk : Keeps E Ok t m σ)
    {q : Query F X} (hq : ProperQuery Ok t q) (hs : q.select = [] ∨ q.select = t.columns)
    (ho : q.offset = 0 ∨ q.limit ≠ 0 ∨ br = .postgres) (zero : F → X) :
    ∃ l, Found O t m q.where_ q.orderBy l ∧
      queryAll E br K t zero q σ = (.ok ((firstOf q.limit (l.drop q.offset)).map fun s => load t s zero), σ) := by
  obtain ⟨rows, hσ, hh⟩ := hk
  obtain ⟨s, e1, e2⟩ := read_query h hn br hq.select hq.order (reads_proper h hn hq.where_)
  obtain ⟨rs, a, hf, hr, hx⟩ := select_exec h hA hh hσ hq (positive q.limit) (positive q.offset)
  have hsel : selected t q = t.columns := by
    unfold selected
    rcases hs with e | e
    · rw [if_pos e]
    · by_cases e' : q.select = []
      · rw [if_pos e']
      · rw [if_neg e', e]
  have hoff : (positive q.offset).getD 0 = q.offset := by unfold positive; split <;> simp_all
  have hif : ¬ (positive q.limit = none ∧ positive q.offset ≠ none ∧ br ≠ .postgres) := by
    rintro ⟨i1, i2, i3⟩
    rcases ho with e | e | e
    · exact i2 (by simp [positive, e])
    · simp [positive, e] at i1
    · exact i3 e
  rw [Option.bind_some, if_neg hif] at e2
  refine ⟨a, hf, ?_⟩
  have hd : List.Forall₂ (Shows E Ok t m) (rs.drop q.offset) (a.drop q.offset) := List.forall₂_drop q.offset hr
  have hsc := scan_all h (firstOf_forall₂ q.limit hd) zero
  simp only [queryAll, runStmt, e1, sendWide, e2, hx, hoff, limitTo_positive, hsel, rowsOf, hsc]

theorem queryOne_ok (hn : Spelled E.g E.D t) {br : Brand} {m : Map F X} {σ : Sql.Store V} (hk : Keeps E Ok t m σ)
    {q : Query F X} (hq : ProperQuery Ok t q) (hs : q.select = [] ∨ q.select = t.columns) (zero : F → X) :
    ∃ l, Found O t m q.where_ q.orderBy l ∧
      queryOne E br K t zero q σ = (match l with
        | [] => .noRows
        | s :: _ => .ok (load t s zero), σ) := by
  obtain ⟨rows, hσ, hh⟩ := hk
  obtain ⟨s, e1, e2⟩ := read_queryOne h hn br hq.select hq.order (reads_proper h hn hq.where_)
  obtain ⟨rs, a, hf, hr, hx⟩ := select_exec h hA hh hσ hq (some 1) none
  have hsel : selected t q = t.columns := by
    unfold selected
    rcases hs with e | e
    · rw [if_pos e]
    · by_cases e' : q.select = []
      · rw [if_pos e']
      · rw [if_neg e', e]
  refine ⟨a, hf, ?_⟩
  rw [Option.map_some] at e2
  simp only [queryOne, runStmt, e1, sendWide, e2, hx, hsel]
  cases hr with
  | nil => rfl
  | cons h1 _ =>
    have := scan_row h h1.2.1 h1.2.2 zero
    simp only [Option.getD_none, List.drop_zero, limitTo, List.take_succ_cons, List.take_zero, List.map_cons, rowOf, this]

/-! ## Changes -/

omit hA in
/-- A row has the key of one of the rows that are hit if the record has the key of one of their records. -/
theorem hit_iff {m : Map F X} {row : Row V} {s : F → X} (hs : Shows E Ok t m row s) {rs : List (Row V)} {l : List (F → X)}
    (hl : List.Forall₂ (Shows E Ok t m) rs l) (rows : List (Row V)) :
    rs.any (sameKey (tableOf E.D t rows).key row) = (l.map (keyOf t)).contains (keyOf t s) := by
  induction hl with
  | nil => rfl
  | @cons r s' _ _ h1 _ ih =>
    rw [List.any_cons, List.map_cons, List.contains_cons, ih]
    congr 1
    rw [Bool.eq_iff_iff, beq_iff_eq, ← keys_equal_iff h hs.2.1 h1.2.1 hs.2.2 h1.2.2]
    rfl

omit hA in
theorem rep_set (hf : (t.columns.map (·.field)).Nodup) (sets : List (GCol F × X)) (hs : ∀ p ∈ sets, p.1 ∈ t.columns)
    {s : F → X} {row : Row V} (hr : Rep E.enc E.D t s row) :
    Rep E.enc E.D t (setAll sets s) (assign (sets.map fun p => (colName E.D p.1, E.enc p.1.field p.2)) row) := by
  induction sets generalizing s row with
  | nil => exact hr
  | cons p sets ih =>
    have hp := hs p (by simp)
    refine ih (s := fun f => if f = p.1.field then p.2 else s f) (fun x hx => hs x (by simp [hx])) ?_
    intro c hc
    by_cases e : c = p.1
    · simp [e]
    · have e1 : colName E.D c ≠ colName E.D p.1 := fun e' => e (List.inj_on_of_nodup_map h.names hc hp e')
      have e2 : c.field ≠ p.1.field := fun e' => e (List.inj_on_of_nodup_map hf hc hp e')
      simp [e1, e2, hr c hc]

omit h hA in
theorem setAll_notin (sets : List (GCol F × X)) (s : F → X) (f : F) (hf : ∀ p ∈ sets, p.1.field ≠ f) : setAll sets s f = s f := by
  induction sets generalizing s with
  | nil => rfl
  | cons p sets ih =>
    have := ih (fun f => if f = p.1.field then p.2 else s f) fun x hx => hf x (by simp [hx])
    unfold setAll at this ⊢
    rw [List.foldl_cons, this, if_neg fun e => hf p (by simp) e.symm]

omit h hA in
theorem good_set (sets : List (GCol F × X))
    (hs : ∀ p ∈ sets, p.1 ∈ t.columns ∧ Ok p.1.field p.2) {s : F → X} (hg : Good Ok t s) : Good Ok t (setAll sets s) := by
  induction sets generalizing s with
  | nil => exact hg
  | cons p sets ih =>
    have hp := hs p (by simp)
    refine ih (s := fun f => if f = p.1.field then p.2 else s f) (fun x hx => hs x (by simp [hx])) ?_
    intro c hc
    by_cases e : c.field = p.1.field
    · simpa [e] using hp.2
    · simpa [e] using hg c hc

theorem updateAll_ok (hn : Spelled E.g E.D t) (hf : (t.columns.map (·.field)).Nodup) {br : Brand} {m : Map F X}
    {σ : Sql.Store V} (hk : Keeps E Ok t m σ) {u : Change F X} (hu : ProperChange Ok t u) (hne : u.set ≠ [])
    (hd : (u.set.map (·.1)).Nodup) (hkey : ∀ p ∈ u.set, p.1 ∉ pick t (keyPos t))
    (hst : E.g.style = .numbered → u.limit = 0) (ha : Allowed br u.orderBy u.limit) :
    ∃ l σ', Found O t m u.where_ u.orderBy l ∧ updateAll E br K t u σ = (.ok (), σ') ∧
      After E Ok t (setIn t u.set (firstOf u.limit l) m) σ σ' := by
  obtain ⟨rows, hσ, hh⟩ := hk
  obtain ⟨s, e1, e2⟩ := read_update_all h hn br (fun p hp => (hu.set p hp).1) hne hu.order (reads_proper h hn hu.where_) hst
  rw [Option.bind_some, if_pos ha] at e2
  obtain ⟨l, hl, hfound⟩ := chosen_found h hA hh hu.where_ hu.order
  have hcols := has_cols (E := E) rows hu.where_ hu.order (cs := []) (by simp)
  have hknown : known (tableOf E.D t rows) ((u.set.map fun p => (colName E.D p.1, E.enc p.1.field p.2)).map (·.1)) = true := by
    simp only [known, Bool.and_eq_true, decide_eq_true_eq, List.map_map, List.all_eq_true, Function.comp_def, tableOf,
      List.contains_iff_mem]
    refine ⟨?_, fun n hn' => ?_⟩
    · have : (u.set.map fun p => colName E.D p.1) = (u.set.map (·.1)).map (colName E.D) := by simp
      rw [this]
      refine List.Nodup.map_on (fun x hx y hy e => ?_) hd
      obtain ⟨p, hp, rfl⟩ := List.mem_map.1 hx
      obtain ⟨p', hp', rfl⟩ := List.mem_map.1 hy
      exact List.inj_on_of_nodup_map h.names (hu.set p hp).1 (hu.set p' hp').1 e
    · obtain ⟨p, hp, rfl⟩ := List.mem_map.1 hn'
      exact List.mem_map_of_mem (hu.set p hp).1
  have hl' := firstOf_forall₂ u.limit hl
  have hhit : chosen K E.null (u.where_.map (ast E)) (u.orderBy.map fun p => (colName E.D p.1, p.2)) (positive u.limit) rows =
      firstOf u.limit (chosen K E.null (u.where_.map (ast E)) (u.orderBy.map fun p => (colName E.D p.1, p.2)) none rows) := by
    rw [← limitTo_positive]; rfl
  rw [← hhit] at hl'
  have hkf : ∀ s, keyOf t (setAll u.set s) = keyOf t s := fun s => by
    unfold keyOf
    rw [List.map_inj_left]
    intro c hc
    refine setAll_notin _ _ _ fun p hp e => hkey p hp ?_
    rw [List.inj_on_of_nodup_map hf (hu.set p hp).1 (mem_of_pick hc) e]
    exact hc
  let g : (F → X) → (F → X) := fun s =>
    if ((firstOf u.limit l).map (keyOf t)).contains (keyOf t s) then setAll u.set s else s
  let f : Row V → Row V := fun row =>
    if (chosen K E.null (u.where_.map (ast E)) (u.orderBy.map fun p => (colName E.D p.1, p.2)) (positive u.limit) rows).any
      (sameKey (tableOf E.D t rows).key row) then
      assign (u.set.map fun p => (colName E.D p.1, E.enc p.1.field p.2)) row else row
  have hgk : ∀ s, keyOf t (g s) = keyOf t s := fun s => by
    simp only [g]; split
    · exact hkf s
    · rfl
  have hgood : ∀ s, Good Ok t s → Good Ok t (g s) := fun s hs => by
    simp only [g]; split
    · exact good_set u.set hu.set hs
    · exact hs
  have hrep : ∀ row s, Shows E Ok t m row s → Rep E.enc E.D t (g s) (f row) := fun row s hs => by
    simp only [g, f, hit_iff h hs hl' rows]; split
    · exact rep_set h hf u.set (fun p hp => (hu.set p hp).1) hs.2.2
    · exact hs.2.2
  have hm : ∀ s, m (keyOf t s) = some s → setIn t u.set (firstOf u.limit l) m (keyOf t s) = some (g s) := fun s hs => by
    simp only [setIn, hs, Option.map_some, g]
  refine ⟨l, σ.put (tableName E.D t) (tableOf E.D t (rows.map f)), hfound, ?_, after_put ⟨?_, ?_, ?_⟩⟩
  · rw [List.map_nil, List.nil_append] at hcols
    simp only [updateAll, runStmt, e1, sendWide, e2, execWide, hσ, hknown, hcols, Bool.true_eq_false, or_self, if_false, doneOf]
    rfl
  · intro k s' hk
    simp only [setIn] at hk
    cases hmk : m k with
    | none => simp [hmk] at hk
    | some s =>
      obtain ⟨rfl, hg, row, hrow, hr⟩ := hh.stored _ _ hmk
      have e : s' = g s := by simpa [hmk, g] using hk.symm
      subst e
      exact ⟨hgk s, hgood s hg, f row, List.mem_map_of_mem hrow, hrep row s ⟨hmk, hg, hr⟩⟩
  · intro row' hrow'
    obtain ⟨row, hrow, rfl⟩ := List.mem_map.1 hrow'
    obtain ⟨s, hs⟩ := shows_of hh hrow
    exact ⟨g s, by rw [hgk]; exact hm s hs.1, hrep row s hs⟩
  · refine once_map hh.once f fun row _ c hc => ?_
    simp only [f]
    split
    · rw [assign_notin]
      simp only [List.map_map, Function.comp_def]
      intro hm'
      obtain ⟨p, hp, e⟩ := List.mem_map.1 hm'
      refine hkey p hp ?_
      rw [List.inj_on_of_nodup_map h.names (hu.set p hp).1 (mem_of_pick hc) e]
      exact hc
    · rfl

theorem deleteAll_ok (hn : Spelled E.g E.D t) {br : Brand} {m : Map F X} {σ : Sql.Store V} (hk : Keeps E Ok t m σ)
    {u : Removal F X} (hu : ProperRemoval Ok t u)
    (hst : E.g.style = .numbered → u.limit = 0) (ha : Allowed br u.orderBy u.limit) :
    ∃ l σ', Found O t m u.where_ u.orderBy l ∧ deleteAll E br K t u σ = (.ok (), σ') ∧
      After E Ok t (removeFrom t (firstOf u.limit l) m) σ σ' := by
  obtain ⟨rows, hσ, hh⟩ := hk
  obtain ⟨s, e1, e2⟩ := read_delete_all h hn br hu.order (reads_proper h hn hu.where_) hst
  rw [Option.bind_some, if_pos ha] at e2
  obtain ⟨l, hl, hfound⟩ := chosen_found h hA hh hu.where_ hu.order
  have hcols := has_cols (E := E) rows hu.where_ hu.order (cs := []) (by simp)
  have hl' := firstOf_forall₂ u.limit hl
  have hhit : chosen K E.null (u.where_.map (ast E)) (u.orderBy.map fun p => (colName E.D p.1, p.2)) (positive u.limit) rows =
      firstOf u.limit (chosen K E.null (u.where_.map (ast E)) (u.orderBy.map fun p => (colName E.D p.1, p.2)) none rows) := by
    rw [← limitTo_positive]; rfl
  rw [← hhit] at hl'
  let f : Row V → Bool := fun row =>
    !(chosen K E.null (u.where_.map (ast E)) (u.orderBy.map fun p => (colName E.D p.1, p.2)) (positive u.limit) rows).any
      (sameKey (tableOf E.D t rows).key row)
  refine ⟨l, σ.put (tableName E.D t) (tableOf E.D t (rows.filter f)), hfound, ?_, after_put ⟨?_, ?_, hh.once.filter _⟩⟩
  · rw [List.map_nil, List.nil_append] at hcols
    simp only [deleteAll, runStmt, e1, sendWide, e2, execWide, hσ, hcols, Bool.true_eq_false, if_false, doneOf]
    rfl
  · intro k s hk
    simp only [removeFrom] at hk
    by_cases hc : ((firstOf u.limit l).map (keyOf t)).contains k = true
    · rw [if_pos hc] at hk; simp at hk
    · rw [if_neg hc] at hk
      obtain ⟨rfl, hg, row, hrow, hr⟩ := hh.stored _ _ hk
      refine ⟨rfl, hg, row, List.mem_filter.2 ⟨hrow, ?_⟩, hr⟩
      simp only [f, hit_iff h ⟨hk, hg, hr⟩ hl' rows]
      simpa using hc
  · intro row hrow
    obtain ⟨hrow, hfr⟩ := List.mem_filter.1 hrow
    obtain ⟨s, hs⟩ := shows_of hh hrow
    refine ⟨s, ?_, hs.2.2⟩
    simp only [f, hit_iff h hs hl' rows] at hfr
    simp only [removeFrom]
    rw [if_neg (by simpa using hfr)]
    exact hs.1

end

end Verif.Store
