import Verif.Lemmas.BulkStore
import Verif.Props.Store

/-!
# Property C91: batch inserts and upserts at work on a database
-/

namespace Verif.Props

open Verif Verif.Gen Verif.Spec Verif.Spec.Gen Verif.Spec.Sql Verif.Spec.Store Verif.Store

variable {F X V : Type} [DecidableEq F] [DecidableEq X] [DecidableEq V] {E : Env F X V} {t : Table F} {Ok : F → X → Prop}

/-! ### What storing several records comes to -/

omit [DecidableEq F] in
theorem withKey_mem {rs : List (F → X)} {k : List X} : withKey t rs k = none ↔ k ∉ rs.map (keyOf t) := by
  simp [withKey]

omit [DecidableEq X] in
theorem into_map (f : (F → X) → F → X) (rs : List (F → X)) : into t (rs.map f) rs = rs.map fun r => load t (f r) r := by
  induction rs with
  | nil => rfl
  | cons r rs ih => simp [into, ih]

omit [DecidableEq X] in
theorem into_self (rs : List (F → X)) : into t rs rs = rs := by
  have := into_map (t := t) id rs
  simpa [show ∀ r : F → X, load t r r = r from fun r => by funext f; simp [load]] using this

theorem storeAll_error (upd : List F) (rs : List (F → X)) (m : Map F X) :
    storeAll t .error upd rs m = if (rs.map (keyOf t)).Nodup ∧ ∀ r ∈ rs, m (keyOf t r) = none then
      some (fun k => (withKey t rs k).or (m k), rs) else none := by
  induction rs generalizing m with
  | nil => simp [storeAll, withKey]
  | cons r rs ih =>
    cases hm : m (keyOf t r) with
    | some s => simp [storeAll, store, hm]
    | none =>
      simp only [storeAll, store, hm, Option.bind_some, ih, List.map_cons, List.nodup_cons, Option.toList_some, List.mem_cons,
        forall_eq_or_imp, true_and]
      by_cases hc : (rs.map (keyOf t)).Nodup ∧ ∀ r' ∈ rs, put m (keyOf t r) (some r) (keyOf t r') = none
      · have h1 : keyOf t r ∉ rs.map (keyOf t) := by
          intro h
          obtain ⟨r', hr', e⟩ := List.mem_map.1 h
          have := hc.2 r' hr'
          simp [put, e] at this
        have h2 : ∀ r' ∈ rs, m (keyOf t r') = none := by
          intro r' hr'
          have hne : keyOf t r' ≠ keyOf t r := fun e => h1 (e ▸ List.mem_map_of_mem hr')
          simpa [put, hne] using hc.2 r' hr'
        rw [if_pos hc, if_pos ⟨⟨h1, hc.1⟩, h2⟩]
        simp only [Option.map_some, List.singleton_append, Option.some.injEq, Prod.mk.injEq, and_true]
        funext k
        by_cases hk : k = keyOf t r
        · subst hk
          rw [withKey_mem.2 h1]
          simp [withKey, put]
        · simp [withKey, put, hk, Ne.symm hk]
      · rw [if_neg hc, if_neg ?_]
        · rfl
        · rintro ⟨⟨h1, h2⟩, h3⟩
          refine hc ⟨h2, fun r' hr' => ?_⟩
          have hne : keyOf t r' ≠ keyOf t r := fun e => h1 (e ▸ List.mem_map_of_mem hr')
          simpa [put, hne] using h3 r' hr'

theorem storeAll_total {e : Existing} (he : e ≠ .error) (upd : List F) (rs : List (F → X)) (m : Map F X) :
    ∃ m' ss, storeAll t e upd rs m = some (m', ss) := by
  induction rs generalizing m with
  | nil => exact ⟨_, _, rfl⟩
  | cons r rs ih =>
    have : ∃ a, store t e upd r m = some a := by
      unfold store
      cases m (keyOf t r) <;> cases e <;> simp at he ⊢
    obtain ⟨a, ha⟩ := this
    obtain ⟨m', ss, h⟩ := ih a.1
    exact ⟨m', a.2.toList ++ ss, by simp [storeAll, ha, h]⟩

/-- Records that are new, as they come. -/
theorem storeAll_keep (upd : List F) (rs : List (F → X)) (m : Map F X) :
    ∃ ss, storeAll t .keep upd rs m = some (fun k => (m k).or (withKey t rs k), ss) ∧
      (∀ s ∈ ss, s ∈ rs) ∧ ss.head? = rs.find? fun r => (m (keyOf t r)).isNone := by
  induction rs generalizing m with
  | nil => exact ⟨[], by simp [storeAll, withKey], by simp, rfl⟩
  | cons r rs ih =>
    cases hm : m (keyOf t r) with
    | some s =>
      obtain ⟨ss, h1, h2, h3⟩ := ih m
      refine ⟨ss, ?_, fun s hs => List.mem_cons_of_mem _ (h2 s hs), by simp [hm, h3]⟩
      simp only [storeAll, store, hm, Option.bind_some, h1, Option.map_some, Option.toList_none, List.nil_append,
        Option.some.injEq, Prod.mk.injEq, and_true]
      funext k
      by_cases hk : k = keyOf t r
      · subst hk; simp [hm]
      · simp [withKey, Ne.symm hk]
    | none =>
      obtain ⟨ss, h1, h2, h3⟩ := ih (put m (keyOf t r) (some r))
      refine ⟨r :: ss, ?_, ?_, by simp [hm]⟩
      · simp only [storeAll, store, hm, Option.bind_some, h1, Option.map_some, Option.toList_some, List.singleton_append,
          Option.some.injEq, Prod.mk.injEq, and_true]
        funext k
        by_cases hk : k = keyOf t r
        · subst hk; simp [put, hm, withKey]
        · simp [put, withKey, Ne.symm hk, hk]
      · intro s hs
        rcases List.mem_cons.1 hs with rfl | hs
        · simp
        · exact List.mem_cons_of_mem _ (h2 s hs)

theorem storeAll_distinct (upd : List F) (rs : List (F → X)) (hd : (rs.map (keyOf t)).Nodup) (m : Map F X) :
    storeAll t .replace upd rs m =
      some (fun k => ((withKey t rs k).map (storedFor t upd m)).or (m k), rs.map (storedFor t upd m)) := by
  induction rs generalizing m with
  | nil => simp [storeAll, withKey]
  | cons r rs ih =>
    rw [List.map_cons, List.nodup_cons] at hd
    have hs : store t .replace upd r m = some (put m (keyOf t r) (some (storedFor t upd m r)), some (storedFor t upd m r)) := by
      unfold store storedFor
      cases m (keyOf t r) <;> rfl
    have hsf : ∀ r' ∈ rs, storedFor t upd (put m (keyOf t r) (some (storedFor t upd m r))) r' = storedFor t upd m r' := by
      intro r' hr'
      have hne : keyOf t r' ≠ keyOf t r := fun e => hd.1 (e ▸ List.mem_map_of_mem hr')
      simp [storedFor, put, hne]
    simp only [storeAll, hs, Option.bind_some, ih hd.2, Option.map_some, Option.toList_some, List.singleton_append, List.map_cons,
      Option.some.injEq, Prod.mk.injEq, List.cons.injEq, true_and]
    refine ⟨?_, List.map_congr_left hsf⟩
    funext k
    by_cases hk : k = keyOf t r
    · subst hk
      rw [withKey_mem.2 hd.1]
      simp [withKey, put]
    · cases hw : withKey t rs k with
      | none =>
        have : withKey t (r :: rs) k = none := by
          rw [withKey_mem, List.map_cons, List.mem_cons, not_or]
          exact ⟨hk, withKey_mem.1 hw⟩
        simp [this, put, hk]
      | some r' =>
        have : withKey t (r :: rs) k = some r' := by
          rw [← hw]; simp [withKey, Ne.symm hk]
        rw [this]
        simp [hsf r' (List.mem_of_find?_eq_some hw)]

/-! ### What a batch helper does -/

section
variable (h : FullSetup E t Ok) (hf : (t.columns.map (·.field)).Nodup)

include h

theorem runMany_ok {U : List (GCol F)} (hU : Upd t U) (hUn : (U.map (colName E.D)).Nodup) (hU0 : U ≠ []) (e : Existing) (ru : Rules)
    {rs : List (F → X)} (hr : ∀ r ∈ rs, Good Ok t r) {m : Map F X} {σ : Sql.Store V} (hk : Keeps E Ok t m σ)
    {q : Res (Option (Txt × List V))} {q0 : Txt × List V} (hq : q = .ok (some q0))
    (hs : sendBulk E ru q0 σ = execBulk E.null E.gen ru (bulkOf E t rs (conflictOf E.D (targetFor E t) U e)) σ) :
    if ru = .onConflict ∧ e = .replace ∧ ¬ (rs.map (keyOf t)).Nodup then runMany E ru t rs q σ = (.failed, σ)
    else match storeAll t e (U.map (·.field)) rs m with
    | none => runMany E ru t rs q σ = (.duplicate, σ)
    | some (m', ss) => ∃ σ', runMany E ru t rs q σ = (.ok (if E.g.postgres then into t ss rs else rs), σ') ∧
        After E Ok t m' σ σ' := by
  obtain ⟨rows, hσ, hh⟩ := hk
  have hx := execBulk_ok h hU hUn hU0 (tg := targetFor E t) (by
    intro ns e
    unfold targetFor at e
    cases hp : E.g.postgres <;> simp [hp] at e
    exact e.symm) e ru E.g.postgres hr hh hσ
  simp only [bulkOf] at hs
  simp only [← hs] at hx
  simp only [hq, runMany]
  by_cases hc : ru = .onConflict ∧ e = .replace ∧ ¬ (rs.map (keyOf t)).Nodup
  · rw [if_pos hc] at hx ⊢
    rw [hx]
    cases E.g.postgres <;> rfl
  · rw [if_neg hc] at hx ⊢
    cases es : storeAll t e (U.map (·.field)) rs m with
    | none =>
      rw [es] at hx
      simp only at hx ⊢
      rw [hx]
      cases E.g.postgres <;> rfl
    | some b =>
      obtain ⟨m', ss⟩ := b
      rw [es] at hx
      obtain ⟨rows', xs, e1, hh', hsame⟩ := hx
      simp only
      rw [e1]
      refine ⟨_, ?_, after_put hh'⟩
      cases E.g.postgres with
      | true =>
        simp only [if_true, queryRows]
        rw [scanRows_ok h hsame (storeAll_length _ _ _ _ _ _ es)]
      | false => simp [execMany]

theorem runOne_ok {U : List (GCol F)} (hU : Upd t U) (hUn : (U.map (colName E.D)).Nodup) (hU0 : U ≠ []) (e : Existing) (ru : Rules)
    {r : F → X} (hr : Good Ok t r) {m : Map F X} {σ : Sql.Store V} (hk : Keeps E Ok t m σ) {q0 : Txt × List V}
    (hs : sendBulk E ru q0 σ = execBulk E.null E.gen ru (bulkOf E t [r] (conflictOf E.D (targetFor E t) U e)) σ) :
    match store t e (U.map (·.field)) r m with
    | none => sendBulk E ru q0 σ = (.duplicate, σ)
    | some (m', s) => ∃ σ', ((if E.g.postgres then queryRow E t r (sendBulk E ru q0 σ).1 else execOnly r (sendBulk E ru q0 σ).1,
        (sendBulk E ru q0 σ).2) : Out (F → X) × Sql.Store V) = (if E.g.postgres then (match s with
          | some s => .ok (load t s r)
          | none => .noRows) else .ok r, σ') ∧ After E Ok t m' σ σ' := by
  obtain ⟨rows, hσ, hh⟩ := hk
  have hx := execBulk_ok h hU hUn hU0 (tg := targetFor E t) (by
    intro ns e
    unfold targetFor at e
    cases hp : E.g.postgres <;> simp [hp] at e
    exact e.symm) e ru E.g.postgres (rs := [r]) (by simpa using hr) hh hσ
  simp only [bulkOf] at hs
  simp only [← hs] at hx
  rw [if_neg (by simp)] at hx
  cases es : store t e (U.map (·.field)) r m with
  | none =>
    simp only [storeAll, es, Option.bind_none] at hx
    exact hx
  | some b =>
    obtain ⟨m', s⟩ := b
    simp only [storeAll, es, Option.bind_some, Option.map_some, List.append_nil] at hx
    obtain ⟨rows', xs, e1, hh', hsame⟩ := hx
    simp only
    rw [e1]
    refine ⟨_, ?_, after_put hh'⟩
    cases E.g.postgres with
    | false => simp [execOnly]
    | true =>
      cases s with
      | none =>
        cases hsame
        simp [queryRow]
      | some s =>
        obtain ⟨row, xs, hs1, h2, rfl⟩ := List.forall₂_cons_left_iff.1 hsame
        cases h2
        simp only [if_true, List.map_cons, List.map_nil, queryRow]
        rw [scan_row h.toSetup hs1.1 hs1.2]

end

/-! ### C91 -/

section
variable (h : FullSetup E t Ok) (hf : (t.columns.map (·.field)).Nodup) (hn : HelperNames E.g E.D t)
  (hst : E.g.style = if E.g.postgres then .numbered else .anon) (ha : t.auto = none)

include h hf hn hst ha

/-- C91. A batch insert of records with new and different keys stores them all, and leaves them as they are; otherwise it
fails and stores none. -/
theorem C91_insert {ru : Rules} (hru : E.g.postgres = true → ru = .onConflict) {m : Map F X} {σ : Sql.Store V} (hk : Keeps E Ok t m σ)
    (rs : List (F → X)) (hr : ∀ r ∈ rs, Good Ok t r) :
    (((rs.map (keyOf t)).Nodup ∧ ∀ r ∈ rs, m (keyOf t r) = none) →
      ∃ σ', insertMany E ru t rs σ = (.ok rs, σ') ∧ After E Ok t (fun k => (withKey t rs k).or (m k)) σ σ') ∧
    (¬ ((rs.map (keyOf t)).Nodup ∧ ∀ r ∈ rs, m (keyOf t r) = none) → insertMany E ru t rs σ = (.duplicate, σ)) := by
  by_cases hne : rs = []
  · subst hne
    refine ⟨fun _ => ⟨σ, ?_, ?_⟩, fun hc => absurd ⟨List.nodup_nil, by simp⟩ hc⟩
    · unfold insertMany
      simp only [List.map_nil, (C26_empty (mdl E t)).1, (C26_empty (mdl E t)).2, ite_self, runMany]
    · have : (fun k => (withKey t ([] : List (F → X)) k).or (m k)) = m := by funext k; simp [withKey]
      rw [this]
      exact ⟨hk, fun _ _ => rfl⟩
  · obtain ⟨q, e1, e2⟩ := send_insertMany h hn hst ha hru hne σ
    have := runMany_ok h (U := t.columns) ⟨fun c hc => hc, hf⟩ h.names (columns_ne h) .error ru hr hk e1 e2
    rw [if_neg (by simp), storeAll_error] at this
    constructor
    · intro hc
      rw [if_pos hc] at this
      obtain ⟨σ', e, hafter⟩ := this
      refine ⟨σ', ?_, hafter⟩
      rw [into_self, ite_self] at e
      exact e
    · intro hc
      rw [if_neg hc] at this
      exact this

/-- All that is known about an upsert of several records. -/
theorem upsertMany_ok (w : Wish) (hw : w.keep = true ∨ replaced E.g t w ≠ []) {m : Map F X} {σ : Sql.Store V}
    (hk : Keeps E Ok t m σ) {rs : List (F → X)} (hne : rs ≠ []) (hr : ∀ r ∈ rs, Good Ok t r) :
    if E.g.postgres = true ∧ w.keep = false ∧ ¬ (rs.map (keyOf t)).Nodup then
      upsertMany E (rulesOf E.g) t w rs σ = (.failed, σ)
    else ∃ m' ss σ', storeAll t (existing w) ((replaced E.g t w).map (·.field)) rs m = some (m', ss) ∧
      upsertMany E (rulesOf E.g) t w rs σ = (.ok (if E.g.postgres then into t ss rs else rs), σ') ∧ After E Ok t m' σ σ' := by
  obtain ⟨q, e1, e2⟩ := send_upsertMany h hn hst ha w hw hne σ
  obtain ⟨m', ss, hs⟩ := storeAll_total (t := t) (e := existing w) (by unfold existing; cases w.keep <;> simp)
    ((replaced E.g t w).map (·.field)) rs m
  have hcond : (rulesOf E.g = .onConflict ∧ existing w = .replace ∧ ¬ (rs.map (keyOf t)).Nodup) ↔
      (E.g.postgres = true ∧ w.keep = false ∧ ¬ (rs.map (keyOf t)).Nodup) := by
    unfold rulesOf existing
    cases E.g.postgres <;> cases w.keep <;> simp
  cases hkp : w.keep with
  | true =>
    have hex : existing w = .keep := by simp [existing, hkp]
    have hcf : conflictOf E.D (targetFor E t) (replaced E.g t w) (existing w) =
        conflictOf E.D (targetFor E t) t.columns (existing w) := by rw [hex]; rfl
    rw [hcf] at e2
    have := runMany_ok h (U := t.columns) ⟨fun c hc => hc, hf⟩ h.names (columns_ne h) (existing w) (rulesOf E.g) hr hk e1 e2
    rw [if_neg (by simp [hex])] at this
    rw [if_neg (by simp)]
    obtain ⟨ss', h1, -⟩ := storeAll_keep (t := t) ((replaced E.g t w).map (·.field)) rs m
    obtain ⟨ss'', h2, -⟩ := storeAll_keep (t := t) (t.columns.map (·.field)) rs m
    have hsame : storeAll t .keep ((replaced E.g t w).map (·.field)) rs m = storeAll t .keep (t.columns.map (·.field)) rs m := by
      have : ∀ (u v : List F) (rs : List (F → X)) (m : Map F X), storeAll t .keep u rs m = storeAll t .keep v rs m := by
        intro u v rs
        induction rs with
        | nil => intro m; rfl
        | cons r rs ih =>
          intro m
          have : store t .keep u r m = store t .keep v r m := by unfold store; cases m (keyOf t r) <;> rfl
          simp only [storeAll, this, ih]
      exact this _ _ _ _
    rw [hex] at hs this ⊢
    rw [← hsame, hs] at this
    obtain ⟨σ', h3, h4⟩ := this
    exact ⟨m', ss, σ', hs, h3, h4⟩
  | false =>
    have hw' := hw.resolve_left (by simp [hkp])
    have := runMany_ok h (U := replaced E.g t w) ⟨replaced_sub E.g w, hf⟩ (h.names.sublist (List.filter_sublist.map _)) hw'
      (existing w) (rulesOf E.g) hr hk e1 e2
    rw [hkp] at hcond
    rw [if_congr hcond rfl rfl] at this
    by_cases hc : E.g.postgres = true ∧ false = false ∧ ¬ (rs.map (keyOf t)).Nodup
    · rw [if_pos hc] at this ⊢
      exact this
    · rw [if_neg hc] at this ⊢
      rw [hs] at this
      obtain ⟨σ', h3, h4⟩ := this
      exact ⟨m', ss, σ', hs, h3, h4⟩

/-- C91, replacing existing records (PostgreSQL's and MySQL's own syntax, different keys): afterwards, every given key has
what was given in the replaced columns and, if it existed, what it had in the others; all other keys have what they had.
For PostgreSQL, every record is loaded with what is now stored under its key; otherwise the records are left alone. -/
theorem C91_upsert_replace (w : Wish) (hkp : w.keep = false) (hw : replaced E.g t w ≠ []) {m : Map F X} {σ : Sql.Store V}
    (hk : Keeps E Ok t m σ) {rs : List (F → X)} (hne : rs ≠ []) (hr : ∀ r ∈ rs, Good Ok t r) (hd : (rs.map (keyOf t)).Nodup) :
    ∃ σ', upsertMany E (rulesOf E.g) t w rs σ = (.ok (if E.g.postgres then
        rs.map fun r => load t (storedFor t ((replaced E.g t w).map (·.field)) m r) r else rs), σ') ∧
      After E Ok t (fun k => ((withKey t rs k).map (storedFor t ((replaced E.g t w).map (·.field)) m)).or (m k)) σ σ' := by
  have := upsertMany_ok h hf hn hst ha w (.inr hw) hk hne hr
  rw [if_neg (fun hc => hc.2.2 hd)] at this
  obtain ⟨m', ss, σ', h1, h2, h3⟩ := this
  have hex : existing w = .replace := by simp [existing, hkp]
  rw [hex, storeAll_distinct _ _ hd] at h1
  simp only [Option.some.injEq, Prod.mk.injEq] at h1
  obtain ⟨rfl, rfl⟩ := h1
  rw [into_map] at h2
  exact ⟨σ', h2, h3⟩

/-- C91, replacing with keys that occur more than once: MySQL stores one record after the other, PostgreSQL refuses the
statement. -/
theorem C91_upsert_repeated (w : Wish) (hkp : w.keep = false) (hw : replaced E.g t w ≠ []) {m : Map F X} {σ : Sql.Store V}
    (hk : Keeps E Ok t m σ) {rs : List (F → X)} (hr : ∀ r ∈ rs, Good Ok t r) (hd : ¬ (rs.map (keyOf t)).Nodup) :
    (E.g.postgres = true → upsertMany E (rulesOf E.g) t w rs σ = (.failed, σ)) ∧
    (E.g.postgres = false → ∃ m' ss σ', storeAll t .replace ((replaced E.g t w).map (·.field)) rs m = some (m', ss) ∧
      upsertMany E (rulesOf E.g) t w rs σ = (.ok rs, σ') ∧ After E Ok t m' σ σ') := by
  have hne : rs ≠ [] := by rintro rfl; exact hd List.nodup_nil
  have := upsertMany_ok h hf hn hst ha w (.inr hw) hk hne hr
  constructor
  · intro hp
    rw [if_pos ⟨hp, hkp, hd⟩] at this
    exact this
  · intro hp
    rw [if_neg (by simp [hp])] at this
    obtain ⟨m', ss, σ', h1, h2, h3⟩ := this
    have hex : existing w = .replace := by simp [existing, hkp]
    rw [hex] at h1
    exact ⟨m', ss, σ', h1, by simpa [hp] using h2, h3⟩

/-- C91, keeping existing records: afterwards, every key has what it had, and otherwise the first record given with it. -/
theorem C91_upsert_keep_partial (w : Wish) (hkp : w.keep = true) {m : Map F X} {σ : Sql.Store V}
    (hk : Keeps E Ok t m σ) {rs : List (F → X)} (hne : rs ≠ []) (hr : ∀ r ∈ rs, Good Ok t r) :
    ∃ rs' σ', upsertMany E (rulesOf E.g) t w rs σ = (.ok rs', σ') ∧ (E.g.postgres = false → rs' = rs) ∧
      After E Ok t (fun k => (m k).or (withKey t rs k)) σ σ' := by
  have := upsertMany_ok h hf hn hst ha w (.inl hkp) hk hne hr
  rw [if_neg (by simp [hkp])] at this
  obtain ⟨m', ss, σ', h1, h2, h3⟩ := this
  have hex : existing w = .keep := by simp [existing, hkp]
  obtain ⟨ss', h4, -⟩ := storeAll_keep (t := t) ((replaced E.g t w).map (·.field)) rs m
  rw [hex, h4] at h1
  simp only [Option.some.injEq, Prod.mk.injEq] at h1
  obtain ⟨rfl, rfl⟩ := h1
  exact ⟨_, σ', h2, fun hp => by simp [hp], h3⟩

/-- C91, refuted for the records in memory: if PostgreSQL keeps the first one's, and stores another, the first record is
overwritten with that other one. -/
theorem C91_keep_overwrites (hp : E.g.postgres = true) (w : Wish) (hkp : w.keep = true) {m : Map F X} {σ : Sql.Store V}
    (hk : Keeps E Ok t m σ) (r : F → X) (rest : List (F → X)) (hr : ∀ r' ∈ r :: rest, Good Ok t r') (hm : m (keyOf t r) ≠ none)
    (r' : F → X) (hr' : rest.find? (fun r => (m (keyOf t r)).isNone) = some r') :
    (∃ rest' σ', upsertMany E (rulesOf E.g) t w (r :: rest) σ = (.ok (load t r' r :: rest'), σ')) ∧
      keyOf t (load t r' r) = keyOf t r' ∧ keyOf t r' ≠ keyOf t r := by
  have := upsertMany_ok h hf hn hst ha w (.inl hkp) hk (rs := r :: rest) (by simp) hr
  rw [if_neg (by simp [hkp])] at this
  obtain ⟨m', ss, σ', h1, h2, h3⟩ := this
  have hex : existing w = .keep := by simp [existing, hkp]
  obtain ⟨ss', h4, -, h5⟩ := storeAll_keep (t := t) ((replaced E.g t w).map (·.field)) (r :: rest) m
  rw [hex, h4] at h1
  simp only [Option.some.injEq, Prod.mk.injEq] at h1
  obtain ⟨rfl, rfl⟩ := h1
  have hmn : (m (keyOf t r)).isNone = false := by
    cases e : m (keyOf t r) with
    | none => exact absurd e hm
    | some => rfl
  rw [List.find?_cons, hmn, hr'] at h5
  obtain ⟨l, rfl⟩ : ∃ l, ss' = r' :: l := by
    cases ss' with
    | nil => simp at h5
    | cons a l => simp at h5; exact ⟨l, by rw [h5]⟩
  refine ⟨⟨into t l rest, σ', by simpa [hp, into] using h2⟩, ?_, ?_⟩
  · unfold keyOf
    apply List.map_congr_left
    intro c hc
    have : c.field ∈ t.columns.map (·.field) := List.mem_map_of_mem (mem_of_pick hc)
    simp [load, this]
  · intro e
    have := List.find?_some hr'
    rw [e, hmn] at this
    cases this

/-- C91, one record: what is stored is as for several records.  PostgreSQL loads the record with what is stored, and reports
that there are no rows if it has kept an existing one. -/
theorem C91_upsert_one (w : Wish) (hw : w.keep = true ∨ replaced E.g t w ≠ [])
    (hkk : E.g.postgres = true ∨ w.keep = true ∨ (pick t (keyPos t)).length = 1) {m : Map F X} {σ : Sql.Store V}
    (hk : Keeps E Ok t m σ) {r : F → X} (hr : Good Ok t r) :
    (w.keep = true ∧ m (keyOf t r) ≠ none → ∃ σ', upsertOne E (rulesOf E.g) t w r σ =
        (if E.g.postgres then .noRows else .ok r, σ') ∧ After E Ok t m σ σ') ∧
    (¬ (w.keep = true ∧ m (keyOf t r) ≠ none) → ∃ σ', upsertOne E (rulesOf E.g) t w r σ =
        (.ok (if E.g.postgres then load t (storedFor t ((replaced E.g t w).map (·.field)) m r) r else r), σ') ∧
      After E Ok t (put m (keyOf t r) (some (storedFor t ((replaced E.g t w).map (·.field)) m r))) σ σ') := by
  obtain ⟨q, e1, e2⟩ := send_upsertOne h hn hst ha w hw hkk r σ
  have key : ∀ m' s, store t (existing w) ((replaced E.g t w).map (·.field)) r m = some (m', s) →
      ∃ σ', upsertOne E (rulesOf E.g) t w r σ = (if E.g.postgres then (match s with
          | some s => .ok (load t s r)
          | none => .noRows) else .ok r, σ') ∧ After E Ok t m' σ σ' := by
    intro m' s hst'
    simp only [upsertOne, e1]
    cases hkp : w.keep with
    | true =>
      have hex : existing w = .keep := by simp [existing, hkp]
      have hcf : conflictOf E.D (targetFor E t) (replaced E.g t w) (existing w) =
          conflictOf E.D (targetFor E t) t.columns (existing w) := by rw [hex]; rfl
      rw [hcf] at e2
      have := runOne_ok h (U := t.columns) ⟨fun c hc => hc, hf⟩ h.names (columns_ne h) (existing w) (rulesOf E.g) hr hk e2
      have hsame : store t .keep (t.columns.map (·.field)) r m = store t .keep ((replaced E.g t w).map (·.field)) r m := by
        unfold store; cases m (keyOf t r) <;> rfl
      rw [hex] at this hst'
      rw [hsame, hst'] at this
      exact this
    | false =>
      have hw' := hw.resolve_left (by simp [hkp])
      have := runOne_ok h (U := replaced E.g t w) ⟨replaced_sub E.g w, hf⟩ (h.names.sublist (List.filter_sublist.map _)) hw'
        (existing w) (rulesOf E.g) hr hk e2
      rw [hst'] at this
      exact this
  constructor
  · rintro ⟨hkp, hm⟩
    obtain ⟨s, hs⟩ := Option.ne_none_iff_exists'.1 hm
    obtain ⟨σ', h1, h2⟩ := key m none (by simp [store, hs, existing, hkp])
    exact ⟨σ', h1, h2⟩
  · intro hc
    obtain ⟨σ', h1, h2⟩ := key
      (put m (keyOf t r) (some (storedFor t ((replaced E.g t w).map (·.field)) m r)))
      (some (storedFor t ((replaced E.g t w).map (·.field)) m r)) (by
      unfold store storedFor existing
      cases hm : m (keyOf t r) with
      | none => rfl
      | some s =>
        have : w.keep = false := by
          cases hkp : w.keep with
          | false => rfl
          | true => exact absurd ⟨hkp, by simp [hm]⟩ hc
        simp [this])
    refine ⟨σ', ?_, h2⟩
    rw [h1]
    cases E.g.postgres <;> rfl

omit hf in
/-- C91, refuted for SQLite: no upsert ever succeeds, since the statements are those of MySQL. -/
theorem C91_sqlite_upsert_never (hp : E.g.postgres = false) (w : Wish) (σ : Sql.Store V) :
    (∀ rs : List (F → X), rs ≠ [] → upsertMany E .onConflict t w rs σ = (.failed, σ)) ∧
    ∀ r : F → X, upsertOne E .onConflict t w r σ = (.failed, σ) :=
  ⟨fun _ hne => upsertMany_refused h hn hst ha w _ (.inl ⟨hp, rfl⟩) hne σ, fun r => upsertOne_refused h hn hst ha w _ (.inl ⟨hp, rfl⟩) r σ⟩

omit hf in
/-- C91, refuted where there is nothing to replace, as in tables with nothing but a key: such upserts never succeed. -/
theorem C91_nothing_to_replace (w : Wish) (hkp : w.keep = false) (hw : replaced E.g t w = []) (σ : Sql.Store V) :
    (∀ rs : List (F → X), rs ≠ [] → upsertMany E (rulesOf E.g) t w rs σ = (.failed, σ)) ∧
    ∀ r : F → X, upsertOne E (rulesOf E.g) t w r σ = (.failed, σ) :=
  ⟨fun _ hne => upsertMany_refused h hn hst ha w _ (.inr ⟨rfl, hkp, hw⟩) hne σ,
    fun r => upsertOne_refused h hn hst ha w _ (.inr ⟨rfl, hkp, hw⟩) r σ⟩

omit hf hst in
/-- C91, refuted for MySQL and SQLite with keys of several columns: `UpsertOne` with override never succeeds. -/
theorem C91_composite_one_never (hp : E.g.postgres = false) (hl : (pick t (keyPos t)).length ≠ 1) (w : Wish) (hkp : w.keep = false)
    (ru : Rules) (r : F → X) (σ : Sql.Store V) : upsertOne E ru t w r σ = (.failed, σ) := by
  simp only [upsertOne, hp, Bool.false_eq_true, if_false, upsertOne_panics h hn ha w (by simp [hkp]) hl r]

omit hf hn in
/-- C91, refuted for columns with reserved words as names, which are not written in quotes by default: no batch insert ever
succeeds. -/
theorem C91_reserved_never (hq : E.g.quoteNames = false) (h2 : ∀ c ∈ t.columns, Wordy E.D c.name)
    (hres : ∃ c ∈ t.columns, E.D.reserved (upper c.name.toList) = true) (ru : Rules) {rs : List (F → X)} (hne : rs ≠ [])
    (σ : Sql.Store V) : insertMany E ru t rs σ = (.failed, σ) := by
  obtain ⟨text, as, e, hb⟩ := text_insertMany h hst ha (.inl hq) hne
  have hid : (fun c : GCol F => E.g.ident c.name) = fun c => c.name := by funext c; simp [Cfg.ident, hq]
  have hr0 : (rs.map fun r => t.columns.map fun c => E.enc c.field (r c.field)) ≠ [] := by simpa using hne
  have hbare : (t.columns.mapM fun c => Store.bare E.D c.name) = none := by
    obtain ⟨c, hc, hcr⟩ := hres
    have hnone : Store.bare E.D c.name = none := by simp [Store.bare, hcr]
    generalize t.columns = l at hc
    induction l with
    | nil => simp at hc
    | cons d l ih =>
      rw [List.mapM_cons]
      rcases List.mem_cons.1 hc with rfl | hc
      · rw [hnone]; rfl
      · rw [ih hc]; cases Store.bare E.D d.name <;> rfl
  have := Sql.refused_words h.named.quote ru (genTableName_reads h.named h.bare) hr0 (rows_ne h rs) (columns_ne h) h2 hbare E.g.postgres
  rw [hid] at hb
  have hs := sendBulk_refused σ hb this
  simp only [insertMany, e, runMany, hs]
  cases E.g.postgres <;> rfl

end

/-! #### Concrete cases -/

/-- MySQL, names in quotes. -/
def storeMy : Dialect where
  quote := '`'
  fold _ n := n
  reserved w := [w] ⊆ ["GROUP".toList, "TABLE".toList]

def storeEnvMy : Env Nat Nat (Option Nat) where
  g := { style := .anon, quoteId := fun s => "`" ++ s ++ "`", postgres := false, quoteNames := true }
  D := storeMy
  null := none
  gen T := some (T.rows.length + 1)
  enc _ x := some x
  dec _ v _ := v
  toId v := v

theorem storeSetupMy : FullSetup storeEnvMy (storeUser "people") (fun _ _ => True) := by
  have hb : Bare storeMy "people" ∧ Bare storeMy "id" :=
    ⟨⟨⟨by decide, by decide, by decide, by decide⟩, by decide⟩, ⟨⟨by decide, by decide, by decide, by decide⟩, by decide⟩⟩
  have hq : ∀ s : String, s ≠ "" → '`' ∉ s.toList → Quoted storeEnvMy.g storeMy s := by
    intro s h0 h1
    refine ⟨?_, h1, h0⟩
    simp [storeEnvMy, storeMy]
  have hn : Named storeEnvMy.g storeMy (storeUser "people") := by
    refine ⟨.inl rfl, hq _ (by decide) (by decide), ?_⟩
    intro c hc
    simp only [storeUser, List.mem_cons, List.not_mem_nil, or_false] at hc
    rcases hc with rfl | rfl | rfl <;> exact hq _ (by decide) (by decide)
  refine ⟨⟨storeWF _, rfl, hn, ⟨fun _ => .inl rfl, fun _ _ => .inl ⟨rfl, by decide⟩⟩, ?_, by decide, by simp [storeUser], ?_, ?_⟩, by unfold AllWritten; decide⟩
  · simp [NoTemplates, storeUser]
  · intros; rfl
  · intros; simp [storeEnvMy]

example : HelperNames (storeCfg true) storePg (storeUser "people") ∧ HelperNames storeEnvMy.g storeMy (storeUser "people") ∧
    ((storeUser "people").columns.map (·.field)).Nodup ∧
    (storeCfg true).style = (if (storeCfg true).postgres then .numbered else .anon) ∧
    storeEnvMy.g.style = (if storeEnvMy.g.postgres then .numbered else .anon) ∧
    (replaced (storeCfg true) (storeUser "people") { omitted := ["\"name\""] }).map (·.name) = ["group"] :=
  ⟨⟨fun _ _ => .inl rfl, .inr rfl⟩, ⟨fun _ _ => .inl rfl, .inr rfl⟩, by decide, rfl, rfl, by decide⟩
example : Keeps storeEnvMy (fun _ _ => True) (storeUser "people") (fun _ => none)
    (fun n => if n = "people".toList then some (tableOf storeMy (storeUser "people") []) else none) :=
  C90_empty _ _ _ _ (if_pos rfl)

def bulkShow (t : Table Nat) : Out (List (Nat → Nat)) → Option (List (List Nat))
  | .ok rs => some (rs.map fun r => (genAddrs t).map r)
  | _ => none

/-- The records in memory, and those found afterwards under some keys. -/
def bulkSee (E : Env Nat Nat (Option Nat)) (t : Table Nat) (ks : List Nat) (a : Out (List (Nat → Nat)) × Sql.Store (Option Nat)) :
    Option (List (List Nat)) × List (Option (List Nat)) :=
  (bulkShow t a.1, ks.map fun k => match (findByPK E t (storeRec k 0 0) a.2).1 with
    | .ok r => some ((genAddrs t).map r)
    | _ => none)

/-- Two people, 7 and 8. -/
def bulkTwo (q : Bool) : Sql.Store (Option Nat) :=
  (performs (storeEnv q) (storeUser "people") [.insert (storeRec 7 1 2), .insert (storeRec 8 3 4)] (storeOnly (storeUser "people"))).2

/-- two new people; then one whose key exists -/
example : bulkSee (storeEnv true) (storeUser "people") [7, 9, 10] (insertMany (storeEnv true) .onConflict (storeUser "people")
      [storeRec 9 5 6, storeRec 10 7 8] (bulkTwo true)) =
    (some [[9, 5, 6], [10, 7, 8]], [some [7, 1, 2], some [9, 5, 6], some [10, 7, 8]]) ∧
    bulkSee (storeEnv true) (storeUser "people") [7, 9] (insertMany (storeEnv true) .onConflict (storeUser "people")
      [storeRec 9 5 6, storeRec 7 7 8] (bulkTwo true)) = (none, [some [7, 1, 2], none]) := by decide +kernel
/-- replacing all but the name -/
example : bulkSee (storeEnv true) (storeUser "people") [7, 8, 9] (upsertMany (storeEnv true) .onConflict (storeUser "people")
      { omitted := ["\"name\""] } [storeRec 9 5 6, storeRec 7 7 8] (bulkTwo true)) =
    (some [[9, 5, 6], [7, 1, 8]], [some [7, 1, 8], some [8, 3, 4], some [9, 5, 6]]) := by decide +kernel
/-- keeping number 7: the record in memory is overwritten with number 9 -/
example : bulkSee (storeEnv true) (storeUser "people") [7, 9] (upsertMany (storeEnv true) .onConflict (storeUser "people")
      { keep := true } [storeRec 7 0 0, storeRec 9 5 6] (bulkTwo true)) =
    (some [[9, 5, 6], [9, 5, 6]], [some [7, 1, 2], some [9, 5, 6]]) := by decide +kernel
/-- a key given twice -/
example : bulkSee (storeEnv true) (storeUser "people") [9] (upsertMany (storeEnv true) .onConflict (storeUser "people")
      {} [storeRec 9 0 0, storeRec 9 5 6] (bulkTwo true)) = (none, [none]) ∧
    bulkSee storeEnvMy (storeUser "people") [9] (upsertMany storeEnvMy .onDuplicate (storeUser "people")
      {} [storeRec 9 0 0, storeRec 9 5 6] (storeOnly (storeUser "people"))) =
    (some [[9, 0, 0], [9, 5, 6]], [some [9, 5, 6]]) := by decide +kernel
/-- MySQL, and its statements sent to SQLite -/
example : bulkSee storeEnvMy (storeUser "people") [7, 9] (upsertMany storeEnvMy .onDuplicate (storeUser "people")
      { omitted := ["`group`"] } [storeRec 9 5 6, storeRec 7 7 8] (bulkTwo true)) =
    (some [[9, 5, 6], [7, 7, 8]], [some [7, 7, 2], some [9, 5, 6]]) ∧
    bulkSee storeEnvMy (storeUser "people") [7, 9] (upsertMany storeEnvMy .onConflict (storeUser "people")
      {} [storeRec 9 5 6, storeRec 7 7 8] (bulkTwo true)) = (none, [some [7, 1, 2], none]) := by decide +kernel
/-- without quotes, the column called `group` -/
example : (storeCfg false).quoteNames = false ∧ (∀ c ∈ (storeUser "people").columns, Wordy storePg c.name) ∧
    (∃ c ∈ (storeUser "people").columns, storePg.reserved (upper c.name.toList) = true) ∧
    bulkSee (storeEnv false) (storeUser "people") [9] (insertMany (storeEnv false) .onConflict (storeUser "people")
      [storeRec 9 5 6] (bulkTwo false)) = (none, [none]) := by
  refine ⟨rfl, ?_, ?_, by decide +kernel⟩
  · intro c hc
    simp only [storeUser, List.mem_cons, List.not_mem_nil, or_false] at hc
    rcases hc with rfl | rfl | rfl <;> exact ⟨by decide, by decide⟩
  · exact ⟨_, List.mem_cons_of_mem _ (List.mem_cons_of_mem _ (List.mem_cons_self ..)), by decide⟩
/-- nothing but a key -/
example : replaced (storeCfg true) { name := "tags", keys := [0], columns := [⟨"id", 10, 0, false, none, none⟩] } {} = [] := rfl

end Verif.Props
