import Verif.Model.Answers
import Verif.Spec.Answers

/-!
# Property C82: after an insert or upsert every record holds its own row
-/

namespace Verif.Props

open Verif Verif.Answer Verif.Answer.Spec

variable {P R K T : Type} [DecidableEq K]

private theorem loop_go (scan : R → T → T × Bool) (hg : ∀ r t, (scan r t).2 = true) (rs : List R) :
    ∀ (done rest : List T), rs.length ≤ rest.length →
      loop scan rs done.length (done ++ rest) =
        (done ++ (List.zipWith (fun r t => (scan r t).1) rs rest ++ rest.drop rs.length),
          .ok (done.length + rs.length)) := by
  induction rs with
  | nil => intro done rest _; simp [loop]
  | cons r rs ih =>
    intro done rest hl
    cases rest with
    | nil => simp at hl
    | cons t rest =>
      have hl' : rs.length ≤ rest.length := by simpa using hl
      have := ih (done ++ [(scan r t).1]) rest hl'
      simp only [loop, List.getElem?_append_right (Nat.le_refl _), Nat.sub_self, List.getElem?_cons_zero, hg,
        if_true]
      rw [List.set_append_right _ _ (Nat.le_refl _), Nat.sub_self, List.set_cons_zero]
      simp only [List.length_append, List.length_cons, List.length_nil, Nat.zero_add, List.append_assoc,
        List.cons_append, List.nil_append] at this
      rw [this]
      simp [Nat.add_assoc, Nat.add_comm 1]

/-- What the loop leaves: the `k`-th returned row is read into the `k`-th record, whichever record it is the row
of. -/
private theorem store_go (scan : R → T → T × Bool) (hg : ∀ r t, (scan r t).2 = true) (rs : List R) (nextErr : Bool)
    (data : List T) (hl : rs.length ≤ data.length) :
    store scan { rows := rs, nextErr := nextErr } data =
      (List.zipWith (fun r t => (scan r t).1) rs data ++ data.drop rs.length, .ok rs.length) := by
  have := loop_go scan hg rs [] data hl
  simp only [List.length_nil, List.nil_append, Nat.zero_add] at this
  simp [store, this]

private theorem own_all (read : R → T → T) :
    ∀ (rs : List R) (data : List T), rs.length = data.length →
      OwnRows read (rs.map some) data (List.zipWith read rs data) := by
  intro rs data hl
  refine ⟨by simp [hl], ?_⟩
  intro i t ht
  have hi : i < data.length := by
    rcases List.getElem?_eq_some_iff.mp ht with ⟨h, _⟩; exact h
  have hr : i < rs.length := by omega
  simp [List.getElem?_zipWith, ht, List.getElem?_eq_getElem hr]

private theorem returned_map_some (rs : List R) : returned (rs.map some) = rs := by
  simp [returned, List.filterMap_map]

private theorem insert_all (tb : Table P R K) : ∀ (ps : List P) (rows rows' : List R) (as : List (Option R)),
    insertAll tb rows ps = some (rows', as) → ∃ rs : List R, as = rs.map some ∧ rs.length = ps.length := by
  intro ps
  induction ps with
  | nil => intro rows rows' as h; simp [insertAll] at h; exact ⟨[], by simp [← h.2], rfl⟩
  | cons p ps ih =>
    intro rows rows' as h
    simp only [insertAll] at h
    by_cases hk : Taken tb rows (tb.key (tb.make rows p))
    · simp [hk] at h
    · simp only [hk, if_false, Option.map_eq_some_iff] at h
      obtain ⟨q, hq, he⟩ := h
      obtain ⟨rs, h1, h2⟩ := ih _ q.1 q.2 hq
      refine ⟨tb.make rows p :: rs, ?_, by simp [h2]⟩
      rw [Prod.mk.injEq] at he
      rw [← he.2, h1]; rfl

private theorem update_all (tb : Table P R K) : ∀ (ps : List P) (seen : List K) (rows rows' : List R)
    (as : List (Option R)),
    insertOrUpdate tb seen rows ps = some (rows', as) → ∃ rs : List R, as = rs.map some ∧ rs.length = ps.length := by
  intro ps
  induction ps with
  | nil => intro seen rows rows' as h; simp [insertOrUpdate] at h; exact ⟨[], by simp [← h.2], rfl⟩
  | cons p ps ih =>
    intro seen rows rows' as h
    simp only [insertOrUpdate] at h
    by_cases hk : tb.key (tb.make rows p) ∈ seen
    · simp [hk] at h
    · simp only [hk, if_false] at h
      cases hf : rows.find? (fun x => decide (tb.key x = tb.key (tb.make rows p))) with
      | none =>
        simp only [hf, Option.map_eq_some_iff] at h
        obtain ⟨q, hq, he⟩ := h
        obtain ⟨rs, h1, h2⟩ := ih _ _ q.1 q.2 hq
        rw [Prod.mk.injEq] at he
        exact ⟨tb.make rows p :: rs, by rw [← he.2, h1]; rfl, by simp [h2]⟩
      | some old =>
        simp only [hf, Option.map_eq_some_iff] at h
        obtain ⟨q, hq, he⟩ := h
        obtain ⟨rs, h1, h2⟩ := ih _ _ q.1 q.2 hq
        rw [Prod.mk.injEq] at he
        exact ⟨tb.upd p old :: rs, by rw [← he.2, h1]; rfl, by simp [h2]⟩

/-- C82, what holds of `Insert`.  When the server takes all records and all rows of its answer are delivered and
read, every record holds its own row and the reported number is that of the records. -/
theorem C82_insert_partial (tb : Table P R K) (scan : R → T → T × Bool) (hg : ∀ r t, (scan r t).2 = true)
    (rows rows' : List R) (offer : T → P) (data : List T) (as : List (Option R))
    (h : insertAll tb rows (data.map offer) = some (rows', as)) :
    ∃ data', store scan { rows := returned as } data = (data', .ok data.length) ∧
      OwnRows (fun r t => (scan r t).1) as data data' := by
  obtain ⟨rs, h1, h2⟩ := insert_all tb _ _ _ _ h
  rw [List.length_map] at h2
  subst h1
  refine ⟨List.zipWith (fun r t => (scan r t).1) rs data, ?_, own_all _ rs data h2⟩
  rw [returned_map_some, store_go scan hg rs false data (by omega), h2]
  simp

/-- C82, what holds of `Upsert` with updates: the same. -/
theorem C82_update_partial (tb : Table P R K) (scan : R → T → T × Bool) (hg : ∀ r t, (scan r t).2 = true)
    (rows rows' : List R) (offer : T → P) (data : List T) (as : List (Option R))
    (h : insertOrUpdate tb [] rows (data.map offer) = some (rows', as)) :
    ∃ data', store scan { rows := returned as } data = (data', .ok data.length) ∧
      OwnRows (fun r t => (scan r t).1) as data data' := by
  obtain ⟨rs, h1, h2⟩ := update_all tb _ _ _ _ _ h
  rw [List.length_map] at h2
  subst h1
  refine ⟨List.zipWith (fun r t => (scan r t).1) rs data, ?_, own_all _ rs data h2⟩
  rw [returned_map_some, store_go scan hg rs false data (by omega), h2]
  simp

private theorem skip_length (tb : Table P R K) : ∀ (ps : List P) (rows : List R),
    (insertOrSkip tb rows ps).2.length = ps.length := by
  intro ps
  induction ps with
  | nil => intro rows; rfl
  | cons p ps ih =>
    intro rows
    simp only [insertOrSkip]
    by_cases hk : Taken tb rows (tb.key (tb.make rows p)) <;> simp [hk, ih]

private theorem returned_le (as : List (Option R)) : (returned as).length ≤ as.length := by
  simpa [returned] using List.length_filterMap_le id as

/-- C82, what `Upsert` with `DO NOTHING` does: the `k`-th row of the answer goes into the `k`-th record, the
remaining records are left alone, the reported number is that of the records that were inserted. -/
theorem C82_nothing_effect (tb : Table P R K) (scan : R → T → T × Bool) (hg : ∀ r t, (scan r t).2 = true)
    (rows : List R) (offer : T → P) (data : List T) :
    ∃ data', store scan { rows := returned (insertOrSkip tb rows (data.map offer)).2 } data =
        (data', .ok (returned (insertOrSkip tb rows (data.map offer)).2).length) ∧
      data'.length = data.length ∧
      ∀ (k : Nat) t, data[k]? = some t → data'[k]? = some
        (match (returned (insertOrSkip tb rows (data.map offer)).2)[k]? with
          | some r => (scan r t).1
          | none => t) := by
  have hl : (returned (insertOrSkip tb rows (data.map offer)).2).length ≤ data.length := by
    have := returned_le (insertOrSkip tb rows (data.map offer)).2
    rw [skip_length, List.length_map] at this; exact this
  revert hl
  generalize returned (insertOrSkip tb rows (data.map offer)).2 = rs
  intro hl
  refine ⟨_, store_go scan hg rs false data hl, by simp; omega, ?_⟩
  intro k t ht
  by_cases hk : k < rs.length
  · rw [List.getElem?_append_left (by
      rw [List.length_zipWith]
      have : k < data.length := by
        rcases List.getElem?_eq_some_iff.mp ht with ⟨h, _⟩; exact h
      omega)]
    simp [List.getElem?_zipWith, ht, List.getElem?_eq_getElem hk]
  · rw [List.getElem?_append_right (by rw [List.length_zipWith]; omega)]
    have e : rs[k]? = none := by rw [List.getElem?_eq_none_iff]; omega
    have e2 : k - min rs.length data.length = k - rs.length := by omega
    rw [e, List.length_zipWith, e2, List.getElem?_drop]
    rw [show rs.length + (k - rs.length) = k by omega, ht]

private theorem returned_pre (as : List R) (n : Nat) (r : R) (tl : List (Option R)) :
    returned (as.map some ++ none :: (List.replicate n none ++ some r :: tl)) = as ++ r :: returned tl := by
  induction as with
  | nil =>
    simp only [List.map_nil, List.nil_append]
    induction n with
    | zero => simp [returned]
    | succ n ih =>
      rw [List.replicate_succ, List.cons_append]
      exact ih
  | cons a as ih =>
    show a :: returned (as.map some ++ _) = _
    rw [ih, List.cons_append]

/-- C82, refuted for `DO NOTHING`.  Whenever a record is passed over and a later one is inserted, the row of the
later record is read into the one that was passed over: into the first record that was passed over goes the row
of the next record that was inserted. -/
theorem C82_nothing_misassigns (tb : Table P R K) (scan : R → T → T × Bool) (hg : ∀ r t, (scan r t).2 = true)
    (rows : List R) (offer : T → P) (data : List T) (done : List R) (n : Nat) (r : R) (tl : List (Option R))
    (h : (insertOrSkip tb rows (data.map offer)).2 =
      done.map some ++ none :: (List.replicate n none ++ some r :: tl))
    (t : T) (ht : data[done.length]? = some t) :
    (store scan { rows := returned (insertOrSkip tb rows (data.map offer)).2 } data).1[done.length]? =
      some (scan r t).1 := by
  obtain ⟨data', h1, _, h3⟩ := C82_nothing_effect tb scan hg rows offer data
  rw [h1]
  simp only
  rw [h3 _ t ht, h, returned_pre]
  simp

/-- C82, the same for two records: the key of the first is taken, that of the second is not. -/
theorem C82_nothing_pair (tb : Table P R K) (scan : R → T → T × Bool) (hg : ∀ r t, (scan r t).2 = true)
    (rows : List R) (offer : T → P) (a b : T) (ha : Taken tb rows (tb.key (tb.make rows (offer a))))
    (hb : ¬ Taken tb rows (tb.key (tb.make rows (offer b)))) :
    store scan { rows := returned (insertOrSkip tb rows [offer a, offer b]).2 } [a, b] =
      ([(scan (tb.make rows (offer b)) a).1, b], .ok 1) := by
  have e : (insertOrSkip tb rows [offer a, offer b]).2 = [none, some (tb.make rows (offer b))] := by
    simp [insertOrSkip, ha, hb]
  rw [e]
  simp [returned, store, loop, hg]

/-- Rows come in order, none left out before the last: then (and only then, see above) `DO NOTHING` leaves every
record with its own row. -/
theorem C82_nothing_suffix_partial (tb : Table P R K) (scan : R → T → T × Bool)
    (hg : ∀ r t, (scan r t).2 = true) (rows : List R) (offer : T → P) (data : List T) (done : List R) (n : Nat)
    (h : (insertOrSkip tb rows (data.map offer)).2 = done.map some ++ List.replicate n none) :
    ∃ data', store scan { rows := returned (insertOrSkip tb rows (data.map offer)).2 } data =
        (data', .ok done.length) ∧
      OwnRows (fun r t => (scan r t).1) (insertOrSkip tb rows (data.map offer)).2 data data' := by
  obtain ⟨data', h1, h2, h3⟩ := C82_nothing_effect tb scan hg rows offer data
  have hr : returned (done.map some ++ List.replicate n none) = done := by
    rw [returned, List.filterMap_append]
    have : (List.replicate n (none : Option R)).filterMap id = [] := by
      rw [List.filterMap_eq_nil_iff]; intro a ha; rw [List.eq_of_mem_replicate ha]; rfl
    rw [this, List.append_nil]
    exact returned_map_some done
  refine ⟨data', by rw [h1, h, hr], h2, ?_⟩
  intro i t ht
  rw [h3 i t ht, h, hr]
  by_cases hi : i < done.length
  · rw [List.getElem?_append_left (by simpa using hi)]
    simp [List.getElem?_eq_getElem hi]
  · rw [List.getElem?_append_right (by simpa using hi)]
    have e : done[i]? = none := by rw [List.getElem?_eq_none_iff]; omega
    rw [e, List.getElem?_replicate]
    by_cases hn : i - (List.map some done).length < n
    · rw [if_pos hn]; rfl
    · rw [if_neg hn]; rfl

/-- C82, refuted: an answer that breaks off is not noticed.  Whatever rows have been delivered, `Insert` and
`Upsert` report success, the records that have no row yet are left as they were. -/
theorem C82_failure_is_silent (scan : R → T → T × Bool) (hg : ∀ r t, (scan r t).2 = true) (rs : List R)
    (data : List T) (hl : rs.length ≤ data.length) :
    ∃ data', store scan { rows := rs, nextErr := true } data = (data', .ok rs.length) ∧
      data'.drop rs.length = data.drop rs.length := by
  refine ⟨_, store_go scan hg rs true data hl, ?_⟩
  rw [List.drop_append]
  have h1 : List.drop rs.length (List.zipWith (fun r t => (scan r t).1) rs data) = [] := by
    rw [List.drop_eq_nil_iff, List.length_zipWith]; omega
  have h2 : rs.length - (List.zipWith (fun r t => (scan r t).1) rs data).length = 0 := by
    rw [List.length_zipWith]; omega
  rw [h1, h2]; simp

private theorem loop_panic (scan : R → T → T × Bool) (hg : ∀ r t, (scan r t).2 = true) (rs : List R) :
    ∀ (done rest : List T), (loop scan rs done.length (done ++ rest)).2 = .panic ↔ rest.length < rs.length := by
  induction rs with
  | nil => intro done rest; simp [loop]
  | cons r rs ih =>
    intro done rest
    cases rest with
    | nil => simp [loop]
    | cons t rest =>
      have := ih (done ++ [(scan r t).1]) rest
      simp only [loop, List.getElem?_append_right (Nat.le_refl _), Nat.sub_self, List.getElem?_cons_zero, hg,
        if_true]
      rw [List.set_append_right _ _ (Nat.le_refl _), Nat.sub_self, List.set_cons_zero]
      simp only [List.length_append, List.length_cons, List.length_nil, Nat.zero_add, List.append_assoc,
        List.cons_append, List.nil_append] at this
      rw [this]; simp

/-- The helpers panic exactly when the server returns more rows than there are records. -/
theorem C82_panic_iff (scan : R → T → T × Bool) (hg : ∀ r t, (scan r t).2 = true) (rs : Rows R) (data : List T) :
    (store scan rs data).2 = .panic ↔ data.length < rs.rows.length := by
  have := loop_panic scan hg rs.rows [] data
  simp only [List.length_nil, List.nil_append] at this
  rw [← this]
  unfold store
  rcases hl : loop scan rs.rows 0 data with ⟨d, e⟩
  cases e <;> simp
  cases rs.closeErr <;> simp

private theorem loop_ok_iff (scan : R → T → T × Bool) (rs : List R) : ∀ (done rest : List T) (n : Nat),
    (loop scan rs done.length (done ++ rest)).2 = .ok n ↔
      rs.length ≤ rest.length ∧ n = done.length + rs.length ∧
        ∀ (i : Nat) r t, rs[i]? = some r → rest[i]? = some t → (scan r t).2 = true := by
  induction rs with
  | nil =>
    intro done rest n
    simp only [loop, Res.ok.injEq, List.length_nil, Nat.zero_le, Nat.add_zero, true_and, List.getElem?_nil,
      reduceCtorEq, false_implies, implies_true, and_true]
    exact ⟨Eq.symm, Eq.symm⟩
  | cons r rs ih =>
    intro done rest n
    cases rest with
    | nil => simp [loop]
    | cons t rest =>
      simp only [loop, List.getElem?_append_right (Nat.le_refl _), Nat.sub_self, List.getElem?_cons_zero]
      rw [List.set_append_right _ _ (Nat.le_refl _), Nat.sub_self, List.set_cons_zero]
      cases hs : (scan r t).2 with
      | false =>
        simp only [Bool.false_eq_true, if_false, reduceCtorEq, false_iff, not_and]
        intro _ _ h
        have := h 0 r t rfl rfl
        simp [hs] at this
      | true =>
        have := ih (done ++ [(scan r t).1]) rest n
        simp only [List.length_append, List.length_cons, List.length_nil, Nat.zero_add, List.append_assoc,
          List.cons_append, List.nil_append] at this
        simp only [if_true]
        rw [this]
        constructor
        · rintro ⟨h1, h2, h3⟩
          refine ⟨by simpa using h1, by simp; omega, ?_⟩
          intro i r' t' hr ht
          cases i with
          | zero =>
            rw [List.getElem?_cons_zero, Option.some.injEq] at hr ht
            rw [← hr, ← ht]; exact hs
          | succ i => exact h3 i r' t' (by simpa using hr) (by simpa using ht)
        · rintro ⟨h1, h2, h3⟩
          refine ⟨by simpa using h1, by simp at h2; omega, ?_⟩
          intro i r' t' hr ht
          exact h3 (i + 1) r' t' (by simpa using hr) (by simpa using ht)

/-- When success is reported, exactly: there are at most as many rows as records, each row could be read into the
record at its place, and closing the answer did not fail; the number is that of the rows.  (The error of an answer
that breaks off, `nextErr`, is not among the conditions.) -/
theorem C82_success_iff (scan : R → T → T × Bool) (rs : Rows R) (data : List T) (n : Nat) :
    (store scan rs data).2 = .ok n ↔
      rs.rows.length ≤ data.length ∧ n = rs.rows.length ∧ rs.closeErr = false ∧
        ∀ (i : Nat) r t, rs.rows[i]? = some r → data[i]? = some t → (scan r t).2 = true := by
  have := fun m => loop_ok_iff scan rs.rows [] data m
  simp only [List.length_nil, List.nil_append, Nat.zero_add] at this
  unfold store
  have hn := this n
  rcases hl : loop scan rs.rows 0 data with ⟨d, e⟩
  rw [hl] at hn
  cases e with
  | ok m =>
    simp only [Res.ok.injEq] at hn
    cases hc : rs.closeErr with
    | true => simp
    | false =>
      simp only [Bool.false_eq_true, if_false, Res.ok.injEq, true_and]
      exact hn
  | err =>
    simp only [reduceCtorEq, false_iff] at hn ⊢
    intro h; exact hn ⟨h.1, h.2.1, h.2.2.2⟩
  | panic =>
    simp only [reduceCtorEq, false_iff] at hn ⊢
    intro h; exact hn ⟨h.1, h.2.1, h.2.2.2⟩

/-- C82 for `InsertOne` and `UpsertOne`: success means that the record was read from the first row of the answer;
without a row there is an error and the record is left alone. -/
theorem C82_one (scan : R → T → T × Bool) (rs : Rows R) (t t' : T) :
    storeOne scan rs t = (t', .ok ()) ↔
      ∃ r tl, rs.rows = r :: tl ∧ scan r t = (t', true) ∧ rs.closeErr = false := by
  unfold storeOne
  cases hr : rs.rows with
  | nil => simp
  | cons r tl =>
    rcases hs : scan r t with ⟨u, b⟩
    cases b <;> cases hc : rs.closeErr <;> simp [hs]

/-- C82, refuted: `UpsertOne` with `DO NOTHING` reports an error for every record whose key is taken. -/
theorem C82_one_nothing_fails (tb : Table P R K) (scan : R → T → T × Bool) (rows : List R) (offer : T → P) (t : T)
    (h : Taken tb rows (tb.key (tb.make rows (offer t)))) :
    storeOne scan { rows := returned (insertOrSkip tb rows [offer t]).2 } t = (t, .err) := by
  have e : (insertOrSkip tb rows [offer t]).2 = [none] := by simp [insertOrSkip, h]
  rw [e]; rfl

/-! Two records `(7, 1)` and `(8, 2)`, the first column being the key; the table has `(7, 5)`. -/

private def tb : Table (Nat × Nat) (Nat × Nat) Nat where
  key := Prod.fst
  make _ p := p
  upd p r := (r.1, p.2)

private def readAll (r : Nat × Nat) (_ : Nat × Nat) : (Nat × Nat) × Bool := (r, true)

example : insertAll tb [(6, 5)] [(7, 1), (8, 2)] = some ([(6, 5), (7, 1), (8, 2)], [some (7, 1), some (8, 2)]) := by
  decide +kernel
example : insertAll tb [(7, 5)] [(7, 1), (8, 2)] = none := by decide +kernel
example : insertOrUpdate tb [] [(7, 5)] [(7, 1), (8, 2)] = some ([(7, 1), (8, 2)], [some (7, 1), some (8, 2)]) := by
  decide +kernel
example : insertOrUpdate tb [] [(7, 5)] [(7, 1), (7, 2)] = none := by decide +kernel
example : insertOrSkip tb [(7, 5)] [(7, 1), (8, 2)] = ([(7, 5), (8, 2)], [none, some (8, 2)]) := by decide +kernel
example : store readAll { rows := returned [none, some (8, 2)] } [(7, 1), (8, 2)] = ([(8, 2), (8, 2)], .ok 1) := by
  decide +kernel
example : insertOrSkip tb [(8, 5)] [(7, 1), (8, 2)] = ([(8, 5), (7, 1)], [some (7, 1), none]) := by decide +kernel
example : store readAll { rows := returned [some (7, 1), none] } [(7, 1), (8, 2)] = ([(7, 1), (8, 2)], .ok 1) := by
  decide +kernel
example : store readAll { rows := [(7, 1)], nextErr := true } [(7, 0), (8, 2)] = ([(7, 1), (8, 2)], .ok 1) := by
  decide +kernel
example : (store readAll { rows := [(7, 1), (8, 2)] } [(7, 0)]).2 = .panic := by decide +kernel
example : store (fun r t => if r = (8, 2) then (t, false) else readAll r t) { rows := [(7, 1), (8, 2)] }
    [(7, 0), (8, 0)] = ([(7, 1), (8, 0)], .err) := by decide +kernel
example : storeOne readAll { rows := [] } (7, 0) = ((7, 0), .err) := by decide +kernel

end Verif.Props
