import Verif.Lemmas.CondRun
import Verif.Lemmas.CondHollow
import Verif.Props.Bulk
import Mathlib.Data.List.Sort

/-!
# C92: queries, updates and deletes with conditions
-/

namespace Verif.Props

open Verif Verif.Gen Verif.Spec Verif.Spec.Gen Verif.Spec.Sql Verif.Spec.Store Verif.Sql Verif.Store

section
variable {F X V : Type} [DecidableEq F] [DecidableEq X] [DecidableEq V]

variable (E : Env F X V) (t : Table F) (Ok : F → X → Prop) (K : Compare V) (O : Comp F X) (br : Brand)

/-! ### What is found and changed -/

/-- C92, queries. A query returns the stored records that satisfy its condition, each once, in the order asked for, from
the offset on and not more than the limit.  Missing: the plain meaning of conditions on nil (`C92_nil`), empty groups and
lists (`C92_hollow`), other selections of columns (`C92_select_count`, `C92_select_order`), offsets without limit
(`C92_offset_alone`), and reserved words (`C92_reserved`). -/
theorem C92_query_partial (h : Setup E t Ok) (hA : Agrees K E.null E.enc Ok t O) (hn : Spelled E.g E.D t) (m : Map F X)
    (σ : Sql.Store V) (hk : Keeps E Ok t m σ) (q : Query F X) (hq : ProperQuery Ok t q)
    (hs : q.select = [] ∨ q.select = t.columns) (ho : q.offset = 0 ∨ q.limit ≠ 0 ∨ br = .postgres) (zero : F → X) :
    ∃ l, Found O t m q.where_ q.orderBy l ∧
      queryAll E br K t zero q σ = (.ok ((firstOf q.limit (l.drop q.offset)).map fun s => load t s zero), σ) :=
  queryAll_ok h hA hn hk hq hs ho zero

/-- C92, queries for one record: the first one, or the error for no rows. -/
theorem C92_query_one_partial (h : Setup E t Ok) (hA : Agrees K E.null E.enc Ok t O) (hn : Spelled E.g E.D t) (m : Map F X)
    (σ : Sql.Store V) (hk : Keeps E Ok t m σ) (q : Query F X) (hq : ProperQuery Ok t q)
    (hs : q.select = [] ∨ q.select = t.columns) (zero : F → X) :
    ∃ l, Found O t m q.where_ q.orderBy l ∧
      queryOne E br K t zero q σ = (match l with
        | [] => .noRows
        | s :: _ => .ok (load t s zero), σ) :=
  queryOne_ok h hA hn hk hq hs zero

/-- C92, updates. The records that satisfy the condition, or the first of them, get the new values; no other record and no
other table changes.  Missing: new values for key columns, orders and limits outside MySQL (`C92_not_allowed`), nothing to set
(`C92_no_set`). -/
theorem C92_update_partial (h : Setup E t Ok) (hA : Agrees K E.null E.enc Ok t O) (hn : Spelled E.g E.D t)
    (hf : (t.columns.map (·.field)).Nodup) (m : Map F X) (σ : Sql.Store V) (hk : Keeps E Ok t m σ) (u : Change F X)
    (hu : ProperChange Ok t u) (hne : u.set ≠ []) (hd : (u.set.map (·.1)).Nodup)
    (hkey : ∀ p ∈ u.set, p.1 ∉ pick t (keyPos t)) (hst : E.g.style = .numbered → u.limit = 0)
    (ha : Allowed br u.orderBy u.limit) :
    ∃ l σ', Found O t m u.where_ u.orderBy l ∧ updateAll E br K t u σ = (.ok (), σ') ∧
      Keeps E Ok t (setIn t u.set (firstOf u.limit l) m) σ' ∧ ∀ n, n ≠ tableName E.D t → σ' n = σ n :=
  updateAll_ok h hA hn hf hk hu hne hd hkey hst ha

/-- C92, deletes. The records that satisfy the condition, or the first of them, are gone; no other record and no other table
changes. -/
theorem C92_delete_partial (h : Setup E t Ok) (hA : Agrees K E.null E.enc Ok t O) (hn : Spelled E.g E.D t) (m : Map F X)
    (σ : Sql.Store V) (hk : Keeps E Ok t m σ) (u : Removal F X) (hu : ProperRemoval Ok t u)
    (hst : E.g.style = .numbered → u.limit = 0) (ha : Allowed br u.orderBy u.limit) :
    ∃ l σ', Found O t m u.where_ u.orderBy l ∧ deleteAll E br K t u σ = (.ok (), σ') ∧
      Keeps E Ok t (removeFrom t (firstOf u.limit l) m) σ' ∧ ∀ n, n ≠ tableName E.D t → σ' n = σ n :=
  deleteAll_ok h hA hn hk hu hst ha

/-! ### The meaning of conditions -/

omit [DecidableEq F] [DecidableEq X] in
private theorem known (b : Bool) (c : Bool) : (TV.ofBool b).and (TV.ofBool c) = TV.ofBool (b && c) ∧
    (TV.ofBool b).or (TV.ofBool c) = TV.ofBool (b || c) ∧ TV.flip c (TV.ofBool b) = TV.ofBool (c != b) := by
  cases b <;> cases c <;> exact ⟨rfl, rfl, rfl⟩

section
omit [DecidableEq F] [DecidableEq X]
mutual
/-- C92. As long as nothing that is compared is nil, conditions mean what they say. -/
theorem C92_plain (O : Comp F X) (s : F → X) : (c : Cond F X) → c.Definite O s → c.truth O s = TV.ofBool (c.plain O s)
  | .and cs, h => C92_plain_all O s cs h
  | .or cs, h => C92_plain_any O s cs h
  | .cmp op c x, h => by simp [Cond.truth, Cond.plain, Comp.says3, h.1, h.2]
  | .isIn neg c xs, h => by
    have : xs.foldr (fun x y => (O.says3 c.field .eq (s c.field) x).or y) .f =
        TV.ofBool (xs.any fun x => O.says c.field .eq (s c.field) x) := by
      have h2 := h.2
      induction xs with
      | nil => rfl
      | cons x xs ih =>
        rw [List.foldr_cons, ih ⟨h.1, fun y hy => h2 y (by simp [hy])⟩ fun y hy => h2 y (by simp [hy]), Comp.says3, h.1,
          h2 x (by simp), List.any_cons]
        exact (known _ _).2.1
    rw [Cond.truth, Cond.plain, this]
    exact (known _ _).2.2
  | .null neg c, _ => rfl
  | .between neg c a b, h => by
    simp only [Cond.truth, Cond.plain, Comp.says3, h.1, h.2.1, h.2.2, Bool.or_self, Bool.false_eq_true, if_false,
      (known _ _).1, (known _ _).2.2]
theorem C92_plain_all (O : Comp F X) (s : F → X) : (cs : List (Cond F X)) → AllDefinite O s cs →
    truthAll O s cs = TV.ofBool (plainAll O s cs)
  | [], _ => rfl
  | c :: cs, h => by rw [truthAll, plainAll, C92_plain O s c h.1, C92_plain_all O s cs h.2]; exact (known _ _).1
theorem C92_plain_any (O : Comp F X) (s : F → X) : (cs : List (Cond F X)) → AllDefinite O s cs →
    truthAny O s cs = TV.ofBool (plainAny O s cs)
  | [], _ => rfl
  | c :: cs, h => by rw [truthAny, plainAny, C92_plain O s c h.1, C92_plain_any O s cs h.2]; exact (known _ _).2.1
end
end

omit [DecidableEq F] [DecidableEq X] in
/-- C92. Where nothing that is compared is nil, exactly the stored records for which the condition holds are found. -/
theorem C92_found_plain (m : Map F X) (c : Cond F X) (o : List (GCol F × Bool)) (l : List (F → X))
    (hl : Found O t m (some c) o l) (s : F → X) (hs : m (keyOf t s) = some s) (hd : c.Definite O s) :
    s ∈ l ↔ c.plain O s = true := by
  rw [hl.exactly]
  constructor
  · intro h
    have := h.2 c rfl
    rw [C92_plain O s c hd] at this
    cases e : c.plain O s with
    | true => rfl
    | false => rw [e] at this; cases this
  · intro h
    refine ⟨hs, fun a e => ?_⟩
    cases e
    rw [C92_plain O s c hd, h]; rfl

omit [DecidableEq F] [DecidableEq X] in
/-- C92. The order in which the conditions of a group are given does not matter, nor whether the group stands alone. -/
theorem C92_groups (s : F → X) (c d : Cond F X) :
    (Cond.and [c, d]).truth O s = (Cond.and [d, c]).truth O s ∧ (Cond.or [c, d]).truth O s = (Cond.or [d, c]).truth O s ∧
    (Cond.and [c]).truth O s = c.truth O s ∧ (Cond.or [c]).truth O s = c.truth O s := by
  simp only [Cond.truth, truthAll, truthAny]
  cases c.truth O s <;> cases d.truth O s <;> exact ⟨rfl, rfl, rfl, rfl⟩

/-- C92, refuted. With nil as the value, each comparison finds nothing: not equality the records with nil, and not inequality
the others. -/
theorem C92_nil (h : Setup E t Ok) (hA : Agrees K E.null E.enc Ok t O) (hn : Spelled E.g E.D t) (m : Map F X)
    (σ : Sql.Store V) (hk : Keeps E Ok t m σ) (op : Verif.Op) (c : GCol F) (hc : c ∈ t.columns) (x : X) (hx : Ok c.field x)
    (hnil : O.isNil c.field x = true) (zero : F → X) :
    queryAll E br K t zero { where_ := some (.cmp op c x) } σ = (.ok [], σ) := by
  obtain ⟨l, hl, e⟩ := C92_query_partial E t Ok K O br h hA hn m σ hk { where_ := some (.cmp op c x) }
    ⟨by simp, fun a ha => by cases ha; exact ⟨hc, hx⟩, by simp⟩ (.inl rfl) (.inl rfl) zero
  have : l = [] := by
    rw [List.eq_nil_iff_forall_not_mem]
    intro s hs
    have := ((hl.exactly s).1 hs).2 _ rfl
    simp [Cond.truth, Comp.says3, hnil] at this
  rw [e, this]; rfl

/-- C92, refuted. `NotIn` with nil among the values finds nothing. -/
theorem C92_not_in_nil (h : Setup E t Ok) (hA : Agrees K E.null E.enc Ok t O) (hn : Spelled E.g E.D t) (m : Map F X)
    (σ : Sql.Store V) (hk : Keeps E Ok t m σ) (c : GCol F) (hc : c ∈ t.columns) (xs : List X) (hxs : ∀ x ∈ xs, Ok c.field x)
    (hnil : ∃ x ∈ xs, O.isNil c.field x = true) (zero : F → X) :
    queryAll E br K t zero { where_ := some (.isIn true c xs) } σ = (.ok [], σ) := by
  obtain ⟨l, hl, e⟩ := C92_query_partial E t Ok K O br h hA hn m σ hk { where_ := some (.isIn true c xs) }
    ⟨by simp, fun a ha => by cases ha; exact ⟨hc, by obtain ⟨x, hx, -⟩ := hnil; exact List.ne_nil_of_mem hx, hxs⟩, by simp⟩
    (.inl rfl) (.inl rfl) zero
  have : l = [] := by
    rw [List.eq_nil_iff_forall_not_mem]
    intro s hs
    have := ((hl.exactly s).1 hs).2 _ rfl
    have hf : ∀ l : List X, (∃ x ∈ l, O.isNil c.field x = true) →
        l.foldr (fun x y => (O.says3 c.field .eq (s c.field) x).or y) .f ≠ .f := by
      intro l
      induction l with
      | nil => simp
      | cons x l ih =>
        rintro ⟨y, hy, hyn⟩
        rw [List.foldr_cons]
        rcases List.mem_cons.1 hy with rfl | hy
        · have e1 : O.says3 c.field .eq (s c.field) y = .u := by simp [Comp.says3, hyn]
          rw [e1]
          generalize List.foldr (fun x y => (O.says3 c.field .eq (s c.field) x).or y) .f l = z
          cases z <;> decide
        · have := ih ⟨y, hy, hyn⟩
          generalize List.foldr (fun x y => (O.says3 c.field .eq (s c.field) x).or y) .f l = z at this
          generalize O.says3 c.field .eq (s c.field) x = w
          cases z with
          | f => exact absurd rfl this
          | t => cases w <;> decide
          | u => cases w <;> decide
    have h2 := hf xs hnil
    simp only [Cond.truth, TV.flip, if_true] at this
    cases e1 : List.foldr (fun x y => (O.says3 c.field .eq (s c.field) x).or y) .f xs with
    | f => exact h2 e1
    | t => rw [e1] at this; cases this
    | u => rw [e1] at this; cases this
  rw [e, this]; rfl

omit [DecidableEq F] [DecidableEq X] in
/-- C92, refuted. Records with nil in the column are never found by a comparison with it, by `In`, `NotIn`, `Between` or
`NotBetween`; not even by "not equal". -/
theorem C92_nil_record (m : Map F X) (c : Cond F X) (o : List (GCol F × Bool)) (l : List (F → X))
    (hl : Found O t m (some c) o l) (s : F → X) (d : GCol F) (hs : O.isNil d.field (s d.field) = true)
    (hc : (∃ op x, c = .cmp op d x) ∨ (∃ neg x xs, c = .isIn neg d (x :: xs)) ∨ ∃ neg a b, c = .between neg d a b) :
    s ∉ l := by
  intro hm
  have := ((hl.exactly s).1 hm).2 c rfl
  rcases hc with ⟨op, x, rfl⟩ | ⟨neg, x, xs, rfl⟩ | ⟨neg, a, b, rfl⟩
  · simp [Cond.truth, Comp.says3, hs] at this
  · have hf : ∀ (l : List X) (x : X), (x :: l).foldr (fun x y => (O.says3 d.field .eq (s d.field) x).or y) .f = .u := by
      intro l
      induction l with
      | nil => intro x; simp [Comp.says3, hs, TV.or]
      | cons y l ih =>
        intro x
        rw [List.foldr_cons, ih y]
        simp [Comp.says3, hs, TV.or]
    rw [Cond.truth, hf] at this
    cases neg <;> cases this
  · simp only [Cond.truth, Comp.says3, hs, Bool.true_or, if_true] at this
    cases neg <;> cases this

/-! ### What is refused -/

/-- C92, refuted. With an empty group or an empty list anywhere in the condition, nothing is found and nothing is done: the
statement is refused, or the helper panics.  `ha` to `hr`: these words are reserved. -/
theorem C92_hollow (h : Setup E t Ok) (hn : Spelled E.g E.D t) (ha : E.D.reserved "AND".toList = true)
    (ho : E.D.reserved "OR".toList = true) (hr : ∀ w ∈ ["ORDER", "LIMIT"], E.D.reserved w.toList = true) (c : Cond F X)
    (hf : c.Fits Ok t) (hh : c.hollow = true) (σ : Sql.Store V) :
    (∀ (q : Query F X) (zero : F → X), q.where_ = some c → (∀ d ∈ q.select, d ∈ t.columns) → (∀ p ∈ q.orderBy, p.1 ∈ t.columns) →
      (queryAll E br K t zero q σ = (.failed, σ) ∨ queryAll E br K t zero q σ = (.panicked, σ)) ∧
      (queryOne E br K t zero q σ = (.failed, σ) ∨ queryOne E br K t zero q σ = (.panicked, σ))) ∧
    (∀ u : Change F X, u.where_ = some c → (∀ p ∈ u.set, p.1 ∈ t.columns) → u.set ≠ [] → (∀ p ∈ u.orderBy, p.1 ∈ t.columns) →
      (E.g.style = .numbered → u.limit = 0) →
      (updateAll E br K t u σ = (.failed, σ) ∨ updateAll E br K t u σ = (.panicked, σ))) ∧
    ∀ u : Removal F X, u.where_ = some c → (∀ p ∈ u.orderBy, p.1 ∈ t.columns) → (E.g.style = .numbered → u.limit = 0) →
      (deleteAll E br K t u σ = (.failed, σ) ∨ deleteAll E br K t u σ = (.panicked, σ)) := by
  by_cases hw : Writable E.g.style (some (clause E c))
  · have hR := reads_hollow h hn ha ho hr hf hh hw
    refine ⟨fun q zero hq hsel hord => ⟨.inl ?_, .inl ?_⟩, fun u hq hset hne hord hst => .inl ?_, fun u hq hord hst => .inl ?_⟩
    · rw [← hq] at hR
      obtain ⟨s, e1, e2⟩ := read_query h hn br hsel hord hR
      exact runStmt_none br K rfl e1 (by simpa using e2) σ
    · rw [← hq] at hR
      obtain ⟨s, e1, e2⟩ := read_queryOne h hn br hsel hord hR
      exact runStmt_none br K rfl e1 (by simpa using e2) σ
    · rw [← hq] at hR
      obtain ⟨s, e1, e2⟩ := read_update_all h hn br hset hne hord hR hst
      exact runStmt_none br K rfl e1 (by simpa using e2) σ
    · rw [← hq] at hR
      obtain ⟨s, e1, e2⟩ := read_delete_all h hn br hord hR hst
      exact runStmt_none br K rfl e1 (by simpa using e2) σ
  · have hst : E.g.style = .anon ∧ inNonempty (clause E c) = false := by
      unfold Writable at hw
      push Not at hw
      obtain ⟨h1, d, hd, h2⟩ := hw
      cases hd
      refine ⟨?_, by simpa using h2⟩
      cases e : E.g.style with
      | anon => rfl
      | numbered => exact absurd e h1
    refine ⟨fun q zero hq _ _ => ⟨.inr ?_, .inr ?_⟩, fun u hq _ _ _ _ => .inr ?_, fun u hq _ _ => .inr ?_⟩
    · simp only [queryAll, runStmt, query_panics hq hst.1 hst.2]
    · simp only [queryOne, runStmt, queryOne_panics hq hst.1 hst.2]
    · simp only [updateAll, runStmt, update_panics hq hst.1 hst.2]
    · simp only [deleteAll, runStmt, delete_panics hq hst.1 hst.2]

/-- C92, boundary. An order or a limit in an update or a delete makes PostgreSQL and SQLite refuse it; nothing changes. -/
theorem C92_not_allowed (h : Setup E t Ok) (hn : Spelled E.g E.D t) (hbr : br ≠ .mysql) (σ : Sql.Store V) :
    (∀ u : Change F X, ProperChange Ok t u → u.set ≠ [] → (E.g.style = .numbered → u.limit = 0) →
      (u.orderBy ≠ [] ∨ u.limit ≠ 0) → updateAll E br K t u σ = (.failed, σ)) ∧
    ∀ u : Removal F X, ProperRemoval Ok t u → (E.g.style = .numbered → u.limit = 0) →
      (u.orderBy ≠ [] ∨ u.limit ≠ 0) → deleteAll E br K t u σ = (.failed, σ) := by
  constructor
  · intro u hu hne hst hol
    have ha : ¬ Allowed br u.orderBy u.limit := by
      rintro (e | ⟨e1, e2⟩)
      · exact hbr e
      · exact hol.elim (fun k => k e1) (fun k => k e2)
    obtain ⟨s, e1, e2⟩ := read_update_all h hn br (fun p hp => (hu.set p hp).1) hne hu.order (reads_proper h hn hu.where_) hst
    rw [Option.bind_some, if_neg ha] at e2
    exact runStmt_none br K rfl e1 e2 σ
  · intro u hu hst hol
    have ha : ¬ Allowed br u.orderBy u.limit := by
      rintro (e | ⟨e1, e2⟩)
      · exact hbr e
      · exact hol.elim (fun k => k e1) (fun k => k e2)
    obtain ⟨s, e1, e2⟩ := read_delete_all h hn br hu.order (reads_proper h hn hu.where_) hst
    rw [Option.bind_some, if_neg ha] at e2
    exact runStmt_none br K rfl e1 e2 σ

/-- C92, boundary. Except with PostgreSQL, a query with an offset and no limit is refused. -/
theorem C92_offset_alone (h : Setup E t Ok) (hn : Spelled E.g E.D t) (hbr : br ≠ .postgres) (q : Query F X)
    (hq : ProperQuery Ok t q) (ho : q.offset ≠ 0) (hl : q.limit = 0) (zero : F → X) (σ : Sql.Store V) :
    queryAll E br K t zero q σ = (.failed, σ) := by
  obtain ⟨s, e1, e2⟩ := read_query h hn br hq.select hq.order (reads_proper h hn hq.where_)
  rw [Option.bind_some, if_pos ⟨by simp [positive, hl], by simp [positive, ho], hbr⟩] at e2
  exact runStmt_none br K rfl e1 e2 σ

/-- C92, boundary. An update that sets nothing is refused; it is not an update that changes nothing. -/
theorem C92_no_set (h : Setup E t Ok) (hn : Spelled E.g E.D t) (u : Change F X) (hu : ProperChange Ok t u) (hs : u.set = [])
    (σ : Sql.Store V) : updateAll E br K t u σ = (.failed, σ) := by
  obtain ⟨s, e1, e2⟩ := read_update_none br h hn hs hu.order hu.where_
  exact runStmt_none br K rfl e1 e2 σ

omit [DecidableEq X] [DecidableEq V] in
private theorem scan_len {E : Env F X V} : ∀ (fs : List F) (vs : List V) (r s : F → X), scan E fs vs r = some s → fs.length = vs.length
  | [], [], _, _, _ => rfl
  | f :: fs, v :: vs, r, s, h => by
    simp only [Store.scan, Option.bind_eq_some_iff] at h
    obtain ⟨x, -, h⟩ := h
    simp [scan_len fs vs _ _ h]
  | [], _ :: _, _, _, h => by simp [Store.scan] at h
  | _ :: _, [], _, _, h => by simp [Store.scan] at h

/-- C92, refuted. Selecting fewer or more columns than the model has is an error as soon as there is something to return. -/
theorem C92_select_count (h : Setup E t Ok) (hA : Agrees K E.null E.enc Ok t O) (hn : Spelled E.g E.D t) (m : Map F X)
    (σ : Sql.Store V) (hk : Keeps E Ok t m σ) (q : Query F X) (hq : ProperQuery Ok t q) (hs : q.select ≠ [])
    (hlen : q.select.length ≠ t.columns.length) (ho : q.offset = 0 ∨ q.limit ≠ 0 ∨ br = .postgres) (zero : F → X) :
    ∃ l, Found O t m q.where_ q.orderBy l ∧ queryAll E br K t zero q σ =
      (if firstOf q.limit (l.drop q.offset) = [] then .ok [] else .failed, σ) := by
  obtain ⟨rows, hσ, hh⟩ := hk
  obtain ⟨s, e1, e2⟩ := read_query h hn br hq.select hq.order (reads_proper h hn hq.where_)
  obtain ⟨rs, a, hf, hr, hx⟩ := select_exec h hA hh hσ hq (positive q.limit) (positive q.offset)
  have hsel : selected t q = q.select := if_neg hs
  have hoff : (positive q.offset).getD 0 = q.offset := by unfold positive; split <;> simp_all
  have hif : ¬ (positive q.limit = none ∧ positive q.offset ≠ none ∧ br ≠ .postgres) := by
    rintro ⟨i1, i2, i3⟩
    rcases ho with e | e | e
    · exact i2 (by simp [positive, e])
    · simp [positive, e] at i1
    · exact i3 e
  rw [Option.bind_some, if_neg hif] at e2
  refine ⟨a, hf, ?_⟩
  have hd : List.Forall₂ (Shows E Ok t m) (firstOf q.limit (rs.drop q.offset)) (firstOf q.limit (a.drop q.offset)) :=
    firstOf_forall₂ q.limit (List.forall₂_drop q.offset hr)
  simp only [queryAll, runStmt, e1, sendWide, e2, hx, hoff, limitTo_positive, hsel]
  generalize firstOf q.limit (rs.drop q.offset) = x at hd
  generalize firstOf q.limit (a.drop q.offset) = y at hd
  cases hd with
  | nil => rfl
  | @cons r s' rs' l' _ _ =>
    have hsc : scan E (genAddrs t) ((q.select.map (colName E.D)).map r) zero = none := by
      cases e : scan E (genAddrs t) ((q.select.map (colName E.D)).map r) zero with
      | none => rfl
      | some z =>
        have := scan_len _ _ _ _ e
        simp [genAddrs] at this
        exact absurd this.symm hlen
    simp only [rowsOf, List.map_cons, List.mapM_cons, hsc, Option.bind_eq_bind, Option.bind_none, reduceCtorEq, if_false]

/-- C92, refuted. If names are written without quotes and one is a reserved word, each query for all columns fails. -/
theorem C92_reserved (hq : IsQuote E.D.quote) (hp : NoTemplates t) (hg : E.g.quoteNames = false)
    (hw : ∀ c ∈ t.columns, Wordy E.D c.name) (hr : ∃ c ∈ t.columns, E.D.reserved (upper c.name.toList) = true)
    (q : Query F X) (hs : q.select = []) (zero : F → X) (σ : Sql.Store V) :
    queryAll E br K t zero q σ = (.failed, σ) ∨ queryAll E br K t zero q σ = (.panicked, σ) := by
  rcases query_or_panic (E := E) (t := t) q with ⟨s, e⟩ | e
  · left
    obtain ⟨tb, b, -, ⟨o, -, rfl⟩, hb⟩ := query_core _ _ _ _ e
    refine runStmt_none br K rfl e ?_ σ
    rw [hb.1, Option.bind_some]
    have hcols : (selectCols (info E t) (selectOf (V := V) E q).select : List (BSym V)) =
        comma (t.columns.map fun c => bs c.name) := by
      have hi : (info E t).sqlColumns = none := by
        have : (t.columns.any fun c => c.sqlScan.isSome) = false := by
          rw [List.any_eq_false]
          intro c hc
          simp [(hp c hc).2]
        simp only [info, Cfg.genSqlColumns, this, Bool.false_eq_true, if_false]
        cases t.columns.mapM E.g.sqlColumn <;> rfl
      unfold selectCols
      rw [hi]
      simp [selectOf, hs, info, Cfg.genColumns, commaStrs, comma, Function.comp_def, Cfg.ident, hg]
    have hl : t.columns ≠ [] := by obtain ⟨c, hc, -⟩ := hr; exact List.ne_nil_of_mem hc
    have := read_words (V := V) br hq hl hw hr
    rw [hcols]
    simp only [List.append_assoc] at this ⊢
    exact this _
  · right
    simp only [queryAll, runStmt, e]

end

/-! ### Concrete cases -/

private theorem precedes_rank {V : Type} (f : V → Nat) : ∀ (ks : List (Name × Bool)) (a b c : Row V),
    (precedes (fun x y => decide (f x < f y)) ks b a = false → precedes (fun x y => decide (f x < f y)) ks c b = false →
      precedes (fun x y => decide (f x < f y)) ks c a = false) ∧
    (precedes (fun x y => decide (f x < f y)) ks b a = false ∨ precedes (fun x y => decide (f x < f y)) ks a b = false)
  | [], _, _, _ => ⟨fun _ _ => rfl, .inl rfl⟩
  | (n, asc) :: ks, a, b, c => by
    have ih := precedes_rank f ks a b c
    have hp : ∀ x y : Row V, precedes (fun x y => decide (f x < f y)) ((n, asc) :: ks) x y = false ↔
        (if asc then f (y n) < f (x n) else f (x n) < f (y n)) ∨
          f (x n) = f (y n) ∧ precedes (fun x y => decide (f x < f y)) ks x y = false := by
      intro x y
      rcases lt_trichotomy (f (x n)) (f (y n)) with h | h | h
      · cases asc <;> simp [precedes, h, not_lt.2 h.le, h.ne]
      · cases asc <;> simp [precedes, h]
      · cases asc <;> simp [precedes, h, not_lt.2 h.le, h.ne']
    rw [hp, hp, hp, hp]
    cases asc
    · simp only [Bool.false_eq_true, if_false]
      refine ⟨?_, ?_⟩
      · rintro (h1 | ⟨h1, h2⟩) (h3 | ⟨h3, h4⟩)
        · left; omega
        · left; omega
        · left; omega
        · right; exact ⟨by omega, ih.1 h2 h4⟩
      · rcases lt_trichotomy (f (a n)) (f (b n)) with h | h | h
        · exact .inr (.inl h)
        · exact ih.2.imp (fun k => .inr ⟨h.symm, k⟩) (fun k => .inr ⟨h, k⟩)
        · exact .inl (.inl h)
    · simp only [if_true]
      refine ⟨?_, ?_⟩
      · rintro (h1 | ⟨h1, h2⟩) (h3 | ⟨h3, h4⟩)
        · left; omega
        · left; omega
        · left; omega
        · right; exact ⟨by omega, ih.1 h2 h4⟩
      · rcases lt_trichotomy (f (a n)) (f (b n)) with h | h | h
        · exact .inl (.inl h)
        · exact ih.2.imp (fun k => .inr ⟨h.symm, k⟩) (fun k => .inr ⟨h, k⟩)
        · exact .inr (.inl h)

/-- NULL first. -/
def condRank : Option Nat → Nat
  | none => 0
  | some n => n + 1

def condLe (ks : List (Name × Bool)) (a b : Row (Option Nat)) : Prop :=
  precedes (fun x y => decide (condRank x < condRank y)) ks b a = false

instance (ks : List (Name × Bool)) : DecidableRel (condLe ks) := fun _ _ => inferInstanceAs (Decidable (_ = _))

/-- Numbers; a pattern is a number of which a multiple is asked for. -/
def condOrd : Compare (Option Nat) where
  eq x y := decide (x = y)
  lt x y := decide (condRank x < condRank y)
  like x y := decide (x.getD 0 % y.getD 1 = 0)
  before x y := decide (condRank x < condRank y)
  arrange ks rows := rows.insertionSort (condLe ks)
  perm ks rows := List.perm_insertionSort _ _
  sorted ks rows := by
    have : Std.Total (condLe ks) := ⟨fun a b => (precedes_rank condRank ks a b a).2⟩
    have : IsTrans _ (condLe ks) := ⟨fun a b c => (precedes_rank condRank ks a b c).1⟩
    exact List.pairwise_insertionSort (condLe ks) rows

/-- No name is 0 here. -/
def condComp : Comp Nat Nat where
  isNil f x := decide (f = 13 ∧ x = 0)
  eq _ x y := decide (x = y)
  lt _ x y := decide (x < y)
  like f x y := decide (x % (if f = 13 ∧ y = 0 then 1 else y) = 0)
  before _ x y := decide (x < y)

def condPg : Spec.Sql.Dialect where
  quote := '"'
  fold q n := if q then n else lower n
  reserved w := [w] ⊆ ["USER".toList, "ORDER".toList, "GROUP".toList, "TABLE".toList, "LIMIT".toList, "AND".toList, "OR".toList]

def condEnc (f x : Nat) : Option Nat := if f = 13 ∧ x = 0 then none else some x

def condEnv (q : Bool) : Env Nat Nat (Option Nat) where
  g := storeCfg q
  D := condPg
  null := none
  gen T := some (T.rows.length + 1)
  enc := condEnc
  dec f v _ := if f = 13 then some (v.getD 0) else v
  toId v := v

def condMy : Spec.Sql.Dialect where
  quote := '`'
  fold _ n := n
  reserved w := [w] ⊆ ["GROUP".toList, "ORDER".toList, "LIMIT".toList, "AND".toList, "OR".toList]

def condEnvMy : Env Nat Nat (Option Nat) where
  g := storeEnvMy.g
  D := condMy
  null := none
  gen T := some (T.rows.length + 1)
  enc := condEnc
  dec f v _ := if f = 13 then some (v.getD 0) else v
  toId v := v

theorem condAgrees (E : Env Nat Nat (Option Nat)) (hE : E.enc = condEnc) (hn : E.null = none) :
    Agrees condOrd E.null E.enc (fun _ _ => True) (storeUser "people") condComp := by
  rw [hE, hn]
  have hr : ∀ f x, condRank (condEnc f x) = if f = 13 ∧ x = 0 then 0 else x + 1 := by
    intro f x; unfold condEnc; split <;> rfl
  refine ⟨?_, ?_, ?_, ?_, ?_⟩
  · intro c _ x _; unfold condEnc condComp; simp
  · intro c _ x y _ _
    simp only [condOrd, condComp, condEnc, decide_eq_decide]
    split <;> split <;> simp <;> omega
  · intro c _ x y _ _
    simp only [condOrd, condComp, hr, decide_eq_decide]
    split <;> split <;> omega
  · intro c _ x y _ _
    simp only [condOrd, condComp, condEnc, decide_eq_decide]
    split <;> split <;> simp_all
  · intro c _ x y _ _
    simp only [condOrd, condComp, hr, decide_eq_decide]
    split <;> split <;> omega

private theorem condBack : ∀ c ∈ (storeUser "people").columns, ∀ x : Nat,
    (if c.field = 13 then some ((condEnc c.field x).getD 0) else condEnc c.field x) = some x := by
  intro c hc x
  simp only [storeUser, List.mem_cons, List.not_mem_nil, or_false] at hc
  rcases hc with rfl | rfl | rfl
  · simp [condEnc]
  · by_cases h : x = 0 <;> simp [condEnc, h]
  · simp [condEnc]

theorem condSetup (q : Bool) : Setup (condEnv q) (storeUser "people") (fun _ _ => True) := by
  have hb : Bare condPg "people" ∧ Bare condPg "id" :=
    ⟨⟨⟨by decide, by decide, by decide, by decide⟩, by decide⟩, ⟨⟨by decide, by decide, by decide, by decide⟩, by decide⟩⟩
  have hn := storeNamed q "people" (by decide)
  refine ⟨storeWF _, rfl, ⟨hn.1, hn.2, hn.3⟩, ⟨fun _ => .inr hb.1, ?_⟩, ?_, by clear hn; revert q; decide,
    by simp [storeUser], ?_, ?_⟩
  · intro c hc
    simp [storeUser, pick, keyPos] at hc
    subst hc
    exact .inr hb.2
  · simp [NoTemplates, storeUser]
  · exact fun c hc x _ _ => condBack c hc x
  · intro c hc x _
    simp [storeUser, pick, keyPos] at hc
    subst hc
    simp [condEnv, condEnc]

theorem condSetupMy : Setup condEnvMy (storeUser "people") (fun _ _ => True) := by
  have hn := storeSetupMy.named
  refine ⟨storeWF _, rfl, ⟨hn.1, hn.2, hn.3⟩, ⟨fun _ => .inl rfl, fun _ _ => .inl ⟨rfl, by decide⟩⟩, ?_, by decide,
    by simp [storeUser], ?_, ?_⟩
  · simp [NoTemplates, storeUser]
  · exact fun c hc x _ _ => condBack c hc x
  · intro c hc x _
    simp [storeUser, pick, keyPos] at hc
    subst hc
    simp [condEnvMy, condEnc]

theorem condSpelled (E : Env Nat Nat (Option Nat)) (h : E.g.quoteNames = true) : Spelled E.g E.D (storeUser "people") :=
  fun _ _ => .inl h

def condId : GCol Nat := ⟨"id", 10, 0, false, none, none⟩
def condName : GCol Nat := ⟨"name", 13, 1, false, none, none⟩
def condGroup : GCol Nat := ⟨"group", 15, 2, false, none, none⟩

/-- Four people; number 3 has no name. -/
def condFour (E : Env Nat Nat (Option Nat)) : Sql.Store (Option Nat) :=
  (performs E (storeUser "people") [.insert (storeRec 1 5 2), .insert (storeRec 2 6 2), .insert (storeRec 3 0 2),
    .insert (storeRec 4 7 9)] (storeOnly (storeUser "people"))).2

def condSee : Ret (List (Nat → Nat)) → Option (List (List Nat))
  | .ok rs => some (rs.map fun r => (genAddrs (storeUser "people")).map r)
  | _ => none

def condAll (E : Env Nat Nat (Option Nat)) (br : Brand) (q : Query Nat Nat) (σ : Sql.Store (Option Nat)) : Option (List (List Nat)) :=
  condSee (queryAll E br condOrd (storeUser "people") (fun _ => 0) q σ).1

/-- C92, refuted. Selecting the columns of the model in another order is not an error, but fills the wrong fields. -/
theorem C92_select_order : ∃ q : Query Nat Nat, ProperQuery (fun _ _ => True) (storeUser "people") q ∧
    q.select.Perm (storeUser "people").columns ∧
    condAll (condEnv true) .postgres { q with select := [] } (condFour (condEnv true)) = some [[4, 7, 9]] ∧
    condAll (condEnv true) .postgres q (condFour (condEnv true)) = some [[4, 9, 7]] := by
  refine ⟨{ select := [condId, condGroup, condName], where_ := some (.cmp .eq condId 4) }, ⟨?_, ?_, by simp⟩, ?_,
    by decide +kernel, by decide +kernel⟩
  · simp [storeUser, condId, condName, condGroup]
  · intro c hc
    cases hc
    exact ⟨by simp [storeUser, condId], trivial⟩
  · exact List.Perm.cons _ (List.Perm.swap _ _ _)

example : ∃ m, Keeps (condEnv true) (fun _ _ => True) (storeUser "people") m (condFour (condEnv true)) := by
  have h0 : Keeps (condEnv true) (fun _ _ => True) (storeUser "people") (fun _ => none) (storeOnly (storeUser "people")) :=
    C90_empty _ _ _ _ (if_pos rfl)
  exact ⟨_, (C90_keyed_store (condSetup true) (storeWritten _ _) rfl _
    (fun o _ => ⟨fun _ _ => trivial, fun _ _ => by decide⟩) _ _ h0).2.1⟩
/-- name 6 or group 9, latest first -/
example : condAll (condEnv true) .postgres { where_ := some (.or [.cmp .eq condName 6, .cmp .eq condGroup 9]), orderBy := [(condId, false)] }
    (condFour (condEnv true)) = some [[4, 7, 9], [2, 6, 2]] := by decide +kernel
/-- by group, then by name, latest first; the second page -/
example : condAll condEnvMy .mysql { orderBy := [(condGroup, true), (condName, false)], limit := 2, offset := 1 }
    (condFour condEnvMy) = some [[1, 5, 2], [3, 0, 2]] := by decide +kernel
/-- the second page alone -/
example : condAll condEnvMy .mysql { offset := 1 } (condFour condEnvMy) = none ∧
    condAll (condEnv true) .postgres { offset := 3 } (condFour (condEnv true)) = some [[4, 7, 9]] := by decide +kernel
/-- names equal to nil, different from nil, different from 5, not among 5 and nil -/
example : condAll (condEnv true) .postgres { where_ := some (.cmp .eq condName 0) } (condFour (condEnv true)) = some [] ∧
    condAll (condEnv true) .postgres { where_ := some (.cmp .ne condName 0) } (condFour (condEnv true)) = some [] ∧
    condAll (condEnv true) .postgres { where_ := some (.cmp .ne condName 5) } (condFour (condEnv true)) = some [[2, 6, 2], [4, 7, 9]] ∧
    condAll (condEnv true) .postgres { where_ := some (.isIn true condName [5, 0]) } (condFour (condEnv true)) = some [] ∧
    condAll (condEnv true) .postgres { where_ := some (.null false condName) } (condFour (condEnv true)) = some [[3, 0, 2]] := by
  decide +kernel
/-- an empty group, an empty list -/
example : (Cond.or [.cmp .eq condName 5, .and []] : Cond Nat Nat).hollow = true ∧
    (Cond.or [.cmp .eq condName 5, .and []] : Cond Nat Nat).Fits (fun _ _ => True) (storeUser "people") ∧
    condAll (condEnv true) .postgres { where_ := some (.or [.cmp .eq condName 5, .and []]) } (condFour (condEnv true)) = none ∧
    condAll (condEnv true) .postgres { where_ := some (.isIn false condName []) } (condFour (condEnv true)) = none ∧
    condAll condEnvMy .mysql { where_ := some (.isIn true condName []) } (condFour condEnvMy) = none := by
  refine ⟨rfl, ?_, by decide +kernel, by decide +kernel, by decide +kernel⟩
  simp [Cond.Fits, AllFits, storeUser, condName]
/-- one column of three -/
example : condAll (condEnv true) .postgres { select := [condId] } (condFour (condEnv true)) = none := by decide +kernel
/-- without quotes, the column called `group` -/
example : condAll (condEnv false) .postgres {} (condFour (condEnv false)) = none ∧
    (∀ c ∈ (storeUser "people").columns, Wordy condPg c.name) := by
  refine ⟨by decide +kernel, ?_⟩
  intro c hc
  simp only [storeUser, List.mem_cons, List.not_mem_nil, or_false] at hc
  rcases hc with rfl | rfl | rfl <;> exact ⟨by decide, by decide⟩
/-- the two latest of group 2 move to group 3 -/
example : condAll condEnvMy .mysql {} (updateAll condEnvMy .mysql condOrd (storeUser "people")
      { set := [(condGroup, 3)], where_ := some (.cmp .eq condGroup 2), orderBy := [(condId, false)], limit := 2 }
      (condFour condEnvMy)).2 = some [[1, 5, 2], [2, 6, 3], [3, 0, 3], [4, 7, 9]] ∧
    condAll (condEnv true) .postgres {} (updateAll (condEnv true) .postgres condOrd (storeUser "people")
      { set := [(condGroup, 3)], where_ := some (.cmp .eq condGroup 2), orderBy := [(condId, false)] }
      (condFour (condEnv true))).2 = some [[1, 5, 2], [2, 6, 2], [3, 0, 2], [4, 7, 9]] := by decide +kernel
/-- all people with names from 6 to 7 are deleted -/
example : condAll (condEnv true) .postgres {} (deleteAll (condEnv true) .postgres condOrd (storeUser "people")
      { where_ := some (.between false condName 6 7) } (condFour (condEnv true))).2 = some [[1, 5, 2], [3, 0, 2]] := by
  decide +kernel
example : Agrees condOrd (condEnv true).null (condEnv true).enc (fun _ _ => True) (storeUser "people") condComp ∧
    Agrees condOrd condEnvMy.null condEnvMy.enc (fun _ _ => True) (storeUser "people") condComp ∧
    Spelled (condEnv true).g (condEnv true).D (storeUser "people") ∧ Spelled condEnvMy.g condEnvMy.D (storeUser "people") ∧
    ((storeUser "people").columns.map (·.field)).Nodup ∧ condGroup ∉ pick (storeUser "people") (keyPos (storeUser "people")) :=
  ⟨condAgrees _ rfl rfl, condAgrees _ rfl rfl, condSpelled _ rfl, condSpelled _ rfl, by decide, by simp [storeUser, condGroup, pick, keyPos]⟩

end Verif.Props
