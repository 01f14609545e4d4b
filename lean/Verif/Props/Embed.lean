import Verif.Lemmas.EmbedStore
import Verif.Props.Emit

/-! # C102: records as Go structs -/

namespace Verif.Props

open Verif Verif.Addrs Verif.Gen Verif.Embed Verif.Spec Verif.Spec.Gen Verif.Spec.Store Verif.Spec.Embed

variable {X V : Type} {G : Values X} {E : Store.Env Path X V} {t : Table Path}

/-! ## Answers -/

variable [DecidableEq V]

omit [DecidableEq V] in
theorem raw_scan (fs : List Path) (hn : fs.Nodup) : ∀ (v : List V) (s s' : Path → V),
    Store.scan (raw E) fs v s = some s' → v = fs.map s' ∧ ∀ c, c ∉ fs → s' c = s c := by
  induction fs with
  | nil =>
    intro v s s' h
    cases v with
    | nil => simp only [Store.scan, Option.some.injEq] at h; exact ⟨rfl, fun _ _ => by rw [h]⟩
    | cons => simp [Store.scan] at h
  | cons f fs ih =>
    intro v s s' h
    obtain ⟨hf, hn⟩ := List.nodup_cons.1 hn
    cases v with
    | nil => simp [Store.scan] at h
    | cons x v =>
      simp only [Store.scan, raw, Option.bind_some] at h
      obtain ⟨h1, h2⟩ := ih hn v _ s' h
      refine ⟨?_, fun c hc => ?_⟩
      · rw [List.map_cons, ← h1, h2 f hf]
        simp [Store.setField]
      · simp only [List.mem_cons, not_or] at hc
        rw [h2 c hc.2]
        simp [Store.setField, hc.1]

omit [DecidableEq V] in
/-- What is scanned into a struct, in terms of what the database answers. -/
theorem query_sim (hs : Struct (genAddrs t)) (hG : Lawful G (genAddrs t)) (r : Obj X) (s : Path → V) (a : Sql.Ans V) :
    match Store.queryRow (raw E) t s a with
    | .ok s' => Loads G E (genAddrs t) s' r (queryRow G E t r a)
    | .noRows => (queryRow G E t r a).1 = .noRows ∧ Opened G (genAddrs t) r (queryRow G E t r a).2
    | .duplicate => (queryRow G E t r a).1 = .duplicate ∧ Opened G (genAddrs t) r (queryRow G E t r a).2
    | .failed => True := by
  obtain ⟨r', h1, h2⟩ := addrs_ok hs hG r
  unfold queryRow
  rw [h1]
  cases a with
  | rows vs =>
    cases vs with
    | nil => exact ⟨rfl, h2⟩
    | cons v vs =>
      simp only [Store.queryRow]
      cases hsc : Store.scan (raw E) (genAddrs t) v s with
      | none => trivial
      | some s' =>
        obtain ⟨rfl, -⟩ := raw_scan _ hs.once v s s' hsc
        obtain ⟨g1, g2, -⟩ := scan_row E s' (genAddrs t) hs.once r'
        simp only
        rcases hr : scan E (genAddrs t) ((genAddrs t).map s') r' with ⟨b, r''⟩
        rw [hr] at g1 g2
        rcases g1 with ⟨rfl, g1⟩ | ⟨rfl, c, hc, g1⟩
        · refine .inl ⟨rfl, fun c hc => ⟨?_, ?_⟩⟩
          · intro p hp hne
            show r''.mem _ = true
            rw [g2]
            exact (h2 c hc).1 p hp hne
          · rw [← (h2 c hc).2]; exact g1 c hc
        · exact .inr ⟨rfl, c, hc, by rw [← (h2 c hc).2]; exact g1⟩
  | done => exact ⟨rfl, h2⟩
  | duplicate => exact ⟨rfl, h2⟩
  | refused => trivial

omit [DecidableEq V] in
theorem exec_sim (r : Obj X) (s : Path → V) (a : Sql.Ans V) :
    match Store.execOnly s a with
    | .ok s' => s' = s ∧ execOnly r a = (.ok, r)
    | .noRows => False
    | .duplicate => execOnly r a = (.duplicate, r)
    | .failed => True := by
  cases a <;> simp [Store.execOnly, execOnly]

omit [DecidableEq V] in
/-- The key made up by the database, assigned to a field. -/
private theorem auto_sim (hs : Struct (genAddrs t)) (r : Obj X) (s : Path → V) {c : GCol Path} (hc : c.field ∈ genAddrs t) (a : Sql.Ans V) :
    match Store.execAuto (raw E) c s a with
    | .ok s' => ∃ k, s' = keyed s c.field k ∧ Assigns E c.field k r (execAuto G E (genAddrs t) c r a)
    | .noRows => False
    | .duplicate => True
    | .failed => True := by
  cases a with
  | done v =>
    cases v with
    | none => trivial
    | some k =>
      refine ⟨k, rfl, ?_⟩
      unfold Assigns execAuto
      cases hx : E.toId k with
      | none => simp only [hx]
      | some x =>
        have := reached_iff (G := G) hs r hc
        by_cases hr : Reached r c.field
        · exact .inl ⟨hr, by simp only [hx, if_pos (this.1 hr)]⟩
        · exact .inr ⟨hr, by simp only [hx, if_neg fun h => hr (this.2 h)]⟩
  | _ => trivial

/-! ## One call -/

omit [DecidableEq V] in
theorem raw_setup (h : Typed.Shape E.g E.D t) : Store.Setup (raw E) t (KeyCell E t) where
  wf := h.wf
  key := h.key
  named := h.named
  bare := h.bare
  plain := h.plain
  names := h.names
  single := h.single
  back := fun _ _ _ _ _ => rfl
  keyed := fun _ hc _ hx => hx (List.mem_map_of_mem hc)

omit [DecidableEq V] in
private theorem raw_other : raw E = other E (fun _ v => v) (fun _ v _ => some v) some := rfl

omit [DecidableEq V] in
theorem loads_load {s : Path → V} {r : Obj X} {a : End × Obj X} {q : Path → V}
    (h : Loads G E (genAddrs t) (load t s q) r a) : Loads G E (genAddrs t) s r a := by
  have el : ∀ c ∈ genAddrs t, load t s q c = s c := fun c hc => if_pos hc
  rcases h with ⟨g1, g2⟩ | ⟨g1, c, hc, g2⟩
  · exact .inl ⟨g1, fun c hc => ⟨(g2 c hc).1, by rw [← el c hc]; exact (g2 c hc).2⟩⟩
  · exact .inr ⟨g1, c, hc, by rw [← el c hc]; exact g2⟩

/-- What one call does: exactly `Step`, for all structs whose key is not NULL. -/
theorem struct_step (h : Typed.Shape E.g E.D t) (hw : AllWritten t) (hs : Struct (genAddrs t)) (hG : Lawful G (genAddrs t))
    (hauto : ∀ c, t.autoCol = some c → pick t (insertPos t) ≠ [] ∧ Makes E t c) (o : Call X) (ho : Given G E t o)
    (m : Map Path V) (σ : Sql.Store V) (hk : Store.Keeps (raw E) (KeyCell E t) t m σ) :
    ∃ m', Step G E t o m (perform G E t o σ).1 m' ∧ Store.Keeps (raw E) (KeyCell E t) t m' (perform G E t o σ).2 ∧
      ∀ n, n ≠ tableName E.D t → (perform G E t o σ).2 n = σ n := by
  have hmade : ∀ c, t.autoCol = some c → pick t (insertPos t) ≠ [] ∧ Store.MadeUp (raw E) t (KeyCell E t) c := fun c hc =>
    ⟨(hauto c hc).1, fun rows => ⟨_, fun _ => ((hauto c hc).2 rows).1, rfl, rfl, ((hauto c hc).2 rows).2⟩⟩
  have hgood : ∀ r, (∀ c ∈ pick t (keyPos t), cells G E r c.field ≠ E.null) → Good (KeyCell E t) t (cells G E r) := by
    intro r hr c _ hcf
    obtain ⟨k, hk', e⟩ := List.mem_map.1 hcf
    have := hr k hk'
    rwa [e] at this
  cases o with
  | insert r =>
    cases ha : t.autoCol with
    | some c =>
      have hcm : c ∈ t.columns := auto_mem ha
      obtain ⟨i, hi, hci⟩ := Option.bind_eq_some_iff.1 (show t.auto.bind (t.columns[·]?) = some c from ha)
      have hkp : pick t (keyPos t) = [c] := by simp [keyPos, hi, pick, hci]
      obtain ⟨v0, hv0⟩ : ∃ v0, v0 ≠ E.null := ⟨_, ((hauto c ha).2 []).1⟩
      have hg : Good (KeyCell E t) t (keyed (cells G E r) c.field v0) := by
        intro d _ hdf
        rw [hkp] at hdf
        simp only [List.map_cons, List.map_nil, List.mem_singleton] at hdf
        simpa [keyed, hdf] using hv0
      obtain ⟨out, m', σ', e, hact, hkeep, hn⟩ := store_step (raw_setup h) hw hs.once hmade (.insert (keyed (cells G E r) c.field v0))
        ⟨hg, by simp⟩ m σ hk
      have hne : ∀ k ∈ t.insertColumns, k.field ≠ c.field := by
        intro k hk' ek
        have hkm := insert_mem hk'
        have : k = c := List.inj_on_of_nodup_map hs.once hkm hcm ek
        subst this
        unfold Table.insertColumns at hk'
        obtain ⟨⟨d, j⟩, hp, rfl⟩ := List.mem_map.1 hk'
        obtain ⟨h1, h2⟩ := List.mem_filter.1 hp
        have h3 := List.mem_zipIdx_iff_getElem?.1 h1
        have h4 : t.columns[i]? = t.columns[j]? := by rw [hci, h3]
        have h5 : i < t.columns.length := h.wf.auto i hi
        have h6 : j < t.columns.length := (List.getElem?_eq_some_iff.1 h3).1
        have hnd : t.columns.Nodup := hs.once.of_map
        have : i = j := (hnd.getElem_inj_iff (hi := h5) (hj := h6)).1 (by simpa [h5, h6] using h4)
        simp [hi, this] at h2
      simp only [Act, ha] at hact
      obtain ⟨k, hk1, hk2⟩ := hact
      simp only [Prod.mk.injEq] at hk2
      obtain ⟨rfl, rfl⟩ := hk2
      have hwk : (fun f => if f = c.field then k else keyed (cells G E r) c.field v0 f) = keyed (cells G E r) c.field k := by
        funext f; unfold keyed; split <;> rfl
      rw [hwk] at e hkeep
      rw [raw_other] at e
      rcases insert_sim (G := G) hs r (keyed (cells G E r) c.field v0) σ (E := E) (enc := fun _ v => v) (dec := fun _ v _ => some v) (toId := some)
        (fun k hk' => by simp [keyed, hne k hk']) with hf | ⟨a, σ'', e1, e2⟩
      · have : (Store.perform (other E (fun _ v => v) (fun _ v _ => some v) some) t (.insert (keyed (cells G E r) c.field v0)) σ).1 = .failed := hf
        rw [e] at this; cases this
      · have e2' := e.symm.trans e2
        simp only [ha, Prod.mk.injEq] at e2'
        obtain ⟨e3, rfl⟩ := e2'
        refine ⟨_, ?_, by rw [perform, e1]; exact hkeep, by rw [perform, e1]; exact hn⟩
        have hknull : k ≠ E.null := by
          obtain ⟨rows, -, hh⟩ := hkeep
          obtain ⟨-, hgk, -⟩ := hh.stored [k] (keyed (cells G E r) c.field k) (by simp [put])
          have := hgk c hcm (by simp [hkp])
          simpa [keyed] using this
        simp only [Step, ha, perform, e1]
        refine ⟨k, hknull, hk1, rfl, ?_⟩
        by_cases hp : E.g.postgres = true
        · simp only [hp, if_true] at e3 ⊢
          have := query_sim (E := E) hs hG r (keyed (cells G E r) c.field v0) a
          rw [raw_other, ← e3] at this
          exact this
        · simp only [hp, Bool.false_eq_true, if_false] at e3 ⊢
          have := auto_sim (E := E) (G := G) hs r (keyed (cells G E r) c.field v0) (c := c) (List.mem_map_of_mem hcm) a
          rw [raw_other, ← e3] at this
          obtain ⟨k', hk', has⟩ := this
          have := congrFun hk' c.field
          simp only [keyed, if_true] at this
          rw [this]; exact has
    | none =>
      have hg : Good (KeyCell E t) t (cells G E r) := by
        refine hgood r (ho.1.resolve_right ?_)
        rintro ⟨h1, -⟩
        obtain ⟨i, hi⟩ := Option.isSome_iff_exists.1 h1
        have := h.wf.auto i hi
        simp [Table.autoCol, hi, this] at ha
      obtain ⟨out, m', σ', e, hact, hkeep, hn⟩ := store_step (raw_setup h) hw hs.once hmade (.insert (cells G E r)) ⟨hg, by simp⟩ m σ hk
      simp only [Act, ha] at hact
      rw [raw_other] at e
      rcases insert_sim (G := G) hs r (cells G E r) σ (E := E) (enc := fun _ v => v) (dec := fun _ v _ => some v) (toId := some)
        (fun k hk' => rfl) with hf | ⟨a, σ'', e1, e2⟩
      · have : (Store.perform (other E (fun _ v => v) (fun _ v _ => some v) some) t (.insert (cells G E r)) σ).1 = .failed := hf
        rw [e] at this
        simp only [act] at hact
        split at hact <;> simp only [Prod.mk.injEq] at hact <;> rw [hact.1] at this <;> cases this
      · have e2' := e.symm.trans e2
        simp only [ha, Prod.mk.injEq] at e2'
        obtain ⟨e3, rfl⟩ := e2'
        refine ⟨m', ?_, by rw [perform, e1]; exact hkeep, by rw [perform, e1]; exact hn⟩
        simp only [Step, ha, perform, e1]
        have hq := query_sim (E := E) hs hG r (cells G E r) a
        have hx := exec_sim r (cells G E r) a
        rw [raw_other] at hq
        simp only [act] at hact
        by_cases hm : (m (keyOf t (cells G E r))).isSome = true
        · simp only [hm, if_true, Prod.mk.injEq] at hact ⊢
          obtain ⟨rfl, rfl⟩ := hact
          refine ⟨rfl, ?_⟩
          by_cases hp : E.g.postgres = true
          · simp only [hp, if_true] at e3 ⊢
            rw [← e3] at hq
            exact hq
          · simp only [hp, Bool.false_eq_true, if_false] at e3 ⊢
            rw [← e3] at hx
            rw [hx]
            exact ⟨rfl, rfl⟩
        · simp only [hm, Bool.false_eq_true, if_false, Prod.mk.injEq] at hact ⊢
          obtain ⟨rfl, rfl⟩ := hact
          refine ⟨rfl, ?_⟩
          by_cases hp : E.g.postgres = true
          · simp only [hp, if_true] at e3 ⊢
            rw [← e3] at hq
            exact hq
          · simp only [hp, Bool.false_eq_true, if_false] at e3 ⊢
            rw [← e3] at hx
            exact hx.2
  | find r =>
    obtain ⟨out, m', σ', e, hact, hkeep, hn⟩ := store_step (raw_setup h) hw hs.once hmade (.find (cells G E r))
      ⟨hgood r (ho.1.resolve_right (by simp)), by simp⟩ m σ hk
    simp only [Act] at hact
    rw [raw_other] at e
    rcases find_sim (G := G) hs r (cells G E r) σ (E := E) (enc := fun _ v => v) (dec := fun _ v _ => some v) (toId := some)
      (fun c hc => rfl) with hf | ⟨a, σ'', e1, e2⟩
    · have : (Store.perform (other E (fun _ v => v) (fun _ v _ => some v) some) t (.find (cells G E r)) σ).1 = .failed := hf
      rw [e] at this
      simp only [act] at hact
      split at hact <;> simp only [Prod.mk.injEq] at hact <;> rw [hact.1] at this <;> cases this
    · have e2' := e.symm.trans e2
      simp only [Prod.mk.injEq] at e2'
      obtain ⟨e3, rfl⟩ := e2'
      refine ⟨m', ?_, by rw [perform, e1]; exact hkeep, by rw [perform, e1]; exact hn⟩
      simp only [Step, perform, e1]
      have hq := query_sim (E := E) hs hG r (cells G E r) a
      rw [raw_other, ← e3] at hq
      simp only [act] at hact
      cases hm : m (keyOf t (cells G E r)) with
      | some s =>
        simp only [hm, Prod.mk.injEq] at hact ⊢
        obtain ⟨rfl, rfl⟩ := hact
        exact ⟨rfl, loads_load hq⟩
      | none =>
        simp only [hm, Prod.mk.injEq] at hact ⊢
        obtain ⟨rfl, rfl⟩ := hact
        exact ⟨rfl, hq⟩
  | update r =>
    obtain ⟨out, m', σ', e, hact, hkeep, hn⟩ := store_step (raw_setup h) hw hs.once hmade (.update (cells G E r))
      ⟨hgood r (ho.1.resolve_right (by simp)), fun _ _ => ho.2 r rfl⟩ m σ hk
    simp only [Act, act, Prod.mk.injEq] at hact
    obtain ⟨rfl, rfl⟩ := hact
    rw [raw_other] at e
    rcases update_sim (G := G) hs r (cells G E r) σ (E := E) (enc := fun _ v => v) (dec := fun _ v _ => some v) (toId := some)
      (fun c hc => rfl) with hf | ⟨a, σ'', e1, e2⟩
    · have : (Store.perform (other E (fun _ v => v) (fun _ v _ => some v) some) t (.update (cells G E r)) σ).1 = .failed := hf
      rw [e] at this; cases this
    · have e2' := e.symm.trans e2
      simp only [Prod.mk.injEq] at e2'
      obtain ⟨e3, rfl⟩ := e2'
      refine ⟨_, ?_, by rw [perform, e1]; exact hkeep, by rw [perform, e1]; exact hn⟩
      have hx := exec_sim r (cells G E r) a
      rw [← e3] at hx
      simp only [Step, perform, e1]
      exact ⟨hx.2, trivial⟩
  | delete r =>
    obtain ⟨out, m', σ', e, hact, hkeep, hn⟩ := store_step (raw_setup h) hw hs.once hmade (.delete (cells G E r))
      ⟨hgood r (ho.1.resolve_right (by simp)), by simp⟩ m σ hk
    simp only [Act, act, Prod.mk.injEq] at hact
    obtain ⟨rfl, rfl⟩ := hact
    rw [raw_other] at e
    rcases delete_sim (G := G) hs r (cells G E r) σ (E := E) (enc := fun _ v => v) (dec := fun _ v _ => some v) (toId := some)
      (fun c hc => rfl) with hf | ⟨a, σ'', e1, e2⟩
    · have : (Store.perform (other E (fun _ v => v) (fun _ v _ => some v) some) t (.delete (cells G E r)) σ).1 = .failed := hf
      rw [e] at this; cases this
    · have e2' := e.symm.trans e2
      simp only [Prod.mk.injEq] at e2'
      obtain ⟨e3, rfl⟩ := e2'
      refine ⟨_, ?_, by rw [perform, e1]; exact hkeep, by rw [perform, e1]; exact hn⟩
      have hx := exec_sim r (cells G E r) a
      rw [← e3] at hx
      simp only [Step, perform, e1]
      exact ⟨hx.2, trivial⟩

/-! ## Structs with nil pointers -/

omit [DecidableEq V] in
/-- C102: whichever pointers of a struct are nil, its values are read without a panic, and they are NULL exactly for fields that do
not exist or are nil pointers. -/
theorem C102_arguments (hs : Struct (genAddrs t)) (r : Obj X) (fs : List Path) (hf : ∀ c ∈ fs, c ∈ genAddrs t) :
    args G E (genAddrs t) r fs = .ok (fs.map (cells G E r)) :=
  args_eq hs E r fs hf

/-- C102: `Addrs` never panics; afterwards all fields exist, those that existed have their values, and the others are zero. -/
theorem C102_addrs (hs : Struct (genAddrs t)) (hG : Lawful G (genAddrs t)) (r : Obj X) :
    ∃ r', Embed.addrs G (genAddrs t) r = .ok r' ∧ Opened G (genAddrs t) r r' :=
  addrs_ok hs hG r

/-- C102: sequences of calls, with structs of which any pointers may be nil, do with the rows of the table what `Step` says, and with
no others. -/
theorem C102_steps (h : Typed.Shape E.g E.D t) (hw : AllWritten t) (hs : Struct (genAddrs t)) (hG : Lawful G (genAddrs t))
    (hauto : ∀ c, t.autoCol = some c → pick t (insertPos t) ≠ [] ∧ Makes E t c) (os : List (Call X)) (ho : ∀ o ∈ os, Given G E t o)
    (m : Map Path V) (σ : Sql.Store V) (hk : Store.Keeps (raw E) (KeyCell E t) t m σ) :
    ∃ m', Steps G E t os m (performs G E t os σ).1 m' ∧ Store.Keeps (raw E) (KeyCell E t) t m' (performs G E t os σ).2 ∧
      ∀ n, n ≠ tableName E.D t → (performs G E t os σ).2 n = σ n := by
  induction os generalizing m σ with
  | nil => exact ⟨m, .nil, hk, fun _ _ => rfl⟩
  | cons o os ih =>
    obtain ⟨m', h1, h2, h3⟩ := struct_step h hw hs hG hauto o (ho o (by simp)) m σ hk
    obtain ⟨m'', h4, h5, h6⟩ := ih (fun o ho' => ho o (by simp [ho'])) m' _ h2
    exact ⟨m'', .cons h1 h4, h5, fun n hn => by rw [← h3 n hn]; exact h6 n hn⟩

/-! ## Structs without nil embedded pointers -/

omit [DecidableEq V] in
theorem cells_whole (hnil : ∀ c ∈ genAddrs t, lastPtr c = true → ∀ x, G.isNil x = true → E.enc c x = E.null) {r : Obj X}
    (hr : Whole (genAddrs t) r) {c : Path} (hc : c ∈ genAddrs t) : E.enc c (r.val c) = cells G E r c := by
  unfold cells
  by_cases h : Present G r c
  · rw [if_pos h]
  · rw [if_neg h]
    have : lastPtr c = true ∧ G.isNil (r.val c) = true := by
      by_contra hn
      exact h ⟨hr c hc, hn⟩
    exact hnil c hc this.1 _ this.2

open Classical in
/-- Reading of values that were written. -/
noncomputable def careful (E : Store.Env Path X V) (Ok : Path → X → Prop) : Path → V → X → Option X := fun c v old =>
  if ∃ x, Ok c x ∧ E.enc c x = v then E.dec c v old else none

omit [DecidableEq V] in
theorem careful_setup {Ok : Path → X → Prop} (h : Store.Setup E t Ok) : Store.Setup (other E E.enc (careful E Ok) E.toId) t Ok where
  wf := h.wf
  key := h.key
  named := h.named
  bare := h.bare
  plain := h.plain
  names := h.names
  single := h.single
  back := fun c hc x old hx => by
    show careful E Ok c.field (E.enc c.field x) old = some x
    unfold careful
    rw [if_pos ⟨x, hx, rfl⟩]
    exact h.back c hc x old hx
  keyed := h.keyed

omit [DecidableEq V] in
private theorem careful_any {Ok : Path → X → Prop} (h : Store.Setup E t Ok) {c : Path} (hc : c ∈ genAddrs t) {v : V} {x old : X}
    (hd : careful E Ok c v old = some x) (old' : X) : E.dec c v old' = some x := by
  unfold careful at hd
  split at hd
  · rename_i hx
    obtain ⟨y, hy, rfl⟩ := hx
    obtain ⟨k, hk, rfl⟩ := List.mem_map.1 hc
    rw [h.back k hk y old hy] at hd
    rw [h.back k hk y old' hy, hd]
  · cases hd

omit [DecidableEq V] in
theorem careful_scan {Ok : Path → X → Prop} (h : Store.Setup E t Ok) (fs : List Path) (hf : ∀ c ∈ fs, c ∈ genAddrs t)
    (hn : fs.Nodup) : ∀ (v : List V) (s s' : Path → X) (r : Obj X), Store.scan (other E E.enc (careful E Ok) E.toId) fs v s = some s' →
      (scan E fs v r).1 = true ∧ (scan E fs v r).2.mem = r.mem ∧ (∀ c ∈ fs, (scan E fs v r).2.val c = s' c) ∧
      ∀ c, c ∉ fs → (scan E fs v r).2.val c = r.val c ∧ s' c = s c := by
  induction fs with
  | nil =>
    intro v s s' r hv
    cases v with
    | nil =>
      simp only [Store.scan, Option.some.injEq] at hv
      subst hv
      exact ⟨rfl, rfl, by simp, fun c _ => ⟨rfl, rfl⟩⟩
    | cons => simp [Store.scan] at hv
  | cons f fs ih =>
    intro v s s' r hv
    obtain ⟨hff, hn⟩ := List.nodup_cons.1 hn
    cases v with
    | nil => simp [Store.scan] at hv
    | cons x v =>
      simp only [Store.scan] at hv
      obtain ⟨y, hy, hv⟩ := Option.bind_eq_some_iff.1 hv
      have hy' := careful_any h (hf f (by simp)) hy (r.val f)
      obtain ⟨h1, h2, h3, h4⟩ := ih (fun c hc => hf c (by simp [hc])) hn v _ s' (r.set f y) hv
      simp only [scan, hy']
      refine ⟨h1, h2, fun c hc => ?_, fun c hc => ?_⟩
      · rcases List.mem_cons.1 hc with rfl | hc
        · rw [(h4 c hff).1, (h4 c hff).2]; simp [Obj.set, Store.setField]
        · exact h3 c hc
      · simp only [List.mem_cons, not_or] at hc
        rw [(h4 c hc.2).1, (h4 c hc.2).2]
        simp [Obj.set, Store.setField, hc.1]

omit [DecidableEq V] in
theorem careful_query {Ok : Path → X → Prop} (h : Store.Setup E t Ok) (hs : Struct (genAddrs t)) (hG : Lawful G (genAddrs t))
    (r : Obj X) (s : Path → X) (a : Sql.Ans V) {out : Out (Path → X)} (hne : out ≠ .failed)
    (ho : Store.queryRow (other E E.enc (careful E Ok) E.toId) t s a = out) : EndsAs (genAddrs t) (queryRow G E t r a) out := by
  obtain ⟨r', h1, h2⟩ := addrs_ok hs hG r
  subst ho
  unfold queryRow
  rw [h1]
  cases a with
  | rows vs =>
    cases vs with
    | nil => rfl
    | cons v vs =>
      simp only [Store.queryRow] at hne ⊢
      cases hsc : Store.scan (other E E.enc (careful E Ok) E.toId) (genAddrs t) v s with
      | none => rw [hsc] at hne; exact absurd rfl hne
      | some s' =>
        obtain ⟨g1, g2, g3, -⟩ := careful_scan h (genAddrs t) (fun _ hc => hc) hs.once v s s' r' hsc
        rcases hr : scan E (genAddrs t) v r' with ⟨b, r''⟩
        rw [hr] at g1 g2 g3
        simp only at g1
        subst g1
        refine ⟨rfl, fun c hc p hp hne => ?_, g3⟩
        show r''.mem _ = true
        rw [g2]
        exact (h2 c hc).1 p hp hne
  | done => rfl
  | duplicate => rfl
  | refused => exact absurd rfl hne

omit [DecidableEq V] in
private theorem careful_exec (r : Obj X) (hr : Whole (genAddrs t) r) (a : Sql.Ans V) : EndsAs (genAddrs t) (execOnly r a) (Store.execOnly r.val a) := by
  cases a <;> simp [Store.execOnly, execOnly, EndsAs, hr]

omit [DecidableEq V] in
private theorem careful_auto {dec : Path → V → X → Option X} (hs : Struct (genAddrs t)) (r : Obj X) (hr : Whole (genAddrs t) r) {c : GCol Path}
    (hc : c.field ∈ genAddrs t) (a : Sql.Ans V) :
    EndsAs (genAddrs t) (execAuto G E (genAddrs t) c r a) (Store.execAuto (other E E.enc dec E.toId) c r.val a) := by
  cases a with
  | done v =>
    cases v with
    | none => rfl
    | some k =>
      simp only [execAuto, Store.execAuto, other]
      cases hx : E.toId k with
      | none => rfl
      | some x =>
        simp only [if_pos ((reached_iff (G := G) hs r hc).1 (hr _ hc))]
        exact ⟨rfl, fun d hd => hr d hd, fun d _ => rfl⟩
  | _ => rfl

private theorem whole_step [DecidableEq X] {Ok : Path → X → Prop} (h : Store.Setup E t Ok) (hw : AllWritten t) (hs : Struct (genAddrs t))
    (hG : Lawful G (genAddrs t)) (hnil : ∀ c ∈ genAddrs t, lastPtr c = true → ∀ x, G.isNil x = true → E.enc c x = E.null)
    (hauto : ∀ c, t.autoCol = some c → pick t (insertPos t) ≠ [] ∧ Store.MadeUp E t Ok c) (o : Call X) (ho : Solid Ok t o)
    (m : Map Path X) (σ : Sql.Store V) (hk : Store.Keeps E Ok t m σ) :
    ∃ out m', Act t (opOf o) m out m' ∧ EndsAs (genAddrs t) (perform G E t o σ).1 out ∧ Store.Keeps E Ok t m' (perform G E t o σ).2 ∧
      ∀ n, n ≠ tableName E.D t → (perform G E t o σ).2 n = σ n := by
  obtain ⟨hwh, hf⟩ := ho
  obtain ⟨out, m', σ', e, hact, hkeep, hn⟩ := store_step (careful_setup h) hw hs.once hauto (opOf o) hf m σ hk
  refine ⟨out, m', hact, ?_⟩
  have hne : out ≠ .failed := by
    rintro rfl
    have hno : ∀ (o : Spec.Store.Op Path X) (m : Map Path X), (act t o m).1 ≠ .failed := by
      intro o m
      cases o <;> simp only [act]
      · split <;> simp
      · split <;> simp
      · simp
      · simp
    unfold Act at hact
    split at hact
    · obtain ⟨x, -, hx⟩ := hact
      cases hx
    · exact hno _ _ (by rw [← hact])
  cases o with
  | insert r =>
    rcases insert_sim (G := G) (E := E) (enc := E.enc) (dec := careful E Ok) (toId := E.toId) hs r r.val σ
      (fun k hk' => cells_whole hnil hwh (List.mem_map_of_mem (insert_mem hk'))) with hff | ⟨a, σ'', e1, e2⟩
    · have : (Store.perform (other E E.enc (careful E Ok) E.toId) t (.insert r.val) σ).1 = .failed := hff
      simp only [opOf] at e
      rw [e] at this
      exact absurd this hne
    · have e2' := e.symm.trans e2
      simp only [Prod.mk.injEq] at e2'
      obtain ⟨e3, rfl⟩ := e2'
      simp only [perform, e1]
      refine ⟨?_, hkeep, hn⟩
      by_cases hp : E.g.postgres = true
      · simp only [hp, if_true] at e3 ⊢
        exact careful_query h hs hG r r.val a hne e3.symm
      · simp only [hp, Bool.false_eq_true, if_false] at e3 ⊢
        cases ha : t.autoCol with
        | some c =>
          simp only [ha] at e3 ⊢
          rw [e3]
          exact careful_auto hs r hwh (List.mem_map_of_mem (auto_mem ha)) a
        | none =>
          simp only [ha] at e3 ⊢
          rw [e3]
          exact careful_exec r hwh a
  | find r =>
    rcases find_sim (G := G) (E := E) (enc := E.enc) (dec := careful E Ok) (toId := E.toId) hs r r.val σ
      (fun c hc => cells_whole hnil hwh hc) with hff | ⟨a, σ'', e1, e2⟩
    · have : (Store.perform (other E E.enc (careful E Ok) E.toId) t (.find r.val) σ).1 = .failed := hff
      simp only [opOf] at e
      rw [e] at this
      exact absurd this hne
    · have e2' := e.symm.trans e2
      simp only [Prod.mk.injEq] at e2'
      obtain ⟨e3, rfl⟩ := e2'
      simp only [perform, e1]
      exact ⟨careful_query h hs hG r r.val a hne e3.symm, hkeep, hn⟩
  | update r =>
    rcases update_sim (G := G) (E := E) (enc := E.enc) (dec := careful E Ok) (toId := E.toId) hs r r.val σ
      (fun c hc => cells_whole hnil hwh hc) with hff | ⟨a, σ'', e1, e2⟩
    · have : (Store.perform (other E E.enc (careful E Ok) E.toId) t (.update r.val) σ).1 = .failed := hff
      simp only [opOf] at e
      rw [e] at this
      exact absurd this hne
    · have e2' := e.symm.trans e2
      simp only [Prod.mk.injEq] at e2'
      obtain ⟨e3, rfl⟩ := e2'
      simp only [perform, e1]
      exact ⟨by rw [e3]; exact careful_exec r hwh a, hkeep, hn⟩
  | delete r =>
    rcases delete_sim (G := G) (E := E) (enc := E.enc) (dec := careful E Ok) (toId := E.toId) hs r r.val σ
      (fun c hc => cells_whole hnil hwh hc) with hff | ⟨a, σ'', e1, e2⟩
    · have : (Store.perform (other E E.enc (careful E Ok) E.toId) t (.delete r.val) σ).1 = .failed := hff
      simp only [opOf] at e
      rw [e] at this
      exact absurd this hne
    · have e2' := e.symm.trans e2
      simp only [Prod.mk.injEq] at e2'
      obtain ⟨e3, rfl⟩ := e2'
      simp only [perform, e1]
      exact ⟨by rw [e3]; exact careful_exec r hwh a, hkeep, hn⟩

/-- C102, partial: with structs none of whose embedded pointers is nil, calls give what operations on a map from keys to records give;
fields that are pointers may be nil. -/
theorem C102_records_partial [DecidableEq X] {Ok : Path → X → Prop} (h : Store.Setup E t Ok) (hw : AllWritten t) (hs : Struct (genAddrs t))
    (hG : Lawful G (genAddrs t)) (hnil : ∀ c ∈ genAddrs t, lastPtr c = true → ∀ x, G.isNil x = true → E.enc c x = E.null)
    (hauto : ∀ c, t.autoCol = some c → pick t (insertPos t) ≠ [] ∧ Store.MadeUp E t Ok c) (os : List (Call X)) (ho : ∀ o ∈ os, Solid Ok t o)
    (m : Map Path X) (σ : Sql.Store V) (hk : Store.Keeps E Ok t m σ) :
    ∃ outs m', Acts t (os.map opOf) m outs m' ∧ List.Forall₂ (EndsAs (genAddrs t)) (performs G E t os σ).1 outs ∧
      Store.Keeps E Ok t m' (performs G E t os σ).2 ∧ ∀ n, n ≠ tableName E.D t → (performs G E t os σ).2 n = σ n := by
  induction os generalizing m σ with
  | nil => exact ⟨[], m, .nil, .nil, hk, fun _ _ => rfl⟩
  | cons o os ih =>
    obtain ⟨out, m', h1, h2, h3, h4⟩ := whole_step h hw hs hG hnil hauto o (ho o (by simp)) m σ hk
    obtain ⟨outs, m'', h5, h6, h7, h8⟩ := ih (fun o ho' => ho o (by simp [ho'])) m' _ h3
    exact ⟨out :: outs, m'', .cons h1 h5, .cons h2 h6, h7, fun n hn => by rw [← h4 n hn]; exact h8 n hn⟩

end Verif.Props
