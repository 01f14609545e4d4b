import Verif.Props.Embed

/-! # C102: what embedded pointers lose -/

namespace Verif.Props

open Verif Verif.Addrs Verif.Gen Verif.Embed Verif.Spec Verif.Spec.Gen Verif.Spec.Store Verif.Spec.Embed

variable {X V : Type} [DecidableEq V] {G : Values X} {E : Store.Env Path X V} {t : Table Path}

/-- C102, refuted for nil embedded pointers: after a `FindByPK` that does not fail none is nil, whatever was stored. -/
theorem C102_never_nil (hs : Struct (genAddrs t)) (hG : Lawful G (genAddrs t)) (r : Obj X) (σ : Sql.Store V)
    (h : (findByPK G E t r σ).1.1 = .ok) : Whole (genAddrs t) (findByPK G E t r σ).1.2 := by
  have hscan : ∀ (cs : List Path) (vs : List V) (r : Obj X), (scan E cs vs r).2.mem = r.mem := by
    intro cs
    induction cs with
    | nil => intro vs r; cases vs <;> rfl
    | cons c cs ih =>
      intro vs r
      cases vs with
      | nil => rfl
      | cons v vs =>
        simp only [scan]
        split
        · rw [ih]; rfl
        · rfl
  have hq : ∀ a : Sql.Ans V, (queryRow G E t r a).1 = .ok → Whole (genAddrs t) (queryRow G E t r a).2 := by
    intro a ha
    obtain ⟨r', h1, h2⟩ := addrs_ok hs hG r
    unfold queryRow at ha ⊢
    rw [h1] at ha ⊢
    cases a with
    | rows l =>
      cases l with
      | nil => cases ha
      | cons v l =>
        simp only at ha ⊢
        have := hscan (genAddrs t) v r'
        rcases hr : scan E (genAddrs t) v r' with ⟨b, r''⟩
        rw [hr] at ha this
        cases b with
        | false => cases ha
        | true =>
          intro c hc p hp hne
          show r''.mem _ = true
          rw [this]
          exact (h2 c hc).1 p hp hne
    | done => cases ha
    | duplicate => cases ha
    | refused => cases ha
  unfold findByPK at h ⊢
  split at h
  · split at h
    · exact hq _ h
    · cases h
  · cases h

/-- C102, refuted for structs with fields behind a nil embedded pointer that do not accept NULL: once such a struct was inserted,
`FindByPK` fails for its key; on PostgreSQL `InsertOne` already returns an error, although the row is stored. -/
theorem C102_unreadable (h : Typed.Shape E.g E.D t) (hw : AllWritten t) (ha : t.auto = none) (hs : Struct (genAddrs t))
    (hG : Lawful G (genAddrs t)) (r r' : Obj X) (hr : ∀ c ∈ pick t (keyPos t), cells G E r c.field ≠ E.null)
    (hkey : keyOf t (cells G E r') = keyOf t (cells G E r)) {c : Path} (hc : c ∈ genAddrs t) (hp : ¬ Present G r c)
    (hd : ∀ old, E.dec c E.null old = none) (m : Map Path V) (hm : m (keyOf t (cells G E r)) = none) (σ : Sql.Store V)
    (hk : Store.Keeps (raw E) (KeyCell E t) t m σ) :
    (E.g.postgres = false → (insertOne G E t r σ).1 = (.ok, r)) ∧
    (E.g.postgres = true → (insertOne G E t r σ).1.1 = .failed) ∧
    Store.Keeps (raw E) (KeyCell E t) t (put m (keyOf t (cells G E r)) (some (cells G E r))) (insertOne G E t r σ).2 ∧
    (findByPK G E t r' (insertOne G E t r σ).2).1.1 = .failed := by
  have hac : t.autoCol = none := by simp [Table.autoCol, ha]
  have hr' : ∀ c ∈ pick t (keyPos t), cells G E r' c.field ≠ E.null := by
    intro d hd'
    have := List.map_inj_left.1 hkey d hd'
    rw [this]; exact hr d hd'
  have hcell : cells G E r c = E.null := by unfold cells; rw [if_neg hp]
  obtain ⟨m', h1, h2, -⟩ := C102_steps h hw hs hG (fun c hc => by rw [hac] at hc; cases hc) [.insert r, .find r']
    (by simp only [List.mem_cons, List.not_mem_nil, or_false]
        rintro o (rfl | rfl)
        · exact ⟨.inl hr, by simp⟩
        · exact ⟨.inl hr', by simp⟩) m σ hk
  obtain ⟨m1, i1, i2, -⟩ := C102_steps h hw hs hG (fun c hc => by rw [hac] at hc; cases hc) [.insert r]
    (by simp only [List.mem_cons, List.not_mem_nil, or_false]
        rintro o rfl
        exact ⟨.inl hr, by simp⟩) m σ hk
  simp only [performs, perform] at h1 i1 i2
  cases h1 with
  | cons s1 s2 =>
    cases s2 with
    | cons s2 s3 =>
      cases i1 with
      | cons j1 j2 =>
        cases j2
        have hm' : ¬ (m (keyOf t (cells G E r))).isSome = true := by simp [hm]
        simp only [Step, hac, hm', Bool.false_eq_true, if_false] at s1 j1
        obtain ⟨rfl, s1⟩ := s1
        obtain ⟨rfl, -⟩ := j1
        refine ⟨fun hpg => ?_, fun hpg => ?_, i2, ?_⟩
        · simpa [hpg] using s1
        · simp only [hpg, if_true] at s1
          rcases s1 with ⟨-, g⟩ | ⟨g, -⟩
          · have := (g c hc).2
            rw [hcell, hd] at this
            cases this
          · exact g
        · simp only [Step, hkey, put, if_true] at s2
          rcases s2.2 with ⟨-, g⟩ | ⟨g, -⟩
          · have := (g c hc).2
            rw [hcell, hd] at this
            cases this
          · exact g

/-- C102, refuted for keys made up by the database that are behind a nil embedded pointer: `InsertOne` panics, with the row stored. -/
theorem C102_key_panics (h : Typed.Shape E.g E.D t) (hw : AllWritten t) (hs : Struct (genAddrs t)) (hG : Lawful G (genAddrs t))
    {c : GCol Path} (hac : t.autoCol = some c) (hi : pick t (insertPos t) ≠ []) (hmake : Makes E t c) (hid : ∀ k, (E.toId k).isSome)
    (hpg : E.g.postgres = false) (r : Obj X) (hr : ¬ Reached r c.field) (m : Map Path V) (σ : Sql.Store V)
    (hk : Store.Keeps (raw E) (KeyCell E t) t m σ) :
    (insertOne G E t r σ).1 = (.panics, r) ∧ ∃ k, m [k] = none ∧
      Store.Keeps (raw E) (KeyCell E t) t (put m [k] (some (keyed (cells G E r) c.field k))) (insertOne G E t r σ).2 := by
  obtain ⟨m', h1, h2, -⟩ := C102_steps h hw hs hG (fun d hd => by rw [hac] at hd; cases hd; exact ⟨hi, hmake⟩) [.insert r]
    (by simp only [List.mem_cons, List.not_mem_nil, or_false]
        rintro o rfl
        obtain ⟨i, e, -⟩ := Option.bind_eq_some_iff.1 (show t.auto.bind (t.columns[·]?) = some c from hac)
        exact ⟨.inr ⟨by simp [e], r, rfl⟩, by simp⟩) m σ hk
  simp only [performs, perform] at h1 h2
  cases h1 with
  | cons s1 s2 =>
    cases s2
    simp only [Step, hac, hpg, Bool.false_eq_true, if_false] at s1
    obtain ⟨k, -, hk2, rfl, s1⟩ := s1
    refine ⟨?_, k, hk2, h2⟩
    unfold Assigns at s1
    obtain ⟨x, hx⟩ := Option.isSome_iff_exists.1 (hid k)
    rw [hx] at s1
    rcases s1 with ⟨g, -⟩ | ⟨-, g⟩
    · exact absurd g hr
    · exact g

/-- C102: where there is no record, `FindByPK` allocates the pointers of the struct all the same.  If the struct is then inserted, its
columns that had no value are not NULL, but have the zero value. -/
theorem C102_find_or_create (h : Typed.Shape E.g E.D t) (hw : AllWritten t) (ha : t.auto = none) (hs : Struct (genAddrs t))
    (hG : Lawful G (genAddrs t)) (r : Obj X) (hr : ∀ c ∈ pick t (keyPos t), Present G r c.field ∧ E.enc c.field (r.val c.field) ≠ E.null)
    (m : Map Path V) (hm : m (keyOf t (cells G E r)) = none) (σ : Sql.Store V) (hk : Store.Keeps (raw E) (KeyCell E t) t m σ) :
    (findByPK G E t r σ).1.1 = .noRows ∧
    ∃ s, Store.Keeps (raw E) (KeyCell E t) t (put m (keyOf t (cells G E r)) (some s))
        (insertOne G E t (findByPK G E t r σ).1.2 (findByPK G E t r σ).2).2 ∧
      ∀ c ∈ genAddrs t, s c = E.enc c (start G r c) := by
  have hac : t.autoCol = none := by simp [Table.autoCol, ha]
  have hcell : ∀ c ∈ pick t (keyPos t), cells G E r c.field = E.enc c.field (r.val c.field) := fun c hc => by
    unfold cells; rw [if_pos (hr c hc).1]
  obtain ⟨m1, h1, h2, -⟩ := C102_steps h hw hs hG (fun c hc => by rw [hac] at hc; cases hc) [.find r]
    (by simp only [List.mem_cons, List.not_mem_nil, or_false]
        rintro o rfl
        exact ⟨.inl fun c hc => by simp only [record]; rw [hcell c hc]; exact (hr c hc).2, by simp⟩) m σ hk
  simp only [performs, perform] at h1 h2
  cases h1 with
  | cons s1 s2 =>
    cases s2
    simp only [Step, hm] at s1
    obtain ⟨rfl, hno, hop⟩ := s1
    refine ⟨hno, cells G E (findByPK G E t r σ).1.2, ?_, ?_⟩
    case refine_2 =>
      intro c hc
      obtain ⟨g1, g2⟩ := hop c hc
      unfold cells
      by_cases hp : Present G (findByPK G E t r σ).1.2 c
      · rw [if_pos hp, g2]
      · exfalso
        apply hp
        refine ⟨g1, ?_⟩
        rintro ⟨hl, hn⟩
        rw [g2] at hn
        unfold start at hn
        split at hn
        · rename_i hp'
          exact hp'.2 ⟨hl, hn⟩
        · have hl2 := hl
          rw [(hG c hc hl).2] at hn
          cases hn
    case refine_1 =>
      have hks : ∀ c ∈ pick t (keyPos t), cells G E (findByPK G E t r σ).1.2 c.field = cells G E r c.field := by
        intro c hc
        obtain ⟨g1, g2⟩ := hop c.field (List.mem_map_of_mem (Store.mem_of_pick hc))
        have hp := (hr c hc).1
        have e : (findByPK G E t r σ).1.2.val c.field = r.val c.field := by
          rw [g2]; unfold start; rw [if_pos hp]
        unfold cells
        rw [if_pos hp, if_pos, e]
        exact ⟨g1, by rw [e]; exact hp.2⟩
      have hkey : keyOf t (cells G E (findByPK G E t r σ).1.2) = keyOf t (cells G E r) := List.map_congr_left hks
      obtain ⟨m2, i1, i2, -⟩ := C102_steps h hw hs hG (fun c hc => by rw [hac] at hc; cases hc) [.insert (findByPK G E t r σ).1.2]
        (by simp only [List.mem_cons, List.not_mem_nil, or_false]
            rintro o rfl
            exact ⟨.inl fun c hc => by simp only [record]; rw [hks c hc, hcell c hc]; exact (hr c hc).2, by simp⟩) _ _ h2
      simp only [performs, perform] at i1 i2
      cases i1 with
      | cons j1 j2 =>
        cases j2
        have hm' : ¬ (m1 (keyOf t (cells G E (findByPK G E t r σ).1.2))).isSome = true := by simp [hkey, hm]
        simp only [Step, hac, hm', Bool.false_eq_true, if_false] at j1
        obtain ⟨rfl, -⟩ := j1
        rw [hkey] at i2
        exact i2

end Verif.Props
