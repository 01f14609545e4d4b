import Verif.Lemmas.Embed
import Verif.Spec.Typed
import Verif.Props.Store

/-! # Calls with structs send the statements of calls with records -/

namespace Verif.Embed

open Verif Verif.Addrs Verif.Gen Verif.Props Verif.Spec Verif.Spec.Gen Verif.Spec.Store Verif.Spec.Embed

variable {X Y V : Type} {G : Values X} {E : Store.Env Path X V} {t : Table Path}

/-! ## Fields of statements -/

theorem insert_fields {text : Txt} {fs : List Path} (h : E.g.genInsertOne t = .ok (text, fs)) : fs = t.insertColumns.map (·.field) := by
  unfold Cfg.genInsertOne at h
  simp only [Res.bind_eq_ok] at h
  obtain ⟨_, -, _, -, h⟩ := h
  split at h
  · obtain ⟨_, -, h⟩ := Res.bind_eq_ok.1 h
    split at h <;> simp only [Res.ok.injEq, Prod.mk.injEq] at h <;> exact h.2.symm
  · rw [Res.ok_bind] at h
    split at h <;> simp only [Res.ok.injEq, Prod.mk.injEq] at h <;> exact h.2.symm

theorem insert_mem {k : GCol Path} (hk : k ∈ t.insertColumns) : k ∈ t.columns := by
  rw [insertColumns_eq] at hk
  exact Store.mem_of_pick hk

theorem keyCol_mem {k : GCol Path} (h : k ∈ t.keyCols) : k ∈ t.columns := by
  unfold Table.keyCols at h
  obtain ⟨i, -, hi⟩ := List.mem_filterMap.1 h
  exact List.mem_of_getElem? hi

theorem auto_mem {k : GCol Path} (h : t.autoCol = some k) : k ∈ t.columns := by
  unfold Table.autoCol at h
  obtain ⟨i, -, hi⟩ := Option.bind_eq_some_iff.1 h
  exact List.mem_of_getElem? hi

theorem keyFields_mem : ∀ c ∈ keyFields t, c ∈ genAddrs t := by
  intro c hc
  unfold keyFields at hc
  cases ha : t.autoCol with
  | some k =>
    simp only [ha, List.mem_singleton] at hc
    rw [hc]
    exact List.mem_map_of_mem (auto_mem ha)
  | none =>
    simp only [ha, List.mem_map] at hc
    obtain ⟨k, hk, rfl⟩ := hc
    exact List.mem_map_of_mem (keyCol_mem hk)

theorem find_fields {text : Txt} {fs : List Path} (h : E.g.genFindByPK t = .ok (text, fs)) : ∀ c ∈ fs, c ∈ genAddrs t := by
  have hf : fs = keyFields t := by
    unfold Cfg.genFindByPK at h
    obtain ⟨_, -, h⟩ := Res.bind_eq_ok.1 h
    unfold keyFields
    rcases ha : t.autoCol with - | k
    · rcases hk : t.keyCols with - | ⟨k, - | ⟨k', ks⟩⟩ <;> simp only [ha, hk] at h ⊢
      · obtain ⟨_, -, h⟩ := Res.bind_eq_ok.1 h
        simp only [Res.ok_bind, Res.ok.injEq, Prod.mk.injEq] at h
        exact h.2.symm
      · simp only [Res.ok_bind, Res.ok.injEq, Prod.mk.injEq] at h
        exact h.2.symm
      · obtain ⟨_, -, h⟩ := Res.bind_eq_ok.1 h
        simp only [Res.ok_bind, Res.ok.injEq, Prod.mk.injEq] at h
        exact h.2.symm
    · simp only [ha, Res.ok_bind, Res.ok.injEq, Prod.mk.injEq] at h
      exact h.2.symm
  rw [hf]
  exact keyFields_mem

theorem update_fields {text : Txt} {fs : List Path} (h : E.g.genUpdateByPK t = .ok (text, fs)) : ∀ c ∈ fs, c ∈ genAddrs t := by
  unfold Cfg.genUpdateByPK at h
  obtain ⟨_, -, h⟩ := Res.bind_eq_ok.1 h
  have hw : ∀ k ∈ t.columnsWithoutPK, k.field ∈ genAddrs t := by
    intro k hk
    refine List.mem_map_of_mem ?_
    unfold Table.columnsWithoutPK at hk
    obtain ⟨p, hp, rfl⟩ := List.mem_map.1 hk
    exact List.mem_of_getElem? (List.mem_zipIdx_iff_getElem?.1 (List.mem_of_mem_filter hp))
  intro c hc
  split at h
  · rename_i ha
    simp only [Res.ok_bind, Res.ok.injEq, Prod.mk.injEq] at h
    rw [← h.2] at hc
    obtain ⟨k, hk, rfl⟩ := List.mem_map.1 hc
    rcases List.mem_append.1 hk with hk | hk
    · exact hw k hk
    · exact List.mem_map_of_mem (auto_mem (by rw [ha, List.mem_singleton.1 hk]))
  · rename_i hkk
    simp only [Res.ok_bind, Res.ok.injEq, Prod.mk.injEq] at h
    rw [← h.2] at hc
    obtain ⟨k, hk, rfl⟩ := List.mem_map.1 hc
    rcases List.mem_append.1 hk with hk | hk
    · exact hw k hk
    · exact List.mem_map_of_mem (keyCol_mem (by rw [hkk]; exact hk))
  · obtain ⟨_, -, h⟩ := Res.bind_eq_ok.1 h
    simp only [Res.ok_bind, Res.ok.injEq, Prod.mk.injEq] at h
    rw [← h.2] at hc
    obtain ⟨k, hk, rfl⟩ := List.mem_map.1 hc
    rcases List.mem_append.1 hk with hk | hk
    · exact hw k hk
    · exact List.mem_map_of_mem (keyCol_mem hk)

/-- `DeleteByPK` looks at the key only. -/
theorem delete_congr (g : Cfg) (t : Table Path) (a b : Path → V) (h : ∀ c ∈ keyFields t, a c = b c) :
    Helpers.deleteByPK g.style (Helpers.ofTable g t : Helpers.Mdl (Path → V) V) a =
      Helpers.deleteByPK g.style (Helpers.ofTable g t : Helpers.Mdl (Path → V) V) b := by
  have hc : Helpers.keyCond g.style (Helpers.ofTable g t : Helpers.Mdl (Path → V) V) a =
      Helpers.keyCond g.style (Helpers.ofTable g t : Helpers.Mdl (Path → V) V) b := by
    unfold keyFields at h
    unfold Helpers.keyCond
    rcases ha : t.autoCol with - | k
    · rcases hk : t.keyCols with - | ⟨k, - | ⟨k', ks⟩⟩ <;>
        simp only [ha, hk, Helpers.ofTable, Cfg.genPK, genCompositeKey] at h ⊢
      · rw [h k.field (by simp)]
      · rw [List.map_congr_left h]
    · simp only [ha, Helpers.ofTable, Cfg.genPK] at h ⊢
      rw [h k.field (by simp)]
  unfold Helpers.deleteByPK
  rw [hc]

/-! ## The same statements -/

/-- The same generator and database, with other values of fields. -/
def other (E : Store.Env Path X V) (enc : Path → Y → V) (dec : Path → V → Y → Option Y) (toId : V → Option Y) : Store.Env Path Y V where
  g := E.g
  D := E.D
  null := E.null
  gen := E.gen
  enc := enc
  dec := dec
  toId := toId

variable [DecidableEq V] {enc : Path → Y → V} {dec : Path → V → Y → Option Y} {toId : V → Option Y}

omit [DecidableEq V] in
theorem other_postgres : (other E enc dec toId).g.postgres = E.g.postgres := rfl

theorem send_other (q : Txt × List V) (σ : Sql.Store V) :
    Store.sendTo (other E enc dec toId) (Sql.exec (other E enc dec toId).null (other E enc dec toId).gen) q σ = Store.send E q σ := rfl

theorem insert_sim (hs : Struct (genAddrs t)) (r : Obj X) (s : Path → Y) (σ : Sql.Store V)
    (h : ∀ k ∈ t.insertColumns, enc k.field (s k.field) = cells G E r k.field) :
    (Store.insertOne (other E enc dec toId) t s σ).1 = .failed ∨ ∃ (a : Sql.Ans V) (σ' : Sql.Store V),
      insertOne G E t r σ = (if E.g.postgres then queryRow G E t r a else
        match t.autoCol with
        | some c => execAuto G E (genAddrs t) c r a
        | none => execOnly r a, σ') ∧
      Store.insertOne (other E enc dec toId) t s σ = (if E.g.postgres then Store.queryRow (other E enc dec toId) t s a else
        match t.autoCol with
        | some c => Store.execAuto (other E enc dec toId) c s a
        | none => Store.execOnly s a, σ') := by
  cases hg : E.g.genInsertOne t with
  | ok q =>
    obtain ⟨text, fs⟩ := q
    have hg' : (other E enc dec toId).g.genInsertOne t = .ok (text, fs) := hg
    obtain rfl := insert_fields hg
    have ha : Store.args (other E enc dec toId) s (t.insertColumns.map (·.field)) = (t.insertColumns.map (·.field)).map (cells G E r) := by
      unfold Store.args
      rw [List.map_map, List.map_map]
      exact List.map_congr_left h
    refine .inr ⟨(Store.send E (text, (t.insertColumns.map (·.field)).map (cells G E r)) σ).1, (Store.send E (text, (t.insertColumns.map (·.field)).map (cells G E r)) σ).2, ?_, ?_⟩
    · simp only [insertOne, hg]
      rw [args_eq hs E r (t.insertColumns.map (·.field)) fun c hc => by
        obtain ⟨k, hk, rfl⟩ := List.mem_map.1 hc
        exact List.mem_map_of_mem (insert_mem hk)]
      cases t.autoCol <;> rfl
    · simp only [Store.insertOne, Store.insertVia, hg', ha, send_other, other_postgres]
      cases t.autoCol <;> rfl
  | err =>
    have hg' : (other E enc dec toId).g.genInsertOne t = .err := hg
    left; simp only [Store.insertOne, Store.insertVia, hg']
  | panic =>
    have hg' : (other E enc dec toId).g.genInsertOne t = .panic := hg
    left; simp only [Store.insertOne, Store.insertVia, hg']

theorem find_sim (hs : Struct (genAddrs t)) (r : Obj X) (s : Path → Y) (σ : Sql.Store V)
    (h : ∀ c ∈ genAddrs t, enc c (s c) = cells G E r c) :
    (Store.findByPK (other E enc dec toId) t s σ).1 = .failed ∨ ∃ (a : Sql.Ans V) (σ' : Sql.Store V),
      findByPK G E t r σ = (queryRow G E t r a, σ') ∧
      Store.findByPK (other E enc dec toId) t s σ = (Store.queryRow (other E enc dec toId) t s a, σ') := by
  cases hg : E.g.genFindByPK t with
  | ok q =>
    obtain ⟨text, fs⟩ := q
    have hg' : (other E enc dec toId).g.genFindByPK t = .ok (text, fs) := hg
    have ha : Store.args (other E enc dec toId) s fs = fs.map (cells G E r) :=
      List.map_congr_left fun c hc => h c (find_fields hg c hc)
    refine .inr ⟨(Store.send E (text, fs.map (cells G E r)) σ).1, (Store.send E (text, fs.map (cells G E r)) σ).2, ?_, ?_⟩
    · simp only [findByPK, hg]
      rw [args_eq hs E r _ (find_fields hg)]
    · simp only [Store.findByPK, Store.findVia, hg', ha]
      rfl
  | err =>
    have hg' : (other E enc dec toId).g.genFindByPK t = .err := hg
    left; simp only [Store.findByPK, Store.findVia, hg']
  | panic =>
    have hg' : (other E enc dec toId).g.genFindByPK t = .panic := hg
    left; simp only [Store.findByPK, Store.findVia, hg']

theorem update_sim (hs : Struct (genAddrs t)) (r : Obj X) (s : Path → Y) (σ : Sql.Store V)
    (h : ∀ c ∈ genAddrs t, enc c (s c) = cells G E r c) :
    (Store.updateByPK (other E enc dec toId) t s σ).1 = .failed ∨ ∃ (a : Sql.Ans V) (σ' : Sql.Store V),
      updateByPK G E t r σ = (execOnly r a, σ') ∧
      Store.updateByPK (other E enc dec toId) t s σ = (Store.execOnly s a, σ') := by
  cases hg : E.g.genUpdateByPK t with
  | ok q =>
    obtain ⟨text, fs⟩ := q
    have hg' : (other E enc dec toId).g.genUpdateByPK t = .ok (text, fs) := hg
    have ha : Store.args (other E enc dec toId) s fs = fs.map (cells G E r) :=
      List.map_congr_left fun c hc => h c (update_fields hg c hc)
    refine .inr ⟨(Store.send E (text, fs.map (cells G E r)) σ).1, (Store.send E (text, fs.map (cells G E r)) σ).2, ?_, ?_⟩
    · simp only [updateByPK, hg]
      rw [args_eq hs E r _ (update_fields hg)]
    · simp only [Store.updateByPK, Store.updateVia, hg', ha]
      rfl
  | err =>
    have hg' : (other E enc dec toId).g.genUpdateByPK t = .err := hg
    left; simp only [Store.updateByPK, Store.updateVia, hg']
  | panic =>
    have hg' : (other E enc dec toId).g.genUpdateByPK t = .panic := hg
    left; simp only [Store.updateByPK, Store.updateVia, hg']

theorem delete_sim (hs : Struct (genAddrs t)) (r : Obj X) (s : Path → Y) (σ : Sql.Store V)
    (h : ∀ c ∈ genAddrs t, enc c (s c) = cells G E r c) :
    (Store.deleteByPK (other E enc dec toId) t s σ).1 = .failed ∨ ∃ (a : Sql.Ans V) (σ' : Sql.Store V),
      deleteByPK G E t r σ = (execOnly r a, σ') ∧
      Store.deleteByPK (other E enc dec toId) t s σ = (Store.execOnly s a, σ') := by
  have h1 := delete_congr E.g t (keyArg G E (genAddrs t) r) (cells G E r) fun c hc => by
    simp only [keyArg, arg_eq hs E r (keyFields_mem c hc)]
  have h2 := delete_congr E.g t (fun c => enc c (s c)) (cells G E r) fun c hc => h c (keyFields_mem c hc)
  have e : Store.deleteByPK (other E enc dec toId) t s σ =
      match Helpers.deleteByPK E.g.style (Helpers.ofTable E.g t : Helpers.Mdl (Path → V) V) (fun c => enc c (s c)) with
      | .ok q => (Store.execOnly s (Store.send E q σ).1, (Store.send E q σ).2)
      | _ => (.failed, σ) := rfl
  rw [e, h2]
  unfold deleteByPK
  rw [args_eq hs E r _ keyFields_mem, h1]
  cases Helpers.deleteByPK E.g.style (Helpers.ofTable E.g t : Helpers.Mdl (Path → V) V) (cells G E r) with
  | ok q => exact .inr ⟨_, _, rfl, rfl⟩
  | err => exact .inl rfl
  | panic => exact .inl rfl

/-! ## One operation on records -/

theorem store_step {F X V : Type} [DecidableEq F] [DecidableEq X] [DecidableEq V] {E : Store.Env F X V} {t : Table F} {Ok : F → X → Prop}
    (h : Store.Setup E t Ok) (hw : AllWritten t) (hfs : (t.columns.map (·.field)).Nodup)
    (hauto : ∀ c, t.autoCol = some c → pick t (insertPos t) ≠ [] ∧ Store.MadeUp E t Ok c) (o : Spec.Store.Op F X) (hf : Store.Fine Ok t o)
    (m : Map F X) (σ : Sql.Store V) (hk : Store.Keeps E Ok t m σ) :
    ∃ out m' σ', Store.perform E t o σ = (out, σ') ∧ Act t o m out m' ∧ Store.Keeps E Ok t m' σ' ∧
      ∀ n, n ≠ tableName E.D t → σ' n = σ n := by
  by_cases hi : ∃ r, o = .insert r
  · obtain ⟨r, rfl⟩ := hi
    cases ha : t.autoCol with
    | some c =>
      obtain ⟨h1, h2⟩ := hauto c ha
      obtain ⟨rows, hσ, hh⟩ := hk
      exact Store.insert_auto h hw ha hfs h1 h2 hh hσ (r := r) hf.1
    | none =>
      have ha' : t.auto = none := by
        cases e : t.auto with
        | none => rfl
        | some i =>
          have := h.wf.auto i e
          simp [Table.autoCol, e, this] at ha
      obtain ⟨σ', e, hk'⟩ := Store.perform_ok h hw (.inl ha') hf hk
      exact ⟨_, _, σ', e, by simp [Act, ha], hk'⟩
  · have hi' : ∀ r, o ≠ .insert r := fun r e => hi ⟨r, e⟩
    obtain ⟨σ', e, hk'⟩ := Store.perform_ok h hw (.inr hi') hf hk
    refine ⟨_, _, σ', e, ?_, hk'⟩
    cases o with
    | insert r => exact absurd rfl (hi' r)
    | _ => simp [Act]

end Verif.Embed
