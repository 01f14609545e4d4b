import Verif.Spec.Migrate

/-! # Lemmas about migrations -/

namespace Verif.Spec.Migrate

open Verif.Migrate

def gnames (ms : List GoCol) : List Bytes := ms.map (·.name)

/-- The column of the table that a column of the model stands for, if it has to be altered. -/
def changed (ex : List DbCol) (m : GoCol) : Option (DbCol × GoCol) :=
  match ex.find? (fun c => c.name = m.name) with
  | some c => if m.type = c.type ∧ m.nullable = c.nullable then none else some (c, m)
  | none => none

theorem mem_names {t : List DbCol} {n : Bytes} : n ∈ names t ↔ ∃ c ∈ t, c.name = n := by
  simp [names]

theorem mem_gnames {t : List GoCol} {n : Bytes} : n ∈ gnames t ↔ ∃ c ∈ t, c.name = n := by
  simp [gnames]

theorem find_none {t : List DbCol} {n : Bytes} (h : t.find? (fun c => c.name = n) = none) : n ∉ names t := by
  intro hm
  obtain ⟨c, hc, e⟩ := mem_names.1 hm
  have := List.find?_eq_none.1 h c hc
  simp [e] at this

theorem find_some {t : List DbCol} {n : Bytes} {c : DbCol} (h : t.find? (fun c => c.name = n) = some c) : c ∈ t ∧ c.name = n :=
  ⟨List.mem_of_find?_eq_some h, by simpa using List.find?_some h⟩

theorem eraseP_eq_filter {t : List DbCol} {n : Bytes} (hn : (names t).Nodup) :
    t.eraseP (fun c => c.name = n) = t.filter (fun c => c.name ≠ n) := by
  induction t with
  | nil => rfl
  | cons c t ih =>
    simp only [names, List.map_cons, List.nodup_cons] at hn
    by_cases h : c.name = n
    · subst h
      rw [List.eraseP_cons_of_pos (by simp), List.filter_cons_of_neg (by simp), List.filter_eq_self.2]
      intro a ha
      have : a.name ≠ c.name := fun e => hn.1 (by rw [← e]; exact List.mem_map_of_mem ha)
      simp [this]
    · rw [List.eraseP_cons_of_neg (by simpa using h), List.filter_cons_of_pos (by simpa using h), ih hn.2]

theorem find_filter {t : List DbCol} {n n' : Bytes} (h : n' ≠ n) :
    (t.filter (fun c => c.name ≠ n)).find? (fun c => c.name = n') = t.find? (fun c => c.name = n') := by
  induction t with
  | nil => rfl
  | cons c t ih =>
    by_cases hc : c.name = n
    · rw [List.filter_cons_of_neg (by simpa using hc), ih, List.find?_cons_of_neg]
      simp only [decide_eq_true_eq, hc]
      exact fun e => h e.symm
    · rw [List.filter_cons_of_pos (by simpa using hc)]
      by_cases h2 : c.name = n'
      · rw [List.find?_cons_of_pos (by simpa using h2), List.find?_cons_of_pos (by simpa using h2)]
      · rw [List.find?_cons_of_neg (by simpa using h2), List.find?_cons_of_neg (by simpa using h2), ih]

theorem nodup_filter {t : List DbCol} (p : DbCol → Bool) (h : (names t).Nodup) : (names (t.filter p)).Nodup :=
  h.sublist (List.Sublist.map _ List.filter_sublist)

theorem filterMap_congr' {α β : Type} {f g : α → Option β} {l : List α} (h : ∀ a ∈ l, f a = g a) : l.filterMap f = l.filterMap g := by
  induction l with
  | nil => rfl
  | cons a l ih =>
    rw [List.filterMap_cons, List.filterMap_cons, h a List.mem_cons_self, ih fun b hb => h b (List.mem_cons_of_mem _ hb)]

/-- What the loop computes. -/
theorem diff_eq (ms : List GoCol) (ex : List DbCol) (hm : (gnames ms).Nodup) (hx : (names ex).Nodup) :
    diff ms ex = ⟨ms.filter (fun m => m.name ∉ names ex), ms.filterMap (changed ex), ex.filter (fun c => c.name ∉ gnames ms)⟩ := by
  induction ms generalizing ex with
  | nil => simp [diff, gnames, List.filter_eq_self.2]
  | cons m ms ih =>
    simp only [gnames, List.map_cons, List.nodup_cons] at hm
    have hne : ∀ m' ∈ ms, m'.name ≠ m.name := fun m' h e => hm.1 (by rw [← e]; exact List.mem_map_of_mem h)
    unfold diff
    cases hf : ex.find? (fun c => c.name = m.name) with
    | none =>
      simp only
      have hni := find_none hf
      rw [ih ex hm.2 hx, List.filter_cons_of_pos (by simpa using hni), List.filterMap_cons_none (by simp [changed, hf])]
      congr 1
      apply List.filter_congr
      intro c hc
      have : c.name ≠ m.name := fun e => hni (mem_names.2 ⟨c, hc, e⟩)
      simp [gnames, this]
    | some c =>
      simp only
      obtain ⟨hc, hcn⟩ := find_some hf
      rw [eraseP_eq_filter hx, ih _ hm.2 (nodup_filter _ hx)]
      have e1 : ms.filter (fun m' => m'.name ∉ names (ex.filter (fun c => c.name ≠ m.name))) = ms.filter (fun m' => m'.name ∉ names ex) := by
        apply List.filter_congr
        intro m' h'
        have := hne m' h'
        simp only [decide_eq_decide, mem_names, List.mem_filter, decide_eq_true_eq]
        refine not_congr ⟨fun ⟨c, ⟨h1, _⟩, h2⟩ => ⟨c, h1, h2⟩, fun ⟨c, h1, h2⟩ => ⟨c, ⟨h1, ?_⟩, h2⟩⟩
        rw [h2]; exact this
      have e2 : ms.filterMap (changed (ex.filter (fun c => c.name ≠ m.name))) = ms.filterMap (changed ex) := by
        refine filterMap_congr' fun m' h' => ?_
        unfold changed
        rw [find_filter (hne m' h')]
      have e3 : (ex.filter (fun c => c.name ≠ m.name)).filter (fun c => c.name ∉ gnames ms) =
          ex.filter (fun c => c.name ∉ gnames (m :: ms)) := by
        rw [List.filter_filter]
        apply List.filter_congr
        intro a _
        rw [Bool.eq_iff_iff]
        have : a.name ∈ gnames (m :: ms) ↔ a.name = m.name ∨ a.name ∈ gnames ms := by simp [gnames]
        simp only [Bool.and_eq_true, decide_eq_true_eq, this, not_or, ne_eq, and_comm]
      have hin : m.name ∈ names ex := mem_names.2 ⟨c, hc, hcn⟩
      rw [e1, e2, e3, List.filter_cons_of_neg (by simpa using hin)]
      by_cases hs : m.type = c.type ∧ m.nullable = c.nullable
      · rw [if_pos hs, List.filterMap_cons_none (by simp [changed, hf, hs])]
      · rw [if_neg hs, List.filterMap_cons_some (by simp only [changed, hf]; rw [if_neg hs])]

theorem changed_some {ex : List DbCol} {m : GoCol} {p : DbCol × GoCol} (h : changed ex m = some p) :
    p.2 = m ∧ p.1 ∈ ex ∧ p.1.name = m.name ∧ ¬ (m.type = p.1.type ∧ m.nullable = p.1.nullable) := by
  unfold changed at h
  cases hf : ex.find? (fun c => c.name = m.name) with
  | none => rw [hf] at h; cases h
  | some c =>
    rw [hf] at h
    simp only at h
    obtain ⟨h1, h2⟩ := find_some hf
    by_cases hs : m.type = c.type ∧ m.nullable = c.nullable
    · rw [if_pos hs] at h; cases h
    · rw [if_neg hs] at h
      cases h
      exact ⟨rfl, h1, h2, hs⟩

/-- With distinct names a column is found by its name. -/
theorem find_eq {t : List DbCol} (hn : (names t).Nodup) {c : DbCol} (hc : c ∈ t) : t.find? (fun c' => c'.name = c.name) = some c := by
  induction t with
  | nil => cases hc
  | cons a t ih =>
    simp only [names, List.map_cons, List.nodup_cons] at hn
    rcases List.mem_cons.1 hc with rfl | hc
    · rw [List.find?_cons_of_pos (by simp)]
    · have : a.name ≠ c.name := fun e => hn.1 (by rw [e]; exact List.mem_map_of_mem hc)
      rw [List.find?_cons_of_neg (by simpa using this), ih hn.2 hc]

theorem eq_of_name {t : List DbCol} (hn : (names t).Nodup) {c c' : DbCol} (hc : c ∈ t) (hc' : c' ∈ t) (e : c.name = c'.name) : c = c' := by
  have h1 := find_eq hn hc
  rw [e, find_eq hn hc'] at h1
  exact (Option.some.inj h1).symm

theorem mem_updated {ms : List GoCol} {ex : List DbCol} (hx : (names ex).Nodup) {p : DbCol × GoCol} :
    p ∈ ms.filterMap (changed ex) ↔
      p.2 ∈ ms ∧ p.1 ∈ ex ∧ p.1.name = p.2.name ∧ ¬ (p.2.type = p.1.type ∧ p.2.nullable = p.1.nullable) := by
  rw [List.mem_filterMap]
  constructor
  · rintro ⟨m, hm, h⟩
    obtain ⟨rfl, h1, h2, h3⟩ := changed_some h
    exact ⟨hm, h1, h2, h3⟩
  · rintro ⟨h1, h2, h3, h4⟩
    refine ⟨p.2, h1, ?_⟩
    unfold changed
    have := find_eq hx h2
    rw [h3] at this
    rw [this]
    simp only
    rw [if_neg h4]

/-! ## Carrying out the clauses -/

theorem execAll_append (sv : Server) (t : List DbCol) (as bs : List Action) :
    execAll sv t (as ++ bs) = (execAll sv t as).bind fun t => execAll sv t bs := by
  induction as generalizing t with
  | nil => rfl
  | cons a as ih =>
    simp only [List.cons_append, execAll]
    cases exec sv t a with
    | none => rfl
    | some t' => exact ih t'

theorem names_map {t : List DbCol} {f : DbCol → DbCol} (hf : ∀ c, (f c).name = c.name) : names (t.map f) = names t := by
  simp [names, hf]

/-- What a list of columns to alter does to one column. -/
def retype (sv : Server) (ps : List (Bytes × Bytes)) (c : DbCol) : DbCol :=
  ps.foldl (fun c p => if c.name = p.1 then { c with type := sv.type p.2 } else c) c

theorem retype_name (sv : Server) (ps : List (Bytes × Bytes)) (c : DbCol) : (retype sv ps c).name = c.name := by
  unfold retype
  induction ps generalizing c with
  | nil => rfl
  | cons p ps ih =>
    rw [List.foldl_cons, ih]
    split <;> rfl

theorem retype_same (sv : Server) (ps : List (Bytes × Bytes)) (c : DbCol) :
    (retype sv ps c).nullable = c.nullable ∧ (retype sv ps c).dflt = c.dflt := by
  unfold retype
  induction ps generalizing c with
  | nil => exact ⟨rfl, rfl⟩
  | cons p ps ih =>
    rw [List.foldl_cons]
    have := ih (if c.name = p.1 then { c with type := sv.type p.2 } else c)
    refine ⟨this.1.trans ?_, this.2.trans ?_⟩ <;> split <;> rfl

theorem retype_notin (sv : Server) (ps : List (Bytes × Bytes)) (c : DbCol) (h : c.name ∉ ps.map (·.1)) : retype sv ps c = c := by
  unfold retype
  induction ps generalizing c with
  | nil => rfl
  | cons p ps ih =>
    simp only [List.map_cons, List.mem_cons, not_or] at h
    rw [List.foldl_cons, if_neg h.1]
    exact ih c h.2

theorem retype_in (sv : Server) (ps : List (Bytes × Bytes)) (hn : (ps.map (·.1)).Nodup) (c : DbCol) (ty : Bytes) (h : (c.name, ty) ∈ ps) :
    (retype sv ps c).type = sv.type ty := by
  induction ps generalizing c with
  | nil => cases h
  | cons p ps ih =>
    simp only [List.map_cons, List.nodup_cons] at hn
    show (retype sv ps (if c.name = p.1 then { c with type := sv.type p.2 } else c)).type = _
    rcases List.mem_cons.1 h with h | h
    · subst h
      rw [if_pos rfl, retype_notin sv ps _ (by exact hn.1)]
    · have : c.name ≠ p.1 := fun e => hn.1 (by rw [← e]; exact List.mem_map_of_mem (f := (·.1)) h)
      rw [if_neg this]
      exact ih hn.2 c h

theorem exec_setTypes (sv : Server) (ps : List (Bytes × Bytes)) (t : List DbCol) (h : ∀ p ∈ ps, p.1 ∈ names t) :
    execAll sv t (ps.map fun p => .setType p.1 p.2) = some (t.map (retype sv ps)) := by
  induction ps generalizing t with
  | nil => simp [execAll, show retype sv [] = id from rfl]
  | cons p ps ih =>
    simp only [List.map_cons, execAll, exec, alter]
    rw [if_pos (h p List.mem_cons_self)]
    simp only [Option.bind_some]
    rw [ih]
    · rw [List.map_map]
      rfl
    · intro p' hp'
      rw [names_map (by intro c; split <;> rfl)]
      exact h p' (List.mem_cons_of_mem _ hp')

def toDb (sv : Server) (m : GoCol) : DbCol := shown sv m.name m.type (!m.nullable) m.dflt

theorem exec_adds (sv : Server) (ms : List GoCol) (t : List DbCol) (hm : (gnames ms).Nodup) (h : ∀ m ∈ ms, m.name ∉ names t) :
    execAll sv t (ms.map fun m => .add m.name (some m.type) (!m.nullable) m.dflt) = some (t ++ ms.map (toDb sv)) := by
  induction ms generalizing t with
  | nil => simp [execAll]
  | cons m ms ih =>
    simp only [gnames, List.map_cons, List.nodup_cons] at hm
    simp only [List.map_cons, execAll, exec]
    rw [if_neg (h m List.mem_cons_self)]
    simp only [Option.bind_some]
    rw [ih _ hm.2]
    · simp [toDb]
    · intro m' hm'
      have h1 := h m' (List.mem_cons_of_mem _ hm')
      have h2 : m'.name ≠ m.name := fun e => hm.1 (by rw [← e]; exact List.mem_map_of_mem hm')
      simp only [names, List.map_append, List.mem_append, List.map_cons, List.map_nil, List.mem_singleton, not_or]
      exact ⟨h1, h2⟩

theorem exec_drops (sv : Server) (ns : List Bytes) (t : List DbCol) (hn : ns.Nodup) (h : ∀ n ∈ ns, n ∈ names t) :
    execAll sv t (ns.map .drop) = some (t.filter fun c => c.name ∉ ns) := by
  induction ns generalizing t with
  | nil => simp [execAll, List.filter_eq_self.2]
  | cons n ns ih =>
    simp only [List.nodup_cons] at hn
    simp only [List.map_cons, execAll, exec]
    rw [if_pos (h n List.mem_cons_self)]
    simp only [Option.bind_some]
    rw [ih _ hn.2]
    · rw [List.filter_filter]
      congr 1
      apply List.filter_congr
      intro c _
      rw [Bool.eq_iff_iff]
      simp [and_comm]
    · intro n' hn'
      obtain ⟨c, hc, e⟩ := mem_names.1 (h n' (List.mem_cons_of_mem _ hn'))
      refine mem_names.2 ⟨c, List.mem_filter.2 ⟨hc, ?_⟩, e⟩
      have : n' ≠ n := fun e => hn.1 (e ▸ hn')
      simpa [e] using this

end Verif.Spec.Migrate
