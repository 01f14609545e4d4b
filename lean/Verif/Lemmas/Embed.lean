import Verif.Spec.Embed

/-! # Structs in memory: what their pointers and fields are after `Addrs` and `Scan` -/

namespace Verif.Embed

open Verif Verif.Addrs Verif.Gen Verif.Props Verif.Spec Verif.Spec.Embed

variable {X V : Type} {G : Values X} {cols : List Path}

theorem ptrOn_self {c : Path} : PtrOn c c ↔ lastPtr c = true := by
  unfold PtrOn lastPtr
  constructor
  · rintro ⟨-, r, s, rfl, hs⟩
    simp [hs]
  · intro h
    rcases List.eq_nil_or_concat c with rfl | ⟨r, s, rfl⟩
    · simp at h
    · exact ⟨List.prefix_rfl, r, s, by simp, by simpa using h⟩

theorem nonNil_emb (hs : Struct cols) (r : Obj X) {c p : Path} (hc : c ∈ cols) (hp : p <+: c) (hne : p ≠ c) :
    nonNil G cols r (names p) = r.mem (names p) := by
  unfold nonNil
  cases hf : cols.find? fun c => lastPtr c && decide (names c = names p) with
  | none => rfl
  | some d =>
    have hd := List.mem_of_find?_eq_some hf
    have hn := List.find?_some hf
    simp only [Bool.and_eq_true, decide_eq_true_eq] at hn
    have e := hs.same d hd c hc d p List.prefix_rfl hp hn.2
    subst e
    exact absurd (hs.leaves _ hd c hc hp) hne

theorem nonNil_col (hs : Struct cols) (r : Obj X) {c : Path} (hc : c ∈ cols) (hl : lastPtr c = true) :
    nonNil G cols r (names c) = !G.isNil (r.val c) := by
  unfold nonNil
  cases hf : cols.find? fun d => lastPtr d && decide (names d = names c) with
  | none =>
    have := List.find?_eq_none.1 hf c hc
    simp [hl] at this
  | some d =>
    have hd := List.mem_of_find?_eq_some hf
    have hn := List.find?_some hf
    simp only [Bool.and_eq_true, decide_eq_true_eq] at hn
    have e := hs.same d hd c hc d c List.prefix_rfl List.prefix_rfl hn.2
    subst e
    rfl

theorem reached_iff (hs : Struct cols) (r : Obj X) {c : Path} (hc : c ∈ cols) : Reached r c ↔ canReach (nonNil G cols r) c = true := by
  rw [canReach_iff]
  unfold Reached
  constructor <;> intro h p hp hne
  · rw [nonNil_emb hs r hc hp.1 hne]; exact h p hp hne
  · rw [← nonNil_emb (G := G) hs r hc hp.1 hne]; exact h p hp hne

/-- All pointers on the way, and the field itself, are non-nil. -/
theorem present_iff (hs : Struct cols) (r : Obj X) {c : Path} (hc : c ∈ cols) :
    Present G r c ↔ ∀ p, PtrOn p c → nonNil G cols r (names p) = true := by
  unfold Present Reached
  constructor
  · rintro ⟨h1, h2⟩ p hp
    by_cases e : p = c
    · subst e
      have hl := ptrOn_self.1 hp
      rw [nonNil_col hs r hc hl]
      simpa [hl] using h2
    · rw [nonNil_emb hs r hc hp.1 e]; exact h1 p hp e
  · intro h
    refine ⟨fun p hp e => ?_, ?_⟩
    · rw [← nonNil_emb (G := G) hs r hc hp.1 e]; exact h p hp
    · rintro ⟨hl, hn⟩
      have := h c (ptrOn_self.2 hl)
      rw [nonNil_col hs r hc hl] at this
      simp [hn] at this

/-! ## Arguments -/

theorem arg_eq (hs : Struct cols) (E : Store.Env Path X V) (r : Obj X) {c : Path} (hc : c ∈ cols) :
    arg G E cols r c = .ok (cells G E r c) := by
  obtain ⟨h1, h2⟩ := C23_values_null_safe (nonNil G cols r) c
  unfold arg cells
  by_cases h : Present G r c
  · rw [h1 ((present_iff hs r hc).1 h), if_pos h]
  · rw [h2 ?_, if_neg h]
    rw [present_iff (cols := cols) hs r hc] at h
    push Not at h
    obtain ⟨p, hp, hn⟩ := h
    exact ⟨p, hp, by simpa using hn⟩

theorem args_eq (hs : Struct cols) (E : Store.Env Path X V) (r : Obj X) (fs : List Path) (hf : ∀ c ∈ fs, c ∈ cols) :
    args G E cols r fs = .ok (fs.map (cells G E r)) := by
  induction fs with
  | nil => rfl
  | cons c fs ih =>
    simp only [args, arg_eq hs E r (hf c (by simp)), ih fun d hd => hf d (by simp [hd]), Res.ok_bind, List.map_cons]

/-! ## Allocation -/

theorem names_prefix (hs : Struct cols) {c d p q : Path} (hc : c ∈ cols) (hd : d ∈ cols) (hp : p <+: c) (hq : q <+: d) :
    names p <+: names q ↔ p <+: q := by
  constructor
  · intro h
    have e : names (q.take p.length) = names p := by
      unfold names at h ⊢
      rw [List.map_take]
      have := List.prefix_iff_eq_take.1 h
      rw [this]
      simp
    have := hs.same d hd c hc (q.take p.length) p ((List.take_prefix _ _).trans hq) hp e
    rw [← this]
    exact List.take_prefix _ _
  · intro h; exact h.map _

theorem nonNil_allocate (hs : Struct cols) (hG : Lawful G cols) (r : Obj X) {c p : Path} (hc : c ∈ cols) (hp : PtrOn p c) :
    nonNil G cols (allocate G r p) = alloc (nonNil G cols r) (names p) := by
  funext q
  unfold nonNil alloc
  cases hf : cols.find? fun d => lastPtr d && decide (names d = q) with
  | none => simp only [hf]; rfl
  | some d =>
    have hd := List.mem_of_find?_eq_some hf
    have hn := List.find?_some hf
    simp only [Bool.and_eq_true, decide_eq_true_eq] at hn
    obtain ⟨hl, rfl⟩ := hn
    obtain ⟨g1, g2⟩ := hG d hd hl
    simp only [allocate]
    by_cases e : d = p
    · subst e; simp [g2]
    · have e' : names d ≠ names p := fun h => e (hs.same d hd c hc d p List.prefix_rfl hp.1 h)
      rw [if_neg e, if_neg e']
      by_cases hpd : p <+: d
      · rw [if_pos hpd, if_pos (show names p <+: names d from hpd.map _)]; simp [g1]
      · rw [if_neg hpd, if_neg fun h => hpd ((names_prefix hs hc hd hp.1 List.prefix_rfl).1 h)]
        simp only [hf]

theorem init_of (hs : Struct cols) (hG : Lawful G cols) (ps : List Path) (hps : ∀ p ∈ ps, ∃ c ∈ cols, PtrOn p c) :
    ∀ (r : Obj X) (m : Mem) (as : List Path), initAll (nonNil G cols r) ps = .ok (m, as) →
      ∃ r', init G cols r ps = .ok r' ∧ nonNil G cols r' = m := by
  induction ps with
  | nil =>
    intro r m as h
    simp only [initAll, Res.ok.injEq, Prod.mk.injEq] at h
    exact ⟨r, rfl, h.1⟩
  | cons p ps ih =>
    intro r m as h
    simp only [initAll] at h
    simp only [init]
    split at h
    · rename_i h1
      rw [if_pos h1]
      split at h
      · rename_i h2
        rw [if_pos h2]
        exact ih (fun q hq => hps q (by simp [hq])) r m as h
      · rename_i h2
        rw [if_neg h2]
        obtain ⟨⟨m', as'⟩, h3, h4⟩ := Res.bind_eq_ok.1 h
        simp only [Res.ok.injEq, Prod.mk.injEq] at h4
        obtain ⟨c, hc, hp⟩ := hps p (by simp)
        rw [← nonNil_allocate hs hG r hc hp] at h3
        obtain ⟨r', h5, h6⟩ := ih (fun q hq => hps q (by simp [hq])) (allocate G r p) m' as' h3
        exact ⟨r', h5, by rw [h6, h4.1]⟩
    · cases h

/-- Allocating a pointer that can be reached does not change what will be in the fields when all are allocated. -/
theorem start_allocate (hs : Struct cols) (hG : Lawful G cols) (r : Obj X) {c p : Path} (hc : c ∈ cols) (hp : PtrOn p c)
    (hn : ¬ nonNil G cols r (names p) = true) {d : Path} (hd : d ∈ cols) :
    start G (allocate G r p) d = start G r d := by
  have hm : ∀ q, nonNil G cols (allocate G r p) q = alloc (nonNil G cols r) (names p) q := fun q =>
    congrFun (nonNil_allocate hs hG r hc hp) q
  unfold start
  by_cases hpd : p <+: d
  · have h1 : ¬ Present G r d := by
      rw [present_iff hs r hd]
      exact fun h => hn (h p ⟨hpd, hp.2⟩)
    rw [if_neg h1]
    by_cases h2 : Present G (allocate G r p) d
    · rw [if_pos h2]
      simp only [allocate]
      by_cases e : d = p
      · subst e
        have hl := ptrOn_self.1 (show PtrOn d d from ⟨List.prefix_rfl, hp.2⟩)
        rw [if_pos rfl, if_pos hl]
      · rw [if_neg e, if_pos hpd]
        have : ¬ lastPtr d = true := by
          intro hl
          refine h2.2 ⟨hl, ?_⟩
          simp only [allocate, if_neg e, if_pos hpd]
          exact (hG d hd hl).1
        rw [if_neg this]
    · rw [if_neg h2]
  · have h1 : Present G (allocate G r p) d ↔ Present G r d := by
      rw [present_iff hs _ hd, present_iff hs _ hd]
      refine forall₂_congr fun q hq => ?_
      rw [hm]
      unfold alloc
      rw [if_neg, if_neg]
      · intro h
        exact hpd (((names_prefix hs hc hd hp.1 hq.1).1 h).trans hq.1)
      · intro h
        have := hs.same d hd c hc q p hq.1 hp.1 h
        exact hpd (this ▸ hq.1)
    have h2 : (allocate G r p).val d = r.val d := by
      simp only [allocate]
      rw [if_neg, if_neg hpd]
      rintro rfl
      exact hpd List.prefix_rfl
    by_cases h3 : Present G r d
    · rw [if_pos h3, if_pos (h1.2 h3), h2]
    · rw [if_neg h3, if_neg fun h => h3 (h1.1 h)]

theorem start_init (hs : Struct cols) (hG : Lawful G cols) (ps : List Path) (hps : ∀ p ∈ ps, ∃ c ∈ cols, PtrOn p c) :
    ∀ (r r' : Obj X), init G cols r ps = .ok r' → ∀ d ∈ cols, start G r' d = start G r d := by
  induction ps with
  | nil =>
    intro r r' h d _
    simp only [init, Res.ok.injEq] at h
    rw [h]
  | cons p ps ih =>
    intro r r' h d hd
    simp only [init] at h
    split at h
    · split at h
      · exact ih (fun q hq => hps q (by simp [hq])) r r' h d hd
      · rename_i h2
        obtain ⟨c, hc, hp⟩ := hps p (by simp)
        rw [ih (fun q hq => hps q (by simp [hq])) _ r' h d hd, start_allocate hs hG r hc hp h2 hd]
    · cases h

theorem mem_addPaths (ps : List Path) : ∀ (out : List Path) (p : Path), p ∈ addPaths out ps → p ∈ out ∨ p ∈ ps := by
  induction ps with
  | nil => intro out p h; exact .inl h
  | cons q ps ih =>
    intro out p h
    simp only [addPaths] at h
    split at h
    · exact (ih _ _ h).imp id fun h => by simp [h]
    · rcases ih _ _ h with h | h
      · rcases List.mem_append.1 h with h | h
        · exact .inl h
        · exact .inr (by simp at h; simp [h])
      · exact .inr (by simp [h])

theorem mem_tablePtrPaths (cs : List Path) {p : Path} (h : p ∈ tablePtrPaths cs) : ∃ c ∈ cs, PtrOn p c := by
  have main : ∀ (l out : List Path), p ∈ l.foldl (fun out c => addPaths out (ptrPaths c)) out → p ∈ out ∨ ∃ c ∈ l, PtrOn p c := by
    intro l
    induction l with
    | nil => intro out h; exact .inl h
    | cons c l ih =>
      intro out h
      rcases ih _ h with h | ⟨d, hd, hp⟩
      · rcases mem_addPaths _ _ _ h with h | h
        · exact .inl h
        · exact .inr ⟨c, by simp, (mem_ptrPaths _ _).1 h⟩
      · exact .inr ⟨d, by simp [hd], hp⟩
  simpa using main cs [] h

/-- `Addrs` never panics; afterwards every field can be reached. -/
theorem addrs_ok (hs : Struct cols) (hG : Lawful G cols) (r : Obj X) : ∃ r', Embed.addrs G cols r = .ok r' ∧ Opened G cols r r' := by
  obtain ⟨m', as, h1, h2, -, -⟩ := C23_addrs_never_nil cols hs.same (nonNil G cols r)
  unfold Addrs.addrs at h1
  obtain ⟨⟨m'', as'⟩, h3, h4⟩ := Res.bind_eq_ok.1 h1
  split at h4
  · rename_i h5
    simp only [Res.ok.injEq, Prod.mk.injEq] at h4
    obtain ⟨rfl, rfl⟩ := h4
    have hps : ∀ p ∈ tablePtrPaths cols, ∃ c ∈ cols, PtrOn p c := fun p hp => mem_tablePtrPaths cols hp
    obtain ⟨r', h6, h7⟩ := init_of hs hG _ hps r _ _ h3
    refine ⟨r', ?_, fun c hc => ?_⟩
    · unfold Embed.addrs
      rw [h6, Res.ok_bind, h7]
      exact if_pos h5
    · have hp : Present G r' c := (present_iff hs r' hc).2 fun p hp => by rw [h7]; exact h2 c hc p hp
      refine ⟨hp.1, ?_⟩
      have := start_init hs hG _ hps r r' h6 c hc
      rw [← this]
      unfold start
      rw [if_pos hp]
  · cases h4

/-! ## Scanning -/

theorem scan_row (E : Store.Env Path X V) (s : Path → V) (cs : List Path) (hn : cs.Nodup) : ∀ r : Obj X,
    ((scan E cs (cs.map s) r).1 = true ∧ (∀ c ∈ cs, E.dec c (s c) (r.val c) = some ((scan E cs (cs.map s) r).2.val c)) ∨
      (scan E cs (cs.map s) r).1 = false ∧ ∃ c ∈ cs, E.dec c (s c) (r.val c) = none) ∧
    (scan E cs (cs.map s) r).2.mem = r.mem ∧ ∀ c, c ∉ cs → (scan E cs (cs.map s) r).2.val c = r.val c := by
  induction cs with
  | nil => intro r; exact ⟨.inl ⟨rfl, by simp⟩, rfl, fun _ _ => rfl⟩
  | cons c cs ih =>
    intro r
    obtain ⟨hc, hn⟩ := List.nodup_cons.1 hn
    simp only [List.map_cons, scan]
    cases hd : E.dec c (s c) (r.val c) with
    | none =>
      exact ⟨.inr ⟨rfl, c, by simp, hd⟩, rfl, fun _ _ => rfl⟩
    | some x =>
      obtain ⟨h1, h2, h3⟩ := ih hn (r.set c x)
      have hv : ∀ d ∈ cs, (r.set c x).val d = r.val d := by
        intro d hd'
        simp only [Obj.set]
        rw [if_neg]
        rintro rfl
        exact hc hd'
      refine ⟨?_, h2, fun d hd' => ?_⟩
      · rcases h1 with ⟨a, b⟩ | ⟨a, d, hd', b⟩
        · refine .inl ⟨a, fun d hd' => ?_⟩
          rcases List.mem_cons.1 hd' with rfl | hd''
          · rw [h3 _ hc, hd]; simp [Obj.set]
          · rw [← hv d hd'']; exact b d hd''
        · exact .inr ⟨a, d, by simp [hd'], by rw [← hv d hd']; exact b⟩
      · simp only [List.mem_cons, not_or] at hd'
        rw [h3 _ hd'.2]
        simp [Obj.set, hd'.1]

end Verif.Embed
