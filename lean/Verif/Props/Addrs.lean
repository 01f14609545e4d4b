import Verif.Model.Addrs
import Mathlib.Data.List.Infix

/-!
# Property C23: scan destinations and values never dereference a nil pointer
-/

namespace Verif.Props

open Verif.Addrs

/-- Paths coming from one struct definition: the same names are the same fields. -/
def SameStruct (cols : List Path) : Prop :=
  ∀ c ∈ cols, ∀ d ∈ cols, ∀ p q, p <+: c → q <+: d → names p = names q → p = q

/-- `q` is a pointer on the way to (or at) the end of `p`. -/
def PtrOn (q p : Path) : Prop := q <+: p ∧ ∃ r s, q = r ++ [s] ∧ s.ptr = true

theorem mem_ptrPathsFrom (c acc q : Path) :
    q ∈ ptrPathsFrom acc c ↔ ∃ r s, r ++ [s] <+: c ∧ q = acc ++ r ++ [s] ∧ s.ptr = true := by
  induction c generalizing acc with
  | nil => simp [ptrPathsFrom]
  | cons x c ih =>
    have step : q ∈ ptrPathsFrom (acc ++ [x]) c ↔
        ∃ r s, x :: r ++ [s] <+: x :: c ∧ q = acc ++ (x :: r) ++ [s] ∧ s.ptr = true := by
      rw [ih]
      constructor
      · rintro ⟨r, s, h1, h2, h3⟩
        exact ⟨r, s, by simpa using h1, by simpa using h2, h3⟩
      · rintro ⟨r, s, h1, h2, h3⟩
        exact ⟨r, s, by simpa using h1, by simpa using h2, h3⟩
    have split : (∃ r s, r ++ [s] <+: x :: c ∧ q = acc ++ r ++ [s] ∧ s.ptr = true) ↔
        (q = acc ++ [x] ∧ x.ptr = true) ∨
          ∃ r s, x :: r ++ [s] <+: x :: c ∧ q = acc ++ (x :: r) ++ [s] ∧ s.ptr = true := by
      constructor
      · rintro ⟨r, s, h1, h2, h3⟩
        cases r with
        | nil =>
          left
          simp at h1
          subst h1
          exact ⟨by simpa using h2, h3⟩
        | cons y r =>
          right
          have : y = x := by
            rw [List.cons_append, List.cons_prefix_cons] at h1; exact h1.1
          subst this
          exact ⟨r, s, h1, h2, h3⟩
      · rintro (⟨h1, h2⟩ | ⟨r, s, h1, h2, h3⟩)
        · exact ⟨[], x, by simp, by simpa using h1, h2⟩
        · exact ⟨x :: r, s, h1, h2, h3⟩
    rw [split, ← step]
    simp only [ptrPathsFrom]
    split
    · next hp => simp [hp]
    · next hp => simp [hp]

theorem mem_ptrPaths (c q : Path) : q ∈ ptrPaths c ↔ PtrOn q c := by
  rw [ptrPaths, mem_ptrPathsFrom]
  constructor
  · rintro ⟨r, s, h1, h2, h3⟩
    simp at h2; subst h2
    exact ⟨h1, r, s, rfl, h3⟩
  · rintro ⟨h1, r, s, rfl, h3⟩
    exact ⟨r, s, h1, by simp, h3⟩

private theorem prefix_dropLast {q p : Path} (h : q <+: p) (hne : q ≠ p) : q <+: p.dropLast := by
  obtain ⟨r, rfl⟩ := h
  cases hr : r with
  | nil => subst hr; simp at hne
  | cons a l =>
    rw [List.dropLast_append_of_ne_nil (by simp)]
    exact List.prefix_append _ _

theorem canReach_iff (m : Mem) (p : Path) :
    canReach m p = true ↔ ∀ q, PtrOn q p → q ≠ p → m (names q) = true := by
  simp only [canReach, List.all_eq_true]
  constructor
  · intro h q hq hne
    exact h q ((mem_ptrPaths _ _).2 ⟨prefix_dropLast hq.1 hne, hq.2⟩)
  · intro h q hq
    obtain ⟨h1, r, s, rfl, h3⟩ := (mem_ptrPaths _ _).1 hq
    refine h _ ⟨h1.trans (List.dropLast_prefix _), r, s, rfl, h3⟩ ?_
    intro e
    have := h1.length_le
    rw [← e] at this
    simp only [List.length_append, List.length_cons, List.length_nil, List.length_dropLast] at this
    omega

/-- A list of pointer paths in which the pointers above come first and nothing occurs twice. -/
private def Good (U : List Path) (l : List Path) : Prop :=
  (l.map names).Nodup ∧ (∀ p ∈ l, ∃ c ∈ U, PtrOn p c) ∧
  ∀ a p b, l = a ++ p :: b → ∀ q, PtrOn q p → q ≠ p → q ∈ a

private theorem good_snoc {U l : List Path} (h : Good U l) (p : Path) (hn : names p ∉ l.map names)
    (hc : ∃ c ∈ U, PtrOn p c) (hup : ∀ q, PtrOn q p → q ≠ p → q ∈ l) : Good U (l ++ [p]) := by
  refine ⟨?_, ?_, ?_⟩
  · rw [List.map_append, List.map_singleton, List.nodup_append]
    exact ⟨h.1, by simp, by
      intro a ha b hb e
      simp at hb; subst hb; subst e
      exact hn ha⟩
  · intro q hq
    rcases List.mem_append.1 hq with hq | hq
    · exact h.2.1 q hq
    · simp at hq; subst hq; exact hc
  · intro a q b e r hr hne
    rcases List.append_eq_append_iff.1 e with ⟨x, rfl, hx⟩ | ⟨x, rfl, hx⟩
    · cases x with
      | nil =>
        simp at hx
        obtain ⟨rfl, rfl⟩ := hx
        simpa using hup r hr hne
      | cons y x => simp at hx
    · cases x with
      | nil =>
        simp at hx
        obtain ⟨rfl, rfl⟩ := hx
        exact hup r hr hne |> fun h => by simpa using h
      | cons y x =>
        rw [List.cons_append, List.cons.injEq] at hx
        obtain ⟨rfl, -⟩ := hx
        exact h.2.2 a q x rfl r hr hne

private theorem ptrOn_trans {q p c : Path} (h : PtrOn q p) (h' : PtrOn p c) : PtrOn q c :=
  ⟨h.1.trans h'.1, h.2⟩

/-- Adding the pointers of one column. -/
private theorem addPaths_good {U : List Path} (hU : SameStruct U) (c : Path) (hc : c ∈ U) :
    ∀ (ps : List Path) (out : List Path), Good U out →
      (∀ p ∈ ps, PtrOn p c) →
      (∀ a p b, ps = a ++ p :: b → ∀ q, PtrOn q p → q ≠ p → q ∈ a ∨ q ∈ out) →
      Good U (addPaths out ps) ∧ (∀ p ∈ out, p ∈ addPaths out ps) ∧ ∀ p ∈ ps, p ∈ addPaths out ps := by
  intro ps
  induction ps with
  | nil => intro out h _ _; exact ⟨h, fun p hp => hp, by simp⟩
  | cons p ps ih =>
    intro out h hps hord
    have hpc := hps p (by simp)
    simp only [addPaths]
    split
    · next hmem =>
      have hin : p ∈ out := by
        obtain ⟨p', hp', e⟩ := List.mem_map.1 hmem
        obtain ⟨d, hd, hpd⟩ := h.2.1 p' hp'
        rw [hU c hc d hd p p' hpc.1 hpd.1 e.symm]
        exact hp'
      obtain ⟨h1, h2, h3⟩ := ih out h (fun q hq => hps q (by simp [hq])) (by
        intro a q b e r hr hne
        rcases hord (p :: a) q b (by simp [e]) r hr hne with h' | h'
        · rcases List.mem_cons.1 h' with rfl | h'
          · exact .inr hin
          · exact .inl h'
        · exact .inr h')
      refine ⟨h1, h2, ?_⟩
      intro q hq
      rcases List.mem_cons.1 hq with rfl | hq
      · exact h2 q hin
      · exact h3 q hq
    · next hmem =>
      have hg := good_snoc h p hmem ⟨c, hc, hpc⟩ (by
        intro q hq hne
        rcases hord [] p ps rfl q hq hne with h' | h'
        · simp at h'
        · exact h')
      obtain ⟨h1, h2, h3⟩ := ih (out ++ [p]) hg (fun q hq => hps q (by simp [hq])) (by
        intro a q b e r hr hne
        rcases hord (p :: a) q b (by simp [e]) r hr hne with h' | h'
        · rcases List.mem_cons.1 h' with rfl | h'
          · exact .inr (by simp)
          · exact .inl h'
        · exact .inr (by simp [h']))
      refine ⟨h1, fun q hq => h2 q (by simp [hq]), ?_⟩
      intro q hq
      rcases List.mem_cons.1 hq with rfl | hq
      · exact h2 q (by simp)
      · exact h3 q hq

/-- In the pointer paths of a column the pointers above come first. -/
private theorem ptrPathsFrom_order (c : Path) : ∀ (acc : Path) (a : List Path) (p : Path) (b : List Path),
    ptrPathsFrom acc c = a ++ p :: b → ∀ q, PtrOn q p → q ≠ p → acc.length < q.length → q ∈ a := by
  induction c with
  | nil => intro acc a p b e; simp [ptrPathsFrom] at e
  | cons x c ih =>
    intro acc a p b e q hq hne hl
    have hx : ∀ l, ptrPathsFrom (acc ++ [x]) c = l → ∀ p ∈ l, acc ++ [x] <+: p ∧ acc.length + 1 < p.length := by
      intro l e' p hp
      rw [← e', mem_ptrPathsFrom] at hp
      obtain ⟨r, s, -, rfl, -⟩ := hp
      exact ⟨by simp [List.append_assoc], by simp⟩
    simp only [ptrPathsFrom] at e
    split at e
    · next hp =>
      cases a with
      | nil =>
        simp at e
        obtain ⟨rfl, -⟩ := e
        exfalso
        have h1 := hq.1.length_le
        simp at h1
        have : q.length = acc.length + 1 := by omega
        exact hne (hq.1.eq_of_length (by simpa using this))
      | cons y a =>
        rw [List.cons_append, List.cons.injEq] at e
        obtain ⟨rfl, e⟩ := e
        by_cases hlq : acc.length + 1 < q.length
        · exact List.mem_cons_of_mem _ (ih _ a p b e q hq hne (by simpa using hlq))
        · have h1 := (hx _ rfl p (by rw [e]; simp)).1
          have : q <+: acc ++ [x] ∨ acc ++ [x] <+: q := List.prefix_or_prefix_of_prefix hq.1 h1
          have hle : q.length = (acc ++ [x]).length := by simp; omega
          have : q = acc ++ [x] := by
            rcases this with h | h
            · exact h.eq_of_length hle
            · exact (h.eq_of_length hle.symm).symm
          subst this
          exact List.mem_cons_self
    · next hp =>
      by_cases hlq : acc.length + 1 < q.length
      · exact ih _ a p b e q hq hne (by simpa using hlq)
      · exfalso
        have h1 := (hx _ rfl p (by rw [e]; simp)).1
        have : q <+: acc ++ [x] ∨ acc ++ [x] <+: q := List.prefix_or_prefix_of_prefix hq.1 h1
        have hle : q.length = (acc ++ [x]).length := by simp; omega
        have : q = acc ++ [x] := by
          rcases this with h | h
          · exact h.eq_of_length hle
          · exact (h.eq_of_length hle.symm).symm
        obtain ⟨-, r, s, e2, hs⟩ := hq
        rw [this] at e2
        have := List.append_inj' e2 rfl
        simp at this
        rw [this.2] at hp
        exact hp hs

private theorem tablePtrPaths_good (U : List Path) (hU : SameStruct U) :
    Good U (tablePtrPaths U) ∧ ∀ c ∈ U, ∀ p, PtrOn p c → p ∈ tablePtrPaths U := by
  have main : ∀ (cols : List Path) (out : List Path), (∀ c ∈ cols, c ∈ U) → Good U out →
      Good U (cols.foldl (fun out c => addPaths out (ptrPaths c)) out) ∧
      (∀ p ∈ out, p ∈ cols.foldl (fun out c => addPaths out (ptrPaths c)) out) ∧
      ∀ c ∈ cols, ∀ p, PtrOn p c → p ∈ cols.foldl (fun out c => addPaths out (ptrPaths c)) out := by
    intro cols
    induction cols with
    | nil => intro out _ h; exact ⟨h, fun p hp => hp, by simp⟩
    | cons c cols ih =>
      intro out hin h
      obtain ⟨g1, g2, g3⟩ := addPaths_good hU c (hin c (by simp)) (ptrPaths c) out h
        (fun p hp => (mem_ptrPaths _ _).1 hp) (by
          intro a p b e q hq hne
          left
          refine ptrPathsFrom_order c [] a p b e q hq hne ?_
          obtain ⟨-, r, s, rfl, -⟩ := hq
          simp)
      obtain ⟨i1, i2, i3⟩ := ih _ (fun d hd => hin d (by simp [hd])) g1
      refine ⟨i1, fun p hp => i2 p (g2 p hp), ?_⟩
      intro d hd p hp
      rcases List.mem_cons.1 hd with rfl | hd
      · exact i2 p (g3 p ((mem_ptrPaths _ _).2 hp))
      · exact i3 d hd p hp
  have h0 : Good U [] := ⟨by simp, by simp, by intro a p b e; simp at e⟩
  obtain ⟨h1, -, h3⟩ := main U [] (fun c hc => hc) h0
  exact ⟨h1, h3⟩

private theorem names_prefix {p q : Path} (h : p <+: q) : names p <+: names q := h.map _

/-- Running the initialisation. -/
private theorem initAll_ok (U l : List Path) (hU : SameStruct U) (hg : Good U l) :
    ∀ (done todo : List Path), l = done ++ todo → ∀ (m : Mem), (∀ p ∈ done, m (names p) = true) →
      ∃ m' as, initAll m todo = .ok (m', as) ∧ (∀ p ∈ l, m' (names p) = true) ∧
        as.Sublist todo ∧ (∀ p ∈ as, ¬ (m (names p) = true ∧ ∀ q, PtrOn q p → m (names q) = true)) := by
  intro done todo
  induction todo generalizing done with
  | nil =>
    intro e m hm
    refine ⟨m, [], rfl, ?_, by simp, by simp⟩
    rw [e]; simpa using hm
  | cons p ps ih =>
    intro e m hm
    have hr : canReach m p = true := by
      rw [canReach_iff]
      intro q hq hne
      exact hm q (hg.2.2 done p ps e q hq hne)
    rw [initAll, if_pos hr]
    by_cases hp : m (names p) = true
    · rw [if_pos hp]
      obtain ⟨m', as, h1, h2, h3, h4⟩ := ih (done ++ [p]) (by simp [e]) m (by
        intro q hq
        rcases List.mem_append.1 hq with hq | hq
        · exact hm q hq
        · simp at hq; subst hq; exact hp)
      exact ⟨m', as, h1, h2, h3.trans (List.sublist_cons_self _ _), h4⟩
    · rw [if_neg hp]
      have hdone : ∀ q ∈ done, ¬ names p <+: names q := by
        intro q hq hpre
        -- `p` would be a pointer above `q`, hence listed before it
        obtain ⟨c, hc, hqc⟩ := hg.2.1 q (by rw [e]; simp [hq])
        obtain ⟨d, hd, hpd⟩ := hg.2.1 p (by rw [e]; simp)
        have hpq : p <+: q := by
          have ht : names (q.take p.length) = names p := by
            obtain ⟨r, hr⟩ := hpre
            have hlen : (names p).length = p.length := by simp [names]
            have : (names q).take p.length = names p := by
              rw [← hr, ← hlen]; simp
            rw [← this]; simp [names, List.map_take]
          have := hU c hc d hd (q.take p.length) p ((List.take_prefix _ _).trans hqc.1) hpd.1 ht
          rw [← this]
          exact List.take_prefix _ _
        have hnd := hg.1
        rw [e, List.map_append, List.map_cons, List.nodup_append] at hnd
        by_cases hpe : p = q
        · subst hpe
          exact hnd.2.2 (names p) (List.mem_map_of_mem hq) (names p) (by simp) rfl
        · obtain ⟨a, b, hab⟩ := List.append_of_mem hq
          have := hg.2.2 a q (b ++ p :: ps) (by rw [e, hab]; simp) p ⟨hpq, hpd.2⟩ hpe
          exact hnd.2.2 (names p) (List.mem_map_of_mem (by rw [hab]; simp [this])) (names p) (by simp) rfl
      obtain ⟨m', as, h1, h2, h3, h4⟩ := ih (done ++ [p]) (by simp [e]) (alloc m (names p)) (by
        intro q hq
        rcases List.mem_append.1 hq with hq | hq
        · rw [alloc]
          split
          · rfl
          · rw [if_neg (hdone q hq)]; exact hm q hq
        · simp at hq; subst hq; simp [alloc])
      refine ⟨m', p :: as, by simp [h1], h2, h3.cons_cons _, ?_⟩
      intro q hq
      rcases List.mem_cons.1 hq with rfl | hq
      · exact fun hh => hp hh.1
      · intro hh
        apply h4 q hq
        have keep : ∀ r, m (names r) = true → r ∈ ps ∨ True → ¬ names p <+: names r → alloc m (names p) (names r) = true := by
          intro r hr _ hn
          simp only [alloc]
          rw [if_neg hn]
          split
          · rfl
          · exact hr
        -- nothing above or at `q` can lie below `p`, which is nil
        have hqp : ∀ r, r <+: q → (∃ s' s, r = s' ++ [s] ∧ s.ptr = true) → ¬ names p <+: names r := by
          intro r hrq hrp hpre
          obtain ⟨c, hc, hqc⟩ := hg.2.1 q (by rw [e]; simp [h3.subset hq])
          obtain ⟨d, hd, hpd⟩ := hg.2.1 p (by rw [e]; simp)
          have ht : names (q.take p.length) = names p := by
            obtain ⟨x, hx⟩ := hpre.trans (names_prefix hrq)
            have hlen : (names p).length = p.length := by simp [names]
            have : (names q).take p.length = names p := by
              rw [← hx, ← hlen]; simp
            rw [← this]; simp [names, List.map_take]
          have hpq := hU c hc d hd (q.take p.length) p ((List.take_prefix _ _).trans hqc.1) hpd.1 ht
          have : p <+: q := by rw [← hpq]; exact List.take_prefix _ _
          exact hp (hh.2 p ⟨this, hpd.2⟩)
        have hqptr : ∃ s' s, q = s' ++ [s] ∧ s.ptr = true := by
          obtain ⟨c, hc, hqc⟩ := hg.2.1 q (by rw [e]; simp [h3.subset hq])
          exact hqc.2
        exact ⟨keep q hh.1 (.inr trivial) (hqp q (List.prefix_refl _) hqptr),
          fun r hr => keep r (hh.2 r hr) (.inr trivial) (hqp r hr.1 hr.2)⟩

/-- C23. For every struct and every pattern of nil pointers, asking for the scan destinations
succeeds; afterwards no pointer on any column's path is nil; each pointer is allocated at most once,
and none that was reachable and non-nil before. -/
theorem C23_addrs_never_nil (cols : List Path) (h : SameStruct cols) (m : Mem) :
    ∃ m' as, addrs m cols = .ok (m', as) ∧
      (∀ c ∈ cols, ∀ p, PtrOn p c → m' (names p) = true) ∧
      (as.map names).Nodup ∧
      ∀ p ∈ as, ¬ (m (names p) = true ∧ ∀ q, PtrOn q p → m (names q) = true) := by
  obtain ⟨hg, hall⟩ := tablePtrPaths_good cols h
  obtain ⟨m', as, h1, h2, h3, h4⟩ := initAll_ok cols _ h hg [] (tablePtrPaths cols) rfl m (by simp)
  refine ⟨m', as, ?_, fun c hc p hp => h2 p (hall c hc p hp), hg.1.sublist (h3.map _), h4⟩
  have hreach : cols.all (canReach m') = true := by
    rw [List.all_eq_true]
    intro c hc
    rw [canReach_iff]
    intro q hq _
    exact h2 q (hall c hc q hq)
  simp only [addrs, h1, Res.ok_bind, hreach, if_true]

private theorem getter_ok (m : Mem) (c : Path) : ∀ (pre ps : List Path), ptrPaths c = pre ++ ps →
    (∀ p ∈ pre, m (names p) = true) →
    getterFrom m c ps = .ok (if ∀ p ∈ ps, m (names p) = true then some c else none) := by
  intro pre ps
  induction ps generalizing pre with
  | nil =>
    intro e hpre
    have : canReach m c = true := by
      rw [canReach_iff]
      intro q hq _
      exact hpre q (by simpa [e] using (mem_ptrPaths c q).2 hq)
    simp [getterFrom, this]
  | cons p ps ih =>
    intro e hpre
    have hr : canReach m p = true := by
      rw [canReach_iff]
      intro q hq hne
      refine hpre q (ptrPathsFrom_order c [] pre p ps e q hq hne ?_)
      obtain ⟨-, r, s, rfl, -⟩ := hq
      simp
    rw [getterFrom, if_pos hr]
    by_cases hp : m (names p) = true
    · rw [if_pos hp, ih (pre ++ [p]) (by simp [e]) (by
        intro q hq
        rcases List.mem_append.1 hq with hq | hq
        · exact hpre q hq
        · simp at hq; subst hq; exact hp)]
      congr 1
      by_cases ha : ∀ q ∈ ps, m (names q) = true
      · rw [if_pos ha, if_pos (by
          intro q hq
          rcases List.mem_cons.1 hq with rfl | hq
          · exact hp
          · exact ha q hq)]
      · rw [if_neg ha, if_neg (fun hh => ha (fun q hq => hh q (by simp [hq])))]
    · rw [if_neg hp, if_neg (fun hh => hp (hh p (by simp)))]

/-- C23. Reading the value of a column never dereferences a nil pointer: it yields the field when all
pointers on its path are non-nil, and NULL otherwise. -/
theorem C23_values_null_safe (m : Mem) (c : Path) :
    ((∀ p, PtrOn p c → m (names p) = true) → getOrValue m c = .ok (some c)) ∧
    ((∃ p, PtrOn p c ∧ m (names p) = false) → getOrValue m c = .ok none) := by
  have hu : isUnderlyingPtr c = true ↔ ∃ p, PtrOn p c := by
    simp only [isUnderlyingPtr, List.any_eq_true]
    constructor
    · rintro ⟨s, hs, hp⟩
      obtain ⟨a, b, rfl⟩ := List.append_of_mem hs
      exact ⟨a ++ [s], ⟨b, by simp⟩, a, s, rfl, hp⟩
    · rintro ⟨p, hp, r, s, rfl, hs⟩
      exact ⟨s, hp.subset (by simp), hs⟩
  have hg := getter_ok m c [] (ptrPaths c) rfl (by simp)
  unfold getOrValue
  constructor
  · intro h
    split
    · rw [hg, if_pos (fun p hp => h p ((mem_ptrPaths c p).1 hp))]
    · rw [if_pos ((canReach_iff m c).2 fun q hq _ => h q hq)]
  · rintro ⟨p, hp, hm⟩
    rw [if_pos (hu.2 ⟨p, hp⟩), hg, if_neg]
    intro h
    have := h p ((mem_ptrPaths c p).2 hp)
    simp [hm] at this

private def exCols : List Path :=
  [[⟨"A", true⟩, ⟨"B", true⟩, ⟨"X", false⟩], [⟨"A", true⟩, ⟨"Y", true⟩], [⟨"Z", false⟩]]

example : SameStruct exCols := by
  have e : ∀ c ∈ exCols, ∀ p, p <+: c → p ∈ exCols.flatMap List.inits := by
    intro c hc p hp
    exact List.mem_flatMap.2 ⟨c, hc, (List.mem_inits _ _).2 hp⟩
  have dec : ∀ p ∈ exCols.flatMap List.inits, ∀ q ∈ exCols.flatMap List.inits, names p = names q → p = q := by
    decide
  intro c hc d hd p q hp hq
  exact dec p (e c hc p hp) q (e d hd q hq)
example : (match addrs (fun _ => false) exCols with | .ok r => r.2.map names | _ => []) =
    [["A"], ["A", "B"], ["A", "Y"]] := by decide
example : getOrValue (fun q => q == ["A"]) [⟨"A", true⟩, ⟨"B", true⟩, ⟨"X", false⟩] = .ok none := by decide

end Verif.Props
