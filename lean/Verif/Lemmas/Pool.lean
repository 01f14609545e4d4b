import Verif.Spec.Pool

/-!
# Invariant of the pool
-/

namespace Verif.Pool

variable {α : Type}

structure Inv (s : State α) : Prop where
  nodup : (s.held ++ s.free).Nodup
  lt : ∀ i, i ∈ s.held ∨ i ∈ s.free → i < s.count
  clean : ∀ i, i ∉ s.held → (∀ k, s.buf i k = none) ∧ s.pos i = 0
  inHeap : ∀ i k sl, s.buf i k = some sl →
    sl.arr < s.heap.length ∧ sl.len ≤ (s.heap.getD sl.arr []).length
  sep : ∀ i k j l sl sl', s.buf i k = some sl → s.buf j l = some sl' → sl.arr = sl'.arr →
    i = j ∧ k = l
  handedIn : ∀ sl x, (some sl, x) ∈ s.handed → sl.arr < s.heap.length ∧
    ∀ i k sl', s.buf i k = some sl' → sl'.arr = sl.arr → sl.len ≤ sl'.len

theorem Inv.init : Inv ({} : State α) := by
  constructor <;> simp

theorem read_push (heap : List (List α)) (l : List α) (b : Option Slice)
    (h : ∀ sl, b = some sl → sl.arr < heap.length) : read (heap ++ [l]) b = read heap b := by
  cases b with
  | none => rfl
  | some sl =>
    have := h sl rfl
    simp [read, List.getD_eq_getElem?_getD, List.getElem?_append_left this]

theorem read_set_other (heap : List (List α)) (a : Nat) (l : List α) (b : Option Slice)
    (h : ∀ sl, b = some sl → sl.arr ≠ a) : read (heap.set a l) b = read heap b := by
  cases b with
  | none => rfl
  | some sl =>
    have := h sl rfl
    simp [read, List.getD_eq_getElem?_getD, List.getElem?_set_ne (Ne.symm this)]

/-- The three facts about `append` that matter. -/
theorem append_facts (heap : List (List α)) (b : Option Slice) (x : α) (spare : List α)
    (hb : ∀ sl, b = some sl → sl.arr < heap.length ∧ sl.len ≤ (heap.getD sl.arr []).length) :
    let r := append heap b x spare
    read r.1 r.2 = read heap b ++ [x] ∧
    heap.length ≤ r.1.length ∧
    (∃ sl, r.2 = some sl ∧ sl.arr < r.1.length ∧ sl.len ≤ (r.1.getD sl.arr []).length ∧
      ((∃ sl0, b = some sl0 ∧ sl.arr = sl0.arr ∧ sl.len = sl0.len + 1) ∨ sl.arr = heap.length)) ∧
    (∀ sl, sl.arr < heap.length → (∀ sl0, b = some sl0 → sl.arr = sl0.arr → sl.len ≤ sl0.len) →
      read r.1 (some sl) = read heap (some sl)) ∧
    (∀ a, a < heap.length → (r.1.getD a []).length = (heap.getD a []).length) := by
  unfold append
  cases b with
  | none =>
    refine ⟨?_, ?_, ⟨_, rfl, ?_, ?_, .inr rfl⟩, ?_, ?_⟩
    · simp [read, List.getD_eq_getElem?_getD]
    · simp
    · simp
    · simp [List.getD_eq_getElem?_getD]
    · intro sl h _
      exact read_push _ _ _ (by rintro _ ⟨⟩; exact h)
    · intro a h
      simp [List.getD_eq_getElem?_getD, List.getElem?_append_left h]
  | some sl =>
    obtain ⟨h1, h2⟩ := hb sl rfl
    dsimp only
    split
    · next hlt =>
      refine ⟨?_, ?_, ⟨_, rfl, ?_, ?_, .inl ⟨sl, rfl, rfl, rfl⟩⟩, ?_, ?_⟩
      · have hg : heap.getD sl.arr [] = heap[sl.arr] := by
          simp [List.getD_eq_getElem?_getD, List.getElem?_eq_getElem h1]
        simp only [read, hg] at hlt ⊢
        have : (heap.set sl.arr (heap[sl.arr].set sl.len x)).getD sl.arr [] =
            heap[sl.arr].set sl.len x := by
          simp [List.getD_eq_getElem?_getD, h1]
        rw [this, List.take_add_one, List.take_set,
          List.set_eq_of_length_le (by rw [List.length_take]; omega)]
        simp [hlt]
      · simp
      · simpa using h1
      · simp [List.getD_eq_getElem?_getD, h1] at hlt ⊢
        omega
      · intro sl' h hle
        by_cases he : sl'.arr = sl.arr
        · have hle := hle sl rfl he
          simp only [read, he]
          have : (heap.set sl.arr ((heap.getD sl.arr []).set sl.len x)).getD sl.arr [] =
              (heap.getD sl.arr []).set sl.len x := by
            simp [List.getD_eq_getElem?_getD, h1]
          rw [this, List.take_set, List.set_eq_of_length_le (by simp; omega)]
        · exact read_set_other _ _ _ _ (by rintro _ ⟨⟩; exact he)
      · intro a h
        by_cases he : a = sl.arr
        · subst he; simp [List.getD_eq_getElem?_getD, h1]
        · simp [List.getD_eq_getElem?_getD, List.getElem?_set_ne (Ne.symm he)]
    · next hlt =>
      refine ⟨?_, ?_, ⟨_, rfl, ?_, ?_, .inr rfl⟩, ?_, ?_⟩
      · simp only [read]
        have : (heap ++ [(heap.getD sl.arr []).take sl.len ++ x :: spare]).getD heap.length [] =
            (heap.getD sl.arr []).take sl.len ++ x :: spare := by
          simp [List.getD_eq_getElem?_getD]
        rw [this]
        have hl : ((heap.getD sl.arr []).take sl.len).length = sl.len := by
          rw [List.length_take]; omega
        rw [List.take_append, hl, List.take_of_length_le (by omega)]
        simp
      · simp
      · simp
      · have hl : ((heap.getD sl.arr []).take sl.len).length = sl.len := by
          rw [List.length_take]; omega
        have : (heap ++ [(heap.getD sl.arr []).take sl.len ++ x :: spare]).getD heap.length [] =
            (heap.getD sl.arr []).take sl.len ++ x :: spare := by
          simp [List.getD_eq_getElem?_getD]
        show sl.len + 1 ≤ _
        rw [this, List.length_append, hl]
        simp
      · intro sl' h _
        exact read_push _ _ _ (by rintro _ ⟨⟩; exact h)
      · intro a h
        simp [List.getD_eq_getElem?_getD, List.getElem?_append_left h]

theorem upd_eq {β : Type} (f : Nat → β) (i : Nat) (v : β) : upd f i v i = v := by simp [upd]
theorem upd_ne {β : Type} (f : Nat → β) (i j : Nat) (v : β) (h : j ≠ i) : upd f i v j = f j := by
  simp [upd, h]

theorem Inv.step {s : State α} (h : Inv s) (a : Act α) : Inv (Pool.step s a) := by
  cases a with
  | acquire i =>
    simp only [Pool.step]
    split
    · next hi =>
      have hp : (i :: s.held ++ s.free.erase i).Perm (s.held ++ s.free) := by
        refine List.Perm.trans ?_ ((List.perm_cons_erase hi).symm.append_left s.held)
        exact List.perm_middle.symm
      refine ⟨hp.nodup_iff.2 h.nodup, ?_, ?_, h.inHeap, h.sep, h.handedIn⟩
      · intro j hj
        refine h.lt j ?_
        have : j ∈ i :: s.held ++ s.free.erase i := by
          rcases hj with hj | hj
          · exact List.mem_append_left _ hj
          · exact List.mem_append_right _ hj
        simpa using hp.mem_iff.1 this
      · intro j hj
        exact h.clean j (fun hh => hj (by simp [hh]))
    · exact h
  | acquireNew =>
    have hc : ∀ j, j ∈ s.held ∨ j ∈ s.free → j ≠ s.count := fun j hj => Nat.ne_of_lt (h.lt j hj)
    refine ⟨?_, ?_, ?_, h.inHeap, h.sep, h.handedIn⟩
    · show (s.count :: (s.held ++ s.free)).Nodup
      refine List.nodup_cons.2 ⟨?_, h.nodup⟩
      intro hm
      exact hc s.count (by simpa using hm) rfl
    · intro j hj
      show j < s.count + 1
      have : j = s.count ∨ (j ∈ s.held ∨ j ∈ s.free) := by
        simp only [Pool.step, List.mem_cons] at hj
        rcases hj with (hj | hj) | hj
        · exact .inl hj
        · exact .inr (.inl hj)
        · exact .inr (.inr hj)
      rcases this with rfl | hj
      · omega
      · have := h.lt j hj; omega
    · intro j hj
      exact h.clean j (fun hh => hj (by simp [Pool.step, hh]))
  | append i k x spare =>
    simp only [Pool.step]
    split
    · next hi =>
      have F := append_facts s.heap (s.buf i k) x spare (h.inHeap i k)
      generalize hr : append s.heap (s.buf i k) x spare = r at F
      obtain ⟨hp, b⟩ := r
      obtain ⟨_, hlen, ⟨sl, hb, hb1, hb2, hb3⟩, hread, hsz⟩ := F
      dsimp only at hb hb1 hb2 hlen hread hsz ⊢
      subst hb
      have hcase : ∀ j l sl', upd s.buf i (fun k' => if k' = k then some sl else s.buf i k') j l = some sl' →
          (j = i ∧ l = k ∧ sl' = sl) ∨ (¬ (j = i ∧ l = k) ∧ s.buf j l = some sl') := by
        intro j l sl' e
        by_cases hj : j = i
        · subst hj
          rw [upd_eq] at e
          by_cases hl : l = k
          · subst hl; simp at e; exact .inl ⟨rfl, rfl, e.symm⟩
          · simp [hl] at e; exact .inr ⟨by simp [hl], e⟩
        · rw [upd_ne _ _ _ _ hj] at e
          exact .inr ⟨by simp [hj], e⟩
      refine ⟨h.nodup, h.lt, ?_, ?_, ?_, ?_⟩
      · intro j hj
        have hne : j ≠ i := fun e => hj (e ▸ hi)
        refine ⟨fun l => ?_, (h.clean j hj).2⟩
        show upd s.buf i (fun k' => if k' = k then some sl else s.buf i k') j l = none
        rw [upd_ne _ _ _ _ hne]
        exact (h.clean j hj).1 l
      · intro j l sl' e
        rcases hcase j l sl' e with ⟨rfl, rfl, rfl⟩ | ⟨_, e⟩
        · exact ⟨hb1, hb2⟩
        · obtain ⟨h1, h2⟩ := h.inHeap j l sl' e
          refine ⟨Nat.lt_of_lt_of_le h1 hlen, ?_⟩
          show sl'.len ≤ (hp.getD sl'.arr []).length
          rw [hsz _ h1]; exact h2
      · intro j l j' l' sl1 sl2 e1 e2 e
        have d1 := hcase j l sl1 e1
        have d2 := hcase j' l' sl2 e2
        clear e1 e2
        rcases d1 with ⟨q1, q2, q3⟩ | ⟨hn1, e1⟩ <;> rcases d2 with ⟨r1, r2, r3⟩ | ⟨hn2, e2⟩
        · exact ⟨q1.trans r1.symm, q2.trans r2.symm⟩
        · rcases hb3 with ⟨sl0, h0, h01, _⟩ | h0
          · have := h.sep _ _ _ _ _ _ h0 e2 (by rw [← e, q3, h01])
            exact absurd ⟨this.1.symm, this.2.symm⟩ hn2
          · have := (h.inHeap _ _ _ e2).1; rw [← e, q3] at this; omega
        · rcases hb3 with ⟨sl0, h0, h01, _⟩ | h0
          · have := h.sep _ _ _ _ _ _ h0 e1 (by rw [e, r3, h01])
            exact absurd ⟨this.1.symm, this.2.symm⟩ hn1
          · have := (h.inHeap _ _ _ e1).1; rw [e, r3] at this; omega
        · exact h.sep _ _ _ _ _ _ e1 e2 e
      · intro sl' y hm
        obtain ⟨h1, h2⟩ := h.handedIn sl' y hm
        refine ⟨by show sl'.arr < hp.length; omega, ?_⟩
        intro j l sl1 e1 e
        rcases hcase j l sl1 e1 with ⟨rfl, rfl, rfl⟩ | ⟨hn1, e1⟩
        · rcases hb3 with ⟨sl0, h0, h01, h02⟩ | h0
          · have := h2 _ _ _ h0 (by omega); omega
          · omega
        · exact h2 _ _ _ e1 e
    · exact h
  | advance i n =>
    simp only [Pool.step]
    split
    · next hi =>
      refine ⟨h.nodup, h.lt, ?_, h.inHeap, h.sep, h.handedIn⟩
      intro j hj
      have hne : j ≠ i := fun e => hj (e ▸ hi)
      show _ ∧ upd s.pos i (s.pos i + n) j = 0
      rw [upd_ne _ _ _ _ hne]
      exact h.clean j hj
    · exact h
  | hand i k =>
    simp only [Pool.step]
    split
    · next hi =>
      refine ⟨h.nodup, h.lt, h.clean, h.inHeap, h.sep, ?_⟩
      intro sl y hm
      simp only [List.mem_cons, Prod.mk.injEq] at hm
      rcases hm with ⟨hm, rfl⟩ | hm
      · refine ⟨(h.inHeap _ _ _ hm.symm).1, ?_⟩
        intro j l sl' e e'
        obtain ⟨rfl, rfl⟩ := h.sep _ _ _ _ _ _ hm.symm e e'.symm
        rw [← hm] at e
        simp only [Option.some.injEq] at e
        rw [e]; exact Nat.le_refl _
      · exact h.handedIn sl y hm
    · exact h
  | reset i =>
    simp only [Pool.step]
    split
    · next hi =>
      have hcase : ∀ j l sl', upd s.buf i (fun _ => none) j l = some sl' → s.buf j l = some sl' := by
        intro j l sl' e
        by_cases hj : j = i
        · subst hj; rw [upd_eq] at e; cases e
        · rwa [upd_ne _ _ _ _ hj] at e
      refine ⟨h.nodup, h.lt, ?_, ?_, ?_, ?_⟩
      · intro j hj
        have hji : j ≠ i := fun e => hj (e ▸ hi)
        have := h.clean j hj
        refine ⟨fun k => ?_, ?_⟩
        · show upd s.buf i (fun _ => none) j k = none
          rw [upd_ne _ _ _ _ hji]; exact this.1 k
        · show upd s.pos i 0 j = 0
          rw [upd_ne _ _ _ _ hji]; exact this.2
      · intro j l sl' e
        exact h.inHeap j l sl' (hcase _ _ _ e)
      · intro j l j' l' sl1 sl2 e1 e2 e
        exact h.sep _ _ _ _ _ _ (hcase _ _ _ e1) (hcase _ _ _ e2) e
      · intro sl' y hm
        obtain ⟨h1, h2⟩ := h.handedIn sl' y hm
        exact ⟨h1, fun j l sl1 e1 e => h2 _ _ _ (hcase _ _ _ e1) e⟩
    · exact h
  | release i =>
    simp only [Pool.step]
    split
    · next hi =>
      have hp : (s.held.erase i ++ i :: s.free).Perm (s.held ++ s.free) := by
        refine List.perm_middle.trans ?_
        exact ((List.perm_cons_erase hi).symm.append_right s.free)
      have hcase : ∀ j l sl', upd s.buf i (fun _ => none) j l = some sl' → s.buf j l = some sl' := by
        intro j l sl' e
        by_cases hj : j = i
        · subst hj; rw [upd_eq] at e; cases e
        · rwa [upd_ne _ _ _ _ hj] at e
      refine ⟨hp.nodup_iff.2 h.nodup, ?_, ?_, ?_, ?_, ?_⟩
      · intro j hj
        refine h.lt j ?_
        have : j ∈ s.held.erase i ++ i :: s.free := by
          rcases hj with hj | hj
          · exact List.mem_append_left _ hj
          · exact List.mem_append_right _ hj
        simpa using hp.mem_iff.1 this
      · intro j hj
        by_cases hji : j = i
        · subst hji
          exact ⟨fun k => by show upd s.buf j (fun _ => none) j k = none; rw [upd_eq],
            by show upd s.pos j 0 j = 0; rw [upd_eq]⟩
        · have := h.clean j (fun hh => hj ((List.mem_erase_of_ne hji).2 hh))
          refine ⟨fun k => ?_, ?_⟩
          · show upd s.buf i (fun _ => none) j k = none
            rw [upd_ne _ _ _ _ hji]; exact this.1 k
          · show upd s.pos i 0 j = 0
            rw [upd_ne _ _ _ _ hji]; exact this.2
      · intro j l sl' e
        exact h.inHeap j l sl' (hcase _ _ _ e)
      · intro j l j' l' sl1 sl2 e1 e2 e
        exact h.sep _ _ _ _ _ _ (hcase _ _ _ e1) (hcase _ _ _ e2) e
      · intro sl' y hm
        obtain ⟨h1, h2⟩ := h.handedIn sl' y hm
        exact ⟨h1, fun j l sl1 e1 e => h2 _ _ _ (hcase _ _ _ e1) e⟩
    · exact h
  | drop i =>
    refine ⟨?_, ?_, h.clean, h.inHeap, h.sep, h.handedIn⟩
    · exact h.nodup.sublist (List.Sublist.append_left List.erase_sublist _)
    · intro j hj
      exact h.lt j (hj.imp id List.mem_of_mem_erase)

open Verif.Spec.Pool

theorem looks_init : Looks ({} : State α) ({} : AState α) := by
  refine ⟨?_, ?_, rfl⟩ <;> simp

theorem looks_step {s : State α} {a : AState α} (h : Inv s) (hl : Looks s a) (x : Act α) :
    Looks (step s x) (match target s x with | some i => astep a i x | none => a) := by
  obtain ⟨l1, l2, l3⟩ := hl
  cases x with
  | acquire i =>
    simp only [Pool.step, target]
    split
    · next hi =>
      have hni : i ∉ s.held := by
        intro hh
        exact (List.nodup_append.1 h.nodup).2.2 i hh i hi rfl
      refine ⟨?_, ?_, l3⟩
      · intro j
        by_cases hj : j = i
        · subst hj; simp [astep]
        · simp [astep, hj, l1 j]
      · intro j c hc
        by_cases hj : j = i
        · subst hj
          simp only [astep, if_true, Option.some.injEq] at hc
          subst hc
          obtain ⟨h1, h2⟩ := h.clean j hni
          exact ⟨fun k => by simp [h1 k, read], h2⟩
        · simp only [astep, if_neg hj] at hc
          exact l2 j c hc
    · exact ⟨l1, l2, l3⟩
  | acquireNew =>
    have hni : s.count ∉ s.held := fun hh => Nat.lt_irrefl _ (h.lt _ (.inl hh))
    refine ⟨?_, ?_, l3⟩
    · intro j
      by_cases hj : j = s.count
      · subst hj; simp [astep, target, step]
      · simp [astep, target, step, hj, l1 j]
    · intro j c hc
      by_cases hj : j = s.count
      · subst hj
        simp only [astep, target, if_true, Option.some.injEq] at hc
        subst hc
        obtain ⟨h1, h2⟩ := h.clean s.count hni
        exact ⟨fun k => by simp [step, h1 k, read], h2⟩
      · simp only [astep, target, if_neg hj] at hc
        exact l2 j c hc
  | append i k y spare =>
    simp only [Pool.step, target]
    split
    · next hi =>
      have F := append_facts s.heap (s.buf i k) y spare (h.inHeap i k)
      generalize hr : append s.heap (s.buf i k) y spare = r at F
      obtain ⟨hp, b⟩ := r
      obtain ⟨hnew, hlen, ⟨sl, hb, hb1, hb2, hb3⟩, hread, hsz⟩ := F
      dsimp only at hnew hb hb1 hb2 hlen hread hsz ⊢
      have hother : ∀ j l, ¬ (j = i ∧ l = k) → read hp (s.buf j l) = read s.heap (s.buf j l) := by
        intro j l hn
        cases e : s.buf j l with
        | none => rfl
        | some sl' =>
          refine hread sl' (h.inHeap _ _ _ e).1 ?_
          intro sl0 e0 ea
          exact absurd (h.sep _ _ _ _ _ _ e e0 ea) hn
      refine ⟨?_, ?_, ?_⟩
      · intro j
        by_cases hj : j = i
        · subst hj; simp [astep, l1 j]
        · simp [astep, hj, l1 j]
      · intro j c hc
        by_cases hj : j = i
        · subst hj
          simp only [astep, if_true, Option.map_eq_some_iff] at hc
          obtain ⟨c0, hc0, rfl⟩ := hc
          obtain ⟨h1, h2⟩ := l2 j c0 hc0
          refine ⟨fun k' => ?_, h2⟩
          show read hp (upd s.buf j (fun k' => if k' = k then b else s.buf j k') j k') =
            (if k' = k then c0.buf k' ++ [y] else c0.buf k')
          rw [upd_eq]
          by_cases hk : k' = k
          · subst hk; simp [hnew, h1]
          · simp only [if_neg hk]
            rw [hother _ _ (by simp [hk]), h1]
        · simp only [astep, if_neg hj] at hc
          obtain ⟨h1, h2⟩ := l2 j c hc
          refine ⟨fun k' => ?_, h2⟩
          show read hp (upd s.buf i _ j k') = _
          rw [upd_ne _ _ _ _ hj, hother _ _ (by simp [hj]), h1]
      · rw [show (astep a i (.append i k y spare)).handed = s.handed.map (fun p => read s.heap p.1) from l3.symm]
        refine List.map_congr_left ?_
        rintro ⟨sl', z⟩ hm
        cases sl' with
        | none => rfl
        | some sl' =>
          obtain ⟨h1, h2⟩ := h.handedIn sl' z hm
          exact hread sl' h1 (fun sl0 e0 ea => h2 _ _ _ e0 ea.symm)
    · exact ⟨l1, l2, l3⟩
  | advance i n =>
    simp only [Pool.step, target]
    split
    · next hi =>
      refine ⟨?_, ?_, l3⟩
      · intro j
        by_cases hj : j = i
        · subst hj; simp [astep, l1 j]
        · simp [astep, hj, l1 j]
      · intro j c hc
        by_cases hj : j = i
        · subst hj
          simp only [astep, if_true, Option.map_eq_some_iff] at hc
          obtain ⟨c0, hc0, rfl⟩ := hc
          obtain ⟨h1, h2⟩ := l2 j c0 hc0
          exact ⟨h1, by show upd s.pos j _ j = _; rw [upd_eq, h2]⟩
        · simp only [astep, if_neg hj] at hc
          obtain ⟨h1, h2⟩ := l2 j c hc
          exact ⟨h1, by show upd s.pos i _ j = _; rw [upd_ne _ _ _ _ hj, h2]⟩
    · exact ⟨l1, l2, l3⟩
  | hand i k =>
    simp only [Pool.step, target]
    split
    · next hi =>
      refine ⟨l1, l2, ?_⟩
      obtain ⟨c, hc⟩ := Option.isSome_iff_exists.1 ((l1 i).2 hi)
      simp [astep, hc, (l2 i c hc).1 k, ← l3]
    · exact ⟨l1, l2, l3⟩
  | reset i =>
    simp only [Pool.step, target]
    split
    · next hi =>
      refine ⟨?_, ?_, l3⟩
      · intro j
        by_cases hj : j = i
        · subst hj; simp [astep, reset, l1 j]
        · simp [astep, hj, l1 j, reset]
      · intro j c hc
        by_cases hj : j = i
        · subst hj
          simp only [astep, if_true, Option.map_eq_some_iff] at hc
          obtain ⟨c0, -, rfl⟩ := hc
          refine ⟨fun k => ?_, ?_⟩
          · show read s.heap (upd s.buf j (fun _ => none) j k) = _
            rw [upd_eq]; rfl
          · show upd s.pos j 0 j = _
            rw [upd_eq]
        · simp only [astep, if_neg hj] at hc
          obtain ⟨h1, h2⟩ := l2 j c hc
          refine ⟨fun k => ?_, ?_⟩
          · show read s.heap (upd s.buf i (fun _ => none) j k) = _
            rw [upd_ne _ _ _ _ hj, h1]
          · show upd s.pos i 0 j = _
            rw [upd_ne _ _ _ _ hj, h2]
    · exact ⟨l1, l2, l3⟩
  | release i =>
    simp only [Pool.step, target]
    split
    · next hi =>
      have hnd := (List.nodup_append.1 h.nodup).1
      refine ⟨?_, ?_, l3⟩
      · intro j
        by_cases hj : j = i
        · subst hj; simp [astep, reset, hnd.mem_erase_iff]
        · simp [astep, hj, l1 j, List.mem_erase_of_ne hj, reset]
      · intro j c hc
        by_cases hj : j = i
        · subst hj
          simp [astep] at hc
        · simp only [astep, if_neg hj] at hc
          obtain ⟨h1, h2⟩ := l2 j c hc
          refine ⟨fun k => ?_, ?_⟩
          · show read s.heap (upd s.buf i (fun _ => none) j k) = _
            rw [upd_ne _ _ _ _ hj, h1]
          · show upd s.pos i 0 j = _
            rw [upd_ne _ _ _ _ hj, h2]
    · exact ⟨l1, l2, l3⟩
  | drop i => exact ⟨l1, l2, l3⟩

end Verif.Pool
