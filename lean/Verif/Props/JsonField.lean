import Verif.Spec.JsonField
import Mathlib.Data.List.Perm.Basic

/-!
# Property C85: a field in a JSON column holds exactly the value that was stored
-/

namespace Verif.Props

open Verif Verif.JsonField Verif.JsonField.Spec

mutual
theorem zero_wf : (t : Ty) → Spec.Ty.Ok t → Spec.Ty.Wf t t.zero
  | .bool, _ => trivial
  | .int _ _, h => h
  | .str, _ => trivial
  | .ptr _, _ => fun _ h => by cases h
  | .slice _, _ => fun _ h => by cases h
  | .array n t, h => by
    simp only [Spec.Ty.Wf, Ty.zero]
    refine ⟨List.length_replicate, fun v hv => ?_⟩
    rw [List.eq_of_mem_replicate hv]
    exact zero_wf t h
  | .map _, _ => fun _ h => by cases h
  | .struct fs, h => fields_zero_wf fs h.2
theorem fields_zero_wf : (fs : Fields) → Spec.Fields.Ok fs → Spec.Fields.Wf fs fs.zero
  | .nil, _ => trivial
  | .cons _ _ t rest, h => ⟨zero_wf t h.1, fields_zero_wf rest h.2⟩
end

private theorem encode_null (t : Ty) (x : t.Val) (h : t.encode x = .null) :
    IsNil t x ∨ ∀ o, ¬ Spec.Ty.Back t o x := by
  cases t with
  | bool => simp [Ty.encode] at h
  | int lo hi => simp [Ty.encode] at h
  | str => simp [Ty.encode] at h
  | ptr t =>
    cases x with
    | none => exact .inl rfl
    | some y =>
      right
      intro o hb
      obtain ⟨h1, h2⟩ := hb y rfl
      rcases encode_null t y h with h3 | h3
      · exact h1 h3
      · exact h3 _ h2
  | slice t =>
    cases x with
    | none => exact .inl rfl
    | some y => simp [Ty.encode] at h
  | array n t => simp [Ty.encode] at h
  | map t =>
    cases x with
    | none => exact .inl rfl
    | some y => simp [Ty.encode] at h
  | struct fs => simp [Ty.encode] at h

section lists

variable {V : Type} (dec : V → Json → Option V) (E : V → Json → Prop) (zero : V) (wf : V → Prop) (same back : V → V → Prop)

private theorem elems (hz : wf zero)
    (ih : ∀ o v j, wf o → wf v → E v j → ∃ w, dec o j = some w ∧ (same w v ↔ back o v)) :
    ∀ (vs os : List V) (js : List Json), (∀ v ∈ vs, wf v) → (∀ o ∈ os, wf o) → List.Forall₂ E vs js →
      ∃ ws, decodeElems dec zero os js = some ws ∧
        (List.Forall₂ same ws vs ↔ ∀ (i : Nat) v, vs[i]? = some v → back (os[i]?.getD zero) v) := by
  intro vs
  induction vs with
  | nil => intro os js _ _ hE; cases hE; exact ⟨[], by simp [decodeElems], by simp⟩
  | cons v vs ihl =>
    intro os js hv ho hE
    obtain ⟨j, js, hj, hjs, rfl⟩ := List.forall₂_cons_left_iff.mp hE
    have step : ∀ o os', wf o → (∀ x ∈ os', wf x) → (∀ i : Nat, os[i]?.getD zero = ((o :: os')[i]?).getD zero) →
        decodeElems dec zero os (j :: js) = (do
          let v ← dec o j
          let vs ← decodeElems dec zero os' js
          some (v :: vs)) →
        ∃ ws, decodeElems dec zero os (j :: js) = some ws ∧
          (List.Forall₂ same ws (v :: vs) ↔
            ∀ (i : Nat) x, (v :: vs)[i]? = some x → back (os[i]?.getD zero) x) := by
      intro o os' h1 h2 h3 h4
      obtain ⟨w, hw, hwi⟩ := ih o v j h1 (hv v List.mem_cons_self) hj
      obtain ⟨ws, hws, hwsi⟩ := ihl os' js (fun x hx => hv x (List.mem_cons_of_mem _ hx)) h2 hjs
      refine ⟨w :: ws, by rw [h4, hw, hws]; rfl, ?_⟩
      rw [List.forall₂_cons, hwi, hwsi]
      constructor
      · rintro ⟨a, b⟩ i x hx
        rw [h3]
        cases i with
        | zero => rw [List.getElem?_cons_zero, Option.some.injEq] at hx; subst hx; exact a
        | succ i => exact b i x (by simpa using hx)
      · intro h
        constructor
        · have := h 0 v rfl
          rw [h3] at this; exact this
        · intro i x hx
          have := h (i + 1) x (by simpa using hx)
          rw [h3] at this; simpa using this
    cases os with
    | nil =>
      refine step zero [] hz (by simp) ?_ rfl
      intro i; cases i <;> simp
    | cons o os => exact step o os (ho o List.mem_cons_self) (fun x hx => ho x (List.mem_cons_of_mem _ hx)) (fun _ => rfl) rfl

private theorem arrays
    (ih : ∀ o v j, wf o → wf v → E v j → ∃ w, dec o j = some w ∧ (same w v ↔ back o v)) :
    ∀ (vs os : List V) (js : List Json), os.length = vs.length → (∀ v ∈ vs, wf v) → (∀ o ∈ os, wf o) →
      List.Forall₂ E vs js →
      ∃ ws, decodeArray dec zero os js = some ws ∧
        (List.Forall₂ same ws vs ↔ ∀ (i : Nat) o v, os[i]? = some o → vs[i]? = some v → back o v) := by
  intro vs
  induction vs with
  | nil =>
    intro os js hl _ _ hE
    have : os = [] := by simpa using hl
    subst this
    cases hE
    exact ⟨[], by simp [decodeArray], by simp⟩
  | cons v vs ihl =>
    intro os js hl hv ho hE
    obtain ⟨j, js, hj, hjs, rfl⟩ := List.forall₂_cons_left_iff.mp hE
    cases os with
    | nil => simp at hl
    | cons o os =>
      obtain ⟨w, hw, hwi⟩ := ih o v j (ho o List.mem_cons_self) (hv v List.mem_cons_self) hj
      obtain ⟨ws, hws, hwsi⟩ := ihl os js (by simpa using hl) (fun x hx => hv x (List.mem_cons_of_mem _ hx))
        (fun x hx => ho x (List.mem_cons_of_mem _ hx)) hjs
      refine ⟨w :: ws, by simp only [decodeArray]; rw [hw, hws]; rfl, ?_⟩
      rw [List.forall₂_cons, hwi, hwsi]
      constructor
      · rintro ⟨a, b⟩ i o' x ho' hx
        cases i with
        | zero =>
          rw [List.getElem?_cons_zero, Option.some.injEq] at hx ho'
          subst hx ho'; exact a
        | succ i => exact b i o' x (by simpa using ho') (by simpa using hx)
      · intro h
        exact ⟨h 0 o v rfl rfl, fun i o' x ho' hx => h (i + 1) o' x (by simpa using ho') (by simpa using hx)⟩

private theorem get_put (k k' : Name) (v : V) (m : List (Name × V)) :
    entry k' (put k v m) = if k = k' then some v else entry k' m := by
  unfold put
  simp only [entry]
  by_cases h : k = k'
  · simp [h]
  · simp only [h, if_false]
    induction m with
    | nil => rfl
    | cons e m ih =>
      rw [List.filter_cons]
      by_cases he : e.1 = k
      · have : e.1 ≠ k' := by rw [he]; exact h
        simp only [he, ne_eq, not_true, decide_false, Bool.false_eq_true, if_false]
        rw [ih]
        simp only [entry, this, if_false]
      · simp only [ne_eq, he, not_false_eq_true, decide_true, if_true]
        simp only [entry]
        rw [ih]

private theorem get_isSome_iff (k : Name) (m : List (Name × V)) : (entry k m).isSome ↔ k ∈ m.map Prod.fst := by
  induction m with
  | nil => simp [entry]
  | cons e m ih =>
    simp only [entry]
    by_cases h : e.1 = k
    · simp [h]
    · have h' : k ≠ e.1 := fun x => h x.symm
      simp only [h, if_false, ih, List.map_cons, List.mem_cons, h', false_or]

private theorem maps' :
    ∀ (es os : List (Name × V)) (ms : List (Name × Json)), (es.map Prod.fst).Nodup →
      List.Forall₂ (fun e m => e.1 = m.1 ∧ E e.2 m.2) es ms →
      (∀ e ∈ es, ∀ j, E e.2 j → ∃ w, dec zero j = some w) →
      ∃ ws, decodeMap dec zero os ms = some ws ∧
        ∀ k, (k ∉ es.map Prod.fst → entry k ws = entry k os) ∧
          ∀ v, entry k es = some v → ∃ j, E v j ∧ entry k ws = dec zero j := by
  intro es
  induction es with
  | nil => intro os ms _ hE _; cases hE; exact ⟨os, rfl, fun k => ⟨fun _ => rfl, fun v h => by cases h⟩⟩
  | cons e es ih =>
    intro os ms hn hE he
    obtain ⟨⟨m, j⟩, ms, ⟨hm, hj⟩, hjs, rfl⟩ := List.forall₂_cons_left_iff.mp hE
    simp only at hm hj
    subst hm
    rw [List.map_cons, List.nodup_cons] at hn
    obtain ⟨w, hw⟩ := he e List.mem_cons_self j hj
    obtain ⟨ws, h1, h2⟩ := ih (put e.1 w os) ms hn.2 hjs (fun x hx => he x (List.mem_cons_of_mem _ hx))
    refine ⟨ws, ?_, ?_⟩
    · simp only [decodeMap]
      rw [hw]; exact h1
    · intro k
      constructor
      · intro hk
        rw [List.map_cons, List.mem_cons, not_or] at hk
        rw [(h2 k).1 hk.2, get_put, if_neg (fun x => hk.1 x.symm)]
      · intro v hv
        simp only [entry] at hv
        by_cases hk : e.1 = k
        · rw [if_pos hk, Option.some.injEq] at hv
          refine ⟨j, hv ▸ hj, ?_⟩
          rw [(h2 k).1 (hk ▸ hn.1), get_put, if_pos hk, hw]
        · rw [if_neg hk] at hv
          exact (h2 k).2 v hv

private theorem entry_mem {es : List (Name × V)} (hn : (es.map Prod.fst).Nodup) : ∀ e ∈ es, entry e.1 es = some e.2 := by
  induction es with
  | nil => intro e h; cases h
  | cons a es iha =>
    rw [List.map_cons, List.nodup_cons] at hn
    intro e h
    rw [List.mem_cons] at h
    simp only [entry]
    rcases h with h | h
    · simp [h]
    · have : a.1 ≠ e.1 := fun x => hn.1 (x ▸ List.mem_map_of_mem h)
      rw [if_neg this]; exact iha hn.2 e h

private theorem mem_entry {es : List (Name × V)} : ∀ k v, entry k es = some v → (k, v) ∈ es := by
  intro k v
  induction es with
  | nil => intro h; cases h
  | cons a es iha =>
    intro h
    simp only [entry] at h
    by_cases hk : a.1 = k
    · rw [if_pos hk, Option.some.injEq] at h
      rw [← hk, ← h]; exact List.mem_cons_self
    · rw [if_neg hk] at h; exact List.mem_cons_of_mem _ (iha h)

/-- The members may have another order. -/
private theorem maps (es os : List (Name × V)) (ms ms₁ : List (Name × Json)) (hn : (es.map Prod.fst).Nodup)
    (hp : ms.Perm ms₁) (hE : List.Forall₂ (fun e m => e.1 = m.1 ∧ E e.2 m.2) es ms₁)
    (he : ∀ e ∈ es, ∀ j, E e.2 j → ∃ w, dec zero j = some w) :
    ∃ ws, decodeMap dec zero os ms = some ws ∧
      ∀ k, (k ∉ es.map Prod.fst → entry k ws = entry k os) ∧
        ∀ v, entry k es = some v → ∃ j, E v j ∧ entry k ws = dec zero j := by
  obtain ⟨es', h1, h2⟩ := List.perm_comp_forall₂ hp hE.flip
  have hpk := h2.map Prod.fst
  obtain ⟨ws, h3, h4⟩ := maps' dec E zero es' os ms (hpk.nodup_iff.mpr hn) h1.flip
    (fun e h => he e (h2.mem_iff.mp h))
  refine ⟨ws, h3, fun k => ⟨fun hk => (h4 k).1 (fun h => hk (hpk.mem_iff.mp h)), fun v hv => (h4 k).2 v ?_⟩⟩
  exact entry_mem (hpk.nodup_iff.mpr hn) _ (h2.mem_iff.mpr (mem_entry k v hv))

end lists

private theorem keys_encode : (fs : Fields) → (v : fs.Val) → ∀ m ∈ fs.encode v, m.1 ∈ fs.keys
  | .nil, _, m, hm => by cases hm
  | .cons key om t rest, v, m, hm => by
    simp only [Fields.encode, List.mem_append] at hm
    simp only [Fields.keys, List.mem_append]
    rcases hm with hm | hm
    · left
      cases key with
      | none => cases hm
      | some n =>
        simp only [member] at hm
        split at hm
        · cases hm
        · rw [List.mem_singleton] at hm; rw [hm]; simp
    · exact .inr (keys_encode rest v.2 m hm)

private theorem forall_of {V : Type} (enc : V → Json) {js : List Json} {vs : List V}
    (h : List.Forall₂ Alike js (vs.map enc)) : List.Forall₂ (fun v j => Alike j (enc v)) vs js := by
  rw [List.forall₂_map_right_iff] at h
  exact h.flip

private theorem members_of {V : Type} (enc : V → Json) {ms₁ : List (Name × Json)} {es : List (Name × V)}
    (h1 : ms₁.map Prod.fst = (es.map fun e => (e.1, enc e.2)).map Prod.fst)
    (h2 : List.Forall₂ Alike (ms₁.map Prod.snd) ((es.map fun e => (e.1, enc e.2)).map Prod.snd)) :
    List.Forall₂ (fun e m => e.1 = m.1 ∧ Alike m.2 (enc e.2)) es ms₁ := by
  induction es generalizing ms₁ with
  | nil =>
    cases ms₁ with
    | nil => exact .nil
    | cons m ms => simp at h1
  | cons e es ih =>
    cases ms₁ with
    | nil => simp at h1
    | cons m ms =>
      simp only [List.map_cons, List.cons.injEq] at h1 h2
      rw [List.forall₂_cons] at h2
      exact .cons ⟨h1.1.symm, h2.1⟩ (ih h1.2 h2.2)

private theorem filter_of (n : Name) : ∀ {ms ms' : List (Name × Json)}, ms.map Prod.fst = ms'.map Prod.fst →
    List.Forall₂ Alike (ms.map Prod.snd) (ms'.map Prod.snd) →
    (ms.filter fun m => m.1 = n).map Prod.fst = (ms'.filter fun m => m.1 = n).map Prod.fst ∧
      List.Forall₂ Alike ((ms.filter fun m => m.1 = n).map Prod.snd) ((ms'.filter fun m => m.1 = n).map Prod.snd)
  | [], [], _, _ => ⟨rfl, .nil⟩
  | [], _ :: _, h, _ => by simp at h
  | _ :: _, [], h, _ => by simp at h
  | m :: ms, m' :: ms', h1, h2 => by
    simp only [List.map_cons, List.cons.injEq] at h1 h2
    rw [List.forall₂_cons] at h2
    have ih := filter_of n h1.2 h2.2
    by_cases hm : m.1 = n
    · have hm' : m'.1 = n := h1.1 ▸ hm
      simp only [List.filter_cons, hm, hm', decide_true, if_true, List.map_cons, ih.1]
      exact ⟨trivial, .cons h2.1 ih.2⟩
    · have hm' : ¬ m'.1 = n := h1.1 ▸ hm
      simp only [List.filter_cons, hm, hm', decide_false, Bool.false_eq_true, if_false]
      exact ih

mutual
private theorem back (fold : Name → Name) : (t : Ty) → Spec.Ty.Ok t → (old v : t.Val) → Spec.Ty.Wf t old →
    Spec.Ty.Wf t v → (j : Json) → Alike j (t.encode v) →
    ∃ w, t.decode fold old j = some w ∧ (Spec.Ty.Same t w v ↔ Spec.Ty.Back t old v)
  | .bool, _, _, v, _, _, j, hj => by
    cases hj
    exact ⟨v, rfl, ⟨fun _ => trivial, fun _ => rfl⟩⟩
  | .int _ _, _, _, v, _, hv, j, hj => by
    cases hj
    exact ⟨v, if_pos hv, ⟨fun _ => trivial, fun _ => rfl⟩⟩
  | .str, _, _, v, _, _, j, hj => by
    cases hj
    refine ⟨_, rfl, ?_⟩
    simp only [Spec.Ty.Same, Spec.Ty.Back]
    generalize (show List Rune from v) = s
    show (s.map Rune.written).map Rune.char = s ↔ _
    induction s with
    | nil => simp
    | cons r s ih =>
      rw [List.map_cons, List.map_cons, List.cons.injEq, ih, List.forall_mem_cons]
      refine and_congr ?_ Iff.rfl
      cases r with
      | char c => simp [Rune.written]
      | bad b => simp
  | .ptr t, hk, old, p, ho, hv, j, hj => by
    cases p with
    | none => cases hj; exact ⟨none, rfl, by simp [Spec.Ty.Same, Spec.Ty.Back]⟩
    | some v =>
      have ho' : Spec.Ty.Wf t ((show Option t.Val from old).getD t.zero) := by
        cases old with
        | none => exact zero_wf t hk
        | some o => exact ho o rfl
      obtain ⟨w, h1, h2⟩ := back fold t hk ((show Option t.Val from old).getD t.zero) v ho' (hv v rfl) j hj
      by_cases hn : t.encode v = .null
      · have hj' : j = .null := by
          have : Alike j (t.encode v) := hj
          rw [hn] at this
          cases this; rfl
        refine ⟨none, ?_, ?_⟩
        · rw [hj']; rfl
        · simp only [Spec.Ty.Same, Spec.Ty.Back]
          constructor
          · intro h; cases h
          · intro h
            obtain ⟨a, b⟩ := h v rfl
            rcases encode_null t v hn with c | c
            · exact absurd c a
            · exact absurd b (c _)
      · refine ⟨some w, ?_, ?_⟩
        · have hn' : j ≠ .null := by
            rintro rfl
            have : Alike .null (t.encode v) := hj
            generalize t.encode v = j' at this hn
            cases this
            exact hn rfl
          have : (Ty.ptr t).decode fold old j =
              (t.decode fold ((show Option t.Val from old).getD t.zero) j).map some := by
            cases j <;> first | exact absurd rfl hn' | rfl
          rw [this, h1]; rfl
        · simp only [Spec.Ty.Same, Spec.Ty.Back]
          have hni : ¬ IsNil t v := by
            intro hni
            apply hn
            cases t with
            | ptr t => cases v <;> first | rfl | cases hni
            | slice t => cases v <;> first | rfl | cases hni
            | map t => cases v <;> first | rfl | cases hni
            | bool => cases hni
            | int => cases hni
            | str => cases hni
            | array => cases hni
            | struct => cases hni
          constructor
          · intro h v' hv'
            cases hv'
            refine ⟨hni, h2.mp ?_⟩
            cases h; assumption
          · intro h
            exact .some (h2.mpr (h v rfl).2)
  | .slice t, hk, old, l, ho, hv, j, hj => by
    cases l with
    | none => cases hj; exact ⟨none, rfl, by simp [Spec.Ty.Same, Spec.Ty.Back]⟩
    | some vs =>
      have ho' : ∀ o ∈ ((show Option (List t.Val) from old).getD []), Spec.Ty.Wf t o := by
        cases old with
        | none => intro o h; cases h
        | some os => exact ho os rfl
      obtain ⟨js, rfl, hjs⟩ : ∃ js, j = .arr js ∧ List.Forall₂ Alike js (vs.map t.encode) := by
        cases hj with | arr h => exact ⟨_, rfl, h⟩
      obtain ⟨ws, h1, h2⟩ := elems (t.decode fold) (fun v j => Alike j (t.encode v)) t.zero (Spec.Ty.Wf t)
        (Spec.Ty.Same t) (Spec.Ty.Back t) (zero_wf t hk) (fun o v j h h' => back fold t hk o v h h' j) vs _ js
        (hv vs rfl) ho' (forall_of _ hjs)
      refine ⟨some ws, ?_, ?_⟩
      · show (decodeElems (t.decode fold) t.zero _ js).map some = _
        rw [h1]; rfl
      · simp only [Spec.Ty.Same, Spec.Ty.Back]
        constructor
        · intro h vs' hvs'
          cases hvs'
          apply h2.mp
          cases h; assumption
        · intro h
          exact .some (h2.mpr (h vs rfl))
  | .array n t, hk, old, l, ho, hv, j, hj => by
    obtain ⟨js, rfl, hjs⟩ : ∃ js, j = .arr js ∧ List.Forall₂ Alike js ((show List t.Val from l).map t.encode) := by
      cases hj with | arr h => exact ⟨_, rfl, h⟩
    obtain ⟨ws, h1, h2⟩ := arrays (t.decode fold) (fun v j => Alike j (t.encode v)) t.zero (Spec.Ty.Wf t)
      (Spec.Ty.Same t) (Spec.Ty.Back t) (fun o v j h h' => back fold t hk o v h h' j) l old js
      (ho.1.trans hv.1.symm) hv.2 ho.2 (forall_of _ hjs)
    exact ⟨ws, h1, h2⟩
  | .map t, hk, old, m, ho, hv, j, hj => by
    cases m with
    | none => cases hj; exact ⟨none, rfl, by simp [Spec.Ty.Same, Spec.Ty.Back]⟩
    | some es =>
      obtain ⟨hn, he⟩ := hv es rfl
      have ih := fun v h j hj => back fold t hk t.zero v (zero_wf t hk) h j hj
      obtain ⟨ms, ms₁, rfl, hp, hk1, hk2⟩ : ∃ ms ms₁, j = .obj ms ∧ ms.Perm ms₁ ∧
          ms₁.map Prod.fst = (es.map fun e => (e.1, t.encode e.2)).map Prod.fst ∧
          List.Forall₂ Alike (ms₁.map Prod.snd) ((es.map fun e => (e.1, t.encode e.2)).map Prod.snd) := by
        cases hj with | obj h h' h'' => exact ⟨_, _, rfl, h, h', h''⟩
      obtain ⟨ws, h1, h2⟩ := maps (t.decode fold) (fun v j => Alike j (t.encode v)) t.zero es
        ((show Option (List (Name × t.Val)) from old).getD []) ms ms₁ hn hp (members_of t.encode hk1 hk2)
        (fun e h j hj => let ⟨w, hw, _⟩ := ih e.2 (he e h) j hj; ⟨w, hw⟩)
      refine ⟨some ws, ?_, ?_⟩
      · show (decodeMap (t.decode fold) t.zero _ ms).map some = _
        rw [h1]; rfl
      · simp only [Spec.Ty.Same, Spec.Ty.Back]
        have hget := entry_mem hn
        have hmem := mem_entry (es := es)
        constructor
        · intro h es' hes'
          cases hes'
          have h : ∀ k, Option.Rel (Spec.Ty.Same t) (entry k ws) (entry k es) := by cases h; assumption
          constructor
          · intro os hos k hkm
            by_contra hne
            have e1 := (h2 k).1 hne
            have e2 : entry k es = none := by
              rw [← Option.not_isSome_iff_eq_none, get_isSome_iff]; exact hne
            have e3 := h k
            rw [e1, e2, hos, Option.getD_some] at e3
            have e4 : (entry k os).isSome := (get_isSome_iff k os).mpr hkm
            revert e3 e4
            cases entry k os with
            | none => intro _ h; cases h
            | some x => intro h; cases h
          · intro e hee
            have e1 := h e.1
            obtain ⟨j, hj, hwj⟩ := (h2 e.1).2 e.2 (hget e hee)
            rw [hwj, hget e hee] at e1
            obtain ⟨w, hw, hwi⟩ := ih e.2 (he e hee) j hj
            rw [hw] at e1
            apply hwi.mp
            cases e1; assumption
        · intro h
          obtain ⟨a, b⟩ := h es rfl
          refine .some fun k => ?_
          cases hg : entry k es with
          | none =>
            have hne : k ∉ es.map Prod.fst := by rw [← get_isSome_iff, hg]; simp
            rw [(h2 k).1 hne]
            have : entry k ((show Option (List (Name × t.Val)) from old).getD []) = none := by
              cases old with
              | none => rfl
              | some os =>
                rw [← Option.not_isSome_iff_eq_none, Option.getD_some, get_isSome_iff]
                exact fun x => hne (a os rfl k x)
            rw [this]; exact .none
          | some v =>
            obtain ⟨j, hj, hwj⟩ := (h2 k).2 v hg
            rw [hwj]
            have hm := hmem k v hg
            obtain ⟨w, hw, hwi⟩ := ih v (he _ hm) j hj
            rw [hw]
            exact .some (hwi.mpr (b _ hm))
  | .struct fs, hk, old, v, ho, hv, j, hj => by
    obtain ⟨ms, ms₁, rfl, hp, hk1, hk2⟩ : ∃ ms ms₁, j = .obj ms ∧ ms.Perm ms₁ ∧
        ms₁.map Prod.fst = (fs.encode v).map Prod.fst ∧
        List.Forall₂ Alike (ms₁.map Prod.snd) ((fs.encode v).map Prod.snd) := by
      cases hj with | obj h h' h'' => exact ⟨_, _, rfl, h, h', h''⟩
    obtain ⟨w, h1, h2⟩ := fields_back fold fs hk.2 hk.1 fs.keys ms old v ho hv (by
      intro n hn
      have hf : ms.filter (fun m => target fold fs.keys m.1 = some n) = ms.filter fun m => m.1 = n := by
        apply List.filter_congr
        intro m hm
        have hm1 : m.1 ∈ ms₁.map Prod.fst := List.mem_map_of_mem (hp.mem_iff.mp hm)
        rw [hk1, List.mem_map] at hm1
        obtain ⟨m', hm', he⟩ := hm1
        have := keys_encode fs v m' hm'
        rw [he] at this
        simp only [target, this, if_true, Option.some.injEq]
      rw [hf]
      have := filter_of n hk1 hk2
      exact ⟨_, hp.filter _, this.1, this.2⟩)
    exact ⟨w, h1, h2⟩
private theorem fields_back (fold : Name → Name) : (fs : Fields) → Spec.Fields.Ok fs → fs.keys.Nodup →
    (keys : List Name) → (ms : List (Name × Json)) → (old v : fs.Val) → Spec.Fields.Wf fs old → Spec.Fields.Wf fs v →
    (∀ n ∈ fs.keys, ∃ l, (ms.filter fun m => target fold keys m.1 = some n).Perm l ∧
      l.map Prod.fst = ((fs.encode v).filter fun m => m.1 = n).map Prod.fst ∧
      List.Forall₂ Alike (l.map Prod.snd) (((fs.encode v).filter fun m => m.1 = n).map Prod.snd)) →
    ∃ w, fs.decode fold keys old ms = some w ∧ (Spec.Fields.Same fs w v ↔ Spec.Fields.Back fs old v)
  | .nil, _, _, _, _, _, _, _, _, _ => ⟨(), rfl, by simp [Spec.Fields.Same, Spec.Fields.Back]⟩
  | .cons key om t rest, hk, hn, keys, ms, old, v, ho, hv, hms => by
    have hn' : rest.keys.Nodup := by
      simp only [Fields.keys] at hn
      exact (List.nodup_append.mp hn).2.1
    obtain ⟨ws, h1, h2⟩ := fields_back fold rest hk.2 hn' keys ms old.2 v.2 ho.2 hv.2 (by
      intro n hnr
      have hmn := hms n (by simp only [Fields.keys, List.mem_append]; exact .inr hnr)
      simp only [Fields.encode, List.filter_append] at hmn
      have : (member key (om && t.isEmpty v.1) (t.encode v.1)).filter (fun m => decide (m.1 = n)) = [] := by
        cases key with
        | none => rfl
        | some n' =>
          have hne : n' ≠ n := by
            simp only [Fields.keys] at hn
            intro x
            exact (List.nodup_append.mp hn).2.2 n' (by simp) n hnr x
          simp only [member]
          split <;> simp [hne]
      rw [this, List.nil_append] at hmn
      exact hmn)
    have head : ∃ w, decodeField (t.decode fold) fold keys key old.1 ms = some w ∧
        (Spec.Ty.Same t w v.1 ↔
          if key = none ∨ (om && t.isEmpty v.1) = true then Spec.Ty.Same t old.1 v.1
          else Spec.Ty.Back t old.1 v.1) := by
      cases key with
      | none => exact ⟨old.1, rfl, by simp⟩
      | some n =>
        simp only [reduceCtorEq, false_or]
        have hr : (rest.encode v.2).filter (fun m => decide (m.1 = n)) = [] := by
          rw [List.filter_eq_nil_iff]
          intro m hm
          have := keys_encode rest v.2 m hm
          simp only [Fields.keys] at hn
          have h3 := (List.nodup_append.mp hn).2.2 n (by simp) m.1 this
          simp only [decide_eq_true_eq]
          exact fun x => h3 x.symm
        simp only [decodeField]
        obtain ⟨l, hl1, hl2, hl3⟩ := hms n (by simp [Fields.keys])
        simp only [Fields.encode, List.filter_append, hr, List.append_nil, member] at hl2 hl3
        by_cases hom : (om && t.isEmpty v.1) = true
        · simp only [hom, if_true, List.filter_nil, List.map_nil, List.map_eq_nil_iff] at hl2
          subst hl2
          rw [hl1.eq_nil]
          simp only [hom, if_true]
          exact ⟨old.1, rfl, Iff.rfl⟩
        · simp only [hom, Bool.false_eq_true, if_false, List.filter_cons, decide_true, if_true, List.filter_nil,
            List.map_cons, List.map_nil] at hl2 hl3 ⊢
          obtain ⟨j, l', hj, hl', hs⟩ := List.forall₂_cons_right_iff.mp hl3
          cases hl'
          obtain ⟨x, hx, hx2⟩ := List.map_eq_singleton_iff.mp hs
          rw [hx] at hl1
          subst hx2
          rw [List.perm_singleton.mp hl1]
          obtain ⟨w, hw, hwi⟩ := back fold t hk.1 old.1 v.1 ho.1 hv.1 _ hj
          refine ⟨w, ?_, by simpa using hwi⟩
          simp [hw]
    obtain ⟨w, h3, h4⟩ := head
    refine ⟨(w, ws), ?_, ?_⟩
    · simp only [Fields.decode]
      rw [h3]
      simp only [Option.bind_eq_bind, Option.bind_some]
      rw [h1]; rfl
    · simp only [Spec.Fields.Same, Spec.Fields.Back]
      rw [h4, h2]
end

mutual
theorem alike_refl : (j : Json) → Alike j j
  | .null => .null
  | .bool b => .bool b
  | .num n => .num n
  | .frac t => .frac t
  | .str t => .str t
  | .arr js => .arr (alikes_refl js)
  | .obj ms => .obj (List.Perm.refl _) rfl (alikem_refl ms)
theorem alikes_refl : (js : List Json) → List.Forall₂ Alike js js
  | [] => .nil
  | j :: js => .cons (alike_refl j) (alikes_refl js)
theorem alikem_refl : (ms : List (Name × Json)) → List.Forall₂ Alike (ms.map Prod.snd) (ms.map Prod.snd)
  | [] => .nil
  | (_, j) :: ms => .cons (alike_refl j) (alikem_refl ms)
end

/-- C85, exactly, for a database that keeps JSON values and not their text: whatever text comes back, as long as it is
read as the value that was written up to the order of members, the field holds the value that was stored exactly under
the conditions of `Back`. -/
theorem C85_reordered_iff (lib : Lib) (t : Ty) (hk : Spec.Ty.Ok t) (old v : t.Val) (ho : Spec.Ty.Wf t old)
    (hv : Spec.Ty.Wf t v) (s : Bytes) (j : Json) (hs : lib.parse s = some j) (hj : Alike j (t.encode v)) :
    ∃ w, scan lib t old (.bytes s) = some w ∧ (Spec.Ty.Same t w v ↔ Spec.Ty.Back t old v) := by
  obtain ⟨w, h1, h2⟩ := back lib.fold t hk old v ho hv j hj
  exact ⟨w, by simp only [scan]; rw [hs]; exact h1, h2⟩

/-- C85, exactly.  A value of a JSON field is always written as a JSON text that is read without an error, over
whatever the field holds; and it comes back exactly under the conditions of `Back`.  The text of a JSON value is
assumed to be read as this value. -/
theorem C85_iff_partial (lib : Lib) (t : Ty) (hk : Spec.Ty.Ok t) (old v : t.Val) (ho : Spec.Ty.Wf t old)
    (hv : Spec.Ty.Wf t v) (hp : lib.parse (lib.print (t.encode v) ++ [10]) = some (t.encode v)) :
    ∃ w, scan lib t old (value lib t v) = some w ∧ (Spec.Ty.Same t w v ↔ Spec.Ty.Back t old v) := by
  obtain ⟨w, h1, h2⟩ := back lib.fold t hk old v ho hv _ (alike_refl _)
  exact ⟨w, by simp only [scan, value]; rw [hp]; exact h1, h2⟩

mutual
private theorem zero_back : (t : Ty) → Spec.Ty.Written t → (v : t.Val) → Spec.Ty.Clean t v → Spec.Ty.Back t t.zero v
  | .bool, _, _, _ => trivial
  | .int _ _, _, _, _ => trivial
  | .str, _, _, h => h
  | .ptr t, hw, _, h => fun x hx => ⟨(h x hx).1, zero_back t hw x (h x hx).2⟩
  | .slice t, hw, _, h => fun vs hvs _ x hx => by
    have : Spec.Ty.Clean t x := h vs hvs x (List.mem_of_getElem? hx)
    exact zero_back t hw x this
  | .array _ t, hw, _, h => fun _ o x ho hx => by
    have e : o = t.zero := List.eq_of_mem_replicate (List.mem_of_getElem? ho)
    rw [e]
    exact zero_back t hw x (h x (List.mem_of_getElem? hx))
  | .map t, hw, _, h => fun es hes => ⟨fun os hos => (by cases hos), fun e he => zero_back t hw e.2 (h es hes e he)⟩
  | .struct fs, hw, v, h => fields_zero_back fs hw v h
private theorem fields_zero_back : (fs : Fields) → Spec.Fields.Written fs → (v : fs.Val) → Spec.Fields.Clean fs v →
    Spec.Fields.Back fs fs.zero v
  | .nil, _, _, _ => trivial
  | .cons key om t rest, hw, v, h => by
    refine ⟨?_, fields_zero_back rest hw.2.2.2 v.2 h.2⟩
    have : ¬ (key = none ∨ (om && t.isEmpty v.1) = true) := by
      rw [hw.2.1]; simp [hw.1]
    rw [if_neg this]
    exact zero_back t hw.2.2.1 v.1 h.1
end

mutual
theorem any_back : (t : Ty) → Spec.Ty.Written t → Spec.Ty.NoMap t → (old v : t.Val) → Spec.Ty.Clean t v →
    Spec.Ty.Back t old v
  | .bool, _, _, _, _, _ => trivial
  | .int _ _, _, _, _, _, _ => trivial
  | .str, _, _, _, _, h => h
  | .ptr t, hw, hm, _, _, h => fun x hx => ⟨(h x hx).1, any_back t hw hm _ x (h x hx).2⟩
  | .slice t, hw, hm, _, _, h => fun vs hvs _ x hx => any_back t hw hm _ x (h vs hvs x (List.mem_of_getElem? hx))
  | .array _ t, hw, hm, _, _, h => fun _ o x _ hx => any_back t hw hm o x (h x (List.mem_of_getElem? hx))
  | .map _, _, hm, _, _, _ => hm.elim
  | .struct fs, hw, hm, old, v, h => fields_any_back fs hw hm old v h
theorem fields_any_back : (fs : Fields) → Spec.Fields.Written fs → Spec.Fields.NoMap fs → (old v : fs.Val) →
    Spec.Fields.Clean fs v → Spec.Fields.Back fs old v
  | .nil, _, _, _, _, _ => trivial
  | .cons key om t rest, hw, hm, old, v, h => by
    refine ⟨?_, fields_any_back rest hw.2.2.2 hm.2 old.2 v.2 h.2⟩
    have : ¬ (key = none ∨ (om && t.isEmpty v.1) = true) := by
      rw [hw.2.1]; simp [hw.1]
    rw [if_neg this]
    exact any_back t hw.2.2.1 hm.1 old.1 v.1 h.1
end

/-- C85 for a new record: with all fields written and clean values, what was stored comes back. -/
theorem C85_fresh_partial (lib : Lib) (t : Ty) (hk : Spec.Ty.Ok t) (hw : Spec.Ty.Written t) (v : t.Val)
    (hv : Spec.Ty.Wf t v) (hc : Spec.Ty.Clean t v)
    (hp : lib.parse (lib.print (t.encode v) ++ [10]) = some (t.encode v)) :
    ∃ w, scan lib t t.zero (value lib t v) = some w ∧ Spec.Ty.Same t w v := by
  obtain ⟨w, h1, h2⟩ := C85_iff_partial lib t hk t.zero v (zero_wf t hk) hv hp
  exact ⟨w, h1, h2.mpr (zero_back t hw v hc)⟩

/-- C85 for a record that was used before: the same, if there are no maps. -/
theorem C85_used_partial (lib : Lib) (t : Ty) (hk : Spec.Ty.Ok t) (hw : Spec.Ty.Written t) (hm : Spec.Ty.NoMap t)
    (old v : t.Val) (ho : Spec.Ty.Wf t old) (hv : Spec.Ty.Wf t v) (hc : Spec.Ty.Clean t v)
    (hp : lib.parse (lib.print (t.encode v) ++ [10]) = some (t.encode v)) :
    ∃ w, scan lib t old (value lib t v) = some w ∧ Spec.Ty.Same t w v := by
  obtain ⟨w, h1, h2⟩ := C85_iff_partial lib t hk old v ho hv hp
  exact ⟨w, h1, h2.mpr (any_back t hw hm old v hc)⟩

/-- C85, refuted for maps in a record that was used before: an entry with a key that the stored map does not have
is still there after reading. -/
theorem C85_map_leftover (lib : Lib) (t : Ty) (hk : Spec.Ty.Ok t) (os es : List (Name × t.Val))
    (hv : Spec.Ty.Wf (.map t) (some es)) (k : Name) (hkes : k ∉ es.map Prod.fst)
    (hp : lib.parse (lib.print ((Ty.map t).encode (some es)) ++ [10]) = some ((Ty.map t).encode (some es))) :
    ∃ ws : List (Name × t.Val), scan lib (.map t) (some os) (value lib (.map t) (some es)) = some (some ws) ∧
      entry k ws = entry k os := by
  obtain ⟨hn, he⟩ := hv es rfl
  obtain ⟨ws, h1, h2⟩ := maps (t.decode lib.fold) (fun v j => Alike j (t.encode v)) t.zero es os _ _ hn
    (List.Perm.refl (es.map fun e => (e.1, t.encode e.2))) (members_of t.encode rfl (alikem_refl _))
    (fun e h j hj => let ⟨w, hw, _⟩ := back lib.fold t hk t.zero e.2 (zero_wf t hk) (he e h) j hj; ⟨w, hw⟩)
  refine ⟨ws, ?_, (h2 k).1 hkes⟩
  simp only [scan, value]
  rw [hp]
  show (decodeMap (t.decode lib.fold) t.zero os (es.map fun e => (e.1, t.encode e.2))).map some = _
  rw [h1]; rfl

/-- C85, refuted for strings that are not made of characters: they never come back. -/
theorem C85_bad_text (lib : Lib) (old v : List Rune) (b : Byte) (hb : Rune.bad b ∈ v)
    (hp : lib.parse (lib.print (Ty.str.encode v) ++ [10]) = some (Ty.str.encode v)) :
    ∃ w : List Rune, scan lib .str old (value lib .str v) = some w ∧ w ≠ v := by
  obtain ⟨w, h1, h2⟩ := C85_iff_partial lib .str trivial old v trivial trivial hp
  refine ⟨w, h1, fun h => ?_⟩
  obtain ⟨c, hc⟩ := h2.mp h _ hb
  cases hc

/-- Texts are read alike, whether the driver delivers them as a string or as bytes. -/
theorem C85_text_alike (lib : Lib) (t : Ty) (old : t.Val) (s : List Byte) :
    scan lib t old (.str s) = scan lib t old (.bytes s) := rfl

/-- NULL makes the field zero, whatever it held. -/
theorem C85_null (lib : Lib) (t : Ty) (old : t.Val) : scan lib t old .nil = some t.zero := rfl

/-- C85, refuted for the JSON value `null`: read into a field that is no pointer, slice or map, it leaves there what
was there before. -/
theorem C85_json_null_keeps (lib : Lib) (t : Ty) (h : ∀ v : t.Val, ¬ IsNil t v) (old : t.Val) (s : Bytes)
    (hp : lib.parse s = some .null) : scan lib t old (.bytes s) = some old := by
  simp only [scan]
  rw [hp]
  cases t with
  | ptr t => exact absurd rfl (h none)
  | slice t => exact absurd rfl (h none)
  | map t => exact absurd rfl (h none)
  | bool => rfl
  | int => rfl
  | str => rfl
  | array => rfl
  | struct => rfl

/-- Anything but text and NULL is an error, as is a text that starts with no JSON value. -/
theorem C85_error_iff (lib : Lib) (t : Ty) (old : t.Val) (d : DV) :
    scan lib t old d = none ↔
      (d ≠ .nil ∧ (∀ s, d ≠ .str s) ∧ (∀ s, d ≠ .bytes s)) ∨
      ∃ s, (d = .str s ∨ d = .bytes s) ∧
        (lib.parse s = none ∨ ∃ j, lib.parse s = some j ∧ t.decode lib.fold old j = none) := by
  cases d <;> simp [scan, Option.bind_eq_none_iff]
  all_goals
    rename_i s
    cases lib.parse s <;> simp

private theorem elems_some {V : Type} (dec : V → Json → Option V) (zero : V) (P : V → Prop) (A : Json → Prop)
    (hz : P zero) (h : ∀ o j, P o → ((∃ v, dec o j = some v ∧ P v) ∧ A j ∨ dec o j = none ∧ ¬ A j)) :
    ∀ (js : List Json) (os : List V), (∀ o ∈ os, P o) →
      ((∃ vs, decodeElems dec zero os js = some vs ∧ ∀ v ∈ vs, P v) ∧ ∀ x ∈ js, A x) ∨
        (decodeElems dec zero os js = none ∧ ¬ ∀ x ∈ js, A x) := by
  intro js
  induction js with
  | nil =>
    intro os _
    left
    exact ⟨⟨[], by cases os <;> rfl, by simp⟩, by simp⟩
  | cons j js ih =>
    intro os hos
    have step : ∀ o os', P o → (∀ o ∈ os', P o) →
        ((∃ vs, (do let v ← dec o j; let vs ← decodeElems dec zero os' js; some (v :: vs)) = some vs ∧
            ∀ v ∈ vs, P v) ∧ ∀ x ∈ j :: js, A x) ∨
          ((do let v ← dec o j; let vs ← decodeElems dec zero os' js; some (v :: vs)) = none ∧
            ¬ ∀ x ∈ j :: js, A x) := by
      intro o os' ho hos'
      rcases h o j ho with ⟨⟨v, h1, h2⟩, h3⟩ | ⟨h1, h2⟩
      · rcases ih os' hos' with ⟨⟨vs, h4, h5⟩, h6⟩ | ⟨h4, h5⟩
        · left
          refine ⟨⟨v :: vs, by simp [h1, h4], ?_⟩, ?_⟩
          · intro w hw
            rcases List.mem_cons.mp hw with rfl | hw
            · exact h2
            · exact h5 w hw
          · intro x hx
            rcases List.mem_cons.mp hx with rfl | hx
            · exact h3
            · exact h6 x hx
        · right
          exact ⟨by simp [h1, h4], fun hall => h5 fun x hx => hall x (by simp [hx])⟩
      · right
        exact ⟨by simp [h1], fun hall => h2 (hall j (by simp))⟩
    cases os with
    | nil => exact step zero [] hz (by simp)
    | cons o os => exact step o os (hos o (by simp)) fun o' ho' => hos o' (by simp [ho'])

private theorem array_some {V : Type} (dec : V → Json → Option V) (zero : V) (P : V → Prop) (A : Json → Prop)
    (hz : P zero) (h : ∀ o j, P o → ((∃ v, dec o j = some v ∧ P v) ∧ A j ∨ dec o j = none ∧ ¬ A j)) :
    ∀ (os : List V) (js : List Json), (∀ o ∈ os, P o) →
      ((∃ vs, decodeArray dec zero os js = some vs ∧ vs.length = os.length ∧ ∀ v ∈ vs, P v) ∧
          ∀ x ∈ js.take os.length, A x) ∨
        (decodeArray dec zero os js = none ∧ ¬ ∀ x ∈ js.take os.length, A x) := by
  intro os
  induction os with
  | nil => intro js _; left; exact ⟨⟨[], by cases js <;> rfl, rfl, by simp⟩, by simp⟩
  | cons o os ih =>
    intro js hos
    have hos' : ∀ o ∈ os, P o := fun o' ho' => hos o' (by simp [ho'])
    cases js with
    | nil =>
      left
      rcases ih [] hos' with ⟨⟨vs, h4, h5, h6⟩, _⟩ | ⟨_, h5⟩
      · refine ⟨⟨zero :: vs, by simp [decodeArray, h4], by simp [h5], ?_⟩, by simp⟩
        intro w hw
        rcases List.mem_cons.mp hw with rfl | hw
        · exact hz
        · exact h6 w hw
      · simp at h5
    | cons j js =>
      simp only [List.length_cons, List.take_succ_cons]
      rcases h o j (hos o (by simp)) with ⟨⟨v, h1, h2⟩, h3⟩ | ⟨h1, h2⟩
      · rcases ih js hos' with ⟨⟨vs, h4, h5, h6⟩, h7⟩ | ⟨h4, h5⟩
        · left
          refine ⟨⟨v :: vs, by simp [decodeArray, h1, h4], by simp [h5], ?_⟩, ?_⟩
          · intro w hw
            rcases List.mem_cons.mp hw with rfl | hw
            · exact h2
            · exact h6 w hw
          · intro x hx
            rcases List.mem_cons.mp hx with rfl | hx
            · exact h3
            · exact h7 x hx
        · right
          exact ⟨by simp [decodeArray, h1, h4], fun hall => h5 fun x hx => hall x (by simp [hx])⟩
      · right
        exact ⟨by simp [decodeArray, h1], fun hall => h2 (hall j (by simp))⟩

private theorem put_wf {V : Type} (P : V → Prop) (k : JsonField.Name) (v : V) (m : List (JsonField.Name × V)) (hv : P v)
    (hm : (m.map Prod.fst).Nodup ∧ ∀ e ∈ m, P e.2) :
    ((put k v m).map Prod.fst).Nodup ∧ ∀ e ∈ put k v m, P e.2 := by
  refine ⟨?_, ?_⟩
  · simp only [put, List.map_cons, List.nodup_cons]
    refine ⟨?_, (List.Sublist.map Prod.fst List.filter_sublist).nodup hm.1⟩
    intro h
    obtain ⟨e, he, rfl⟩ := List.mem_map.mp h
    have := (List.mem_filter.mp he).2
    simp at this
  · intro e he
    rcases List.mem_cons.mp he with rfl | he
    · exact hv
    · exact hm.2 e (List.mem_filter.mp he).1

private theorem map_some {V : Type} (dec : V → Json → Option V) (zero : V) (P : V → Prop) (A : Json → Prop)
    (hz : P zero) (h : ∀ o j, P o → ((∃ v, dec o j = some v ∧ P v) ∧ A j ∨ dec o j = none ∧ ¬ A j)) :
    ∀ (ms : List (JsonField.Name × Json)) (m : List (JsonField.Name × V)),
      ((m.map Prod.fst).Nodup ∧ ∀ e ∈ m, P e.2) →
      ((∃ w : List (JsonField.Name × V), decodeMap dec zero m ms = some w ∧ (w.map Prod.fst).Nodup ∧
          ∀ e ∈ w, P e.2) ∧ ∀ x ∈ ms, A x.2) ∨
        (decodeMap dec zero m ms = none ∧ ¬ ∀ x ∈ ms, A x.2) := by
  intro ms
  induction ms with
  | nil => intro m hm; left; exact ⟨⟨m, rfl, hm⟩, by simp⟩
  | cons x ms ih =>
    obtain ⟨k, j⟩ := x
    intro m hm
    rcases h zero j hz with ⟨⟨v, h1, h2⟩, h3⟩ | ⟨h1, h2⟩
    · rcases ih (put k v m) (put_wf P k v m h2 hm) with ⟨⟨w, h4, h5⟩, h6⟩ | ⟨h4, h5⟩
      · left
        refine ⟨⟨w, by simp [decodeMap, h1, h4], h5⟩, ?_⟩
        intro x hx
        rcases List.mem_cons.mp hx with rfl | hx
        · exact h3
        · exact h6 x hx
      · right
        exact ⟨by simp [decodeMap, h1, h4], fun hall => h5 fun x hx => hall x (by simp [hx])⟩
    · right
      exact ⟨by simp [decodeMap, h1], fun hall => h2 (hall (k, j) (by simp))⟩

private theorem fold_some {V : Type} (dec : V → Json → Option V) (P : V → Prop) (A : Json → Prop)
    (h : ∀ o j, P o → ((∃ v, dec o j = some v ∧ P v) ∧ A j ∨ dec o j = none ∧ ¬ A j)) :
    ∀ (js : List Json) (o : V), P o →
      ((∃ v, js.foldlM dec o = some v ∧ P v) ∧ ∀ x ∈ js, A x) ∨ (js.foldlM dec o = none ∧ ¬ ∀ x ∈ js, A x) := by
  intro js
  induction js with
  | nil => intro o ho; left; exact ⟨⟨o, rfl, ho⟩, by simp⟩
  | cons j js ih =>
    intro o ho
    rcases h o j ho with ⟨⟨v, h1, h2⟩, h3⟩ | ⟨h1, h2⟩
    · rcases ih v h2 with ⟨h4, h5⟩ | ⟨h4, h5⟩
      · left
        refine ⟨by simpa [List.foldlM_cons, h1] using h4, ?_⟩
        intro x hx
        rcases List.mem_cons.mp hx with rfl | hx
        · exact h3
        · exact h5 x hx
      · right
        exact ⟨by simpa [List.foldlM_cons, h1] using h4, fun hall => h5 fun x hx => hall x (by simp [hx])⟩
    · right
      exact ⟨by simp [List.foldlM_cons, h1], fun hall => h2 (hall j (by simp))⟩

mutual
private theorem accepts (fold : JsonField.Name → JsonField.Name) : ∀ (t : Ty), Spec.Ty.Ok t → ∀ (old : t.Val) (j : Json),
    Spec.Ty.Wf t old →
      ((∃ v, t.decode fold old j = some v ∧ Spec.Ty.Wf t v) ∧ Spec.Ty.Accepts fold t j) ∨
        (t.decode fold old j = none ∧ ¬ Spec.Ty.Accepts fold t j)
  | .bool => by
    intro _ old j ho
    cases j with
    | null => left; exact ⟨⟨old, rfl, ho⟩, Or.inl rfl⟩
    | bool b => left; exact ⟨⟨b, rfl, trivial⟩, Or.inr ⟨b, rfl⟩⟩
    | _ => right; exact ⟨rfl, by simp [Spec.Ty.Accepts]⟩
  | .int lo hi => by
    intro _ old j ho
    cases j with
    | null => left; exact ⟨⟨old, rfl, ho⟩, Or.inl rfl⟩
    | num n =>
      by_cases hr : lo ≤ n ∧ n ≤ hi
      · left
        exact ⟨⟨n, by show (if lo ≤ n ∧ n ≤ hi then some n else none) = some n; rw [if_pos hr], hr⟩, Or.inr ⟨n, rfl, hr⟩⟩
      · right
        refine ⟨by show (if lo ≤ n ∧ n ≤ hi then some n else none) = none; rw [if_neg hr], ?_⟩
        rintro (h | ⟨m, h1, h2⟩)
        · cases h
        · cases h1; exact hr h2
    | _ => right; exact ⟨rfl, by simp [Spec.Ty.Accepts]⟩
  | .str => by
    intro _ old j ho
    cases j with
    | null => left; exact ⟨⟨old, rfl, ho⟩, Or.inl rfl⟩
    | str s => left; exact ⟨⟨s.map Rune.char, rfl, trivial⟩, Or.inr ⟨s, rfl⟩⟩
    | _ => right; exact ⟨rfl, by simp [Spec.Ty.Accepts]⟩
  | .ptr t => by
    intro hk old j ho
    have hw : Spec.Ty.Wf t ((show Option t.Val from old).getD t.zero) := by
      cases hx : (show Option t.Val from old) with
      | none => exact zero_wf t hk
      | some v => exact ho v hx
    have main : ∀ j, j ≠ .null → (Ty.ptr t).decode fold old j =
        (t.decode fold ((show Option t.Val from old).getD t.zero) j).map some := by
      intro j hj; cases j <;> first | rfl | exact absurd rfl hj
    by_cases hj : j = .null
    · subst hj; left; exact ⟨⟨none, rfl, by intro v hv; cases hv⟩, Or.inl rfl⟩
    · rw [main j hj]
      rcases accepts fold t hk _ j hw with ⟨⟨v, h1, h2⟩, h3⟩ | ⟨h1, h2⟩
      · left
        refine ⟨⟨some v, by rw [h1]; rfl, ?_⟩, Or.inr h3⟩
        intro w hw'; cases hw'; exact h2
      · right
        refine ⟨by rw [h1]; rfl, ?_⟩
        rintro (h | h)
        · exact hj h
        · exact h2 h
  | .slice t => by
    intro hk old j ho
    cases j with
    | null => left; exact ⟨⟨none, rfl, by intro v hv; cases hv⟩, Or.inl rfl⟩
    | arr js =>
      have hw : ∀ o ∈ (show Option (List t.Val) from old).getD [], Spec.Ty.Wf t o := by
        cases hx : (show Option (List t.Val) from old) with
        | none => intro o h; simp at h
        | some vs => exact ho vs hx
      have hd : (Ty.slice t).decode fold old (.arr js) =
        (decodeElems (t.decode fold) t.zero ((show Option (List t.Val) from old).getD []) js).map some := rfl
      rw [hd]
      rcases elems_some (t.decode fold) t.zero (Spec.Ty.Wf t) (Spec.Ty.Accepts fold t) (zero_wf t hk)
        (accepts fold t hk) js _ hw with ⟨⟨vs, h1, h2⟩, h3⟩ | ⟨h1, h2⟩
      · left
        refine ⟨⟨some vs, by rw [h1]; rfl, ?_⟩, Or.inr ⟨js, rfl, h3⟩⟩
        intro w hw'; cases hw'; exact h2
      · right
        refine ⟨by rw [h1]; rfl, ?_⟩
        rintro (h | ⟨js', h, h'⟩)
        · cases h
        · cases h; exact h2 h'
    | _ => right; exact ⟨rfl, by simp [Spec.Ty.Accepts]⟩
  | .array n t => by
    intro hk old j ho
    cases j with
    | null => left; exact ⟨⟨old, rfl, ho⟩, Or.inl rfl⟩
    | arr js =>
      obtain ⟨hl, hw⟩ := ho
      have hd : (Ty.array n t).decode fold old (.arr js) = decodeArray (t.decode fold) t.zero old js := rfl
      rw [hd]
      rcases array_some (t.decode fold) t.zero (Spec.Ty.Wf t) (Spec.Ty.Accepts fold t) (zero_wf t hk)
        (fun o j h => accepts fold t hk o j h) old js hw with ⟨⟨vs, h1, h2, h3⟩, h4⟩ | ⟨h1, h2⟩
      · left
        exact ⟨⟨vs, h1, h2.trans hl, h3⟩, Or.inr ⟨js, rfl, by rw [← hl]; exact h4⟩⟩
      · right
        refine ⟨h1, ?_⟩
        rintro (h | ⟨js', h, h'⟩)
        · cases h
        · cases h; rw [← hl] at h'; exact h2 h'
    | _ => right; exact ⟨rfl, by simp [Spec.Ty.Accepts]⟩
  | .map t => by
    intro hk old j ho
    cases j with
    | null => left; exact ⟨⟨none, rfl, by intro v hv; cases hv⟩, Or.inl rfl⟩
    | obj ms =>
      have hw : (((show Option (List (JsonField.Name × t.Val)) from old).getD []).map Prod.fst).Nodup ∧
          ∀ e ∈ (show Option (List (JsonField.Name × t.Val)) from old).getD [], Spec.Ty.Wf t e.2 := by
        cases hx : (show Option (List (JsonField.Name × t.Val)) from old) with
        | none => simp
        | some vs => exact ho vs hx
      have hd : (Ty.map t).decode fold old (.obj ms) = (decodeMap (t.decode fold) t.zero
        ((show Option (List (JsonField.Name × t.Val)) from old).getD []) ms).map some := rfl
      rw [hd]
      rcases map_some (t.decode fold) t.zero (Spec.Ty.Wf t) (Spec.Ty.Accepts fold t) (zero_wf t hk)
        (fun o j h => accepts fold t hk o j h) ms _ hw with ⟨⟨vs, h1, h2⟩, h3⟩ | ⟨h1, h2⟩
      · left
        refine ⟨⟨some vs, by rw [h1]; rfl, ?_⟩, Or.inr ⟨ms, rfl, h3⟩⟩
        intro w hw'; cases hw'; exact h2
      · right
        refine ⟨by rw [h1]; rfl, ?_⟩
        rintro (h | ⟨js', h, h'⟩)
        · cases h
        · cases h; exact h2 h'
    | _ => right; exact ⟨rfl, by simp [Spec.Ty.Accepts]⟩
  | .struct fs => by
    intro hk old j ho
    cases j with
    | null => left; exact ⟨⟨old, rfl, ho⟩, Or.inl rfl⟩
    | obj ms =>
      have hd : (Ty.struct fs).decode fold old (.obj ms) = fs.decode fold fs.keys old ms := rfl
      rw [hd]
      rcases accepts_fields fold fs hk.2 fs.keys old ms ho with ⟨h1, h2⟩ | ⟨h1, h2⟩
      · left; exact ⟨h1, Or.inr ⟨ms, rfl, h2⟩⟩
      · right
        refine ⟨h1, ?_⟩
        rintro (h | ⟨js', h, h'⟩)
        · cases h
        · cases h; exact h2 h'
    | _ => right; exact ⟨rfl, by simp [Spec.Ty.Accepts]⟩
private theorem accepts_fields (fold : JsonField.Name → JsonField.Name) : ∀ (fs : Fields), Spec.Fields.Ok fs →
    ∀ (keys : List JsonField.Name) (old : fs.Val) (ms : List (JsonField.Name × Json)), Spec.Fields.Wf fs old →
      ((∃ v, fs.decode fold keys old ms = some v ∧ Spec.Fields.Wf fs v) ∧ Spec.Fields.Accepts fold fs keys ms) ∨
        (fs.decode fold keys old ms = none ∧ ¬ Spec.Fields.Accepts fold fs keys ms)
  | .nil => by
    intro _ keys old ms _
    left; exact ⟨⟨(), rfl, trivial⟩, trivial⟩
  | .cons key om t rest => by
    intro hk keys old ms ho
    have hd : (Fields.cons key om t rest).decode fold keys old ms =
      (decodeField (t.decode fold) fold keys key old.1 ms).bind fun v =>
        (rest.decode fold keys old.2 ms).bind fun vs => some (v, vs) := rfl
    rw [hd]
    have hfield : ((∃ v, decodeField (t.decode fold) fold keys key old.1 ms = some v ∧ Spec.Ty.Wf t v) ∧
        ∀ n, key = some n → ∀ m ∈ ms, target fold keys m.1 = some n → Spec.Ty.Accepts fold t m.2) ∨
        (decodeField (t.decode fold) fold keys key old.1 ms = none ∧
          ¬ ∀ n, key = some n → ∀ m ∈ ms, target fold keys m.1 = some n → Spec.Ty.Accepts fold t m.2) := by
      cases key with
      | none => left; exact ⟨⟨old.1, rfl, ho.1⟩, by intro n h; cases h⟩
      | some n =>
        simp only [decodeField]
        rcases fold_some (t.decode fold) (Spec.Ty.Wf t) (Spec.Ty.Accepts fold t)
          (fun o j h => accepts fold t hk.1 o j h)
          ((ms.filter fun m => target fold keys m.1 = some n).map Prod.snd) old.1 ho.1 with ⟨h1, h2⟩ | ⟨h1, h2⟩
        · left
          refine ⟨h1, ?_⟩
          intro n' hn' m hm ht
          cases hn'
          exact h2 m.2 (List.mem_map.mpr ⟨m, List.mem_filter.mpr ⟨hm, by simpa using ht⟩, rfl⟩)
        · right
          refine ⟨h1, fun hall => h2 ?_⟩
          intro x hx
          obtain ⟨m, hm, rfl⟩ := List.mem_map.mp hx
          obtain ⟨hm1, hm2⟩ := List.mem_filter.mp hm
          exact hall n rfl m hm1 (by simpa using hm2)
    rcases hfield with ⟨⟨v, h1, h2⟩, h3⟩ | ⟨h1, h2⟩
    · rcases accepts_fields fold rest hk.2 keys old.2 ms ho.2 with ⟨⟨vs, h4, h5⟩, h6⟩ | ⟨h4, h5⟩
      · left; exact ⟨⟨(v, vs), by rw [h1, h4]; rfl, h2, h5⟩, h3, h6⟩
      · right; exact ⟨by rw [h1, h4]; rfl, fun h => h5 h.2⟩
    · right; exact ⟨by rw [h1]; rfl, fun h => h2 h.1⟩
end

/-- C85, exactly when reading succeeds: the column is NULL, or a text that starts with a JSON value which fits the type;
what the field held before does not matter, and what it holds afterwards is a value of its type. -/
theorem C85_reads_iff (lib : Lib) (t : Ty) (hk : Spec.Ty.Ok t) (old : t.Val) (ho : Spec.Ty.Wf t old) (d : DV) :
    (∃ v, scan lib t old d = some v ∧ Spec.Ty.Wf t v) ↔
      d = .nil ∨ ∃ s j, (d = .str s ∨ d = .bytes s) ∧ lib.parse s = some j ∧ Spec.Ty.Accepts lib.fold t j := by
  have text : ∀ s, (∃ v, (lib.parse s).bind (t.decode lib.fold old) = some v ∧ Spec.Ty.Wf t v) ↔
      ∃ j, lib.parse s = some j ∧ Spec.Ty.Accepts lib.fold t j := by
    intro s
    cases hp : lib.parse s with
    | none => simp
    | some j =>
      simp only [Option.bind_some, Option.some.injEq, exists_eq_left']
      rcases accepts lib.fold t hk old j ho with ⟨h1, h2⟩ | ⟨h1, h2⟩
      · exact ⟨fun _ => h2, fun _ => h1⟩
      · refine ⟨fun ⟨v, h, _⟩ => ?_, fun h => absurd h h2⟩
        rw [h1] at h; cases h
  cases d with
  | nil => simp only [scan, true_or, iff_true]; exact ⟨t.zero, rfl, zero_wf t hk⟩
  | str s =>
    simp only [scan, text]
    constructor
    · rintro ⟨j, h⟩; exact Or.inr ⟨s, j, Or.inl rfl, h⟩
    · rintro (h | ⟨s', j, h | h, h'⟩)
      · cases h
      · cases h; exact ⟨j, h'⟩
      · cases h
  | bytes s =>
    simp only [scan, text]
    constructor
    · rintro ⟨j, h⟩; exact Or.inr ⟨s, j, Or.inr rfl, h⟩
    · rintro (h | ⟨s', j, h | h, h'⟩)
      · cases h
      · cases h
      · cases h; exact ⟨j, h'⟩
  | _ => simp [scan]

/-! A struct `{ID int8; Tags map[string]string; note string}` with the member names `ID` and `Tags`. -/

private def rec : Ty :=
  .struct (.cons (some "ID".toList) false (.int (-128) 127)
    (.cons (some "Tags".toList) false (.map .str) (.cons none false .str .nil)))

private def text (s : String) : List Rune := s.toList.map Rune.char

private def stored : rec.Val := ((7 : Int), some [("a".toList, text "x")], [], ())

private def used : rec.Val := ((1 : Int), some [("a".toList, text "u"), ("b".toList, text "w")], text "n", ())

example : Spec.Ty.Ok rec := by
  simp [rec, Spec.Ty.Ok, Spec.Fields.Ok, Fields.keys]
example : Spec.Ty.Wf rec stored := by
  refine ⟨⟨by decide, by decide⟩, ?_, trivial, trivial⟩
  intro es h
  cases h
  exact ⟨by decide, fun _ _ => trivial⟩
example : ∃ lib : Lib, lib.parse (lib.print (rec.encode stored) ++ [10]) = some (rec.encode stored) :=
  ⟨⟨fun _ => [], fun _ => some (rec.encode stored), id⟩, rfl⟩
-- over a new record the value comes back; over one that was used, the entry `b` and the note stay
example : Spec.Ty.Back rec rec.zero stored := by
  refine ⟨?_, ?_, ?_, trivial⟩
  · exact trivial
  · intro es h
    cases h
    refine ⟨fun os h => (by cases h), ?_⟩
    intro e he
    cases he with
    | head =>
      intro r hr
      simp [text] at hr
      exact ⟨_, hr⟩
    | tail _ h => cases h
  · rfl
example : ¬ Spec.Ty.Back rec used stored := by
  intro h
  have := (h.2.1 _ rfl).1 _ rfl "b".toList (by simp)
  revert this; decide
example : ∃ m : List (Name × List Rune), rec.decode id used (rec.encode stored) = some ((7 : Int), some m, text "n", ()) ∧
    entry "b".toList m = some (text "w") ∧ entry "a".toList m = some (text "x") :=
  ⟨_, rfl, rfl, rfl⟩
example : Spec.Ty.Ok (.array 3 (.ptr (.slice .str))) ∧ Spec.Ty.Written (.array 3 (.ptr (.slice .str))) ∧
    Spec.Ty.NoMap (.array 3 (.ptr (.slice .str))) := ⟨trivial, trivial, trivial⟩
-- a pointer to a nil slice does not come back
example : ¬ Spec.Ty.Back (.ptr (.slice .bool)) none (some none) := fun h => (h none rfl).1 rfl

-- the third element has no place in the array and need not fit; a number outside of `int8` does not fit
example : Spec.Ty.Accepts id (.array 2 (.int (-128) 127)) (.arr [.num 5, .null, .str []]) := by
  refine Or.inr ⟨_, rfl, ?_⟩
  intro x hx
  simp only [List.take_succ_cons, List.take_zero, List.mem_cons, List.not_mem_nil, or_false] at hx
  rcases hx with rfl | rfl
  · exact Or.inr ⟨5, rfl, by decide, by decide⟩
  · exact Or.inl rfl
example : ¬ Spec.Ty.Accepts id (.int (-128) 127) (.num 128) := by
  rintro (h | ⟨n, h, _, h'⟩)
  · cases h
  · cases h; revert h'; decide

end Verif.Props
