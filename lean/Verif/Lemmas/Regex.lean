import Verif.Model.Source

/-!
# The language of a regular expression
-/

namespace Verif.Source.Re

/-- The texts a regular expression matches. -/
def Lang : Re → Text → Prop
  | empty, _ => False
  | eps, s => s = []
  | cls p, s => ∃ c, s = [c] ∧ p c = true
  | cat a b, s => ∃ u v, s = u ++ v ∧ Lang a u ∧ Lang b v
  | alt a b, s => Lang a s ∨ Lang b s
  | star a, s => ∃ us : List Text, s = us.flatten ∧ ∀ u ∈ us, Lang a u

theorem flatten_chars (s : Text) : (s.map fun c => [c]).flatten = s := by
  induction s with
  | nil => rfl
  | cons c s ih => rw [List.map_cons, List.flatten_cons, ih]; rfl

theorem nullable_iff (r : Re) : r.nullable = true ↔ r.Lang [] := by
  induction r with
  | empty => simp [nullable, Lang]
  | eps => simp [nullable, Lang]
  | cls p => simp [nullable, Lang]
  | cat a b iha ihb =>
    simp only [nullable, Bool.and_eq_true, iha, ihb]
    constructor
    · rintro ⟨h, h'⟩; exact ⟨[], [], rfl, h, h'⟩
    · rintro ⟨u, v, h, hu, hv⟩
      obtain ⟨rfl, rfl⟩ := List.append_eq_nil_iff.1 h.symm
      exact ⟨hu, hv⟩
  | alt a b iha ihb => simp [nullable, Lang, iha, ihb]
  | star a ih =>
    simp only [nullable, Lang, true_iff]
    exact ⟨[], rfl, by simp⟩

theorem star_cons {a : Re} {c : Char} {s : Text} : (star a).Lang (c :: s) ↔ ∃ u v, s = u ++ v ∧ a.Lang (c :: u) ∧ (star a).Lang v := by
  constructor
  · rintro ⟨us, h, hu⟩
    induction us with
    | nil => cases h
    | cons w us ih =>
      cases w with
      | nil => exact ih (by simpa using h) fun u hm => hu u (List.mem_cons_of_mem _ hm)
      | cons d w =>
        simp only [List.flatten_cons, List.cons_append, List.cons.injEq] at h
        obtain ⟨rfl, rfl⟩ := h
        exact ⟨w, us.flatten, rfl, hu _ (List.mem_cons_self ..), us, rfl, fun u hm => hu u (List.mem_cons_of_mem _ hm)⟩
  · rintro ⟨u, v, rfl, h, us, rfl, hus⟩
    refine ⟨(c :: u) :: us, rfl, fun w hw => ?_⟩
    rcases List.mem_cons.1 hw with rfl | hw
    · exact h
    · exact hus w hw

theorem deriv_iff (r : Re) (c : Char) (s : Text) : (r.deriv c).Lang s ↔ r.Lang (c :: s) := by
  induction r generalizing s with
  | empty => simp [deriv, Lang]
  | eps => simp [deriv, Lang]
  | cls p =>
    simp only [deriv, Lang]
    cases h : p c with
    | true =>
      simp only [if_true, Lang]
      constructor
      · rintro rfl; exact ⟨c, rfl, h⟩
      · rintro ⟨d, e, _⟩; cases e; rfl
    | false =>
      rw [if_neg (by simp)]
      simp only [Lang, false_iff]
      rintro ⟨d, e, hd⟩
      cases e
      rw [h] at hd; cases hd
  | cat a b iha ihb =>
    have key : (cat (a.deriv c) b).Lang s ↔ ∃ u v, s = u ++ v ∧ a.Lang (c :: u) ∧ b.Lang v := by simp [Lang, iha]
    have hc : (cat a b).Lang (c :: s) ↔ (a.Lang [] ∧ b.Lang (c :: s)) ∨ ∃ u v, s = u ++ v ∧ a.Lang (c :: u) ∧ b.Lang v := by
      constructor
      · rintro ⟨u, v, h, hu, hv⟩
        cases u with
        | nil => left; exact ⟨hu, by rw [List.nil_append] at h; rw [h]; exact hv⟩
        | cons d u =>
          simp only [List.cons_append, List.cons.injEq] at h
          obtain ⟨rfl, rfl⟩ := h
          exact .inr ⟨u, v, rfl, hu, hv⟩
      · rintro (⟨h, h'⟩ | ⟨u, v, rfl, hu, hv⟩)
        · exact ⟨[], c :: s, rfl, h, h'⟩
        · exact ⟨c :: u, v, rfl, hu, hv⟩
    rw [hc]
    cases hn : a.nullable with
    | true =>
      have := (nullable_iff a).1 hn
      simp only [deriv, hn, if_true]
      show (cat (a.deriv c) b).Lang s ∨ (b.deriv c).Lang s ↔ _
      rw [key, ihb]
      constructor
      · rintro (h | h)
        · exact .inr h
        · exact .inl ⟨this, h⟩
      · rintro (⟨_, h⟩ | h)
        · exact .inr h
        · exact .inl h
    | false =>
      have : ¬ a.Lang [] := fun h => by rw [(nullable_iff a).2 h] at hn; cases hn
      simp only [deriv, hn]
      rw [if_neg (by simp), key]
      constructor
      · exact .inr
      · rintro (⟨h, _⟩ | h)
        · exact absurd h this
        · exact h
  | alt a b iha ihb => simp [deriv, Lang, iha, ihb]
  | star a ih =>
    rw [star_cons]
    show (cat (a.deriv c) (star a)).Lang s ↔ _
    simp only [Lang, ih]

theorem full_iff (r : Re) (s : Text) : r.full s = true ↔ r.Lang s := by
  induction s generalizing r with
  | nil => exact nullable_iff r
  | cons c s ih => rw [full, ih, deriv_iff]

theorem any_lang (s : Text) : any.Lang s := by
  refine ⟨s.map fun c => [c], (flatten_chars s).symm, fun u hu => ?_⟩
  obtain ⟨c, _, rfl⟩ := List.mem_map.1 hu
  exact ⟨c, rfl, rfl⟩

theorem find_iff (r : Re) (s : Text) : r.find s = true ↔ ∃ a m b, s = a ++ (m ++ b) ∧ r.Lang m := by
  unfold find
  rw [full_iff]
  constructor
  · rintro ⟨a, _, rfl, _, m, b, rfl, hm, _⟩
    exact ⟨a, m, b, rfl, hm⟩
  · rintro ⟨a, m, b, rfl, hm⟩
    exact ⟨a, _, rfl, any_lang _, m, b, rfl, hm, any_lang _⟩

theorem chr_iff {c : Char} {s : Text} : (chr c).Lang s ↔ s = [c] := by
  simp [chr, Lang]

theorem sep_iff {s : Text} : sep.Lang s ↔ s = ['/'] ∨ s = ['\\'] := by
  simp only [sep, Lang, Bool.or_eq_true, beq_iff_eq]
  constructor
  · rintro ⟨c, rfl, rfl | rfl⟩ <;> simp
  · rintro (rfl | rfl)
    · exact ⟨_, rfl, .inl rfl⟩
    · exact ⟨_, rfl, .inr rfl⟩

theorem star_cls {p : Char → Bool} {s : Text} : (star (cls p)).Lang s ↔ ∀ c ∈ s, p c = true := by
  constructor
  · rintro ⟨us, rfl, h⟩ c hc
    obtain ⟨u, hu, hcu⟩ := List.mem_flatten.1 hc
    obtain ⟨d, rfl, hd⟩ := h u hu
    rw [List.mem_singleton.1 hcu]; exact hd
  · intro h
    refine ⟨s.map fun c => [c], (flatten_chars s).symm, fun u hu => ?_⟩
    obtain ⟨c, hc, rfl⟩ := List.mem_map.1 hu
    exact ⟨c, rfl, h c hc⟩

theorem dots_iff {s : Text} : dots.Lang s ↔ '\n' ∉ s := by
  unfold dots
  rw [star_cls]
  constructor
  · intro h hm; simpa using h _ hm
  · intro h c hc; simp only [bne_iff_ne, ne_eq]; rintro rfl; exact h hc

theorem star_append {a : Re} {u v : Text} (hu : (star a).Lang u) (hv : (star a).Lang v) : (star a).Lang (u ++ v) := by
  obtain ⟨us, rfl, hus⟩ := hu
  obtain ⟨vs, rfl, hvs⟩ := hv
  refine ⟨us ++ vs, by simp, fun w hw => ?_⟩
  rcases List.mem_append.1 hw with h | h
  · exact hus w h
  · exact hvs w h

theorem star_one {a : Re} {u : Text} (h : a.Lang u) : (star a).Lang u :=
  ⟨[u], by simp, by simpa using h⟩

theorem star_nil {a : Re} : (star a).Lang [] := ⟨[], rfl, by simp⟩

theorem plus_cls {p : Char → Bool} {s : Text} : (plus (cls p)).Lang s ↔ s ≠ [] ∧ ∀ c ∈ s, p c = true := by
  show (∃ u v, s = u ++ v ∧ (cls p).Lang u ∧ (star (cls p)).Lang v) ↔ _
  constructor
  · rintro ⟨_, v, rfl, ⟨c, rfl, hc⟩, hv⟩
    refine ⟨by simp, fun d hd => ?_⟩
    rcases List.mem_append.1 hd with h | h
    · rw [List.mem_singleton.1 h]; exact hc
    · exact star_cls.1 hv d h
  · rintro ⟨h, hp⟩
    cases s with
    | nil => exact absurd rfl h
    | cons c s =>
      exact ⟨[c], s, rfl, ⟨c, rfl, hp c (List.mem_cons_self ..)⟩, star_cls.2 fun d hd => hp d (List.mem_cons_of_mem _ hd)⟩

end Verif.Source.Re
