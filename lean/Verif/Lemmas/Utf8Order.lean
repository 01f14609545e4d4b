import Verif.Props.ColumnType

/-!
# The order of texts in UTF-8

Texts are ordered byte by byte as they are character by character.
-/

namespace Verif.Props

open Verif Verif.Scan Verif.Spec.Scan

theorem append_lt_iff (u x y : Bytes) : u ++ x < u ++ y ↔ x < y := by
  induction u with
  | nil => rfl
  | cons a u ih => simp [ih]

theorem byte_lt {p q : Nat} (hp : p < 256) (hq : q < 256) : UInt8.ofNat p < UInt8.ofNat q ↔ p < q := by
  rw [UInt8.lt_iff_toNat_lt, toNat_ofNat_lt hp, toNat_ofNat_lt hq]

theorem byte_eq {p q : Nat} (hp : p < 256) (hq : q < 256) : UInt8.ofNat p = UInt8.ofNat q ↔ p = q := by
  constructor
  · intro h
    have := congrArg UInt8.toNat h
    rwa [toNat_ofNat_lt hp, toNat_ofNat_lt hq] at this
  · intro h; rw [h]

theorem char_bound (c : Char) : c.toNat < 0x110000 := by
  have := c.valid
  unfold UInt32.isValidChar Nat.isValidChar at this
  show c.val.toNat < _
  omega

theorem utf8_lt {a b : Char} (h : a.toNat < b.toNat) (x y : Bytes) : utf8 a ++ x < utf8 b ++ y := by
  have ha := char_bound a
  have hb := char_bound b
  unfold utf8
  generalize a.toNat = n at *
  generalize b.toNat = m at *
  simp only
  split
  · split
    · simp only [List.cons_append, List.cons_lt_cons_iff, List.nil_append]
      left; rw [byte_lt (by omega) (by omega)]; omega
    · split
      · simp only [List.cons_append, List.cons_lt_cons_iff, List.nil_append]
        left; rw [byte_lt (by omega) (by omega)]; omega
      · split
        · simp only [List.cons_append, List.cons_lt_cons_iff, List.nil_append]
          left; rw [byte_lt (by omega) (by omega)]; omega
        · simp only [List.cons_append, List.cons_lt_cons_iff, List.nil_append]
          left; rw [byte_lt (by omega) (by omega)]; omega
  · split
    · rw [if_neg (by omega)]
      split
      · simp only [List.cons_append, List.cons_lt_cons_iff, List.nil_append]
        rw [byte_lt (by omega) (by omega), byte_lt (by omega) (by omega), byte_eq (by omega) (by omega), byte_eq (by omega) (by omega)]
        omega
      · split
        · simp only [List.cons_append, List.cons_lt_cons_iff, List.nil_append]
          left; rw [byte_lt (by omega) (by omega)]; omega
        · simp only [List.cons_append, List.cons_lt_cons_iff, List.nil_append]
          left; rw [byte_lt (by omega) (by omega)]; omega
    · split
      · rw [if_neg (by omega), if_neg (by omega)]
        split
        · simp only [List.cons_append, List.cons_lt_cons_iff, List.nil_append]
          rw [byte_lt (by omega) (by omega), byte_lt (by omega) (by omega), byte_lt (by omega) (by omega), byte_eq (by omega) (by omega),
            byte_eq (by omega) (by omega), byte_eq (by omega) (by omega)]
          omega
        · simp only [List.cons_append, List.cons_lt_cons_iff, List.nil_append]
          left; rw [byte_lt (by omega) (by omega)]; omega
      · rw [if_neg (by omega), if_neg (by omega), if_neg (by omega)]
        simp only [List.cons_append, List.cons_lt_cons_iff, List.nil_append]
        rw [byte_lt (by omega) (by omega), byte_lt (by omega) (by omega), byte_lt (by omega) (by omega), byte_lt (by omega) (by omega),
          byte_eq (by omega) (by omega), byte_eq (by omega) (by omega), byte_eq (by omega) (by omega), byte_eq (by omega) (by omega)]
        omega

theorem utf8_ne_nil (c : Char) (t : List Char) : ∃ b r, utf8s (c :: t) = b :: r := by
  have : utf8s (c :: t) = utf8 c ++ utf8s t := utf8s_cons c t
  rw [this]
  unfold utf8
  simp only
  split
  · exact ⟨_, _, rfl⟩
  · split
    · exact ⟨_, _, rfl⟩
    · split
      · exact ⟨_, _, rfl⟩
      · exact ⟨_, _, rfl⟩

theorem char_toNat_inj {a b : Char} (h : a.toNat = b.toNat) : a = b := Char.ext (UInt32.toNat_inj.1 h)

/-- Texts are ordered as their characters are. -/
theorem utf8s_lt_iff (s t : List Char) : utf8s s < utf8s t ↔ s.map (fun c => (c.toNat : Int)) < t.map (fun c => (c.toNat : Int)) := by
  induction s generalizing t with
  | nil =>
    cases t with
    | nil => simp [utf8s]
    | cons c t =>
      obtain ⟨b, r, h⟩ := utf8_ne_nil c t
      rw [h]
      simp [utf8s]
  | cons c s ih =>
    cases t with
    | nil => simp [utf8s]
    | cons d t =>
      rw [utf8s_cons, utf8s_cons, List.map_cons, List.map_cons, List.cons_lt_cons_iff]
      rcases Nat.lt_trichotomy c.toNat d.toNat with h | h | h
      · exact ⟨fun _ => .inl (by omega), fun _ => utf8_lt h _ _⟩
      · have hcd := char_toNat_inj h
        subst hcd
        rw [append_lt_iff, ih]
        exact ⟨fun h => .inr ⟨rfl, h⟩, fun h => by rcases h with h | h; · omega
                                                   · exact h.2⟩
      · constructor
        · intro h'
          exact absurd (utf8_lt h (utf8s t) (utf8s s)) (List.lt_asymm h')
        · rintro (h' | ⟨h', -⟩) <;> omega

/-- Texts are equal if their characters are. -/
theorem utf8s_inj {s t : List Char} (h : utf8s s = utf8s t) : s = t := by
  have lt_irrefl : ∀ l : Bytes, ¬ l < l := fun l h => List.lt_asymm h h
  induction s generalizing t with
  | nil =>
    cases t with
    | nil => rfl
    | cons c t => obtain ⟨b, r, h'⟩ := utf8_ne_nil c t; rw [h'] at h; simp [utf8s] at h
  | cons c s ih =>
    cases t with
    | nil => obtain ⟨b, r, h'⟩ := utf8_ne_nil c s; rw [h'] at h; simp [utf8s] at h
    | cons d t =>
      rw [utf8s_cons, utf8s_cons] at h
      rcases Nat.lt_trichotomy c.toNat d.toNat with hlt | heq | hlt
      · have := utf8_lt hlt (utf8s s) (utf8s t); rw [h] at this; exact absurd this (lt_irrefl _)
      · have hcd := char_toNat_inj heq
        subst hcd
        rw [ih (List.append_cancel_left h)]
      · have := utf8_lt hlt (utf8s t) (utf8s s); rw [h] at this; exact absurd this (lt_irrefl _)

end Verif.Props
