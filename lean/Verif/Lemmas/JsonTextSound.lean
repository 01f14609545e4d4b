import Verif.Lemmas.JsonText

/-!
# Lemmas for C87: what is read is JSON, and what is nested too deep is not read
-/

namespace Verif.JsonText

open Verif.Spec Verif.Spec.Scan Verif.JsonField Verif.JsonText.Spec

/-! ## What is read is JSON -/

theorem skip_split (s : Bytes) : ∃ w, IsWs w ∧ s = w ++ skip s := by
  refine ⟨s.takeWhile isSpace, ?_, (List.takeWhile_append_dropWhile ..).symm⟩
  intro b hb
  have := List.mem_takeWhile_imp hb
  exact (isSpace_iff b).1 this

theorem expect_sound {c : Byte} {s r : Bytes} (h : expect c s = some r) : ∃ w, IsWs w ∧ s = w ++ c :: r := by
  obtain ⟨w, hw, hs⟩ := skip_split s
  unfold expect at h
  cases hk : skip s with
  | nil => rw [hk] at h; cases h
  | cons b t =>
    rw [hk] at h hs
    simp only at h
    by_cases hb : b = c
    · rw [if_pos hb, Option.some.injEq] at h
      exact ⟨w, hw, by rw [hs, hb, h]⟩
    · rw [if_neg hb] at h; cases h

theorem hexVal_sound {b : Byte} {n : Nat} (h : hexVal b = some n) : IsHex b := by
  unfold hexVal at h
  unfold IsHex IsDigit
  by_cases h1 : 48 ≤ b.toNat ∧ b.toNat ≤ 57
  · exact .inl h1
  · by_cases h2 : 97 ≤ b.toNat ∧ b.toNat ≤ 102
    · exact .inr (.inr h2)
    · by_cases h3 : 65 ≤ b.toNat ∧ b.toNat ≤ 70
      · exact .inr (.inl h3)
      · rw [if_neg h1, if_neg h2, if_neg h3] at h; cases h

theorem hex4_sound {s r : Bytes} {n : Nat} (h : hex4 s = some (n, r)) :
    ∃ a b c d, s = a :: b :: c :: d :: r ∧ IsHex a ∧ IsHex b ∧ IsHex c ∧ IsHex d := by
  match s, h with
  | a :: b :: c :: d :: t, h =>
    simp only [hex4, Option.bind_eq_bind, Option.bind_eq_some_iff, Option.some.injEq, Prod.mk.injEq] at h
    obtain ⟨i, h1, j, h2, k, h3, l, h4, _, rfl⟩ := h
    exact ⟨a, b, c, d, rfl, hexVal_sound h1, hexVal_sound h2, hexVal_sound h3, hexVal_sound h4⟩

theorem low_sound {s r : Bytes} {n : Nat} (h : low s = some (n, r)) :
    ∃ a b c d, s = 92 :: 117 :: a :: b :: c :: d :: r ∧ IsHex a ∧ IsHex b ∧ IsHex c ∧ IsHex d := by
  match s, h with
  | x :: y :: t, h =>
    simp only [low] at h
    by_cases hx : x = 92 ∧ y = 117
    · rw [if_pos hx] at h
      cases h4 : hex4 t with
      | none => rw [h4] at h; cases h
      | some p =>
        obtain ⟨m, r'⟩ := p
        rw [h4] at h
        simp only at h
        split at h
        · simp only [Option.some.injEq, Prod.mk.injEq] at h
          obtain ⟨a, b, c, d, hs, hh⟩ := hex4_sound h4
          exact ⟨a, b, c, d, by rw [hx.1, hx.2, hs, h.2], hh⟩
        · cases h
    · rw [if_neg hx] at h; cases h

/-- After a backslash. -/
theorem escape_sound {s r t : Bytes} {c : Char} (h : escape s = some (c, r)) (hr : JsonChars t) :
    ∃ b, s = b ++ r ∧ b ≠ [] ∧ JsonChars (92 :: (b ++ t)) := by
  match s, h with
  | b :: s, h =>
    simp only [escape] at h
    have simple : b ∈ ([34, 92, 47, 98, 102, 110, 114, 116] : Bytes) → s = r →
        ∃ b', b :: s = b' ++ r ∧ b' ≠ [] ∧ JsonChars (92 :: (b' ++ t)) := fun hb hs =>
      ⟨[b], by rw [hs]; rfl, by simp, .esc hb hr⟩
    by_cases h1 : b = 34 ∨ b = 92 ∨ b = 47
    · rw [if_pos h1] at h
      simp only [Option.some.injEq, Prod.mk.injEq] at h
      exact simple (by rcases h1 with h | h | h <;> simp [h]) h.2
    rw [if_neg h1] at h
    by_cases h2 : b = 98
    · rw [if_pos h2] at h
      simp only [Option.some.injEq, Prod.mk.injEq] at h
      exact simple (by simp [h2]) h.2
    rw [if_neg h2] at h
    by_cases h3 : b = 102
    · rw [if_pos h3] at h
      simp only [Option.some.injEq, Prod.mk.injEq] at h
      exact simple (by simp [h3]) h.2
    rw [if_neg h3] at h
    by_cases h4 : b = 110
    · rw [if_pos h4] at h
      simp only [Option.some.injEq, Prod.mk.injEq] at h
      exact simple (by simp [h4]) h.2
    rw [if_neg h4] at h
    by_cases h5 : b = 114
    · rw [if_pos h5] at h
      simp only [Option.some.injEq, Prod.mk.injEq] at h
      exact simple (by simp [h5]) h.2
    rw [if_neg h5] at h
    by_cases h6 : b = 116
    · rw [if_pos h6] at h
      simp only [Option.some.injEq, Prod.mk.injEq] at h
      exact simple (by simp [h6]) h.2
    rw [if_neg h6] at h
    by_cases h7 : b = 117
    · rw [if_pos h7] at h
      subst h7
      unfold unicode at h
      cases hx : hex4 s with
      | none => rw [hx] at h; cases h
      | some p =>
        obtain ⟨n, r'⟩ := p
        obtain ⟨x, y, z, u, hs, e1, e2, e3, e4⟩ := hex4_sound hx
        rw [hx] at h
        simp only at h
        have one : r' = r → ∃ b', 117 :: s = b' ++ r ∧ b' ≠ [] ∧ JsonChars (92 :: (b' ++ t)) := fun hh =>
          ⟨[117, x, y, z, u], by rw [hs, hh]; rfl, by simp, .uni e1 e2 e3 e4 hr⟩
        split at h
        · cases hl : (if n < 0xDC00 then low r' else none) with
          | none =>
            rw [hl] at h
            simp only [Option.some.injEq, Prod.mk.injEq] at h
            exact one h.2
          | some q =>
            obtain ⟨m, r''⟩ := q
            rw [hl] at h
            simp only [Option.some.injEq, Prod.mk.injEq] at h
            have hl' : low r' = some (m, r'') := by
              by_cases hn : n < 0xDC00
              · rw [if_pos hn] at hl; exact hl
              · rw [if_neg hn] at hl; cases hl
            obtain ⟨x', y', z', u', hs', f1, f2, f3, f4⟩ := low_sound hl'
            exact ⟨[117, x, y, z, u, 92, 117, x', y', z', u'], by rw [hs, hs', h.2]; rfl, by simp,
              .uni e1 e2 e3 e4 (.uni f1 f2 f3 f4 hr)⟩
        · simp only [Option.some.injEq, Prod.mk.injEq] at h
          exact one h.2
    · rw [if_neg h7] at h; cases h

theorem cont_big {b : Byte} (h : Scan.cont b = true) : 128 ≤ b.toNat := by
  simp [Scan.cont] at h; omega

theorem lead_lo {n k lo hi : Nat} (h : Scan.lead n = some (k, lo, hi)) : 128 ≤ lo := by
  unfold Scan.lead at h
  repeat' split at h
  all_goals simp at h
  all_goals omega

/-- The bytes of one character: one byte, or bytes from 128 on. -/
theorem rune_bytes (b : Byte) (r : Bytes) :
    ∃ t, b :: r = b :: (t ++ (b :: r).drop (Scan.decodeRune (b :: r)).2) ∧ ∀ x ∈ t, 128 ≤ x.toNat := by
  unfold Scan.decodeRune
  by_cases h0 : b.toNat < 0x80
  · simp only [if_pos h0]
    exact ⟨[], rfl, by simp⟩
  simp only [if_neg h0]
  have one : ∀ c : Nat, ∃ t, b :: r = b :: (t ++ (b :: r).drop (c, 1).2) ∧ ∀ x ∈ t, 128 ≤ x.toNat :=
    fun c => ⟨[], rfl, by simp⟩
  split
  · rename_i lo hi b1 t hl
    split
    · rename_i hc
      exact ⟨[b1], rfl, by simpa using Nat.le_trans (lead_lo hl) hc.1⟩
    · exact one _
  · rename_i lo hi b1 b2 t hl
    split
    · rename_i hc
      refine ⟨[b1, b2], rfl, ?_⟩
      intro x hx
      simp only [List.mem_cons, List.not_mem_nil, or_false] at hx
      rcases hx with rfl | rfl
      · exact Nat.le_trans (lead_lo hl) hc.1
      · exact cont_big hc.2.2
    · exact one _
  · rename_i lo hi b1 b2 b3 t hl
    split
    · rename_i hc
      refine ⟨[b1, b2, b3], rfl, ?_⟩
      intro x hx
      simp only [List.mem_cons, List.not_mem_nil, or_false] at hx
      rcases hx with rfl | rfl | rfl
      · exact Nat.le_trans (lead_lo hl) hc.1
      · exact cont_big hc.2.2.1
      · exact cont_big hc.2.2.2
    · exact one _
  · exact one _

theorem jsonChars_plain {l t : Bytes} (hl : ∀ b ∈ l, b ≠ 34 ∧ b ≠ 92 ∧ 32 ≤ b.toNat) (h : JsonChars t) :
    JsonChars (l ++ t) := by
  induction l with
  | nil => exact h
  | cons b l ih =>
    obtain ⟨h1, h2, h3⟩ := hl b (by simp)
    exact .plain h1 h2 h3 (ih fun c hc => hl c (by simp [hc]))

theorem chars_sound : ∀ (n : Nat) (s r : Bytes) (cs : List Char), chars n s = some (cs, r) →
    ∃ b, s = b ++ 34 :: r ∧ JsonChars b := by
  intro n
  induction n with
  | zero => intro s r cs h; simp [chars] at h
  | succ n ih =>
    intro s r cs h
    cases s with
    | nil => simp [chars] at h
    | cons b s =>
      simp only [chars] at h
      by_cases h1 : b = 34
      · rw [if_pos h1] at h
        simp only [Option.some.injEq, Prod.mk.injEq] at h
        exact ⟨[], by rw [h1, h.2]; rfl, .nil⟩
      rw [if_neg h1] at h
      by_cases h2 : b = 92
      · rw [if_pos h2] at h
        simp only [Option.bind_eq_some_iff, Option.map_eq_some_iff] at h
        obtain ⟨⟨c, s'⟩, he, ⟨cs', r'⟩, hc, hr⟩ := h
        simp only [Prod.mk.injEq] at hr
        obtain ⟨t, ht, hj⟩ := ih _ _ _ hc
        obtain ⟨e, hs, _, hje⟩ := escape_sound he hj
        refine ⟨92 :: (e ++ t), ?_, hje⟩
        rw [h2, hs]
        simp only at ht
        rw [ht, hr.2]
        simp
      rw [if_neg h2] at h
      by_cases h3 : b.toNat < 32
      · rw [if_pos h3] at h; cases h
      rw [if_neg h3] at h
      simp only [Option.map_eq_some_iff] at h
      obtain ⟨⟨cs', r'⟩, hc, hr⟩ := h
      simp only [Prod.mk.injEq] at hr
      obtain ⟨t, ht, hj⟩ := ih _ _ _ hc
      obtain ⟨l, hl, hb⟩ := rune_bytes b s
      refine ⟨b :: (l ++ t), ?_, .plain h1 h2 (by omega) (jsonChars_plain ?_ hj)⟩
      · rw [hl, ht, hr.2]; simp
      · intro x hx
        have := hb x hx
        refine ⟨?_, ?_, by omega⟩ <;> rintro rfl <;> simp at this

theorem takeWhile_digits (s : Bytes) : ∀ x ∈ s.takeWhile isDigit, IsDigit x :=
  fun x hx => (isDigit_iff x).1 (List.mem_takeWhile_imp hx)

theorem intPart_sound {s i r : Bytes} (h : intPart s = some (i, r)) : s = i ++ r ∧ JsonInt i := by
  cases s with
  | nil => cases h
  | cons b s =>
    simp only [intPart] at h
    by_cases h1 : b = 48
    · rw [if_pos h1] at h
      simp only [Option.some.injEq, Prod.mk.injEq] at h
      rw [← h.1, ← h.2, h1]; exact ⟨rfl, .zero⟩
    rw [if_neg h1] at h
    by_cases h2 : isDigit b = true
    · rw [if_pos h2] at h
      simp only [Option.some.injEq, Prod.mk.injEq] at h
      rw [← h.1, ← h.2]
      refine ⟨?_, .pos ((isDigit_iff b).1 h2) h1 (takeWhile_digits s)⟩
      rw [List.cons_append, List.takeWhile_append_dropWhile]
    · rw [if_neg h2] at h; cases h

theorem fracPart_sound {s f r : Bytes} (h : fracPart s = some (f, r)) : s = f ++ r ∧ JsonFrac f := by
  cases s with
  | nil =>
    simp only [fracPart, Option.some.injEq, Prod.mk.injEq] at h
    rw [← h.1, ← h.2]; exact ⟨rfl, .none⟩
  | cons b s =>
    simp only [fracPart] at h
    by_cases h1 : b = 46
    · rw [if_pos h1] at h
      have hd := takeWhile_digits s
      have hs := List.takeWhile_append_dropWhile (p := isDigit) (l := s)
      cases ht : s.takeWhile isDigit with
      | nil => rw [if_pos ht] at h; cases h
      | cons c t =>
        rw [if_neg (by rw [ht]; simp)] at h
        simp only [Option.some.injEq, Prod.mk.injEq] at h
        rw [ht] at hd
        rw [← h.1, ← h.2, h1, List.cons_append, hs, ht]
        exact ⟨rfl, .some (hd c (by simp)) fun x hx => hd x (by simp [hx])⟩
    · rw [if_neg h1] at h
      simp only [Option.some.injEq, Prod.mk.injEq] at h
      rw [← h.1, ← h.2]; exact ⟨rfl, .none⟩

theorem sign_sound (s : Bytes) : s = (sign s).1 ++ (sign s).2 ∧
    ((sign s).1 = [] ∨ (sign s).1 = [43] ∨ (sign s).1 = [45]) := by
  cases s with
  | nil => exact ⟨rfl, .inl rfl⟩
  | cons b s =>
    simp only [sign]
    by_cases h : b = 43 ∨ b = 45
    · rw [if_pos h]
      refine ⟨rfl, ?_⟩
      rcases h with rfl | rfl <;> simp
    · rw [if_neg h]; exact ⟨rfl, .inl rfl⟩

theorem expPart_sound {s e r : Bytes} (h : expPart s = some (e, r)) : s = e ++ r ∧ JsonExp e := by
  cases s with
  | nil =>
    simp only [expPart, Option.some.injEq, Prod.mk.injEq] at h
    rw [← h.1, ← h.2]; exact ⟨rfl, .none⟩
  | cons b s =>
    simp only [expPart] at h
    by_cases h1 : b = 101 ∨ b = 69
    · rw [if_pos h1] at h
      obtain ⟨g1, g2⟩ := sign_sound s
      have hd := takeWhile_digits (sign s).2
      have hs := List.takeWhile_append_dropWhile (p := isDigit) (l := (sign s).2)
      cases ht : (sign s).2.takeWhile isDigit with
      | nil => rw [if_pos ht] at h; cases h
      | cons c t =>
        rw [if_neg (by rw [ht]; simp)] at h
        simp only [Option.some.injEq, Prod.mk.injEq] at h
        rw [← h.1, ← h.2]
        refine ⟨?_, ?_⟩
        · rw [List.cons_append, List.append_assoc, hs, ← g1]
        · rw [ht] at hd ⊢
          exact .some h1 g2 (hd c (by simp)) fun x hx => hd x (by simp [hx])
    · rw [if_neg h1] at h
      simp only [Option.some.injEq, Prod.mk.injEq] at h
      rw [← h.1, ← h.2]; exact ⟨rfl, .none⟩

theorem minus_sound (s : Bytes) : s = (minus s).1 ++ (minus s).2 ∧ ((minus s).1 = [] ∨ (minus s).1 = [45]) := by
  cases s with
  | nil => exact ⟨rfl, .inl rfl⟩
  | cons b s =>
    simp only [minus]
    by_cases h : b = 45
    · rw [if_pos h, h]; exact ⟨rfl, .inr rfl⟩
    · rw [if_neg h]; exact ⟨rfl, .inl rfl⟩

theorem number_sound {s r : Bytes} {j : Json} (h : number s = some (j, r)) :
    ∃ v, s = v ++ r ∧ JsonG .value v ∧ depth j = 0 := by
  simp only [number, Option.bind_eq_bind, Option.bind_eq_some_iff, Option.some.injEq, Prod.mk.injEq] at h
  obtain ⟨⟨i, r1⟩, hi, ⟨f, r2⟩, hf, ⟨e, r3⟩, he, hj, hr⟩ := h
  simp only at hi hf he hj hr
  obtain ⟨m1, m2⟩ := minus_sound s
  obtain ⟨i1, i2⟩ := intPart_sound hi
  obtain ⟨f1, f2⟩ := fracPart_sound hf
  obtain ⟨e1, e2⟩ := expPart_sound he
  refine ⟨(minus s).1 ++ (i ++ (f ++ e)), ?_, .num m2 i2 f2 e2, ?_⟩
  · rw [hr] at e1
    rw [e1] at f1
    rw [f1] at i1
    rw [i1] at m1
    simpa using m1
  · rw [← hj]; unfold mkNumber; split <;> rfl

theorem literal_sound {j j' : Json} {l s r : Bytes} (h : literal j l s = some (j', r)) : s = l ++ r ∧ j' = j := by
  induction l generalizing s with
  | nil =>
    simp only [literal, Option.some.injEq, Prod.mk.injEq] at h
    exact ⟨h.2, h.1.symm⟩
  | cons a l ih =>
    cases s with
    | nil => cases h
    | cons b s =>
      simp only [literal] at h
      by_cases hb : a = b
      · rw [if_pos hb] at h
        obtain ⟨h1, h2⟩ := ih h
        exact ⟨by rw [h1, hb]; rfl, h2⟩
      · rw [if_neg hb] at h; cases h

/-- What each of the functions accepts. -/
structure Sound (n : Nat) : Prop where
  value : ∀ d s j r, value n d s = some (j, r) → ∃ w v, IsWs w ∧ s = w ++ (v ++ r) ∧ JsonG .value v ∧ depth j ≤ d
  array : ∀ d s j r, array n d s = some (j, r) → ∃ v, 91 :: s = v ++ r ∧ JsonG .value v ∧ depth j ≤ d
  object : ∀ d s j r, object n d s = some (j, r) → ∃ v, 123 :: s = v ++ r ∧ JsonG .value v ∧ depth j ≤ d
  elems : ∀ d s js r, elems n d s = some (js, r) → ∃ es, s = es ++ 93 :: r ∧ JsonG .elems es ∧ depths js ≤ d
  members : ∀ d s ms r, members n d s = some (ms, r) → ∃ t, s = t ++ 125 :: r ∧ JsonG .members t ∧ depthm ms ≤ d

theorem sound : ∀ n, Sound n := by
  intro n
  induction n with
  | zero => constructor <;> intros <;> simp_all [value, array, object, elems, members]
  | succ n ih =>
    constructor
    · intro d s j r h
      obtain ⟨w, hw, hs⟩ := skip_split s
      simp only [value] at h
      cases hk : skip s with
      | nil => rw [hk] at h; cases h
      | cons b t =>
        rw [hk] at h hs
        simp only at h
        suffices hh : ∃ v, b :: t = v ++ r ∧ JsonG .value v ∧ depth j ≤ d by
          obtain ⟨v, h1, h2, h3⟩ := hh
          exact ⟨w, v, hw, by rw [hs, h1], h2, h3⟩
        by_cases h1 : b = 34
        · rw [if_pos h1, Option.map_eq_some_iff] at h
          obtain ⟨⟨cs, r'⟩, hc, hr⟩ := h
          simp only [Prod.mk.injEq] at hr
          obtain ⟨u, hu, hj⟩ := chars_sound _ _ _ _ hc
          refine ⟨34 :: (u ++ [34]), by rw [h1, hu, hr.2]; simp, .str hj, ?_⟩
          rw [← hr.1]; exact Nat.zero_le _
        rw [if_neg h1] at h
        by_cases h2 : b = 91
        · rw [if_pos h2] at h
          rw [h2]; exact ih.array _ _ _ _ h
        rw [if_neg h2] at h
        by_cases h3 : b = 123
        · rw [if_pos h3] at h
          rw [h3]; exact ih.object _ _ _ _ h
        rw [if_neg h3] at h
        by_cases h4 : b = 110
        · rw [if_pos h4] at h
          obtain ⟨h5, rfl⟩ := literal_sound h
          exact ⟨_, by rw [h4, h5]; rfl, .null, Nat.zero_le _⟩
        rw [if_neg h4] at h
        by_cases h5 : b = 116
        · rw [if_pos h5] at h
          obtain ⟨h6, rfl⟩ := literal_sound h
          exact ⟨_, by rw [h5, h6]; rfl, .tru, Nat.zero_le _⟩
        rw [if_neg h5] at h
        by_cases h6 : b = 102
        · rw [if_pos h6] at h
          obtain ⟨h7, rfl⟩ := literal_sound h
          exact ⟨_, by rw [h6, h7]; rfl, .fls, Nat.zero_le _⟩
        rw [if_neg h6] at h
        obtain ⟨v, h7, h8, h9⟩ := number_sound h
        exact ⟨v, h7, h8, by omega⟩
    · intro d s j r h
      simp only [array] at h
      by_cases hd : d = 0
      · rw [if_pos hd] at h; cases h
      rw [if_neg hd] at h
      cases he : expect 93 s with
      | some r' =>
        rw [he] at h
        simp only [Option.some.injEq, Prod.mk.injEq] at h
        obtain ⟨w, hw, hs⟩ := expect_sound he
        refine ⟨91 :: (w ++ [93]), by rw [hs, h.2]; simp, .arr0 hw, ?_⟩
        rw [← h.1]; simp only [depth, depths]; omega
      | none =>
        rw [he] at h
        simp only [Option.map_eq_some_iff] at h
        obtain ⟨⟨js, r'⟩, h1, h2⟩ := h
        simp only [Prod.mk.injEq] at h2
        obtain ⟨es, h3, h4, h5⟩ := ih.elems _ _ _ _ h1
        refine ⟨91 :: (es ++ [93]), by rw [h3, h2.2]; simp, .arr h4, ?_⟩
        rw [← h2.1]; simp only [depth]; omega
    · intro d s j r h
      simp only [object] at h
      by_cases hd : d = 0
      · rw [if_pos hd] at h; cases h
      rw [if_neg hd] at h
      cases he : expect 125 s with
      | some r' =>
        rw [he] at h
        simp only [Option.some.injEq, Prod.mk.injEq] at h
        obtain ⟨w, hw, hs⟩ := expect_sound he
        refine ⟨123 :: (w ++ [125]), by rw [hs, h.2]; simp, .obj0 hw, ?_⟩
        rw [← h.1]; simp only [depth, depthm]; omega
      | none =>
        rw [he] at h
        simp only [Option.map_eq_some_iff] at h
        obtain ⟨⟨js, r'⟩, h1, h2⟩ := h
        simp only [Prod.mk.injEq] at h2
        obtain ⟨es, h3, h4, h5⟩ := ih.members _ _ _ _ h1
        refine ⟨123 :: (es ++ [125]), by rw [h3, h2.2]; simp, .obj h4, ?_⟩
        rw [← h2.1]; simp only [depth]; omega
    · intro d s js r h
      simp only [elems, Option.bind_eq_some_iff] at h
      obtain ⟨⟨j, t⟩, h1, h2⟩ := h
      obtain ⟨w, v, hw, hs, hv, hd⟩ := ih.value _ _ _ _ h1
      simp only at h2
      cases he : expect 44 t with
      | some t' =>
        rw [he] at h2
        simp only [Option.map_eq_some_iff] at h2
        obtain ⟨⟨js', r'⟩, h3, h4⟩ := h2
        simp only [Prod.mk.injEq] at h4
        obtain ⟨w', hw', ht⟩ := expect_sound he
        obtain ⟨es, h5, h6, h7⟩ := ih.elems _ _ _ _ h3
        refine ⟨w ++ (v ++ (w' ++ 44 :: es)), by rw [hs, ht, h5, h4.2]; simp, .elemS hw hv hw' h6, ?_⟩
        rw [← h4.1]; simp only [depths]; omega
      | none =>
        rw [he] at h2
        simp only [Option.map_eq_some_iff] at h2
        obtain ⟨r', h3, h4⟩ := h2
        simp only [Prod.mk.injEq] at h4
        obtain ⟨w', hw', ht⟩ := expect_sound h3
        refine ⟨w ++ (v ++ w'), by rw [hs, ht, h4.2]; simp, .elem1 hw hv hw', ?_⟩
        rw [← h4.1]; simp only [depths]; omega
    · intro d s ms r h
      simp only [members, Option.bind_eq_some_iff] at h
      obtain ⟨s1, h1, ⟨k, s2⟩, h2, s3, h3, ⟨j, t⟩, h4, h5⟩ := h
      obtain ⟨w, hw, hs⟩ := expect_sound h1
      obtain ⟨b, hb, hbj⟩ := chars_sound _ _ _ _ h2
      obtain ⟨w', hw', hs'⟩ := expect_sound h3
      obtain ⟨u, v, hu, hs3, hv, hd⟩ := ih.value _ _ _ _ h4
      simp only at h5 hs'
      cases he : expect 44 t with
      | some t' =>
        rw [he] at h5
        simp only [Option.map_eq_some_iff] at h5
        obtain ⟨⟨ms', r'⟩, h6, h7⟩ := h5
        simp only [Prod.mk.injEq] at h7
        obtain ⟨w'', hw'', ht⟩ := expect_sound he
        obtain ⟨es, h8, h9, h10⟩ := ih.members _ _ _ _ h6
        refine ⟨w ++ (34 :: (b ++ 34 :: (w' ++ 58 :: (u ++ (v ++ (w'' ++ 44 :: es)))))),
          by rw [hs, hb, hs', hs3, ht, h8, h7.2]; simp, .memS hw hbj hw' hu hv hw'' h9, ?_⟩
        rw [← h7.1]; simp only [depthm]; omega
      | none =>
        rw [he] at h5
        simp only [Option.map_eq_some_iff] at h5
        obtain ⟨r', h6, h7⟩ := h5
        simp only [Prod.mk.injEq] at h7
        obtain ⟨w'', hw'', ht⟩ := expect_sound h6
        refine ⟨w ++ (34 :: (b ++ 34 :: (w' ++ 58 :: (u ++ (v ++ w''))))),
          by rw [hs, hb, hs', hs3, ht, h7.2]; simp, .mem1 hw hbj hw' hu hv hw'', ?_⟩
        rw [← h7.1]; simp only [depthm]; omega

/-! ## What is nested too deep is not read -/

def Refuses : Thing → Bytes → Prop
  | .val j, t => ∀ (n d : Nat) (r : Bytes), 2 * t.length ≤ n → d < depth j → Stop r → value n d (t ++ r) = none
  | .elems js, t => ∀ (n d : Nat) (r : Bytes), 2 * t.length < n → d < depths js →
      elems n d (t ++ 93 :: r) = none
  | .members ms, t => ∀ (n d : Nat) (r : Bytes), 2 * t.length < n → d < depthm ms →
      members n d (t ++ 125 :: r) = none

theorem refuses {x : Thing} {t : Bytes} (h : Means x t) : Refuses x t := by
  induction h with
  | null => intro n d r _ hd; cases hd
  | tru => intro n d r _ hd; cases hd
  | fls => intro n d r _ hd; cases hd
  | nat => intro n d r _ hd; cases hd
  | neg => intro n d r _ hd; cases hd
  | frac => intro n d r _ hd; cases hd
  | str => intro n d r _ hd; cases hd
  | @arr0 w h =>
    intro n d r hn hd _
    obtain ⟨m, rfl, hm⟩ := fuel hn
    have : d = 0 := by simp [depth, depths] at hd; omega
    subst this
    simp only [List.cons_append, value]
    rw [skip_cons (by decide)]
    rfl
  | @obj0 w h =>
    intro n d r hn hd _
    obtain ⟨m, rfl, hm⟩ := fuel hn
    have : d = 0 := by simp [depth, depthm] at hd; omega
    subst this
    simp only [List.cons_append, value]
    rw [skip_cons (by decide)]
    rfl
  | @arr es js h ih =>
    intro n d r hn hd _
    obtain ⟨m, rfl, hm⟩ := fuel hn
    simp only [List.cons_append, List.append_assoc, List.nil_append, value]
    rw [skip_cons (by decide)]
    simp only [show ¬ ((91 : Byte) = 34) by decide, if_false, if_true, array]
    cases d with
    | zero => rfl
    | succ d =>
      have h1 := (reads h m (depths js) r (by simp at hm; omega) (Nat.le_refl _)).1
      have h2 := ih m d r (by simp at hm; omega) (by simp [depth] at hd; omega)
      simp only [Nat.succ_ne_zero, if_false, Nat.add_sub_cancel, h1, h2, Option.map_none]
  | @obj t ms h ih =>
    intro n d r hn hd _
    obtain ⟨m, rfl, hm⟩ := fuel hn
    simp only [List.cons_append, List.append_assoc, List.nil_append, value]
    rw [skip_cons (by decide)]
    simp only [show ¬ ((123 : Byte) = 34) by decide, show ¬ ((123 : Byte) = 91) by decide, if_false, if_true, object]
    cases d with
    | zero => rfl
    | succ d =>
      have h1 := (reads h m (depthm ms) r (by simp at hm; omega) (Nat.le_refl _)).1
      have h2 := ih m d r (by simp at hm; omega) (by simp [depth] at hd; omega)
      simp only [Nat.succ_ne_zero, if_false, Nat.add_sub_cancel, h1, h2, Option.map_none]
  | @elem1 w v w' j h1 hv h2 ih =>
    intro n d r hn hd
    simp only [List.append_assoc]
    cases n with
    | zero => omega
    | succ n =>
      simp only [elems, value_ws h1]
      rw [ih n d (w' ++ 93 :: r) (by simp at hn; omega) (by simp [depths] at hd; omega) (stop_ws h2 (stop_93 r))]
      rfl
  | @elemS w v w' es j js h1 hv h2 _ ih ih' =>
    intro n d r hn hd
    simp only [List.append_assoc]
    cases n with
    | zero => omega
    | succ n =>
      simp only [elems, value_ws h1, List.cons_append]
      by_cases hj : d < depth j
      · rw [ih n d (w' ++ 44 :: (es ++ 93 :: r)) (by simp at hn; omega) hj (stop_ws h2 (stop_44 _))]
        rfl
      · rw [reads hv n d (w' ++ 44 :: (es ++ 93 :: r)) (by simp at hn; omega) (by omega) (stop_ws h2 (stop_44 _))]
        simp only [Option.bind_some, expect_ws h2]
        rw [expect_cons (by decide)]
        simp only [if_true]
        rw [ih' n d r (by simp at hn; omega) (by simp [depths] at hd; omega)]
        rfl
  | @mem1 w b k w' u v w'' j h1 hk h2 hu hv h3 ih =>
    intro n d r hn hd
    simp only [List.append_assoc, List.cons_append]
    cases n with
    | zero => omega
    | succ n =>
      simp only [members, expect_ws h1]
      rw [expect_cons (by decide)]
      simp only [if_true, Option.bind_some, chars_of' hk, expect_ws h2]
      rw [expect_cons (by decide)]
      simp only [if_true, Option.bind_some, value_ws hu]
      rw [ih n d (w'' ++ 125 :: r) (by simp at hn; omega) (by simp [depthm] at hd; omega) (stop_ws h3 (stop_125 r))]
      rfl
  | @memS w b k w' u v w'' t j ms h1 hk h2 hu hv h3 _ ih ih' =>
    intro n d r hn hd
    simp only [List.append_assoc, List.cons_append]
    cases n with
    | zero => omega
    | succ n =>
      simp only [members, expect_ws h1]
      rw [expect_cons (by decide)]
      simp only [if_true, Option.bind_some, chars_of' hk, expect_ws h2]
      rw [expect_cons (by decide)]
      simp only [if_true, Option.bind_some, value_ws hu]
      by_cases hj : d < depth j
      · rw [ih n d (w'' ++ 44 :: (t ++ 125 :: r)) (by simp at hn; omega) hj (stop_ws h3 (stop_44 _))]
        rfl
      · rw [reads hv n d (w'' ++ 44 :: (t ++ 125 :: r)) (by simp at hn; omega) (by omega) (stop_ws h3 (stop_44 _))]
        simp only [Option.bind_some, expect_ws h3]
        rw [expect_cons (by decide)]
        simp only [if_true]
        rw [ih' n d r (by simp at hn; omega) (by simp [depthm] at hd; omega)]
        rfl

end Verif.JsonText
