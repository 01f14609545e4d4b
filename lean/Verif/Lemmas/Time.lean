import Verif.Model.Time
import Verif.Spec.Time
import Mathlib.Data.List.Induction
import Mathlib.Tactic.IntervalCases

/-!
# Lemmas for C88
-/

namespace Verif.Time

open Verif.Spec Verif.Spec.Time
open Verif.Scan (isDig isSp matchPat layout)

/-! ## The calendar -/

theorem isLeap_iff (y : Nat) : isLeap y = true ↔ Leap y := by
  unfold isLeap Leap
  by_cases h : y % 25 ≠ 0
  · simp only [if_pos h, decide_eq_true_eq]; omega
  · simp only [if_neg h, decide_eq_true_eq]; omega

theorem daysIn_eq {m : Nat} (h1 : 1 ≤ m) (h2 : m ≤ 12) (y : Nat) : daysIn m y = monthLength y m := by
  have := isLeap_iff y
  interval_cases m <;> simp [daysIn, monthLength, this]

theorem beforeYear_eq (y : Nat) :
    beforeYear y + (y + 99) / 100 = 365 * y + (y + 3) / 4 + (y + 399) / 400 := by
  induction y with
  | zero => rfl
  | succ y ih =>
    simp only [beforeYear, yearLength]
    by_cases h : Leap y
    · rw [if_pos h]; unfold Leap at h; omega
    · rw [if_neg h]; unfold Leap at h; omega

theorem year_days (y : Nat) :
    146097 * (y / 100) / 4 + 1461 * (y % 100) / 4 + y / 100 = 365 * y + y / 4 + y / 400 := by
  have e1 : 146097 * (y / 100) / 4 = 36524 * (y / 100) + y / 100 / 4 := by omega
  have e2 : 1461 * (y % 100) / 4 = 365 * (y % 100) + y % 100 / 4 := by omega
  have e3 : y / 4 = 25 * (y / 100) + y % 100 / 4 := by omega
  have e4 : y / 400 = y / 100 / 4 := by omega
  rw [e1, e2, e3, e4]; omega

theorem early (y : Nat) :
    146097 * ((y + 399) / 100) / 4 + 1461 * ((y + 399) % 100) / 4 = beforeYear y + 145731 := by
  have e1 := beforeYear_eq y
  have e2 := year_days (y + 399)
  have f1 : (y + 99) / 100 + 3 = (y + 399) / 100 := by omega
  have f2 : (y + 3) / 4 + 99 = (y + 399) / 4 := by omega
  omega

theorem late_leap {y : Nat} (h : Leap y) :
    146097 * ((y + 400) / 100) / 4 + 1461 * ((y + 400) % 100) / 4 = beforeYear y + 146097 := by
  have e1 := beforeYear_eq y
  have e2 := year_days (y + 400)
  have f3 : y / 100 + 4 = (y + 400) / 100 := by omega
  have f4 : y / 4 + 100 = (y + 400) / 4 := by omega
  have f5 : y / 400 + 1 = (y + 400) / 400 := by omega
  have f6 : y / 4 = (y + 3) / 4 := by unfold Leap at h; omega
  have f7 : y / 100 + (y + 399) / 400 = y / 400 + (y + 99) / 100 := by unfold Leap at h; omega
  generalize 146097 * ((y + 400) / 100) / 4 = A at *
  generalize 1461 * ((y + 400) % 100) / 4 = B at *
  omega

theorem late {y : Nat} (h : ¬ Leap y) :
    146097 * ((y + 400) / 100) / 4 + 1461 * ((y + 400) % 100) / 4 + 1 = beforeYear y + 146097 := by
  have e1 := beforeYear_eq y
  have e2 := year_days (y + 400)
  have f3 : y / 100 + 4 = (y + 400) / 100 := by omega
  have f4 : y / 4 + 100 = (y + 400) / 4 := by omega
  have f5 : y / 400 + 1 = (y + 400) / 400 := by omega
  have f6 : (y + 3) / 4 + (y + 399) / 400 + y / 100 = y / 4 + y / 400 + (y + 99) / 100 + 1 := by
    unfold Leap at h
    by_cases h4 : 4 ∣ y
    · have h1 : 100 ∣ y := by omega
      have h2 : ¬ 400 ∣ y := by omega
      omega
    · have h1 : ¬ 100 ∣ y := by omega
      have h2 : ¬ 400 ∣ y := by omega
      have g1 : (y + 3) / 4 = y / 4 + 1 := by omega
      have g2 : (y + 399) / 400 = y / 400 + 1 := by omega
      have g3 : (y + 99) / 100 = y / 100 + 1 := by omega
      omega
  generalize 146097 * ((y + 400) / 100) / 4 = A at *
  generalize 1461 * ((y + 400) % 100) / 4 = B at *
  omega

theorem days_nat (y m k : Nat) (h1 : 1 ≤ m) (h2 : m ≤ 12) :
    (let early := if m < 3 then 1 else 0
     let m' := m + 12 * early
     let y' := y + 400 - early
     146097 * (y' / 100) / 4 + (1461 * (y' % 100) / 4 + (979 * m' - 2919) / 32 + (k + 1) - 1)) =
      beforeYear y + beforeMonth y m + k + 146037 := by
  have e3 := early y
  have f0 : y + 400 - 1 = y + 399 := rfl
  by_cases hl : Leap y
  · have e4 := late_leap hl
    interval_cases m <;>
      simp [beforeMonth, monthLength, hl, f0] <;>
      generalize 146097 * ((y + 399) / 100) / 4 = A at * <;>
      generalize 1461 * ((y + 399) % 100) / 4 = B at * <;>
      generalize 146097 * ((y + 400) / 100) / 4 = C at * <;>
      generalize 1461 * ((y + 400) % 100) / 4 = D at * <;>
      omega
  · have e4 := late hl
    interval_cases m <;>
      simp [beforeMonth, monthLength, hl, f0] <;>
      generalize 146097 * ((y + 399) / 100) / 4 = A at * <;>
      generalize 1461 * ((y + 399) % 100) / 4 = B at * <;>
      generalize 146097 * ((y + 400) / 100) / 4 = C at * <;>
      generalize 1461 * ((y + 400) % 100) / 4 = D at * <;>
      omega

theorem days_eq (y m d : Nat) (h1 : 1 ≤ m) (h2 : m ≤ 12) (h3 : 1 ≤ d) : days y m d = Date.number ⟨y, m, d⟩ := by
  have e2 : beforeYear 1970 = 719528 := by have := beforeYear_eq 1970; omega
  obtain ⟨k, rfl⟩ : ∃ k, d = k + 1 := ⟨d - 1, by omega⟩
  unfold Date.number days
  simp only [e2, days_nat y m k h1 h2]
  omega

/-! ## Digits -/

theorem toNat_digit {n : Nat} (h : n < 10) : (digit n).toNat = 48 + n := by
  unfold digit; rw [UInt8.toNat_ofNat']; omega

theorem isDig_digit {n : Nat} (h : n < 10) : isDig (digit n) = true := by
  simp [isDig, toNat_digit h]; omega

theorem dig_digit {n : Nat} (h : n < 10) : dig (digit n) = n := by
  simp [dig, toNat_digit h]

theorem dig_lt {b : Byte} (h : isDig b = true) : dig b < 10 := by
  simp [isDig] at h; unfold dig; omega

theorem digit_dig {b : Byte} (h : isDig b = true) : digit (dig b) = b := by
  simp [isDig] at h
  unfold digit dig
  apply UInt8.toNat_inj.1
  rw [UInt8.toNat_ofNat']; omega

theorem lit_iff {c : Byte} {s r : Bytes} : lit c s = some r ↔ s = c :: r := by
  cases s with
  | nil => simp [lit]
  | cons b t =>
    by_cases h : b = c
    · simp [lit, h]
    · simp [lit, h]

theorem lit_cons (c : Byte) (r : Bytes) : lit c (c :: r) = some r := lit_iff.2 rfl

theorem two_dd {n : Nat} (h : n < 100) (r : Bytes) : two (dd n ++ r) = some (n, r) := by
  have h1 : n / 10 < 10 := by omega
  have h2 : n % 10 < 10 := by omega
  simp only [dd, List.cons_append, List.nil_append, two, isDig_digit h1, isDig_digit h2, dig_digit h1, dig_digit h2,
    Bool.and_self, if_true, Option.some.injEq, Prod.mk.injEq, and_true]
  omega

theorem two_iff {s r : Bytes} {n : Nat} : two s = some (n, r) ↔ n < 100 ∧ s = dd n ++ r := by
  constructor
  · intro h
    match s, h with
    | a :: b :: t, h =>
      simp only [two, Bool.and_eq_true] at h
      by_cases hd : isDig a = true ∧ isDig b = true
      · rw [if_pos hd, Option.some.injEq, Prod.mk.injEq] at h
        obtain ⟨rfl, rfl⟩ := h
        have ha := dig_lt hd.1
        have hb := dig_lt hd.2
        refine ⟨by omega, ?_⟩
        have e1 : (dig a * 10 + dig b) / 10 = dig a := by omega
        have e2 : (dig a * 10 + dig b) % 10 = dig b := by omega
        simp [dd, e1, e2, digit_dig hd.1, digit_dig hd.2]
      · rw [if_neg hd] at h; cases h
  · rintro ⟨h, rfl⟩; exact two_dd h r

theorem four_dddd {n : Nat} (h : n ≤ 9999) (r : Bytes) : four (dddd n ++ r) = some (n, r) := by
  have h1 : n / 1000 < 10 := by omega
  have h2 : n / 100 % 10 < 10 := by omega
  have h3 : n / 10 % 10 < 10 := by omega
  have h4 : n % 10 < 10 := by omega
  simp only [dddd, List.cons_append, List.nil_append, four, isDig_digit h1, isDig_digit h2, isDig_digit h3,
    isDig_digit h4, dig_digit h1, dig_digit h2, dig_digit h3, dig_digit h4, Bool.and_self, if_true,
    Option.some.injEq, Prod.mk.injEq, and_true]
  omega

theorem four_iff {s r : Bytes} {n : Nat} : four s = some (n, r) ↔ n ≤ 9999 ∧ s = dddd n ++ r := by
  constructor
  · intro h
    match s, h with
    | a :: b :: c :: d :: t, h =>
      simp only [four, Bool.and_eq_true] at h
      by_cases hd : ((isDig a = true ∧ isDig b = true) ∧ isDig c = true) ∧ isDig d = true
      · rw [if_pos hd, Option.some.injEq, Prod.mk.injEq] at h
        obtain ⟨rfl, rfl⟩ := h
        obtain ⟨⟨⟨ha', hb'⟩, hc'⟩, hd'⟩ := hd
        have ha := dig_lt ha'
        have hb := dig_lt hb'
        have hc := dig_lt hc'
        have hd := dig_lt hd'
        refine ⟨by omega, ?_⟩
        have e1 : (((dig a * 10 + dig b) * 10 + dig c) * 10 + dig d) / 1000 = dig a := by omega
        have e2 : (((dig a * 10 + dig b) * 10 + dig c) * 10 + dig d) / 100 % 10 = dig b := by omega
        have e3 : (((dig a * 10 + dig b) * 10 + dig c) * 10 + dig d) / 10 % 10 = dig c := by omega
        have e4 : (((dig a * 10 + dig b) * 10 + dig c) * 10 + dig d) % 10 = dig d := by omega
        simp [dddd, e1, e2, e3, e4, digit_dig ha', digit_dig hb', digit_dig hc', digit_dig hd']
      · rw [if_neg hd] at h; cases h
  · rintro ⟨h, rfl⟩; exact four_dddd h r

/-- What does not begin with a digit. -/
def NoDig (r : Bytes) : Prop := ∀ b t, r = b :: t → isDig b = false

theorem oneTwo_dd {n : Nat} (h : n < 100) (r : Bytes) : oneTwo (dd n ++ r) = some (n, r) := by
  have h1 : n / 10 < 10 := by omega
  have h2 : n % 10 < 10 := by omega
  simp only [dd, List.cons_append, List.nil_append, oneTwo, isDig_digit h1, isDig_digit h2, dig_digit h1, dig_digit h2,
    if_true, Option.some.injEq, Prod.mk.injEq, and_true]
  omega

theorem oneTwo_one {n : Nat} (h : n < 10) {r : Bytes} (hr : NoDig r) : oneTwo (digit n :: r) = some (n, r) := by
  cases r with
  | nil => simp [oneTwo, isDig_digit h, dig_digit h]
  | cons b t => simp [oneTwo, isDig_digit h, dig_digit h, hr b t rfl]

theorem oneTwo_sound {s r : Bytes} {n : Nat} (h : oneTwo s = some (n, r)) :
    n < 100 ∧ s = dd n ++ r ∨ n < 10 ∧ s = digit n :: r ∧ NoDig r := by
  match s, h with
  | a :: t, h =>
    by_cases ha : isDig a = true
    · simp only [oneTwo, if_pos ha] at h
      match t, h with
      | [], h =>
        simp only [Option.some.injEq, Prod.mk.injEq] at h
        obtain ⟨rfl, rfl⟩ := h
        exact .inr ⟨dig_lt ha, by rw [digit_dig ha], fun b t e => by cases e⟩
      | b :: t, h =>
        by_cases hb : isDig b = true
        · left
          apply two_iff.1
          simp only [two, ha, hb, Bool.and_self, if_true]
          simpa [hb] using h
        · simp only [if_neg hb, Option.some.injEq, Prod.mk.injEq] at h
          obtain ⟨rfl, rfl⟩ := h
          refine .inr ⟨dig_lt ha, by rw [digit_dig ha], fun c t e => ?_⟩
          injection e with e1 e2; subst e1; simpa using hb
    · simp [oneTwo, if_neg ha] at h

/-! ## Dates -/

theorem date_text {d : Date} (h : d.Valid) (r : Bytes) : date (d.text ++ r) = some (d.number, r) := by
  obtain ⟨y, m, k⟩ := d
  obtain ⟨h1, h2, h3, h4, h5⟩ := h
  have hm : m < 100 := Nat.lt_of_le_of_lt h3 (by omega)
  have hk : k < 100 := by
    have : monthLength y m ≤ 31 := by unfold monthLength; split <;> [split; split] <;> omega
    simp only at h5; omega
  have hd : 1 ≤ m ∧ m ≤ 12 ∧ 1 ≤ k ∧ k ≤ daysIn m y := ⟨h2, h3, h4, by rw [daysIn_eq h2 h3]; exact h5⟩
  simp only [date, Date.text, List.append_assoc, List.cons_append, four_dddd h1, lit_cons, two_dd hm, two_dd hk,
    bind, Option.bind, if_pos hd, days_eq y m k h2 h3 h4]

theorem date_iff {s r : Bytes} {n : Int} :
    date s = some (n, r) ↔ ∃ d : Date, d.Valid ∧ s = d.text ++ r ∧ n = d.number := by
  constructor
  · intro h
    simp only [date, bind, Option.bind_eq_some_iff] at h
    obtain ⟨⟨y, s1⟩, h1, s2, h2, ⟨m, s3⟩, h3, s4, h4, ⟨k, s5⟩, h5, h⟩ := h
    by_cases hd : 1 ≤ m ∧ m ≤ 12 ∧ 1 ≤ k ∧ k ≤ daysIn m y
    · rw [if_pos hd, Option.some.injEq, Prod.mk.injEq] at h
      obtain ⟨rfl, rfl⟩ := h
      obtain ⟨hy, rfl⟩ := four_iff.1 h1
      have e2 := lit_iff.1 h2; subst e2
      obtain ⟨hm, rfl⟩ := two_iff.1 h3
      have e4 := lit_iff.1 h4; subst e4
      obtain ⟨hk, rfl⟩ := two_iff.1 h5
      refine ⟨⟨y, m, k⟩, ⟨hy, hd.1, hd.2.1, hd.2.2.1, ?_⟩, ?_, days_eq y m k hd.1 hd.2.1 hd.2.2.1⟩
      · have := hd.2.2.2; rwa [daysIn_eq hd.1 hd.2.1] at this
      · simp [Date.text]
    · rw [if_neg hd] at h; cases h
  · rintro ⟨d, hd, e1, e2⟩; rw [e1, e2]; exact date_text hd r

/-! ## Fractions -/

theorem number_snoc (ds : Bytes) (b : Byte) : number (ds ++ [b]) = number ds * 10 + dig b := by
  simp [number]

theorem numeral_number {ds : Bytes} {n : Nat} (h : Numeral 10 ds n) :
    ds ≠ [] ∧ ds.all isDig = true ∧ number ds = n := by
  induction h with
  | @one d hd =>
    have := isDig_digit hd
    have e := dig_digit hd
    unfold digit at this e
    exact ⟨by simp, by rw [List.all_cons, this]; rfl, by rw [number, List.foldl_cons, e]; simp⟩
  | @snoc t n d ht hd ih =>
    have := isDig_digit hd
    have e := dig_digit hd
    unfold digit at this e
    obtain ⟨i1, i2, i3⟩ := ih
    refine ⟨by simp, by rw [List.all_append, i2, List.all_cons, this]; rfl, ?_⟩
    rw [number_snoc, i3, e]; omega

theorem number_numeral (ds : Bytes) (h0 : ds ≠ []) (h : ds.all isDig = true) : Numeral 10 ds (number ds) := by
  induction ds using List.reverseRecOn with
  | nil => exact absurd rfl h0
  | append_singleton t b ih =>
    simp only [List.all_append, List.all_cons, List.all_nil, Bool.and_true, Bool.and_eq_true] at h
    rw [number_snoc]
    have eb : b = UInt8.ofNat (48 + dig b) := (digit_dig h.2).symm
    by_cases ht : t = []
    · subst ht
      have := Numeral.one (b := 10) (dig_lt h.2)
      rw [← eb] at this
      simpa [number] using this
    · have := Numeral.snoc (ih ht h.1) (dig_lt h.2)
      rw [← eb] at this
      rwa [Nat.mul_comm 10] at this

theorem number_append (a b : Bytes) : number (a ++ b) = number a * 10 ^ b.length + number b := by
  induction b using List.reverseRecOn with
  | nil => simp [number]
  | append_singleton t c ih =>
    rw [← List.append_assoc, number_snoc, number_snoc, ih]
    simp [Nat.pow_succ, Nat.add_mul, Nat.mul_assoc]; omega

theorem number_lt (ds : Bytes) (h : ds.all isDig = true) : number ds < 10 ^ ds.length := by
  induction ds using List.reverseRecOn with
  | nil => simp [number]
  | append_singleton t c ih =>
    simp only [List.all_append, List.all_cons, List.all_nil, Bool.and_true, Bool.and_eq_true] at h
    have := ih h.1
    have := dig_lt h.2
    rw [number_snoc, List.length_append, List.length_singleton, Nat.pow_succ]; omega

theorem nanos_eq (ds : Bytes) (h : ds.all isDig = true) : nanos ds = number ds * 1000000000 / 10 ^ ds.length := by
  unfold nanos
  by_cases hl : ds.length ≤ 9
  · rw [List.take_of_length_le hl]
    have : (1000000000 : Nat) = 10 ^ (9 - ds.length) * 10 ^ ds.length := by
      rw [← Nat.pow_add, Nat.sub_add_cancel hl]
    rw [this, ← Nat.mul_assoc, Nat.mul_div_cancel _ (Nat.pow_pos (by omega))]
  · have e1 : (ds.take 9).length = 9 := by simp; omega
    have e2 : number ds = number (ds.take 9) * 10 ^ (ds.drop 9).length + number (ds.drop 9) := by
      rw [← number_append, List.take_append_drop]
    have e3 : number (ds.drop 9) < 10 ^ (ds.drop 9).length := number_lt _ (by
      rw [List.all_eq_true] at h ⊢
      exact fun x hx => h x (List.mem_of_mem_drop hx))
    have e4 : (10 : Nat) ^ ds.length = 10 ^ (ds.drop 9).length * 1000000000 := by
      have : ds.length = (ds.drop 9).length + 9 := by simp; omega
      rw [this, Nat.pow_add]
    rw [e1, e4, Nat.mul_div_mul_right _ _ (by omega), e2, Nat.sub_self, Nat.pow_zero, Nat.mul_one,
      Nat.add_comm, Nat.add_mul_div_right _ _ (Nat.pow_pos (by omega)), Nat.div_eq_of_lt e3, Nat.zero_add]

theorem takeWhile_digits {ds r : Bytes} (h : ds.all isDig = true) (hr : NoDig r) :
    (ds ++ r).takeWhile isDig = ds ∧ (ds ++ r).dropWhile isDig = r := by
  induction ds with
  | nil =>
    cases r with
    | nil => simp
    | cons b t => simp [hr b t rfl]
  | cons a t ih =>
    simp only [List.all_cons, Bool.and_eq_true] at h
    simp [h.1, ih h.2]

/-- What does not begin with a fraction. -/
def NoFrac (r : Bytes) : Prop := ∀ b t, r = b :: t → b ≠ 46 ∧ b ≠ 44 ∧ isDig b = false

theorem frac_of {sep : Byte} (hs : sep = 46 ∨ sep = 44) {f r : Bytes} {ns : Nat} (h : Fraction sep f ns)
    (hr : NoFrac r) : frac (f ++ r) = (ns, r) := by
  cases h with
  | none =>
    cases r with
    | nil => rfl
    | cons b t =>
      have := hr b t rfl
      simp [frac, this.1, this.2.1]
  | @some ds n hn =>
    obtain ⟨h1, h2, h3⟩ := numeral_number hn
    have e := takeWhile_digits h2 (r := r) (fun b t e => (hr b t e).2.2)
    simp only [List.cons_append, frac, e.1, e.2, if_pos (And.intro hs h1), nanos_eq ds h2, h3]

theorem frac_sound {s r : Bytes} {ns : Nat} (h : frac s = (ns, r)) :
    ∃ sep f, (sep = 46 ∨ sep = 44) ∧ Fraction sep f ns ∧ s = f ++ r := by
  cases s with
  | nil =>
    simp only [frac, Prod.mk.injEq] at h
    obtain ⟨rfl, rfl⟩ := h
    exact ⟨46, [], .inl rfl, .none, rfl⟩
  | cons p t =>
    by_cases hp : (p = 46 ∨ p = 44) ∧ t.takeWhile isDig ≠ []
    · simp only [frac, if_pos hp, Prod.mk.injEq] at h
      obtain ⟨rfl, rfl⟩ := h
      have ha : (t.takeWhile isDig).all isDig = true := by simp
      refine ⟨p, p :: t.takeWhile isDig, hp.1, ?_, by simp⟩
      rw [nanos_eq _ ha]
      exact .some (number_numeral _ hp.2 ha)
    · simp only [frac, if_neg hp, Prod.mk.injEq] at h
      obtain ⟨rfl, rfl⟩ := h
      exact ⟨46, [], .inl rfl, .none, rfl⟩

/-! ## Zones -/

theorem zone_of {t : Bytes} {z : Int} (h : Zone 24 60 t z) (r : Bytes) : zone (t ++ r) = some (z, r) := by
  cases h with
  | utc => rfl
  | @east h m h1 h2 =>
    have e1 := two_dd (n := h) (by omega) (58 :: (dd m ++ r))
    have e2 := two_dd (n := m) (by omega) r
    simp only [List.cons_append, List.append_assoc, zone, e1, lit_cons, e2, bind, Option.bind]
    have : ¬ (24 < h ∨ 60 < m) := by omega
    simp [this]; omega
  | @west h m h1 h2 =>
    have e1 := two_dd (n := h) (by omega) (58 :: (dd m ++ r))
    have e2 := two_dd (n := m) (by omega) r
    simp only [List.cons_append, List.append_assoc, zone, e1, lit_cons, e2, bind, Option.bind]
    have : ¬ (24 < h ∨ 60 < m) := by omega
    simp [this]; omega

theorem zone_sound {s r : Bytes} {z : Int} (h : zone s = some (z, r)) : ∃ t, Zone 24 60 t z ∧ s = t ++ r := by
  match s, h with
  | b :: s, h =>
    by_cases hb : b = 90
    · subst hb
      simp only [zone, if_true, Option.some.injEq, Prod.mk.injEq] at h
      obtain ⟨rfl, rfl⟩ := h
      exact ⟨[90], .utc, rfl⟩
    · by_cases hc : b = 43 ∨ b = 45
      · simp only [zone, if_neg hb, if_pos hc, bind, Option.bind_eq_some_iff] at h
        obtain ⟨⟨h', s1⟩, h1, s2, h2, ⟨m, s3⟩, h3, h⟩ := h
        obtain ⟨_, rfl⟩ := two_iff.1 h1
        have e2 := lit_iff.1 h2; subst e2
        obtain ⟨_, rfl⟩ := two_iff.1 h3
        by_cases hl : 24 < h' ∨ 60 < m
        · simp [hl] at h
        · simp only [if_neg hl, Option.some.injEq, Prod.mk.injEq] at h
          obtain ⟨hz, e3⟩ := h
          subst e3
          have a1 : h' ≤ 24 := by omega
          have a2 : m ≤ 60 := by omega
          have en : (h' * 60 + m) * 60 = h' * 3600 + m * 60 := by omega
          rw [en] at hz
          rcases hc with rfl | rfl
          · rw [if_pos rfl] at hz
            rw [← hz]
            exact ⟨43 :: (dd h' ++ 58 :: dd m), .east a1 a2, by simp⟩
          · rw [if_neg (by decide)] at hz
            rw [← hz]
            exact ⟨45 :: (dd h' ++ 58 :: dd m), .west a1 a2, by simp⟩
      · simp [zone, hb, hc] at h

theorem zone_nofrac {t : Bytes} {z : Int} {a b : Nat} (h : Zone a b t z) : NoFrac t := by
  cases h <;> intro b t e <;> injection e with e1 e2 <;> subst e1 <;> decide

/-! ## Times of the day -/

theorem clock_of {c : Clock} (hc : c.Valid) {h : Bytes} (hh : h = dd c.hour ∨ c.hour < 10 ∧ h = [digit c.hour])
    {sep : Byte} (hs : sep = 46 ∨ sep = 44) {f : Bytes} {ns : Nat} (hf : Fraction sep f ns) {r : Bytes}
    (hr : NoFrac r) :
    clock (h ++ 58 :: (dd c.minute ++ 58 :: (dd c.second ++ (f ++ r)))) =
      some (c.seconds * 1000000000 + ns, r) := by
  obtain ⟨h1, h2, h3⟩ := hc
  have e0 : ∀ t : Bytes, oneTwo (h ++ 58 :: t) = some (c.hour, 58 :: t) := by
    intro t
    rcases hh with rfl | ⟨hl, rfl⟩
    · exact oneTwo_dd (by omega) _
    · refine oneTwo_one hl (fun b t e => ?_)
      injection e with e1 e2; subst e1; decide
  simp only [clock, e0, lit_cons, two_dd (show c.minute < 100 by omega), two_dd (show c.second < 100 by omega),
    frac_of hs hf hr, bind, Option.bind, if_pos (And.intro h1 (And.intro h2 h3)), Clock.seconds]
  have : (c.hour * 60 + c.minute) * 60 + c.second = c.hour * 3600 + c.minute * 60 + c.second := by omega
  rw [this]

theorem clock_sound {s r : Bytes} {n : Nat} (h : clock s = some (n, r)) :
    ∃ (c : Clock) (h : Bytes) (sep : Byte) (f : Bytes) (ns : Nat), c.Valid ∧
      (h = dd c.hour ∨ c.hour < 10 ∧ h = [digit c.hour]) ∧ (sep = 46 ∨ sep = 44) ∧ Fraction sep f ns ∧
      s = h ++ 58 :: (dd c.minute ++ 58 :: (dd c.second ++ (f ++ r))) ∧ n = c.seconds * 1000000000 + ns := by
  simp only [clock, bind, Option.bind_eq_some_iff] at h
  obtain ⟨⟨a, s1⟩, h1, s2, h2, ⟨m, s3⟩, h3, s4, h4, ⟨k, s5⟩, h5, h⟩ := h
  by_cases hv : a < 24 ∧ m < 60 ∧ k < 60
  · simp only [if_pos hv, Option.some.injEq, Prod.mk.injEq] at h
    obtain ⟨hn, hr⟩ := h
    have e2 := lit_iff.1 h2; subst e2
    obtain ⟨_, rfl⟩ := two_iff.1 h3
    have e4 := lit_iff.1 h4; subst e4
    obtain ⟨_, rfl⟩ := two_iff.1 h5
    obtain ⟨sep, f, hs, hf, e5⟩ := frac_sound (s := s5) (r := r) (ns := (frac s5).1) (by rw [← hr])
    subst e5
    have en : n = Clock.seconds ⟨a, m, k⟩ * 1000000000 + (frac (f ++ r)).1 := by
      rw [← hn]; simp only [Clock.seconds]; omega
    rcases oneTwo_sound h1 with ⟨_, hs0⟩ | ⟨hl, hs0, _⟩
    · exact ⟨⟨a, m, k⟩, dd a, sep, f, _, hv, .inl rfl, hs, hf, hs0, en⟩
    · exact ⟨⟨a, m, k⟩, [digit a], sep, f, _, hv, .inr ⟨hl, rfl⟩, hs, hf, hs0, en⟩
  · simp [hv] at h

/-! ## Layouts -/

theorem match_two (p : List Char) (s : Bytes) :
    matchPat ('d' :: 'd' :: p) s = (two s).bind (fun x => matchPat p x.2) := by
  match s with
  | [] => rfl
  | [a] => simp [matchPat, two]
  | a :: b :: r =>
    by_cases ha : isDig a = true
    · by_cases hb : isDig b = true
      · simp [matchPat, two, ha, hb]
      · simp [matchPat, two, ha, hb]
    · simp [matchPat, two, ha]

theorem match_four (p : List Char) (s : Bytes) :
    matchPat ('d' :: 'd' :: 'd' :: 'd' :: p) s = (four s).bind (fun x => matchPat p x.2) := by
  rw [match_two]
  match s with
  | [] => rfl
  | [a] => rfl
  | [a, b] => cases ha : isDig a <;> cases hb : isDig b <;> simp [matchPat, two, four, ha, hb]
  | [a, b, c] =>
    cases ha : isDig a <;> cases hb : isDig b <;> cases hc : isDig c <;> simp [matchPat, two, four, ha, hb, hc]
  | a :: b :: c :: d :: r =>
    cases ha : isDig a <;> cases hb : isDig b <;> cases hc : isDig c <;> cases hd : isDig d <;>
      simp [matchPat, two, four, ha, hb, hc, hd]

theorem match_lit (c : Char) (k : Byte) (h : ∀ b : Byte, b.toNat = c.toNat ↔ b = k) (h1 : c ≠ 'd') (h2 : c ≠ 's')
    (p : List Char) (s : Bytes) : matchPat (c :: p) s = (lit k s).bind (matchPat p) := by
  cases s with
  | nil => simp [matchPat, lit]
  | cons b r =>
    rw [matchPat]
    · by_cases hb : b = k
      · simp [lit, hb, (h k).2 rfl]
      · simp [lit, hb, h]
    · exact h1
    · exact h2

theorem byte_lit (n : Nat) (k : Byte) (h : k.toNat = n) (b : Byte) : b.toNat = n ↔ b = k := by
  rw [← h]; exact UInt8.toNat_inj

theorem match_minus (p : List Char) (s : Bytes) : matchPat ('-' :: p) s = (lit 45 s).bind (matchPat p) :=
  match_lit '-' 45 (byte_lit 45 45 rfl) (by decide) (by decide) p s

theorem match_colon (p : List Char) (s : Bytes) : matchPat (':' :: p) s = (lit 58 s).bind (matchPat p) :=
  match_lit ':' 58 (byte_lit 58 58 rfl) (by decide) (by decide) p s

theorem match_point (p : List Char) (s : Bytes) : matchPat ('.' :: p) s = (lit 46 s).bind (matchPat p) :=
  match_lit '.' 46 (byte_lit 46 46 rfl) (by decide) (by decide) p s

theorem match_date {d : Date} (h : d.Valid) (p : List Char) (r : Bytes) :
    matchPat ("dddd-dd-dd".toList ++ p) (d.text ++ r) = matchPat p r := by
  obtain ⟨y, m, k⟩ := d
  obtain ⟨h1, h2, h3, h4, h5⟩ := h
  have hm : m < 100 := Nat.lt_of_le_of_lt h3 (by omega)
  have hk : k < 100 := by
    have : monthLength y m ≤ 31 := by unfold monthLength; split <;> [split; split] <;> omega
    simp only at h5; omega
  change matchPat ('d' :: 'd' :: 'd' :: 'd' :: '-' :: 'd' :: 'd' :: '-' :: 'd' :: 'd' :: p) _ = _
  rw [match_four]
  simp only [match_two, match_minus, Date.text, List.append_assoc, List.cons_append, four_dddd h1,
    lit_cons, two_dd hm, two_dd hk, Option.bind]

/-- What follows the day and one character: hours, minutes and seconds. -/
def shape (t : Bytes) : Option Bytes := do
  let (_, t) ← two t
  let t ← lit 58 t
  let (_, t) ← two t
  let t ← lit 58 t
  let (_, t) ← two t
  some t

theorem match_clock (p : List Char) (b : Byte) (t : Bytes) :
    matchPat ("sdd:dd:dd".toList ++ p) (b :: t) = if isSp b then (shape t).bind (matchPat p) else none := by
  change matchPat ('s' :: 'd' :: 'd' :: ':' :: 'd' :: 'd' :: ':' :: 'd' :: 'd' :: p) _ = _
  rw [matchPat]
  cases isSp b with
  | false => simp
  | true =>
    simp only [if_true, match_two, match_colon, shape, bind, Option.bind_assoc]
    rfl

theorem shape_iff {t r : Bytes} : shape t = some r ↔ ∃ c : Clock, c.hour < 100 ∧ c.minute < 100 ∧ c.second < 100 ∧
    t = dd c.hour ++ 58 :: (dd c.minute ++ 58 :: (dd c.second ++ r)) := by
  constructor
  · intro h
    simp only [shape, bind, Option.bind_eq_some_iff, Option.some.injEq] at h
    obtain ⟨⟨a, s1⟩, h1, s2, h2, ⟨m, s3⟩, h3, s4, h4, ⟨k, s5⟩, h5, h⟩ := h
    obtain ⟨i1, rfl⟩ := two_iff.1 h1
    have e2 := lit_iff.1 h2; subst e2
    obtain ⟨i2, rfl⟩ := two_iff.1 h3
    have e4 := lit_iff.1 h4; subst e4
    obtain ⟨i3, rfl⟩ := two_iff.1 h5
    subst h
    exact ⟨⟨a, m, k⟩, i1, i2, i3, rfl⟩
  · rintro ⟨c, h1, h2, h3, rfl⟩
    simp only [shape, two_dd h1, two_dd h2, two_dd h3, lit_cons, bind, Option.bind]

theorem layout_date {d : Date} (h : d.Valid) : layout d.text = 0 := by
  have := match_date h [] []
  simp only [List.append_nil] at this
  unfold layout
  rw [this, if_pos (by simp [matchPat])]

/-- The layout, by what follows hours, minutes and seconds. -/
def kind (o : Option Bytes) : Nat :=
  if o = some [] then 1
  else match o.bind (lit 46) with
    | some ds => if ds ≠ [] ∧ ds.all isDig then 2 else 3
    | none => 3

theorem layout_cons {d : Date} (h : d.Valid) (b : Byte) (t : Bytes) :
    layout (d.text ++ b :: t) = if isSp b then kind (shape t) else 3 := by
  have m0 := match_date h [] (b :: t)
  have m1 := match_date h "sdd:dd:dd".toList (b :: t)
  have m2 := match_date h "sdd:dd:dd.".toList (b :: t)
  have c1 := match_clock [] b t
  have c2 := match_clock ['.'] b t
  simp only [List.append_nil] at m0 c1
  change matchPat "sdd:dd:dd.".toList (b :: t) = _ at c2
  rw [c1] at m1
  rw [c2] at m2
  change matchPat "dddd-dd-ddsdd:dd:dd".toList _ = _ at m1
  change matchPat "dddd-dd-ddsdd:dd:dd.".toList _ = _ at m2
  unfold layout
  rw [m0, m1, m2, if_neg (by simp [matchPat])]
  cases hb : isSp b with
  | false => simp
  | true =>
    cases hs : shape t with
    | none => simp [kind]
    | some r =>
      have e : ∀ x : Bytes, matchPat [] x = some x := fun x => by simp [matchPat]
      simp only [if_true, Option.bind, kind, e, match_point]
      cases r with
      | nil => simp
      | cons a ds =>
        by_cases ha : a = 46
        · subst ha; simp [lit, e]
        · simp [lit, ha]

theorem layout_T {d : Date} (h : d.Valid) (t : Bytes) : layout (d.text ++ 84 :: t) = 3 := by
  rw [layout_cons h]; simp [isSp]

/-! ## `parseTime` -/

theorem parse_zero {d : Date} (h : d.Valid) : parseTime d.text = some (instant d ⟨0, 0, 0⟩ 0) := by
  have := date_text h []
  rw [List.append_nil] at this
  unfold parseTime
  rw [layout_date h]
  simp only [parse, this, bind, Option.bind, if_true, instant, Clock.seconds]
  exact congrArg some (by omega)

theorem parse_time {d : Date} {c : Clock} {f : Bytes} {ns : Nat} (hd : d.Valid) (hc : c.Valid)
    (hf : Fraction 46 f ns) : parseTime (d.text ++ 32 :: (c.text ++ f)) = some (instant d c ns) := by
  have hcl := clock_of hc (.inl rfl) (.inl rfl) hf (r := []) (fun b t e => by cases e)
  have et : c.text ++ f = dd c.hour ++ 58 :: (dd c.minute ++ 58 :: (dd c.second ++ (f ++ []))) := by
    simp [Clock.text]
  have hsh : shape (c.text ++ f) = some f := by
    rw [et, List.append_nil]
    exact shape_iff.2 ⟨c, by have := hc.1; omega, by have := hc.2.1; omega, by have := hc.2.2; omega, rfl⟩
  have hl : layout (d.text ++ 32 :: (c.text ++ f)) = 1 ∨ layout (d.text ++ 32 :: (c.text ++ f)) = 2 := by
    rw [layout_cons hd, hsh]
    cases hf with
    | none => left; simp [isSp, kind]
    | some hn =>
      right
      obtain ⟨h1, h2, h3⟩ := numeral_number hn
      simp only [isSp, kind, lit, Option.bind]
      simp [h1]
      simpa using h2
  unfold parseTime
  have hl0 : layout (d.text ++ 32 :: (c.text ++ f)) ≠ 0 := by omega
  have hl3 : layout (d.text ++ 32 :: (c.text ++ f)) ≠ 3 := by omega
  rw [← et] at hcl
  simp only [parse, date_text hd, bind, Option.bind, if_neg hl0, if_neg hl3, lit_cons, hcl, if_true, instant]
  exact congrArg some (by push_cast; omega)

theorem parse_lenient {s : Bytes} {i : Int} (h : Lenient s i) : parseTime s = some i := by
  obtain @⟨d, c, h, f, ns, z, off, sep, hd, hc, hh, hs, hf, hz⟩ := h
  have hcl := clock_of hc hh hs hf (zone_nofrac hz)
  have hz' := zone_of hz []
  rw [List.append_nil] at hz'
  unfold parseTime
  rw [layout_T hd]
  have et : h ++ (58 :: (dd c.minute ++ 58 :: dd c.second) ++ (f ++ z)) =
      h ++ 58 :: (dd c.minute ++ 58 :: (dd c.second ++ (f ++ z))) := by simp
  rw [et]
  simp only [parse, date_text hd, bind, Option.bind, if_true, lit_cons, hcl, hz', instant]
  rw [if_neg (by decide)]
  exact congrArg some (by push_cast; omega)

theorem denotes_rfc {d : Date} {c : Clock} {f : Bytes} {ns : Nat} {z : Bytes} {off : Int} (hd : d.Valid) (hc : c.Valid)
    (hf : Fraction 46 f ns) (hz : Zone 23 59 z off) :
    Lenient (d.text ++ 84 :: (c.text ++ (f ++ z))) (instant d c ns - off * 1000000000) := by
  have hz' : Zone 24 60 z off := by
    cases hz with
    | utc => exact .utc
    | east a b => exact .east (by omega) (by omega)
    | west a b => exact .west (by omega) (by omega)
  have := Lenient.rfc3339 hd hc (.inl rfl) (.inl rfl) hf hz'
  simpa [Clock.text] using this

theorem parse_of {s : Bytes} {i : Int} (h : Denotes s i ∨ Lenient s i) : parseTime s = some i := by
  rcases h with h | h
  · cases h with
    | date hd => exact parse_zero hd
    | time hd hc hf => exact parse_time hd hc hf
    | rfc3339 hd hc hf hz => exact parse_lenient (denotes_rfc hd hc hf hz)
  · exact parse_lenient h

theorem clock_shape {t r : Bytes} {n : Nat} {f : Bytes} (hs : shape t = some f) (h : clock t = some (n, r)) :
    ∃ c : Clock, c.Valid ∧ t = c.text ++ f ∧ n = c.seconds * 1000000000 + (frac f).1 ∧ r = (frac f).2 := by
  obtain ⟨c, h1, h2, h3, rfl⟩ := shape_iff.1 hs
  simp only [clock, oneTwo_dd h1, lit_cons, two_dd h2, two_dd h3, bind, Option.bind] at h
  by_cases hv : c.hour < 24 ∧ c.minute < 60 ∧ c.second < 60
  · simp only [if_pos hv, Option.some.injEq, Prod.mk.injEq] at h
    refine ⟨c, hv, by simp [Clock.text], ?_, h.2.symm⟩
    rw [← h.1]; simp only [Clock.seconds]; omega
  · simp [hv] at h

theorem kind_one {o : Option Bytes} (h : kind o = 1) : o = some [] := by
  by_cases e : o = some []
  · exact e
  · unfold kind at h
    rw [if_neg e] at h
    cases hb : o.bind (lit 46) with
    | none => rw [hb] at h; cases h
    | some ds =>
      rw [hb] at h
      by_cases hd : ds ≠ [] ∧ ds.all isDig = true
      · simp [hd] at h
      · simp only [if_neg hd] at h; cases h

theorem kind_two {o : Option Bytes} (h : kind o = 2) : ∃ ds, o = some (46 :: ds) ∧ ds ≠ [] ∧ ds.all isDig = true := by
  unfold kind at h
  by_cases e : o = some []
  · rw [if_pos e] at h; cases h
  · rw [if_neg e] at h
    cases hb : o.bind (lit 46) with
    | none => rw [hb] at h; cases h
    | some ds =>
      rw [hb] at h
      by_cases hd : ds ≠ [] ∧ ds.all isDig = true
      · obtain ⟨t, rfl, ht⟩ := Option.bind_eq_some_iff.1 hb
        exact ⟨ds, by rw [lit_iff.1 ht], hd⟩
      · simp only [if_neg hd] at h; cases h

theorem kind_cases (o : Option Bytes) : kind o = 1 ∨ kind o = 2 ∨ kind o = 3 := by
  unfold kind
  by_cases e : o = some []
  · simp [e]
  · rw [if_neg e]
    cases hb : o.bind (lit 46) with
    | none => simp
    | some ds =>
      by_cases hd : ds ≠ [] ∧ ds.all isDig = true
      · simp [hd]
      · simp only [if_neg hd]; simp

/-- With a space. -/
theorem parse_space {d : Date} (hd : d.Valid) {b : Byte} {t f : Bytes} {ns : Nat} {i : Int} {l : Nat}
    (hl : l = 1 ∨ l = 2) (hs : shape t = some f) (hf : Fraction 46 f ns) (h : parse l (d.text ++ b :: t) = some i) :
    Denotes (d.text ++ b :: t) i := by
  have hl0 : l ≠ 0 := by omega
  have hl3 : l ≠ 3 := by omega
  simp only [parse, date_text hd, bind, Option.bind_some, if_neg hl0, if_neg hl3, Option.bind_eq_some_iff] at h
  obtain ⟨t', h1, ⟨n, r⟩, h2, h3⟩ := h
  have e1 := lit_iff.1 h1
  injection e1 with e1 e2
  subst e1 e2
  obtain ⟨c, hc, ht, hn, hr⟩ := clock_shape hs h2
  have hfr := frac_of (.inl rfl) hf (r := []) (fun b t e => by cases e)
  rw [List.append_nil] at hfr
  rw [hfr] at hn hr
  subst hr
  simp only [if_true, Option.some.injEq] at h3
  rw [ht]
  have := Denotes.time hd hc hf
  have e : i = instant d c ns := by rw [← h3, hn]; simp only [instant]; push_cast; omega
  rw [e]; exact this

theorem parse_sound {s : Bytes} {i : Int} (h : parseTime s = some i) : Denotes s i ∨ Lenient s i := by
  unfold parseTime at h
  have hdt : ∃ n r, date s = some (n, r) := by
    unfold parse at h
    cases hd : date s with
    | none => rw [hd] at h; cases h
    | some x => exact ⟨x.1, x.2, rfl⟩
  obtain ⟨n, r, hdt⟩ := hdt
  obtain ⟨d, hd, hs, -⟩ := date_iff.1 hdt
  subst hs
  cases r with
  | nil =>
    rw [List.append_nil] at h ⊢
    have := parse_zero hd
    unfold parseTime at this
    rw [this, Option.some.injEq] at h
    subst h
    exact .inl (.date hd)
  | cons b t =>
    have h3 : ∀ {i : Int}, parse 3 (d.text ++ b :: t) = some i → Lenient (d.text ++ b :: t) i := by
      intro i h
      simp only [parse, date_text hd, bind, Option.bind_some, if_true] at h
      rw [if_neg (by decide)] at h
      simp only [Option.bind_eq_some_iff] at h
      obtain ⟨t', h1, ⟨n, r⟩, h2, ⟨z, r'⟩, h4, h5⟩ := h
      have e1 := lit_iff.1 h1
      injection e1 with e1 e2
      subst e1 e2
      obtain ⟨c, h, sep, f, ns, hc, hh, hs, hf, ht, hn⟩ := clock_sound h2
      obtain ⟨tz, hz, ez⟩ := zone_sound h4
      by_cases hr : r' = []
      · simp only [hr, if_true, Option.some.injEq] at h5
        subst hr ez
        rw [List.append_nil] at ht
        have := Lenient.rfc3339 hd hc hh hs hf hz
        have e : i = instant d c ns - z * 1000000000 := by rw [← h5, hn]; simp only [instant]; push_cast; omega
        rw [e, ht]
        simpa using this
      · simp [hr] at h5
    rw [layout_cons hd] at h
    cases hb : isSp b with
    | false => rw [hb] at h; exact .inr (h3 h)
    | true =>
      rw [hb, if_pos rfl] at h
      rcases kind_cases (shape t) with hk | hk | hk
      · rw [hk] at h
        exact .inl (parse_space hd (.inl rfl) (kind_one hk) .none h)
      · rw [hk] at h
        obtain ⟨ds, hs, h0, h1⟩ := kind_two hk
        exact .inl (parse_space hd (.inr rfl) hs (.some (number_numeral _ h0 h1)) h)
      · rw [hk] at h; exact .inr (h3 h)

/-! ## Every day has one date -/

theorem beforeYear_mono {a b : Nat} (h : a ≤ b) : beforeYear a ≤ beforeYear b := by
  induction h with
  | refl => exact Nat.le_refl _
  | step _ ih => exact Nat.le_trans ih (Nat.le_add_right _ _)

theorem beforeMonth_mono (y : Nat) {a b : Nat} (h : a ≤ b) : beforeMonth y a ≤ beforeMonth y b := by
  induction h with
  | refl => exact Nat.le_refl _
  | @step m _ ih =>
    refine Nat.le_trans ih ?_
    cases m with
    | zero => simp [beforeMonth]
    | succ m => exact Nat.le_add_right _ _

theorem beforeMonth_succ (y : Nat) {m : Nat} (h : 1 ≤ m) :
    beforeMonth y (m + 1) = beforeMonth y m + monthLength y m := by
  obtain ⟨k, rfl⟩ : ∃ k, m = k + 1 := ⟨m - 1, by omega⟩
  rfl

theorem beforeMonth_year (y : Nat) : beforeMonth y 13 = yearLength y := by
  by_cases h : Leap y <;> simp [beforeMonth, monthLength, yearLength, h]

theorem day_in_year {d : Date} (h : d.Valid) : beforeMonth d.year d.month + (d.day - 1) < beforeMonth d.year (d.month + 1) := by
  obtain ⟨_, h2, _, h4, h5⟩ := h
  rw [beforeMonth_succ _ h2]; omega

theorem day_before_year {d : Date} (h : d.Valid) :
    beforeMonth d.year d.month + (d.day - 1) < yearLength d.year := by
  have h1 := day_in_year h
  have h2 := beforeMonth_mono d.year (show d.month + 1 ≤ 13 by have := h.2.2.1; omega)
  rw [beforeMonth_year] at h2
  omega

theorem number_inj {d e : Date} (hd : d.Valid) (he : e.Valid) (h : d.number = e.number) : d = e := by
  unfold Date.number at h
  have a1 := day_before_year hd
  have a2 := day_before_year he
  have hy : d.year = e.year := by
    rcases Nat.lt_trichotomy d.year e.year with hl | hl | hl
    · have := beforeYear_mono (show d.year + 1 ≤ e.year from hl)
      simp only [beforeYear] at this
      omega
    · exact hl
    · have := beforeYear_mono (show e.year + 1 ≤ d.year from hl)
      simp only [beforeYear] at this
      omega
  obtain ⟨y, m, k⟩ := d
  obtain ⟨y', m', k'⟩ := e
  simp only at hy
  subst hy
  have b1 := day_in_year hd
  have b2 := day_in_year he
  have h1 := hd.2.2.2.1
  have h2 := he.2.2.2.1
  simp only at h b1 b2 h1 h2
  have hm : m = m' := by
    rcases Nat.lt_trichotomy m m' with hl | hl | hl
    · have := beforeMonth_mono y (show m + 1 ≤ m' from hl); omega
    · exact hl
    · have := beforeMonth_mono y (show m' + 1 ≤ m from hl); omega
  subst hm
  have : k = k' := by omega
  rw [this]

theorem year_of (n k : Nat) (h : n < beforeYear k) : ∃ y, y < k ∧ beforeYear y ≤ n ∧ n < beforeYear (y + 1) := by
  induction k with
  | zero => simp [beforeYear] at h
  | succ k ih =>
    by_cases hk : n < beforeYear k
    · obtain ⟨y, h1, h2⟩ := ih hk; exact ⟨y, by omega, h2⟩
    · exact ⟨k, by omega, by omega, h⟩

theorem month_of (y n k : Nat) (h : n < beforeMonth y (k + 1)) :
    ∃ m, 1 ≤ m ∧ m ≤ k ∧ beforeMonth y m ≤ n ∧ n < beforeMonth y (m + 1) := by
  induction k with
  | zero => simp [beforeMonth] at h
  | succ k ih =>
    by_cases hk : n < beforeMonth y (k + 1)
    · obtain ⟨m, h0, h1, h2⟩ := ih hk; exact ⟨m, h0, by omega, h2⟩
    · exact ⟨k + 1, by omega, by omega, by omega, h⟩

theorem date_of (n : Nat) (h : n < beforeYear 10000) :
    ∃ d : Date, d.Valid ∧ beforeYear d.year + beforeMonth d.year d.month + (d.day - 1) = n := by
  obtain ⟨y, hy, h1, h2⟩ := year_of n 10000 h
  have h3 : n - beforeYear y < beforeMonth y (12 + 1) := by
    rw [beforeMonth_year]
    simp only [beforeYear] at h2
    omega
  obtain ⟨m, m1, m2, m3, m4⟩ := month_of y (n - beforeYear y) 12 h3
  rw [beforeMonth_succ y m1] at m4
  refine ⟨⟨y, m, n - beforeYear y - beforeMonth y m + 1⟩, ⟨by simp only; omega, m1, m2, by simp, by simp only; omega⟩, ?_⟩
  simp only
  omega

theorem valid_lt {d : Date} (h : d.Valid) :
    beforeYear d.year + beforeMonth d.year d.month + (d.day - 1) < beforeYear 10000 := by
  have a := day_before_year h
  have b := beforeYear_mono (show d.year + 1 ≤ 10000 by have := h.1; omega)
  have c : beforeYear (d.year + 1) = beforeYear d.year + yearLength d.year := rfl
  omega

end Verif.Time
