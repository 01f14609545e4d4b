import Verif.Model.TimeList
import Verif.Props.Time
import Verif.Props.JsonText
import Verif.Lemmas.Numeral
import Verif.Lemmas.FloatRead
import Verif.Lemmas.Scan

/-!
# C113: lists of times as JSON

For every list of times: the text is a JSON array with a string for each, which is read as the same time.

True of times in whole seconds, in zones of whole minutes, of the years 0 to 9999.  False of all others: fractions and seconds of zones are
dropped, and the texts of other years are not read at all.
-/

namespace Verif.Props

open Verif Verif.TimeList Verif.Spec Verif.Spec.Time
open Verif.Time (days days_eq)

private theorem quarter {a b q : Int} (h : 4 * a + 3 = b + q) : a = b / 4 + q / 4 := by omega

private theorem quarter_nat {a b q : Nat} (h : 4 * a + 3 = b + q) : b / 4 + q / 4 = a := by omega

/-- Days have the date of the calendar. -/
theorem civil_days (n : Int) (h : -719528 ≤ n) : ∃ y m d : Nat, civil n = ((y : Int), m, d) ∧ 1 ≤ m ∧ m ≤ 12 ∧ 1 ≤ d ∧ d ≤ monthLength y m ∧
    days y m d = n := by
  obtain ⟨c, q, hc, hq0, hq1⟩ : ∃ c q : Int, 4 * (n + 719468) + 3 = 146097 * c + q ∧ 0 ≤ q ∧ q < 146097 :=
    ⟨(4 * (n + 719468) + 3) / 146097, (4 * (n + 719468) + 3) % 146097, by omega, by omega, by omega⟩
  have e1 : (4 * (n + 719468) + 3) / 146097 = c := by omega
  have e2 : (4 * (n + 719468) + 3) % 146097 = q := by omega
  obtain ⟨r, hr⟩ : ∃ r : Nat, r = q.toNat / 4 := ⟨_, rfl⟩
  obtain ⟨cy, p, hp, hp1⟩ : ∃ cy p : Nat, 4 * r + 3 = 1461 * cy + p ∧ p < 1461 := ⟨(4 * r + 3) / 1461, (4 * r + 3) % 1461, by omega, by omega⟩
  have e3 : (4 * r + 3) / 1461 = cy := by omega
  have e4 : (4 * r + 3) % 1461 = p := by omega
  have hcy : cy ≤ 99 := by omega
  have tab : ∀ k, k < 366 → 3 ≤ (5 * k + 461) / 153 ∧ (5 * k + 461) / 153 ≤ 14 ∧
      (979 * ((5 * k + 461) / 153) - 2919) / 32 + (5 * k + 461) % 153 / 5 = k ∧
      ((5 * k + 461) / 153 ≤ 12 → k < 306 ∧ (5 * k + 461) % 153 / 5 + 1 ≤ monthLength 1 ((5 * k + 461) / 153)) ∧
      ((5 * k + 461) / 153 = 13 → (5 * k + 461) % 153 / 5 + 1 ≤ 31) ∧
      ((5 * k + 461) / 153 = 14 → (5 * k + 461) % 153 / 5 + 1 ≤ 29 ∧ ((5 * k + 461) % 153 / 5 + 1 = 29 → k = 365)) := by
    decide +kernel
  obtain ⟨t1, t2, t3, t4, t5, t6⟩ := tab (p / 4) (by omega)
  have hc1 : -1 ≤ c := by clear t1 t2 t3 t4 t5 t6 tab; omega
  have hc2 : c = -1 → cy = 99 ∧ 306 ≤ p / 4 := by clear t1 t2 t3 t4 t5 t6 tab; omega
  have hleap : p / 4 = 365 → cy % 4 = 3 ∧ (cy = 99 → c % 4 = 3) := by
    clear t1 t2 t3 t4 t5 t6 tab e1 e2 e3 e4 h hc1 hc2 hcy
    intro hp'
    obtain rfl : p = 1460 := by omega
    refine ⟨by omega, fun h99 => ?_⟩
    subst h99
    obtain rfl : r = 36524 := by omega
    obtain rfl : q = 146096 := by omega
    omega
  have hn : n + 719468 = 146097 * c / 4 + (1461 * cy / 4 + p / 4 : Nat) := by
    rw [quarter_nat hp, hr, Int.natCast_ediv, Int.toNat_of_nonneg hq0]
    exact quarter hc
  have hciv : civil n = (c * 100 + (cy + (if 12 < (5 * (p / 4) + 461) / 153 then 1 else 0) : Nat),
      (5 * (p / 4) + 461) / 153 - 12 * (if 12 < (5 * (p / 4) + 461) / 153 then 1 else 0), (5 * (p / 4) + 461) % 153 / 5 + 1) := by
    unfold civil
    simp only [e1, e2, ← hr, e3, e4]
  generalize (5 * (p / 4) + 461) / 153 = m at *
  generalize (5 * (p / 4) + 461) % 153 / 5 = d at *
  clear tab e1 e2 e3 e4 hc hq0 hq1 hp hp1 hr
  generalize p / 4 = k at *
  by_cases hm : 12 < m
  · rw [if_pos hm] at hciv
    obtain ⟨y, hy⟩ : ∃ y : Nat, (y : Int) = c * 100 + (cy + 1 : Nat) := ⟨(c * 100 + (cy + 1 : Nat)).toNat, by clear t1 t2 t3 t4 t5 t6 hciv hn; omega⟩
    refine ⟨y, m - 12, d + 1, by rw [hciv, hy], by omega, by omega, by omega, ?_, ?_⟩
    · by_cases h13 : m = 13
      · subst h13
        simpa [monthLength] using t5 rfl
      · obtain rfl : m = 14 := by omega
        obtain ⟨u1, u2⟩ := t6 rfl
        show d + 1 ≤ if 2 = 2 then _ else _
        rw [if_pos rfl]
        by_cases h29 : d + 1 = 29
        · have hl := hleap (u2 h29)
          rw [if_pos]
          · exact u1
          · unfold Leap
            omega
        · split <;> omega
    · unfold days
      have e : y + 400 - 1 = 100 * (c + 4).toNat + cy := by omega
      simp only [show m - 12 < 3 by omega, if_true, e]
      rw [show (100 * (c + 4).toNat + cy) / 100 = (c + 4).toNat by omega, show (100 * (c + 4).toNat + cy) % 100 = cy by omega,
        show m - 12 + 12 * 1 = m by omega]
      generalize (979 * m - 2919) / 32 = A at *
      omega
  · rw [if_neg hm] at hciv
    obtain ⟨y, hy⟩ : ∃ y : Nat, (y : Int) = c * 100 + (cy + 0 : Nat) := ⟨(c * 100 + (cy + 0 : Nat)).toNat, by have := (t4 (by omega)).1; clear t1 t2 t3 t4 t5 t6 hciv hn; omega⟩
    refine ⟨y, m, d + 1, by rw [hciv, hy]; simp, by omega, by omega, by omega, ?_, ?_⟩
    · have := (t4 (by omega)).2
      have e : monthLength y m = monthLength 1 m := by
        unfold monthLength
        rw [if_neg (show ¬ m = 2 by omega), if_neg (show ¬ m = 2 by omega)]
      rwa [e]
    · unfold days
      have e : y + 400 - 0 = 100 * (c + 4).toNat + cy := by omega
      simp only [show ¬ m < 3 by omega, if_false, e]
      rw [show (100 * (c + 4).toNat + cy) / 100 = (c + 4).toNat by omega, show (100 * (c + 4).toNat + cy) % 100 = cy by omega,
        show m + 12 * 0 = m by omega]
      generalize (979 * m - 2919) / 32 = A at *
      omega

theorem natDecAux_fuel (f : Nat) : ∀ (g n : Nat) (acc : Bytes), n < f → n < g → natDecAux f n acc = natDecAux g n acc := by
  induction f with
  | zero => intro g n acc h; omega
  | succ f ih =>
    intro g n acc hf hg
    obtain ⟨g, rfl⟩ : ∃ k, g = k + 1 := ⟨g - 1, by omega⟩
    unfold natDecAux
    by_cases h : n / 10 = 0
    · simp [h]
    · simp only [h, if_false]
      exact ih _ _ _ (by omega) (by omega)

theorem natDec_step (n : Nat) : natDec n = if n < 10 then [digit n] else natDec (n / 10) ++ [digit (n % 10)] := by
  by_cases h : n < 10
  · rw [if_pos h, natDec, natDecAux, if_pos (by omega), show n % 10 = n by omega]
    rfl
  · rw [if_neg h, natDec, natDecAux, if_neg (by omega), natDecAux_append, natDec, natDecAux_fuel n (n / 10 + 1) _ _ (by omega) (by omega)]
    rfl

theorem appendInt_two {n : Nat} (h : n < 100) : appendInt n 2 = dd n := by
  unfold appendInt
  rw [if_neg (by omega), show (n : Int).natAbs = n from rfl, natDec_step]
  by_cases h1 : n < 10
  · rw [if_pos h1]
    simp only [dd, show n / 10 = 0 by omega, show n % 10 = n by omega]
    rfl
  · rw [if_neg h1, natDec_step, if_pos (by omega)]
    rfl

theorem appendInt_four {n : Nat} (h : n ≤ 9999) : appendInt n 4 = dddd n := by
  unfold appendInt
  rw [if_neg (by omega), show (n : Int).natAbs = n from rfl, natDec_step]
  by_cases h1 : n < 10
  · rw [if_pos h1]
    simp only [dddd, show n / 1000 = 0 by omega, show n / 100 % 10 = 0 by omega, show n / 10 % 10 = 0 by omega, show n % 10 = n by omega]
    rfl
  · rw [if_neg h1, natDec_step]
    by_cases h2 : n / 10 < 10
    · rw [if_pos h2]
      simp only [dddd, show n / 1000 = 0 by omega, show n / 100 % 10 = 0 by omega, show n / 10 % 10 = n / 10 by omega]
      rfl
    · rw [if_neg h2, natDec_step]
      by_cases h3 : n / 10 / 10 < 10
      · rw [if_pos h3]
        simp only [dddd, show n / 1000 = 0 by omega, show n / 100 % 10 = n / 10 / 10 by omega]
        rfl
      · rw [if_neg h3, natDec_step, if_pos (by omega)]
        simp only [dddd, show n / 1000 = n / 10 / 10 / 10 by omega, show n / 100 % 10 = n / 10 / 10 % 10 by omega]
        rfl

theorem zone_text {off : Int} {H M : Nat} (h : off.natAbs < 3600 * (H + 1)) (hH : H < 100) (hM : 59 ≤ M) : Zone H M (zone off) (off - off.tmod 60) := by
  unfold zone
  by_cases h0 : off = 0
  · subst h0
    exact .utc
  · rw [if_neg h0]
    have hd : off.tdiv 60 * 60 = off - off.tmod 60 := by have := Int.mul_tdiv_add_tmod off 60; omega
    have hb : (off.tdiv 60).natAbs = off.natAbs / 60 := Int.natAbs_tdiv off 60
    rw [← hd]
    simp only
    generalize off.tdiv 60 = z at *
    rw [appendInt_two (by omega), appendInt_two (by omega)]
    by_cases hz : z < 0
    · rw [if_pos hz, show z * 60 = -((z.natAbs / 60 * 3600 + z.natAbs % 60 * 60 : Nat) : Int) by omega]
      exact .west (by omega) (by omega)
    · rw [if_neg hz, show z * 60 = ((z.natAbs / 60 * 3600 + z.natAbs % 60 * 60 : Nat) : Int) by omega]
      exact .east (by omega) (by omega)

/-- The years 0 to 9999, as clocks in the zone show. -/
def InYears (t : Moment) : Prop := firstMoment ≤ t.ns + t.off * 1000000000 ∧ t.ns + t.off * 1000000000 < afterLast

private theorem beforeYear_le {a b : Nat} (h : a ≤ b) : beforeYear a ≤ beforeYear b := by
  induction h with
  | refl => exact Nat.le_refl _
  | step _ ih => exact Nat.le_trans ih (Nat.le_add_right _ _)

private theorem number_lt {y m d : Nat} (h1 : 1 ≤ m) (h2 : m ≤ 12) (h3 : 1 ≤ d) (h4 : d ≤ monthLength y m) :
    beforeYear y + beforeMonth y m + (d - 1) < beforeYear (y + 1) := by
  have e : beforeYear (y + 1) = beforeYear y + yearLength y := rfl
  have key : beforeMonth y m + monthLength y m ≤ yearLength y := by
    unfold yearLength
    obtain rfl | rfl | rfl | rfl | rfl | rfl | rfl | rfl | rfl | rfl | rfl | rfl : m = 1 ∨ m = 2 ∨ m = 3 ∨ m = 4 ∨ m = 5 ∨ m = 6 ∨ m = 7 ∨
      m = 8 ∨ m = 9 ∨ m = 10 ∨ m = 11 ∨ m = 12 := by omega
    all_goals by_cases hl : Leap y <;> simp [beforeMonth, monthLength, hl]
  omega

private theorem range_first : firstMoment = -719528 * 86400000000000 := by
  have e1 : beforeYear 1970 = 719528 := by have := Time.beforeYear_eq 1970; omega
  have h0 : beforeYear 0 = 0 := rfl
  have hm : beforeMonth 0 1 = 0 := rfl
  simp only [firstMoment, instant, Date.number, Clock.seconds, e1, h0, hm]
  omega

private theorem range_last : afterLast = 2932897 * 86400000000000 := by
  have e1 : beforeYear 1970 = 719528 := by have := Time.beforeYear_eq 1970; omega
  have e2 : beforeYear 9999 = 3652060 := by have := Time.beforeYear_eq 9999; omega
  have : beforeMonth 9999 12 = 334 := by decide
  simp only [afterLast, instant, Date.number, Clock.seconds, e1, e2, this]
  omega

/-- The text of a time, in parts: the date and the clock of its zone, and the zone. -/
theorem format_parts {t : Moment} (hy : InYears t) : ∃ (d : Date) (c : Clock), d.Valid ∧ c.Valid ∧
    format t = d.text ++ 84 :: (c.text ++ zone t.off) ∧ instant d c 0 = (t.ns / 1000000000 + t.off) * 1000000000 := by
  have ⟨a1, a2⟩ := hy
  rw [range_first] at a1
  rw [range_last] at a2
  obtain ⟨y, m, d, hciv, m1, m2, d1, d2, hd⟩ := civil_days ((t.ns / 1000000000 + t.off) / 86400) (by omega)
  rw [days_eq y m d m1 m2 d1] at hd
  have hy9 : y ≤ 9999 := by
    by_contra hlt
    have e3 : beforeYear 10000 = 3652425 := by have := Time.beforeYear_eq 10000; omega
    have e4 := beforeYear_le (show 10000 ≤ y by omega)
    have e5 : beforeYear 1970 = 719528 := by have := Time.beforeYear_eq 1970; omega
    simp only [Date.number, e5] at hd
    omega
  have dm : d < 100 := by
    have : monthLength y m ≤ 31 := by unfold monthLength; split <;> (try split) <;> omega
    omega
  unfold format
  simp only [hciv]
  obtain ⟨s, hs⟩ : ∃ s, s = ((t.ns / 1000000000 + t.off) % 86400).toNat := ⟨_, rfl⟩
  rw [← hs, appendInt_four hy9, appendInt_two (show m < 100 by omega), appendInt_two dm, appendInt_two (show s / 3600 < 100 by omega),
    appendInt_two (show s % 3600 / 60 < 100 by omega), appendInt_two (show s % 60 < 100 by omega)]
  refine ⟨⟨y, m, d⟩, ⟨s / 3600, s % 3600 / 60, s % 60⟩, ⟨hy9, m1, m2, d1, d2⟩,
    ⟨by show s / 3600 < 24; omega, by show s % 3600 / 60 < 60; omega, by show s % 60 < 60; omega⟩, by simp [Date.text, Clock.text], ?_⟩
  simp only [instant, Clock.seconds, hd]
  omega

/-- What the text of a time stands for: fractions and seconds of the zone are dropped. -/
theorem format_denotes {t : Moment} (hy : InYears t) (h : t.off.natAbs < 86400) :
    Spec.Time.Denotes (format t) ((t.ns / 1000000000 + t.off.tmod 60) * 1000000000) := by
  obtain ⟨d, c, hd, hc, e1, e2⟩ := format_parts hy
  have key := Spec.Time.Denotes.rfc3339 hd hc Fraction.none (zone_text (off := t.off) h (by omega) (by omega))
  rw [e2, show (t.ns / 1000000000 + t.off) * 1000000000 - (t.off - t.off.tmod 60) * 1000000000 =
    (t.ns / 1000000000 + t.off.tmod 60) * 1000000000 by omega] at key
  rw [e1]
  simpa using key

/-- In a zone of 24 hours and some minutes, Go still reads it. -/
theorem format_lenient {t : Moment} (hy : InYears t) (h : t.off.natAbs < 90000) :
    Lenient (format t) ((t.ns / 1000000000 + t.off.tmod 60) * 1000000000) := by
  obtain ⟨d, c, hd, hc, e1, e2⟩ := format_parts hy
  have key := Lenient.rfc3339 hd hc (.inl rfl) (.inl rfl) Fraction.none (zone_text (off := t.off) h (by omega) (by omega))
  rw [e2, show (t.ns / 1000000000 + t.off) * 1000000000 - (t.off - t.off.tmod 60) * 1000000000 =
    (t.ns / 1000000000 + t.off.tmod 60) * 1000000000 by omega] at key
  rw [e1]
  simpa [Clock.text] using key

/-! ## Zones of more than a day -/

/-- A text of a date and a clock ends with its zone. -/
private theorem zoned {s : Bytes} {i : Int} (h : Spec.Time.Denotes s i ∨ Lenient s i) (hT : s[10]? = some 84) :
    ∃ (x z : Bytes) (off : Int), s = x ++ z ∧ Zone 24 60 z off := by
  have hl : ∀ d : Date, d.text.length = 10 := fun d => rfl
  rcases h with h | h
  · cases h with
    | date => rw [List.getElem?_eq_none (by rw [hl])] at hT; exact absurd hT (by simp)
    | time =>
      rw [List.getElem?_append_right (by rw [hl])] at hT
      exact absurd hT (by simp [hl])
    | @rfc3339 d c f ns z off _ _ _ hz =>
      refine ⟨d.text ++ 84 :: (c.text ++ f), z, off, by simp, ?_⟩
      cases hz with
      | utc => exact .utc
      | east a b => exact .east (by omega) (by omega)
      | west a b => exact .west (by omega) (by omega)
  · cases h with
    | @rfc3339 d c h f ns z off sep _ _ _ _ _ hz =>
      exact ⟨d.text ++ 84 :: (h ++ (58 :: (dd c.minute ++ 58 :: dd c.second) ++ f)), z, off, by simp, hz⟩

private theorem digit_inj : ∀ a < 10, ∀ b < 10, digit a = digit b → a = b := by decide

private theorem digit_sign : ∀ a < 10, digit a ≠ 43 ∧ digit a ≠ 45 ∧ digit a ≠ 90 := by decide

/-- The last six bytes of the text of a zone other than UTC. -/
private theorem zone_end {off : Int} (h : 90000 ≤ off.natAbs) : ∃ (x : Bytes) (b : Byte) (k m : Nat),
    zone off = x ++ [b, digit (k / 10 % 10), digit (k % 10), 58, digit (m / 10), digit (m % 10)] ∧ m < 60 ∧
      (25 ≤ k ∧ k < 100 ∨ ∃ a < 10, b = digit a) := by
  have hb : (off.tdiv 60).natAbs = off.natAbs / 60 := Int.natAbs_tdiv off 60
  unfold zone
  rw [if_neg (by omega)]
  simp only
  generalize off.tdiv 60 = z at *
  rw [appendInt_two (show z.natAbs % 60 < 100 by omega)]
  obtain ⟨k, hk⟩ : ∃ k, k = z.natAbs / 60 := ⟨_, rfl⟩
  rw [← hk]
  by_cases h1 : k < 100
  · rw [appendInt_two h1]
    exact ⟨[], _, k, z.natAbs % 60, by simp [dd, show k / 10 % 10 = k / 10 by omega]; rfl, by omega, .inl ⟨by omega, h1⟩⟩
  · have hl : 2 ≤ (natDec k).length ∧ ∃ x a, a < 10 ∧ natDec k = x ++ [digit a, digit (k / 10 % 10), digit (k % 10)] := by
      rw [natDec_step, if_neg (by omega), natDec_step, if_neg (by omega), natDec_step]
      split
      · exact ⟨by simp, [], k / 10 / 10, by omega, by simp⟩
      · exact ⟨by simp, natDec (k / 10 / 10 / 10), k / 10 / 10 % 10, by omega, by simp⟩
    obtain ⟨hl, x, a, ha, hx⟩ := hl
    unfold appendInt
    rw [if_neg (show ¬ ((k : Int) < 0) by omega), show (k : Int).natAbs = k from rfl, show 2 - (natDec k).length = 0 by omega, hx]
    exact ⟨(if z < 0 then 45 else 43) :: x, digit a, k, z.natAbs % 60, by simp [dd], by omega, .inr ⟨a, ha, rfl⟩⟩

private theorem last_six {x y : Bytes} {a b : Bytes} (h : x ++ a = y ++ b) (hl : a.length = b.length) : a = b :=
  (List.append_inj' h hl).2

/-- The texts of zones 25 hours away, or more, stand for nothing. -/
theorem format_zone {t : Moment} {i : Int} (hy : InYears t) (h : Spec.Time.Denotes (format t) i ∨ Lenient (format t) i) :
    t.off.natAbs < 90000 := by
  by_contra hn
  obtain ⟨d, c, _, _, e, _⟩ := format_parts hy
  obtain ⟨x, z, off, ez, hz⟩ := zoned h (by rw [e]; rfl)
  obtain ⟨y, b, k, m, ey, hm, hk⟩ := zone_end (off := t.off) (by omega)
  rw [e, ey] at ez
  have ez' : (d.text ++ 84 :: (c.text ++ y)) ++ [b, digit (k / 10 % 10), digit (k % 10), 58, digit (m / 10), digit (m % 10)] = x ++ z := by
    rw [← ez]; simp
  have hd : ∀ (sg : Byte) (hh mm : Nat), hh ≤ 24 → (sg = 43 ∨ sg = 45) → z = sg :: (dd hh ++ 58 :: dd mm) → False := by
    intro sg hh mm h24 hs hz
    subst hz
    have e6 := last_six ez' rfl
    simp only [dd, List.cons_append, List.nil_append, List.cons.injEq] at e6
    obtain ⟨q1, q2, q3, _⟩ := e6
    have q2' := digit_inj _ (by omega) _ (by omega) q2
    have q3' := digit_inj _ (by omega) _ (by omega) q3
    rcases hk with ⟨k1, k2⟩ | ⟨a, ha, rfl⟩
    · omega
    · have := digit_sign a ha
      rcases hs with rfl | rfl
      · exact this.1 q1
      · exact this.2.1 q1
  cases hz with
  | utc =>
    have e1 : (d.text ++ 84 :: (c.text ++ y) ++ [b, digit (k / 10 % 10), digit (k % 10), 58, digit (m / 10)]) ++ [digit (m % 10)] = x ++ [90] := by
      rw [← ez']; simp
    have := last_six e1 rfl
    simp only [List.cons.injEq, and_true] at this
    exact (digit_sign _ (by omega)).2.2 this
  | east a b => exact hd _ _ _ a (by simp) rfl
  | west a b => exact hd _ _ _ a (by simp) rfl

/-! ## Other years -/

theorem civil_neg {n : Int} (h : n < -719528) : (civil n).1 < 0 := by
  obtain ⟨c, q, hc, hq0, hq1⟩ : ∃ c q : Int, 4 * (n + 719468) + 3 = 146097 * c + q ∧ 0 ≤ q ∧ q < 146097 :=
    ⟨(4 * (n + 719468) + 3) / 146097, (4 * (n + 719468) + 3) % 146097, by omega, by omega, by omega⟩
  have e1 : (4 * (n + 719468) + 3) / 146097 = c := by omega
  have e2 : (4 * (n + 719468) + 3) % 146097 = q := by omega
  obtain ⟨r, hr⟩ : ∃ r : Nat, r = q.toNat / 4 := ⟨_, rfl⟩
  obtain ⟨cy, p, hp, hp1⟩ : ∃ cy p : Nat, 4 * r + 3 = 1461 * cy + p ∧ p < 1461 := ⟨(4 * r + 3) / 1461, (4 * r + 3) % 1461, by omega, by omega⟩
  have e3 : (4 * r + 3) / 1461 = cy := by omega
  have e4 : (4 * r + 3) % 1461 = p := by omega
  have hcy : cy ≤ 99 := by omega
  have hc1 : c ≤ -1 := by clear e1 e2 e3 e4 hr hp hp1 hcy; omega
  have hc2 : c = -1 → cy = 99 → p / 4 < 306 := by
    clear e1 e2 e3 e4 hc1
    rintro rfl rfl
    omega
  unfold civil
  simp only [e1, e2, ← hr, e3, e4]
  clear e1 e2 e3 e4 hc hq0 hq1 hr hp h
  by_cases hm : 12 < (5 * (p / 4) + 461) / 153
  · rw [if_pos hm]
    omega
  · rw [if_neg hm]
    omega

private theorem natDec_long {n : Nat} (h : 10000 ≤ n) : 5 ≤ (natDec n).length := by
  rw [natDec_step, if_neg (by omega), natDec_step, if_neg (by omega), natDec_step, if_neg (by omega), natDec_step, if_neg (by omega)]
  have : 1 ≤ (natDec (n / 10 / 10 / 10 / 10)).length := by
    rw [natDec_step]
    split <;> simp
  simp only [List.length_append, List.length_cons, List.length_nil]
  omega

private theorem dated {s : Bytes} {i : Int} (h : Spec.Time.Denotes s i ∨ Lenient s i) : ∃ (d : Date) (r : Bytes), d.Valid ∧ s = d.text ++ r := by
  rcases h with h | h
  · cases h with
    | date hd => exact ⟨_, [], hd, by simp⟩
    | time hd => exact ⟨_, _, hd, rfl⟩
    | rfc3339 hd => exact ⟨_, _, hd, rfl⟩
  · cases h with
    | rfc3339 hd => exact ⟨_, _, hd, rfl⟩

/-- The texts of other years stand for nothing. -/
theorem format_years {t : Moment} {i : Int} (h : Spec.Time.Denotes (format t) i ∨ Lenient (format t) i) : InYears t := by
  obtain ⟨d, r, hv, e⟩ := dated h
  have hd9 := hv.1
  by_contra hn
  unfold InYears at hn
  rw [range_first, range_last] at hn
  by_cases hlow : (t.ns / 1000000000 + t.off) / 86400 < -719528
  · have hneg := civil_neg hlow
    have e0 := congrArg (fun l => l[0]?) e
    unfold format at e0
    simp only [appendInt, if_pos hneg, Date.text, dddd, List.cons_append, List.nil_append, List.getElem?_cons_zero, Option.some.injEq] at e0
    have : ∀ k, k < 10 → digit k ≠ 45 := by decide
    exact this _ (by omega) e0.symm
  · obtain ⟨y, m, k, hciv, m1, m2, d1, d2, hd⟩ := civil_days ((t.ns / 1000000000 + t.off) / 86400) (by omega)
    rw [days_eq y m k m1 m2 d1] at hd
    have hy : 10000 ≤ y := by
      by_contra hlt
      have e3 : beforeYear 10000 = 3652425 := by have := Time.beforeYear_eq 10000; omega
      have e4 := beforeYear_le (show y + 1 ≤ 10000 by omega)
      have e5 : beforeYear 1970 = 719528 := by have := Time.beforeYear_eq 1970; omega
      have e6 := number_lt m1 m2 d1 d2
      simp only [Date.number, e5] at hd
      omega
    have hl := natDec_long hy
    have e4 := congrArg (fun l => l[4]?) e
    unfold format at e4
    simp only [hciv, appendInt, if_neg (show ¬ ((y : Int) < 0) by omega), show (y : Int).natAbs = y from rfl,
      show 4 - (natDec y).length = 0 by omega, List.replicate_zero, List.nil_append] at e4
    rw [List.getElem?_append_left (by omega), List.getElem?_eq_getElem (by omega)] at e4
    have hdig := List.all_eq_true.1 (Float.natDec_all y) _ (List.getElem_mem (show 4 < (natDec y).length by omega))
    simp only [Date.text, dddd, List.cons_append, List.nil_append, List.getElem?_cons_succ, List.getElem?_cons_zero, Option.some.injEq] at e4
    rw [e4] at hdig
    exact absurd hdig (by decide)

/-! ## Strings -/

/-- Digits, letters and signs: none needs an escape. -/
private def Plain (s : Bytes) : Prop := ∀ b ∈ s, 32 ≤ b.toNat ∧ b.toNat < 128 ∧ b.toNat ≠ 34 ∧ b.toNat ≠ 92

private theorem plain_append {a b : Bytes} (ha : Plain a) (hb : Plain b) : Plain (a ++ b) := fun c hc =>
  (List.mem_append.1 hc).elim (ha c) (hb c)

private theorem plain_cons {b : Byte} {s : Bytes} (hb : 32 ≤ b.toNat ∧ b.toNat < 128 ∧ b.toNat ≠ 34 ∧ b.toNat ≠ 92) (hs : Plain s) :
    Plain (b :: s) := fun c hc => (List.mem_cons.1 hc).elim (fun e => e ▸ hb) (hs c)

private theorem plain_int (x : Int) (w : Nat) : Plain (appendInt x w) := by
  unfold appendInt
  refine plain_append ?_ (plain_append ?_ ?_)
  · split <;> simp [Plain]
  · intro b hb
    rw [(List.mem_replicate.1 hb).2]
    decide
  · intro b hb
    have := List.all_eq_true.1 (Float.natDec_all x.natAbs) b hb
    simp only [Float.isDigit, Bool.and_eq_true, decide_eq_true_eq] at this
    omega

private theorem plain_zone (off : Int) : Plain (zone off) := by
  unfold zone
  split
  · simp [Plain]
  · refine plain_cons ?_ (plain_append (plain_int _ _) (plain_cons (by decide) (plain_int _ _)))
    split <;> decide

private theorem plain_format (t : Moment) : Plain (format t) := by
  unfold format
  exact plain_append (plain_int _ _) (plain_cons (by decide) (plain_append (plain_int _ _) (plain_cons (by decide)
    (plain_append (plain_int _ _) (plain_cons (by decide) (plain_append (plain_int _ _) (plain_cons (by decide)
      (plain_append (plain_int _ _) (plain_cons (by decide) (plain_append (plain_int _ _) (plain_zone _)))))))))))

private theorem plain_chars {s : Bytes} (h : Plain s) : ∃ cs : List Char, JsonText.Spec.Chars s cs ∧ Scan.utf8s cs = s := by
  induction s with
  | nil => exact ⟨[], .nil, rfl⟩
  | cons b s ih =>
    obtain ⟨cs, h1, h2⟩ := ih fun c hc => h c (List.mem_cons_of_mem _ hc)
    obtain ⟨l1, l2, l3, l4⟩ := h b List.mem_cons_self
    have hv : b.toNat.isValidChar := .inl (by omega)
    have hn : (Char.ofNat b.toNat).toNat = b.toNat := by
      simp [Char.ofNat, hv, Char.ofNatAux, Char.toNat]
    have hu : Scan.utf8 (Char.ofNat b.toNat) = [b] := by
      rw [Verif.Scan.utf8_ascii (by rw [hn]; exact l2), hn]
      simp
    refine ⟨Char.ofNat b.toNat :: cs, ?_, ?_⟩
    · have := JsonText.Spec.Chars.plain (c := Char.ofNat b.toNat) (by omega) (by omega) (by omega) h1
      rwa [hu] at this
    · simp only [Scan.utf8s, List.map_cons, List.flatten_cons, hu] at h2 ⊢
      rw [h2]
      rfl

private theorem elems_of {t : Moment} {ts : List Moment} {c : List Char} {cs : List (List Char)} (h : JsonText.Spec.Chars (format t) c)
    (hs : List.Forall₂ (fun t c => JsonText.Spec.Chars (format t) c) ts cs) :
    JsonText.Spec.Means (.elems ((c :: cs).map .str)) (34 :: (format t ++ [34]) ++ Marshal.rest (fun t => 34 :: (format t ++ [34])) ts) := by
  induction hs generalizing t c with
  | nil =>
    have := JsonText.Spec.Means.elem1 (w := []) (w' := []) (by simp [IsWs]) (.str h) (by simp [IsWs])
    simpa [Marshal.rest] using this
  | cons h1 _ ih =>
    have := JsonText.Spec.Means.elemS (w := []) (w' := []) (by simp [IsWs]) (.str h) (by simp [IsWs]) (ih h1)
    simpa [Marshal.rest] using this

private theorem times_means (ts : List Moment) : ∃ ss : List (List Char), JsonText.Spec.Means (.val (.arr (ss.map .str))) (times ts) ∧
    List.Forall₂ (fun t s => Scan.utf8s s = format t) ts ss := by
  have : ∃ ss : List (List Char), List.Forall₂ (fun t s => JsonText.Spec.Chars (format t) s) ts ss ∧
      List.Forall₂ (fun t s => Scan.utf8s s = format t) ts ss := by
    induction ts with
    | nil => exact ⟨[], .nil, .nil⟩
    | cons t ts ih =>
      obtain ⟨ss, h1, h2⟩ := ih
      obtain ⟨s, h3, h4⟩ := plain_chars (plain_format t)
      exact ⟨s :: ss, .cons h3 h1, .cons h4 h2⟩
  obtain ⟨ss, h1, h2⟩ := this
  refine ⟨ss, ?_, h2⟩
  cases h1 with
  | nil => exact .arr0 (w := []) (by simp [IsWs])
  | cons h hs =>
    have := JsonText.Spec.Means.arr (elems_of h hs)
    simpa [times, Marshal.list] using this

/-! ## The property -/

/-- Times whose texts can be read: clocks of the zone show one of the years 0 to 9999, and the zone is less than 25 hours away. -/
def Shown (t : Moment) : Prop := InYears t ∧ t.off.natAbs < 90000

/-- What a string of the array has to stand for: its time, without the fraction of a second and with the seconds of its zone added.  RFC 3339
has zones of less than a day; Go also reads 24 hours and some minutes. -/
def Reads (t : Moment) (s : List Char) : Prop :=
  (InYears t ∧ t.off.natAbs < 86400 → Spec.Time.Denotes (Scan.utf8s s) ((t.ns / 1000000000 + t.off.tmod 60) * 1000000000)) ∧
    (Shown t → Lenient (Scan.utf8s s) ((t.ns / 1000000000 + t.off.tmod 60) * 1000000000)) ∧
      (¬ Shown t → ∀ i, ¬ Spec.Time.Denotes (Scan.utf8s s) i ∧ ¬ Lenient (Scan.utf8s s) i)

/-- C113: the text is a JSON array with a string for each time, in order.  Each is a text of RFC 3339 for its time, apart from fractions and
the seconds of its zone, when clocks of the zone show one of the years 0 to 9999 and the zone is less than a day away; and is the text of no
time in other years and zones of 25 hours or more. -/
theorem C113_partial (ts : List Moment) :
    ∃ ss : List (List Char), JsonText.Spec.Means (.val (.arr (ss.map .str))) (times ts) ∧ List.Forall₂ Reads ts ss := by
  obtain ⟨ss, h1, h2⟩ := times_means ts
  refine ⟨ss, h1, h2.imp fun t s h => ?_⟩
  unfold Reads
  rw [h]
  have no : ∀ i, (Spec.Time.Denotes (format t) i ∨ Lenient (format t) i) → Shown t := fun i hd =>
    ⟨format_years hd, format_zone (format_years hd) hd⟩
  exact ⟨fun hy => format_denotes hy.1 hy.2, fun hy => format_lenient hy.1 hy.2, fun hy i => ⟨fun hd => hy (no i (.inl hd)), fun hd => hy (no i (.inr hd))⟩⟩

/-- C113: a string of the array is read as the time it was made from just when the time is in whole seconds, its zone in whole minutes and
less than 25 hours away, and its year one of 0 to 9999. -/
theorem C113_same_iff (ts : List Moment) :
    ∃ ss : List (List Char), JsonText.Spec.Means (.val (.arr (ss.map .str))) (times ts) ∧
      List.Forall₂ (fun t s => (Spec.Time.Denotes (Scan.utf8s s) t.ns ∨ Lenient (Scan.utf8s s) t.ns) ↔
        Shown t ∧ 1000000000 ∣ t.ns ∧ 60 ∣ t.off) ts ss := by
  obtain ⟨ss, h1, h2⟩ := C113_partial ts
  refine ⟨ss, h1, h2.imp fun t s ⟨_, r1, r2⟩ => ?_⟩
  have hm : t.off.tmod 60 = 0 ↔ 60 ∣ t.off := Int.dvd_iff_tmod_eq_zero.symm
  constructor
  · intro h
    by_cases hy : Shown t
    · have e := C88_unique h (.inr (r1 hy))
      exact ⟨hy, by omega, by omega⟩
    · exact (h.elim (r2 hy _).1 (r2 hy _).2).elim
  · rintro ⟨hy, h3, h4⟩
    right
    have := r1 hy
    rwa [hm.2 h4, show (t.ns / 1000000000 + 0) * 1000000000 = t.ns by omega] at this

/-- C113: nothing more is lost: times that can be read and differ in what is kept have texts that differ. -/
theorem C113_kept {t u : Moment} (ht : Shown t) (hu : Shown u) (h : times [t] = times [u]) :
    t.ns / 1000000000 + t.off.tmod 60 = u.ns / 1000000000 + u.off.tmod 60 := by
  have e : format t = format u := by simpa [times, Marshal.list, Marshal.rest] using h
  have d1 := format_lenient ht.1 ht.2
  rw [e] at d1
  have := C88_unique (.inr d1) (.inr (format_lenient hu.1 hu.2))
  omega

/-- Five and a half hours ahead of UTC, with half a second. -/
example : times [⟨1700000000500000000, 19800⟩, ⟨-1, 0⟩] = "[\"2023-11-15T03:43:20+05:30\",\"1969-12-31T23:59:59Z\"]".toUTF8.toList := by decide +kernel

example : InYears ⟨1700000000500000000, 19800⟩ := by unfold InYears; rw [range_first, range_last]; decide

/-- Zones of a day and of four days. -/
example : times [⟨0, 86400⟩, ⟨0, -360060⟩] = "[\"1970-01-02T00:00:00+24:00\",\"1969-12-27T19:59:00-100:01\"]".toUTF8.toList := by decide +kernel

/-- A zone of the time before railways: 20 minutes less 28 seconds are shown as 19. -/
example : times [⟨0, 1172⟩] = "[\"1970-01-01T00:19:32+00:19\"]".toUTF8.toList := by decide +kernel

/-- The years before 0 and after 9999. -/
example : times [⟨-62167219200000000001, 0⟩, ⟨253402300800000000000, 0⟩] = "[\"-0001-12-31T23:59:59Z\",\"10000-01-01T00:00:00Z\"]".toUTF8.toList := by
  decide +kernel

end Verif.Props
