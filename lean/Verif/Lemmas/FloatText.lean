import Verif.Lemmas.FloatRound
import Verif.Lemmas.Numeral

/-! # Reading decimal texts -/

namespace Verif.Float

open Verif Verif.Spec Verif.Spec.Float

variable {f : Format}

/-! ## Digits -/

/-- The number that digits make after `acc`. -/
def dval (acc : Nat) (ds : Bytes) : Nat := ds.foldl (fun a c => a * 10 + (c.toNat - 48)) acc

/-- The same for exponents. -/
def cval (acc : Nat) (ds : Bytes) : Nat := ds.foldl (fun a c => if a < 10000 then a * 10 + (c.toNat - 48) else a) acc

/-- No digit comes next. -/
def Stops (r : Bytes) : Prop := ∀ c u, r = c :: u → isDigit c = false

theorem stops_nil : Stops [] := fun _ _ h => by cases h

theorem digits_append (acc cnt : Nat) (ds r : Bytes) (h : ds.all isDigit = true) (hr : Stops r) :
    digits acc cnt (ds ++ r) = (dval acc ds, cnt + ds.length, r) := by
  induction ds generalizing acc cnt with
  | nil =>
    cases r with
    | nil => rfl
    | cons c u => simp [digits, hr c u rfl, dval]
  | cons c ds ih =>
    rw [List.all_cons, Bool.and_eq_true] at h
    rw [List.cons_append, digits, if_pos h.1, ih _ _ h.2]
    simp only [dval, List.foldl_cons, List.length_cons]
    congr 2
    omega

theorem digits_split (t : Bytes) : ∃ ds r, t = ds ++ r ∧ ds.all isDigit = true ∧ Stops r := by
  induction t with
  | nil => exact ⟨[], [], rfl, rfl, fun _ _ h => by cases h⟩
  | cons c t ih =>
    cases hc : isDigit c with
    | true =>
      obtain ⟨ds, r, rfl, h1, h2⟩ := ih
      exact ⟨c :: ds, r, rfl, by simp [hc, h1], h2⟩
    | false => exact ⟨[], c :: t, rfl, rfl, fun d u h => by cases h; exact hc⟩

theorem expDigits_append (acc cnt : Nat) (ds r : Bytes) (h : ds.all isDigit = true) (hr : Stops r) :
    expDigits acc cnt (ds ++ r) = (cval acc ds, cnt + ds.length, r) := by
  induction ds generalizing acc cnt with
  | nil =>
    cases r with
    | nil => rfl
    | cons c u => simp [expDigits, hr c u rfl, cval]
  | cons c ds ih =>
    rw [List.all_cons, Bool.and_eq_true] at h
    rw [List.cons_append, expDigits, if_pos h.1, ih _ _ h.2]
    simp only [cval, List.foldl_cons, List.length_cons]
    congr 2
    omega

theorem parseDigits_dval (ds : Bytes) (acc : Nat) (h : ds.all isDigit = true) : parseDigits 10 ds acc = some (dval acc ds) := by
  induction ds generalizing acc with
  | nil => rfl
  | cons c ds ih =>
    rw [List.all_cons, Bool.and_eq_true] at h
    have hc := h.1
    simp only [isDigit, Bool.and_eq_true, decide_eq_true_eq] at hc
    rw [parseDigits, if_pos ⟨hc.1, by omega⟩, ih _ h.2]
    rfl

/-- Numerals are digits. -/
theorem numeral_iff {ds : Bytes} {n : Nat} : Numeral 10 ds n ↔ ds ≠ [] ∧ ds.all isDigit = true ∧ dval 0 ds = n := by
  constructor
  · intro h
    have hall : ds.all isDigit = true := by
      rw [List.all_eq_true]
      intro c hc
      have := h.digits (by decide) c hc
      simp only [isDigit, Bool.and_eq_true, decide_eq_true_eq]
      omega
    refine ⟨h.ne_nil, hall, ?_⟩
    have h1 := parseDigits_numeral (by decide) h
    have h2 := parseDigits_dval ds 0 hall
    rw [h1] at h2
    simpa using h2.symm
  · rintro ⟨h1, h2, rfl⟩
    exact numeral_of_parseDigits h1 (parseDigits_dval ds 0 h2)

theorem dval_append (acc : Nat) (a b : Bytes) : dval acc (a ++ b) = dval (dval acc a) b := by
  simp [dval]

theorem dval_mono (acc : Nat) (ds : Bytes) : acc ≤ dval acc ds := by
  induction ds generalizing acc with
  | nil => exact Nat.le_refl _
  | cons c ds ih => exact Nat.le_trans (by omega) (ih (acc * 10 + (c.toNat - 48)))

theorem cval_stuck (acc : Nat) (ds : Bytes) (h : 10000 ≤ acc) : cval acc ds = acc := by
  induction ds with
  | nil => rfl
  | cons c ds ih =>
    simp only [cval, List.foldl_cons] at ih ⊢
    rw [if_neg (by omega)]
    exact ih

/-- Exponents are right, or large as they should be. -/
theorem cval_cases (acc : Nat) (ds : Bytes) (h : acc < 10000) :
    cval acc ds = dval acc ds ∨ 10000 ≤ cval acc ds ∧ 10000 ≤ dval acc ds := by
  induction ds generalizing acc with
  | nil => exact .inl rfl
  | cons c ds ih =>
    have e1 : cval acc (c :: ds) = cval (acc * 10 + (c.toNat - 48)) ds := by
      simp only [cval, List.foldl_cons, if_pos h]
    have e2 : dval acc (c :: ds) = dval (acc * 10 + (c.toNat - 48)) ds := rfl
    rw [e1, e2]
    by_cases h' : acc * 10 + (c.toNat - 48) < 10000
    · exact ih _ h'
    · right
      rw [cval_stuck _ _ (by omega)]
      exact ⟨by omega, Nat.le_trans (by omega) (dval_mono _ ds)⟩

theorem dval_lt (acc : Nat) (ds : Bytes) (h : ds.all isDigit = true) : dval acc ds < (acc + 1) * 10 ^ ds.length := by
  induction ds generalizing acc with
  | nil => simp [dval]
  | cons c ds ih =>
    rw [List.all_cons, Bool.and_eq_true] at h
    have hc := h.1
    simp only [isDigit, Bool.and_eq_true, decide_eq_true_eq] at hc
    have := ih (acc * 10 + (c.toNat - 48)) h.2
    have e2 : dval acc (c :: ds) = dval (acc * 10 + (c.toNat - 48)) ds := rfl
    rw [e2, List.length_cons, Nat.pow_succ]
    refine Nat.lt_of_lt_of_le this ?_
    rw [show (acc + 1) * (10 ^ ds.length * 10) = ((acc + 1) * 10) * 10 ^ ds.length from by ring]
    exact Nat.mul_le_mul_right _ (by omega)

/-! ## Signs -/

theorem sign_append {s u : Bytes} {neg : Bool} (hs : Sgn s neg) (hu : ∀ c r, u = c :: r → c ≠ 43 ∧ c ≠ 45) :
    sign (s ++ u) = (neg, u) := by
  rcases hs with ⟨rfl, rfl⟩ | ⟨rfl, rfl⟩ | ⟨rfl, rfl⟩
  · cases u with
    | nil => rfl
    | cons c r =>
      obtain ⟨h1, h2⟩ := hu c r rfl
      simp [sign, h1, h2]
  · simp [sign]
  · simp [sign]

theorem sign_split (t : Bytes) : ∃ s u neg, t = s ++ u ∧ Sgn s neg ∧ sign t = (neg, u) := by
  cases t with
  | nil => exact ⟨[], [], false, rfl, .inl ⟨rfl, rfl⟩, rfl⟩
  | cons c r =>
    by_cases h1 : c = 43
    · subst h1; exact ⟨[43], r, false, rfl, .inr (.inl ⟨rfl, rfl⟩), by simp [sign]⟩
    · by_cases h2 : c = 45
      · subst h2; exact ⟨[45], r, true, rfl, .inr (.inr ⟨rfl, rfl⟩), by simp [sign]⟩
      · exact ⟨[], c :: r, false, rfl, .inl ⟨rfl, rfl⟩, by simp [sign, h1, h2]⟩

/-! ## Exponents -/

theorem digit_ne {ds : Bytes} (h : ds.all isDigit = true) {c : Byte} {r : Bytes} (e : ds = c :: r) :
    isDigit c = true := by
  subst e; simp at h; exact h.1

theorem exponent_iff {x : Bytes} {e : Int} : exponent x = some e ↔
    x = [] ∧ e = 0 ∨ ∃ c s ds neg, (c = 101 ∨ c = 69) ∧ x = c :: (s ++ ds) ∧ Sgn s neg ∧ ds ≠ [] ∧ ds.all isDigit = true ∧
      e = if neg then -(cval 0 ds : Int) else cval 0 ds := by
  constructor
  · cases x with
    | nil =>
      intro h
      simp only [exponent, Option.some.injEq] at h
      exact .inl ⟨rfl, h.symm⟩
    | cons c r =>
      intro h
      right
      rw [exponent] at h
      by_cases hc : c = 101 ∨ c = 69
      · rw [if_pos hc] at h
        obtain ⟨s, u, neg, rfl, hs, e1⟩ := sign_split r
        rw [e1] at h
        simp only at h
        obtain ⟨ds, r, rfl, h1, h2⟩ := digits_split u
        rw [expDigits_append 0 0 ds r h1 h2] at h
        cases r with
        | nil =>
          simp only [Nat.zero_add] at h
          by_cases hl : ds.length = 0
          · rw [if_pos hl] at h; cases h
          · rw [if_neg hl] at h
            refine ⟨c, s, ds, neg, hc, by simp, hs, by rintro rfl; exact hl rfl, h1, ?_⟩
            simpa using h.symm
        | cons d r => simp at h
      · rw [if_neg hc] at h; cases h
  · rintro (⟨rfl, rfl⟩ | ⟨c, s, ds, neg, hc, rfl, hs, h0, h1, rfl⟩)
    · rfl
    · rw [exponent, if_pos hc]
      rw [sign_append hs (fun d r e => by
        have := digit_ne h1 e
        constructor <;> (rintro rfl; revert this; decide))]
      have := expDigits_append 0 0 ds [] h1 (fun _ _ h => by cases h)
      rw [List.append_nil] at this
      simp only [this]
      rw [if_neg (by cases ds with | nil => exact absurd rfl h0 | cons => simp)]

theorem exponent_stops {x : Bytes} {e : Int} (h : exponent x = some e) : Stops x ∧ ∀ u, x ≠ 46 :: u := by
  rcases exponent_iff.1 h with ⟨rfl, _⟩ | ⟨c, s, ds, neg, hc, rfl, _⟩
  · exact ⟨stops_nil, fun _ h => (by cases h)⟩
  · constructor
    · intro d u h
      cases h
      rcases hc with rfl | rfl <;> decide
    · intro u h
      cases h
      rcases hc with h | h <;> revert h <;> decide

/-! ## Numbers -/

theorem readDecimal_iff {t : Bytes} {neg : Bool} {m : Nat} {e' : Int} : readDecimal t = some (neg, m, e') ↔
    ∃ s a p b x e, t = s ++ (a ++ (p ++ x)) ∧ Sgn s neg ∧ Frac p b ∧ exponent x = some e ∧ Numeral 10 (a ++ b) m ∧
      e' = e - b.length := by
  constructor
  · intro h
    obtain ⟨s, u, neg', rfl, hs, e1⟩ := sign_split t
    unfold readDecimal at h
    rw [e1] at h
    obtain ⟨a, r, rfl, ha, hr⟩ := digits_split u
    simp only at h
    rw [digits_append 0 0 a r ha hr] at h
    simp only [Nat.zero_add] at h
    have main : ∃ p b x, r = p ++ x ∧ Frac p b ∧ b.all isDigit = true ∧ Stops x ∧
        fraction (dval 0 a) r = (dval 0 (a ++ b), b.length, x) := by
      cases r with
      | nil => exact ⟨[], [], [], rfl, .inl ⟨rfl, rfl⟩, rfl, stops_nil, by simp [fraction]⟩
      | cons c r =>
        by_cases hc : c = 46
        · subst hc
          obtain ⟨b, x, rfl, hb, hx⟩ := digits_split r
          refine ⟨46 :: b, b, x, by simp, .inr rfl, hb, hx, ?_⟩
          rw [fraction, if_pos rfl, digits_append _ 0 b x hb hx, dval_append]
          simp
        · exact ⟨[], [], c :: r, rfl, .inl ⟨rfl, rfl⟩, rfl, hr, by simp [fraction, hc]⟩
    obtain ⟨p, b, x, rfl, hp, hb, hx, hf⟩ := main
    rw [hf] at h
    simp only at h
    by_cases hl : a.length + b.length = 0
    · rw [if_pos hl] at h; cases h
    · rw [if_neg hl, Option.map_eq_some_iff] at h
      obtain ⟨e, he, h⟩ := h
      simp only [Prod.mk.injEq] at h
      obtain ⟨rfl, rfl, rfl⟩ := h
      refine ⟨s, a, p, b, x, e, rfl, hs, hp, he, numeral_iff.2 ⟨?_, by simp [ha, hb], rfl⟩, rfl⟩
      intro h0
      have := congrArg List.length h0
      rw [List.length_append, List.length_nil] at this
      exact hl this
  · rintro ⟨s, a, p, b, x, e, rfl, hs, hp, hx, hm, rfl⟩
    obtain ⟨h0, hall, rfl⟩ := numeral_iff.1 hm
    rw [List.all_append, Bool.and_eq_true] at hall
    obtain ⟨hx1, hx2⟩ := exponent_stops hx
    have hpx : Stops (p ++ x) := by
      rcases hp with ⟨rfl, _⟩ | rfl
      · exact hx1
      · intro c u h
        rw [List.cons_append, List.cons.injEq] at h
        rw [← h.1]; decide
    have hsign : sign (s ++ (a ++ (p ++ x))) = (neg, a ++ (p ++ x)) := by
      refine sign_append hs ?_
      intro c r h
      cases a with
      | cons d a =>
        rw [List.cons_append, List.cons.injEq] at h
        have := digit_ne hall.1 rfl
        rw [h.1] at this
        constructor <;> (rintro rfl; revert this; decide)
      | nil =>
        rcases hp with ⟨rfl, rfl⟩ | rfl
        · exact absurd rfl h0
        · rw [List.nil_append, List.cons_append, List.cons.injEq] at h
          rw [← h.1]
          decide
    have hf : fraction (dval 0 a) (p ++ x) = (dval 0 (a ++ b), b.length, x) := by
      rcases hp with ⟨rfl, rfl⟩ | rfl
      · rw [List.nil_append]
        cases x with
        | nil => simp [fraction]
        | cons c r =>
          have : c ≠ 46 := by rintro rfl; exact hx2 r rfl
          simp [fraction, this]
      · rw [List.cons_append, fraction, if_pos rfl, digits_append _ 0 b x hall.2 hx1, dval_append]
        simp
    have hl : ¬ (a.length + b.length = 0) := by
      intro h
      apply h0
      rw [← List.length_eq_zero_iff, List.length_append]
      exact h
    unfold readDecimal
    rw [hsign]
    simp only
    rw [digits_append 0 0 a _ hall.1 hpx]
    simp only [Nat.zero_add]
    rw [hf]
    simp only
    rw [if_neg hl, hx]
    rfl

/-- Texts of numbers start, after the sign, with a digit or a point. -/
theorem readDecimal_start {t : Bytes} {v : Bool × Nat × Int} (h : readDecimal t = some v) :
    ∃ c r, (sign t).2 = c :: r ∧ (isDigit c = true ∨ c = 46) := by
  obtain ⟨neg, m, e'⟩ := v
  obtain ⟨s, a, p, b, x, e, rfl, hs, hp, hx, hm, _⟩ := readDecimal_iff.1 h
  obtain ⟨h0, hall, _⟩ := numeral_iff.1 hm
  rw [List.all_append, Bool.and_eq_true] at hall
  have main : ∃ c r, a ++ (p ++ x) = c :: r ∧ (isDigit c = true ∨ c = 46) := by
    cases a with
    | cons d a => exact ⟨d, _, rfl, .inl (digit_ne hall.1 rfl)⟩
    | nil =>
      rcases hp with ⟨rfl, rfl⟩ | rfl
      · exact absurd rfl h0
      · exact ⟨46, _, rfl, .inr rfl⟩
  obtain ⟨c, r, e1, e2⟩ := main
  refine ⟨c, r, ?_, e2⟩
  rw [sign_append hs, e1]
  intro d u h
  rw [e1, List.cons.injEq] at h
  rw [← h.1]
  rcases e2 with e2 | rfl
  · constructor <;> (rintro rfl; revert e2; decide)
  · decide

theorem special_iff {t : Bytes} {y : Flt} : special f t = some y ↔ Named f t y := by
  have nosign : ∀ u : Bytes, (u.map fold = letters "inf" ∨ u.map fold = letters "infinity") →
      ∀ c r, u = c :: r → c ≠ 43 ∧ c ≠ 45 := by
    intro u hu c r e
    subst e
    have : fold c = 105 := by
      rcases hu with h | h <;> (rw [List.map_cons] at h; exact (List.cons.inj h).1)
    constructor <;> (rintro rfl; revert this; decide)
  unfold special Named
  by_cases h : t.map fold = letters "nan"
  · rw [if_pos h]
    constructor
    · intro e; cases e; exact .inl ⟨h, rfl⟩
    · rintro (⟨_, rfl⟩ | ⟨s, u, neg, rfl, hs, hu, rfl⟩)
      · rfl
      · exfalso
        rcases hs with ⟨rfl, _⟩ | ⟨rfl, _⟩ | ⟨rfl, _⟩
        · rw [List.nil_append] at h
          rcases hu with hu | hu <;> (rw [h] at hu; revert hu; decide)
        all_goals
          rw [List.cons_append, List.map_cons] at h
          have := (List.cons.inj h).1
          revert this; decide
  · rw [if_neg h]
    constructor
    · intro e
      obtain ⟨s, u, neg, rfl, hs, e1⟩ := sign_split t
      rw [e1] at e
      simp only at e
      by_cases hu : u.map fold = letters "inf" ∨ u.map fold = letters "infinity"
      · rw [if_pos hu] at e
        cases e
        exact .inr ⟨s, u, neg, rfl, hs, hu, rfl⟩
      · rw [if_neg hu] at e; cases e
    · rintro (⟨h', _⟩ | ⟨s, u, neg, rfl, hs, hu, rfl⟩)
      · exact absurd h' h
      · rw [sign_append hs (nosign u hu)]
        simp only
        rw [if_pos hu]

theorem special_number {t : Bytes} {v : Bool × Nat × Int} (h : readDecimal t = some v) : special f t = none := by
  cases hsp : special f t with
  | none => rfl
  | some y =>
    exfalso
    obtain ⟨c, r, e, hc⟩ := readDecimal_start h
    have nd : ∀ d : Byte, (isDigit d = true ∨ d = 46) → fold d ≠ 105 ∧ fold d ≠ 110 := by
      intro d hd
      have h1 : fold d = d := by
        unfold fold
        rw [if_neg]
        rcases hd with hd | rfl
        · simp only [isDigit, Bool.and_eq_true, decide_eq_true_eq] at hd
          omega
        · decide
      rw [h1]
      constructor <;> (rintro rfl; revert hd; decide)
    obtain ⟨s, u, neg, rfl, hs, e1⟩ := sign_split t
    rw [e1] at e
    simp only at e
    subst e
    unfold special at hsp
    rw [e1] at hsp
    simp only at hsp
    by_cases h1 : (s ++ c :: r).map fold = letters "nan"
    · rcases hs with ⟨rfl, _⟩ | ⟨rfl, _⟩ | ⟨rfl, _⟩
      · rw [List.nil_append, List.map_cons] at h1
        exact (nd c hc).2 (List.cons.inj h1).1
      all_goals
        rw [List.cons_append, List.map_cons] at h1
        have := (List.cons.inj h1).1
        revert this; decide
    · rw [if_neg h1] at hsp
      by_cases hu : (c :: r).map fold = letters "inf" ∨ (c :: r).map fold = letters "infinity"
      · rcases hu with hu | hu <;>
          (rw [List.map_cons] at hu; exact (nd c hc).1 (List.cons.inj hu).1)
      · rw [if_neg hu] at hsp; cases hsp

theorem pow_cast (m : Nat) (e : Int) :
    (m : ℚ) * 10 ^ e = ((m * 10 ^ e.toNat : Nat) : ℚ) / ((10 ^ (-e).toNat : Nat) : ℚ) := by
  rcases Int.le_total 0 e with h | h
  · obtain ⟨k, rfl⟩ := Int.eq_ofNat_of_zero_le h
    have : (-(k : Int)).toNat = 0 := by omega
    rw [this]
    simp
  · obtain ⟨k, hk⟩ := Int.eq_ofNat_of_zero_le (show 0 ≤ -e by omega)
    have h1 : e.toNat = 0 := by omega
    have h2 : e = -(k : Int) := by omega
    rw [h1, hk, h2, zpow_neg, zpow_natCast]
    push_cast
    rw [mul_one, Int.toNat_natCast, div_eq_mul_inv]

theorem rndDecimal_nearest (f : Format) (hp : 0 < f.prec) (m : Nat) (e : Int) :
    Nearest f ((m : ℚ) * 10 ^ e) (rndDecimal f m e) := by
  rw [pow_cast]
  exact rnd_nearest f hp _ _ (Nat.pow_pos (by decide))

end Verif.Float
