import Verif.Lemmas.FloatText

/-! # Printing and reading, and conversions -/

namespace Verif.Float

open Verif Verif.Spec Verif.Spec.Float

variable {f g : Format}

/-! ## Conversions -/

theorem rnd_val (hp : 0 < g.prec) {n k : Nat} (h : val g k = val f n) : rnd g (mag f n) (2 ^ f.low) = k := by
  rw [← nearest_iff hp (Nat.pow_pos (by decide))]
  have : ((mag f n : Nat) : ℚ) / ((2 ^ f.low : Nat) : ℚ) = val g k := by
    rw [h, val_eq]; push_cast; rfl
  rw [this]
  exact nearest_val g k

/-- Numbers of both formats are converted exactly. -/
theorem conv_exact (hp : 0 < g.prec) {n k : Nat} (neg : Bool) (hn : n < f.inf) (hk : k < g.inf) (h : val g k = val f n) :
    conv f g (.num neg n) = .num neg k := by
  rw [conv, if_pos hn, rnd_val hp h, clip, Nat.min_eq_left (by omega)]

theorem conv_inf (neg : Bool) : conv f g (.num neg f.inf) = .num neg g.inf := by
  rw [conv, if_neg (by omega)]

theorem conv_self (hp : 0 < f.prec) {x : Flt} (h : x.Of f) : conv f f x = x := by
  cases x with
  | nan => rfl
  | num neg n =>
    have h : n ≤ f.inf := h
    by_cases hn : n < f.inf
    · exact conv_exact hp neg hn hn rfl
    · rw [show n = f.inf by omega, conv_inf]

theorem mag_inf_single : mag single single.inf = 2 ^ 277 := by decide +kernel
theorem mag_inf_double : mag double double.inf = 2 ^ 2098 := by decide +kernel

theorem val_inf_single : val single single.inf = 2 ^ 128 := by
  rw [val_eq, mag_inf_single, Nat.cast_pow, Nat.cast_ofNat]
  rw [show single.low = 149 from rfl, div_eq_iff (by positivity), ← pow_add]

theorem val_inf_double : val double double.inf = 2 ^ 1024 := by
  rw [val_eq, mag_inf_double, Nat.cast_pow, Nat.cast_ofNat]
  rw [show double.low = 1074 from rfl, div_eq_iff (by positivity), ← pow_add]

/-- Every `float32` number is a `float64` number. -/
theorem single_val (n : Nat) (h : n < single.inf) : ∃ k, k < double.inf ∧ val double k = val single n := by
  obtain ⟨k, hk⟩ := val_wider single_double n
  refine ⟨k, ?_, hk⟩
  by_contra hc
  have h1 := (val_strictMono double).monotone (show double.inf ≤ k by omega)
  have h2 := val_strictMono single h
  rw [val_inf_single] at h2
  rw [val_inf_double, hk] at h1
  have : (2 : ℚ) ^ 128 < 2 ^ 1024 := pow_lt_pow_right₀ (by norm_num) (by decide)
  exact absurd (lt_of_le_of_lt h1 (lt_trans h2 this)) (lt_irrefl _)

theorem conv_of (x : Flt) : (conv f g x).Of g := by
  cases x with
  | nan => exact trivial
  | num neg n =>
    rw [conv]
    split
    · exact Nat.min_le_right _ _
    · exact Nat.le_refl _

theorem conv_widen {x : Flt} (h : x.Of single) : conv double single (conv single double x) = x := by
  cases x with
  | nan => rfl
  | num neg n =>
    have h : n ≤ single.inf := h
    by_cases hn : n < single.inf
    · obtain ⟨k, hk, hv⟩ := single_val n hn
      rw [conv_exact (by decide) neg hn hk hv, conv_exact (by decide) neg hk hn hv.symm]
    · rw [show n = single.inf by omega, conv_inf, conv_inf]

theorem fmt_cases (w : Nat) : fmt w = single ∨ fmt w = double := by
  unfold fmt
  by_cases h : w = 32
  · exact .inl (if_pos h)
  · exact .inr (if_neg h)

theorem fmt_prec (w : Nat) : 0 < (fmt w).prec := by
  rcases fmt_cases w with h | h <;> rw [h] <;> decide

theorem conv_double {w : Nat} {x : Flt} (h : x.Of (fmt w)) : conv double (fmt w) (conv (fmt w) double x) = x := by
  rcases fmt_cases w with e | e <;> rw [e] at h ⊢
  · exact conv_widen h
  · rw [conv_self (by decide) h, conv_self (by decide) h]

/-! ## Bits -/

theorem half_even_single : single.half / 2 < single.half := by decide

theorem ofBits_bits (hf : f = single ∨ f = double) {x : Flt} (h : x.Of f) : ofBits f (bits f x) = x := by
  have hs : 0 < signBit f := by rcases hf with rfl | rfl <;> decide
  have hi : f.inf < signBit f := by rcases hf with rfl | rfl <;> decide
  have hn : f.inf + f.half / 2 < signBit f ∧ f.inf < f.inf + f.half / 2 := by
    rcases hf with rfl | rfl <;> decide
  cases x with
  | nan =>
    unfold ofBits bits
    simp only
    rw [Nat.mod_eq_of_lt hn.1, if_pos hn.2]
  | num neg n =>
    have h : n ≤ f.inf := h
    have e1 : bits f (.num neg n) % signBit f = n := by
      cases neg with
      | false => simp only [bits]; simp; exact Nat.mod_eq_of_lt (by omega)
      | true => simp only [bits]; simp; exact Nat.mod_eq_of_lt (by omega)
    have e2 : bits f (.num neg n) / signBit f = if neg then 1 else 0 := by
      cases neg with
      | false => simp only [bits]; simp; omega
      | true =>
        simp only [bits]
        simp only [if_true]
        rw [Nat.add_div_left _ hs, Nat.div_eq_of_lt (by omega)]
    unfold ofBits
    simp only [e1, e2]
    rw [if_neg (by omega)]
    cases neg <;> rfl

/-! ## The shortest decimal -/

theorem candidate_rounds {n : Nat} {q : Int} {c : Nat} (h : candidate f n q = some c) : rndDecimal f c q = n := by
  unfold candidate at h
  simp only at h
  split at h
  · rename_i hc
    cases h
    split
    · exact hc.1
    · exact hc.2
  · split at h
    · rename_i hc; cases h; exact hc
    · split at h
      · rename_i hc; cases h; exact hc
      · cases h

theorem candidate_no {n : Nat} {q : Int} (h : candidate f n q = none) :
    rndDecimal f (mag f n * 10 ^ (-q).toNat / (2 ^ f.low * 10 ^ q.toNat)) q ≠ n ∧
    rndDecimal f (mag f n * 10 ^ (-q).toNat / (2 ^ f.low * 10 ^ q.toNat) + 1) q ≠ n := by
  unfold candidate at h
  simp only at h
  split at h
  · cases h
  · split at h
    · cases h
    · rename_i h2
      split at h
      · cases h
      · rename_i h3; exact ⟨h2, h3⟩

/-- The number of an ordinal as a fraction of the unit. -/
theorem val_units (f : Format) (n : Nat) (q : Int) :
    val f n = ((mag f n * 10 ^ (-q).toNat : Nat) : ℚ) / ((2 ^ f.low * 10 ^ q.toNat : Nat) : ℚ) * 10 ^ q := by
  rw [val_eq]
  have hL := low_pos f
  rcases Int.le_total 0 q with h | h
  · obtain ⟨k, rfl⟩ := Int.eq_ofNat_of_zero_le h
    have : (-(k : Int)).toNat = 0 := by omega
    rw [this]
    simp only [zpow_natCast, Int.toNat_natCast]
    push_cast
    field_simp
  · obtain ⟨k, hk⟩ := Int.eq_ofNat_of_zero_le (show 0 ≤ -q by omega)
    have h1 : q.toNat = 0 := by omega
    have h2 : q = -(k : Int) := by omega
    rw [h1, hk, h2, zpow_neg, zpow_natCast]
    simp only [Int.toNat_natCast]
    push_cast
    field_simp

/-- Without a candidate no multiple of the unit is read back. -/
theorem candidate_none (hp : 0 < f.prec) {n : Nat} {q : Int} (h : candidate f n q = none) (m : Nat) :
    rndDecimal f m q ≠ n := by
  intro hm
  have hD : 0 < 2 ^ f.low * 10 ^ q.toNat := Nat.mul_pos (Nat.pow_pos (by decide)) (Nat.pow_pos (by decide))
  have hq : (0 : ℚ) < 10 ^ q := zpow_pos (by norm_num) q
  have hdiv := Nat.div_add_mod (mag f n * 10 ^ (-q).toNat) (2 ^ f.low * 10 ^ q.toNat)
  have hmod := Nat.mod_lt (mag f n * 10 ^ (-q).toNat) hD
  have hv := val_units f n q
  replace h := candidate_no h
  generalize mag f n * 10 ^ (-q).toNat = N at *
  generalize 2 ^ f.low * 10 ^ q.toNat = D at *
  have hDq : (0 : ℚ) < D := by exact_mod_cast hD
  have lo : ((N / D : Nat) : ℚ) * 10 ^ q ≤ val f n := by
    rw [hv]
    refine mul_le_mul_of_nonneg_right ?_ (le_of_lt hq)
    rw [le_div_iff₀ hDq]
    exact_mod_cast (by rw [Nat.mul_comm]; omega : N / D * D ≤ N)
  have hi : val f n ≤ ((N / D + 1 : Nat) : ℚ) * 10 ^ q := by
    rw [hv]
    refine mul_le_mul_of_nonneg_right ?_ (le_of_lt hq)
    rw [div_le_iff₀ hDq]
    exact_mod_cast (by rw [Nat.mul_comm, Nat.mul_add]; omega : N ≤ (N / D + 1) * D)
  have r0 := rndDecimal_nearest f hp m q
  rw [hm] at r0
  by_cases hle : m ≤ N / D
  · have e : rndDecimal f (N / D) q = n := by
      have r1 := rndDecimal_nearest f hp (N / D) q
      have a1 : n ≤ rndDecimal f (N / D) q :=
        nearest_mono r0 r1 (mul_le_mul_of_nonneg_right (by exact_mod_cast hle) (le_of_lt hq))
      have a2 := nearest_mono r1 (nearest_val f n) lo
      omega
    exact h.1 e
  · have e : rndDecimal f (N / D + 1) q = n := by
      have r1 := rndDecimal_nearest f hp (N / D + 1) q
      have a1 : rndDecimal f (N / D + 1) q ≤ n :=
        nearest_mono r1 r0 (mul_le_mul_of_nonneg_right (by exact_mod_cast (show N / D + 1 ≤ m by omega)) (le_of_lt hq))
      have a2 := nearest_mono (nearest_val f n) r1 hi
      omega
    exact h.2 e

theorem search_spec (hp : 0 < f.prec) {n : Nat} (fuel : Nat) (q : Int) (hq : q - fuel = -(f.low : Int)) :
    rndDecimal f (search f n fuel q).1 (search f n fuel q).2 = n ∧
      (search f n fuel q).2 ≤ q ∧
      ∀ m e, rndDecimal f m e = n → e ≤ q → e ≤ (search f n fuel q).2 := by
  induction fuel generalizing q with
  | zero =>
    rw [search]
    refine ⟨?_, Int.le_refl _, fun m e _ h => h⟩
    have hq' : q = -(f.low : Int) := by omega
    subst hq'
    refine nearest_unique (rndDecimal_nearest f hp _ _) ?_
    have : ((mag f n * 5 ^ (- -(f.low : Int)).toNat : Nat) : ℚ) * 10 ^ (-(f.low : Int)) = val f n := by
      rw [val_eq, zpow_neg, zpow_natCast, Int.neg_neg, Int.toNat_natCast, Nat.cast_mul, Nat.cast_pow, Nat.cast_ofNat,
        show (10 : ℚ) = 2 * 5 by norm_num, mul_pow]
      have h5 : (5 : ℚ) ^ f.low ≠ 0 := pow_ne_zero _ (by norm_num)
      have h2 := ne_of_gt (low_pos f)
      field_simp
    simp only at this ⊢
    rw [this]
    exact nearest_val f n
  | succ fuel ih =>
    rw [search]
    cases hc : candidate f n q with
    | some c => exact ⟨candidate_rounds hc, Int.le_refl _, fun m e _ h => h⟩
    | none =>
      simp only
      obtain ⟨h1, h2, h3⟩ := ih (q - 1) (by omega)
      refine ⟨h1, by omega, fun m e hm he => ?_⟩
      rcases Int.lt_or_eq_of_le he with he | rfl
      · exact h3 m e hm (by omega)
      · exact absurd hm (candidate_none hp hc m)

theorem shortest_rounds (hp : 0 < f.prec) (n : Nat) : rndDecimal f (shortest f n).1 (shortest f n).2 = n :=
  (search_spec hp _ _ (by omega)).1

theorem shortest_le (hp : 0 < f.prec) (n : Nat) : (shortest f n).2 ≤ (Format.start f : Int) :=
  (search_spec hp (n := n) (Format.start f + f.low) (Format.start f : Int) (by omega)).2.1

/-! ## Texts of decimals -/

theorem fixedDigits_all (k n : Nat) : (fixedDigits k n).all isDigit = true := by
  induction k generalizing n with
  | zero => rfl
  | succ k ih =>
    rw [fixedDigits, List.all_append, ih, Bool.true_and, List.all_cons, List.all_nil, Bool.and_true]
    have := toNat_digit (b := 10) (by decide) (Nat.mod_lt n (show 0 < 10 by decide))
    simp only [isDigit, this, Bool.and_eq_true, decide_eq_true_eq]
    omega

theorem fixedDigits_length (k n : Nat) : (fixedDigits k n).length = k := by
  induction k generalizing n with
  | zero => rfl
  | succ k ih => simp [fixedDigits, ih]

theorem dval_fixed (acc k n : Nat) : dval acc (fixedDigits k n) = acc * 10 ^ k + n % 10 ^ k := by
  induction k generalizing n with
  | zero => simp [fixedDigits, dval, Nat.mod_one]
  | succ k ih =>
    rw [fixedDigits, dval_append, ih]
    have h10 := toNat_digit (b := 10) (by decide) (Nat.mod_lt n (show 0 < 10 by decide))
    simp only [dval, List.foldl_cons, List.foldl_nil, h10]
    have e : n % 10 ^ (k + 1) = n % 10 + 10 * (n / 10 % 10 ^ k) := by
      rw [Nat.pow_succ, Nat.mul_comm, Nat.mod_mul]
    rw [e, Nat.pow_succ]
    have : (acc * 10 ^ k + n / 10 % 10 ^ k) * 10 = acc * (10 ^ k * 10) + 10 * (n / 10 % 10 ^ k) := by ring
    rw [this]
    omega

theorem plain_written (c : Nat) (q : Int) : Written (plain c q) false ((c : ℚ) * 10 ^ q) 0 := by
  unfold plain
  simp only
  rcases Int.le_total 0 q with h | h
  · obtain ⟨k, rfl⟩ := Int.eq_ofNat_of_zero_le h
    have hk : (-(k : Int)).toNat = 0 := by omega
    rw [hk, if_pos rfl]
    refine ⟨[], natDec (c * 10 ^ (k : Int).toNat / 10 ^ 0), [], [], [], _, by simp, .inl ⟨rfl, rfl⟩, .inl ⟨rfl, rfl⟩,
      .inl ⟨rfl, rfl⟩, by rw [List.append_nil]; exact natDec_numeral _, ?_⟩
    simp
  · obtain ⟨k, hk⟩ := Int.eq_ofNat_of_zero_le (show 0 ≤ -q by omega)
    have h1 : q.toNat = 0 := by omega
    have h2 : q = -(k : Int) := by omega
    rw [hk, h1, Int.toNat_natCast, Nat.pow_zero, Nat.mul_one]
    by_cases hk0 : k = 0
    · subst hk0
      rw [if_pos rfl]
      refine ⟨[], natDec (c / 10 ^ 0), [], [], [], _, by simp, .inl ⟨rfl, rfl⟩, .inl ⟨rfl, rfl⟩,
        .inl ⟨rfl, rfl⟩, by rw [List.append_nil]; exact natDec_numeral _, ?_⟩
      rw [h2]
      simp
    · rw [if_neg hk0]
      refine ⟨[], natDec (c / 10 ^ k), 46 :: fixedDigits k (c % 10 ^ k), fixedDigits k (c % 10 ^ k), [], c, by simp,
        .inl ⟨rfl, rfl⟩, .inr rfl, .inl ⟨rfl, rfl⟩, ?_, ?_⟩
      · obtain ⟨n0, n1, n2⟩ := numeral_iff.1 (natDec_numeral (c / 10 ^ k))
        refine numeral_iff.2 ⟨by simp [n0], by rw [List.all_append, n1, fixedDigits_all]; rfl, ?_⟩
        rw [dval_append, n2, dval_fixed, Nat.mod_mod, Nat.mul_comm]
        exact Nat.div_add_mod c (10 ^ k)
      · rw [fixedDigits_length, h2]
        simp

end Verif.Float
