import Verif.Model.Float
import Mathlib.Tactic.Linarith
import Mathlib.Tactic.Ring
import Mathlib.Tactic.Positivity
import Mathlib.Tactic.FieldSimp
import Mathlib.Tactic.NormNum

/-! # Rounding to the nearest floating point number -/

namespace Verif.Float

open Verif Verif.Spec.Float

variable {f : Format}

theorem half_pos (f : Format) : 0 < f.half := Nat.pow_pos (by decide)

theorem val_eq (f : Format) (n : Nat) : val f n = (mag f n : ℚ) / 2 ^ f.low := by
  have h0 := half_pos f
  unfold val mag
  by_cases h : n < f.half
  · rw [if_pos (Nat.div_eq_of_lt h), if_pos h, Nat.mod_eq_of_lt h]
  · rw [if_neg (by have := Nat.div_pos (Nat.le_of_not_lt h) h0; omega), if_neg h]
    push_cast
    rfl

/-- The significand `m` and the exponent `j` of an ordinal. -/
theorem mag_norm {m j : Nat} (h : f.half ≤ m) (h2 : m < 2 * f.half) : mag f (m + j * f.half) = m * 2 ^ j := by
  have h0 := half_pos f
  have e1 : (m + j * f.half) / f.half = j + 1 := by
    rw [Nat.add_mul_div_right _ _ h0, show m / f.half = 1 from by
      rw [Nat.div_eq_iff h0]; omega]
    omega
  have e2 : (m + j * f.half) % f.half = m - f.half := by
    rw [Nat.add_mul_mod_self_right, Nat.mod_eq_sub_mod h, Nat.mod_eq_of_lt (by omega)]
  have e3 : ¬ (m + j * f.half < f.half) := by
    have : 0 ≤ j * f.half := Nat.zero_le _
    omega
  unfold mag
  rw [if_neg e3, e1, e2]
  congr 1
  · omega

theorem mag_small {m : Nat} (h : m < 2 * f.half) : mag f m = m := by
  by_cases h1 : m < f.half
  · unfold mag; rw [if_pos h1]
  · have := mag_norm (f := f) (j := 0) (Nat.le_of_not_lt h1) h
    simpa using this

/-- Every ordinal has a significand and an exponent. -/
theorem mag_form (f : Format) (n : Nat) :
    ∃ m j, n = m + j * f.half ∧ m < 2 * f.half ∧ (f.half ≤ m ∨ j = 0) ∧ mag f n = m * 2 ^ j := by
  have h0 := half_pos f
  by_cases h : n < 2 * f.half
  · exact ⟨n, 0, by omega, h, .inr rfl, by rw [mag_small h]; omega⟩
  · have hd := Nat.div_add_mod n f.half
    have hm := Nat.mod_lt n h0
    have hq : 2 ≤ n / f.half := (Nat.le_div_iff_mul_le h0).2 (by omega)
    have e : n = (f.half + n % f.half) + (n / f.half - 1) * f.half := by
      obtain ⟨k, hk⟩ : ∃ k, n / f.half = k + 1 := ⟨n / f.half - 1, by omega⟩
      rw [hk] at hd ⊢
      rw [Nat.add_sub_cancel]
      rw [Nat.mul_add, Nat.mul_one, Nat.mul_comm f.half k] at hd
      omega
    refine ⟨f.half + n % f.half, n / f.half - 1, e, by omega, .inl (by omega), ?_⟩
    unfold mag
    rw [if_neg (by omega)]

theorem mag_succ {m j : Nat} (hm : m < 2 * f.half) (hj : f.half ≤ m ∨ j = 0) :
    mag f (m + j * f.half + 1) = m * 2 ^ j + 2 ^ j := by
  have h0 := half_pos f
  by_cases h1 : m + 1 < 2 * f.half
  · rcases hj with hj | rfl
    · rw [show m + j * f.half + 1 = (m + 1) + j * f.half from by omega, mag_norm (by omega) h1]
      ring
    · rw [show m + 0 * f.half + 1 = m + 1 from by omega, mag_small h1]
      omega
  · have e : m + 1 = 2 * f.half := by omega
    rw [show m + j * f.half + 1 = f.half + (j + 1) * f.half from by rw [Nat.add_mul]; omega,
      mag_norm (Nat.le_refl _) (by omega)]
    rw [show m * 2 ^ j + 2 ^ j = (m + 1) * 2 ^ j from by ring, e]
    ring

theorem mag_lt_succ (f : Format) (n : Nat) : mag f n < mag f (n + 1) := by
  obtain ⟨m, j, rfl, h1, h2, h3⟩ := mag_form f n
  rw [h3, mag_succ h1 h2]
  have := Nat.pow_pos (n := j) (show 0 < 2 by decide)
  omega

theorem mag_strictMono (f : Format) : StrictMono (mag f) := strictMono_nat_of_lt_succ (mag_lt_succ f)

theorem low_pos (f : Format) : (0 : ℚ) < 2 ^ f.low := by positivity

theorem val_strictMono (f : Format) : StrictMono (val f) := by
  intro a b h
  rw [val_eq, val_eq]
  exact div_lt_div_of_pos_right (by exact_mod_cast mag_strictMono f h) (low_pos f)

theorem val_zero (f : Format) : val f 0 = 0 := by
  rw [val_eq, mag_small (by have := half_pos f; omega)]; simp

theorem val_nonneg (f : Format) (n : Nat) : 0 ≤ val f n := by
  rw [val_eq]; positivity

/-! ## Nearest -/

theorem nearest_unique {r : ℚ} {a b : Nat} (ha : Nearest f r a) (hb : Nearest f r b) : a = b := by
  have key : ∀ {a b : Nat}, Nearest f r a → Nearest f r b → ¬ a < b := by
    intro a b ha hb hlt
    have m1 := val_strictMono f hlt
    have h1 := ha b (by omega)
    have h2 := hb a (by omega)
    have he : |r - val f a| = |r - val f b| := by
      rcases h1 with h1 | h1 <;> rcases h2 with h2 | h2 <;> linarith [h1, h2]
    have p1 : a % 2 = 0 := by
      rcases h1 with h1 | h1
      · exact absurd h1 (by rw [he]; exact lt_irrefl _)
      · exact h1.2
    have p2 : b % 2 = 0 := by
      rcases h2 with h2 | h2
      · exact absurd h2 (by rw [he]; exact lt_irrefl _)
      · exact h2.2
    have m2 := val_strictMono f (show a < a + 1 by omega)
    have m3 := val_strictMono f (show a + 1 < b by omega)
    have h3 := ha (a + 1) (by omega)
    have h3' : |r - val f a| ≤ |r - val f (a + 1)| := by
      rcases h3 with h3 | h3
      · exact le_of_lt h3
      · exact le_of_eq h3.1
    rcases abs_cases (r - val f a) with ⟨e1, _⟩ | ⟨e1, _⟩ <;> rcases abs_cases (r - val f b) with ⟨e2, _⟩ | ⟨e2, _⟩ <;>
      rcases abs_cases (r - val f (a + 1)) with ⟨e3, _⟩ | ⟨e3, _⟩ <;> linarith
  rcases Nat.lt_trichotomy a b with h | h | h
  · exact absurd h (key ha hb)
  · exact h
  · exact absurd h (key hb ha)

/-- Strictly nearer than the neighbours. -/
theorem nearest_of_between {r : ℚ} {n : Nat} (hlo : n = 0 ∧ 0 ≤ r ∨ ∃ k, n = k + 1 ∧ val f k + val f n < 2 * r)
    (hhi : 2 * r < val f n + val f (n + 1)) : Nearest f r n := by
  intro k hk
  left
  have hm := (val_strictMono f).monotone
  rcases Nat.lt_or_gt_of_ne hk with h | h
  · rcases hlo with ⟨rfl, _⟩ | ⟨j, rfl, hj⟩
    · omega
    · have h1 := hm (show k ≤ j by omega)
      have h2 := val_strictMono f (show j < j + 1 by omega)
      rcases abs_cases (r - val f (j + 1)) with ⟨e1, _⟩ | ⟨e1, _⟩ <;>
        rcases abs_cases (r - val f k) with ⟨e2, _⟩ | ⟨e2, _⟩ <;> linarith
  · have h1 := hm (show n + 1 ≤ k by omega)
    have h2 := val_strictMono f (show n < n + 1 by omega)
    have h3 := val_nonneg f n
    rcases abs_cases (r - val f n) with ⟨e1, _⟩ | ⟨e1, _⟩ <;>
      rcases abs_cases (r - val f k) with ⟨e2, _⟩ | ⟨e2, _⟩ <;> linarith

/-- Between two neighbours, the nearer one is nearest, and in the middle the even one. -/
theorem nearest_step {r : ℚ} {n : Nat} (h1 : val f n ≤ r) (h2 : r < val f (n + 1)) :
    (2 * r < val f n + val f (n + 1) → Nearest f r n) ∧
    (val f n + val f (n + 1) < 2 * r → Nearest f r (n + 1)) ∧
    (2 * r = val f n + val f (n + 1) → (n % 2 = 0 → Nearest f r n) ∧ (n % 2 = 1 → Nearest f r (n + 1))) := by
  have hm := (val_strictMono f).monotone
  have m0 := val_strictMono f (show n < n + 1 by omega)
  have m1 := val_strictMono f (show n + 1 < n + 2 by omega)
  have far : ∀ k, k ≠ n → k ≠ n + 1 → val f k < val f n ∧ k < n ∨ val f (n + 2) ≤ val f k := by
    intro k h h'
    rcases Nat.lt_or_gt_of_ne h with h | h
    · exact .inl ⟨val_strictMono f h, h⟩
    · exact .inr (hm (show n + 2 ≤ k by omega))
  refine ⟨fun h => ?_, fun h => ?_, fun h => ⟨fun hp => ?_, fun hp => ?_⟩⟩
  · refine nearest_of_between ?_ h
    cases n with
    | zero => exact .inl ⟨rfl, by rw [val_zero] at h1; exact h1⟩
    | succ k =>
      have := val_strictMono f (show k < k + 1 by omega)
      exact .inr ⟨k, rfl, by linarith⟩
  · exact nearest_of_between (.inr ⟨n, rfl, h⟩) (by linarith)
  · intro k hk
    by_cases hk1 : k = n + 1
    · subst hk1
      right
      refine ⟨?_, hp⟩
      rw [abs_of_nonneg (by linarith), abs_of_nonpos (by linarith)]
      linarith
    · left
      rcases far k hk hk1 with ⟨h', _⟩ | h'
      · rw [abs_of_nonneg (by linarith), abs_of_nonneg (by linarith)]; linarith
      · rw [abs_of_nonneg (by linarith), abs_of_nonpos (by linarith)]; linarith
  · intro k hk
    by_cases hk1 : k = n
    · subst hk1
      right
      refine ⟨?_, by omega⟩
      rw [abs_of_nonpos (by linarith), abs_of_nonneg (by linarith)]
      linarith
    · left
      rcases far k hk1 hk with ⟨h', _⟩ | h'
      · rw [abs_of_nonpos (by linarith), abs_of_nonneg (by linarith)]; linarith
      · rw [abs_of_nonpos (by linarith), abs_of_nonpos (by linarith)]; linarith

theorem nearest_val (f : Format) (n : Nat) : Nearest f (val f n) n := by
  have := val_strictMono f (show n < n + 1 by omega)
  exact (nearest_step (le_refl _) this).1 (by linarith)

/-! ## `rnd` computes the nearest ordinal -/

/-- The significand and the exponent that `rnd` finds. -/
theorem rnd_parts (f : Format) (hp : 0 < f.prec) (N D : Nat) :
    let t := N * 2 ^ f.low
    let e := (t / D).log2 + 1 - f.prec
    t / (D * 2 ^ e) < 2 * f.half ∧ (f.half ≤ t / (D * 2 ^ e) ∨ e = 0) := by
  intro t e
  have hh : 2 * f.half = 2 ^ f.prec := by
    unfold Format.half
    obtain ⟨p, h⟩ : ∃ p, f.prec = p + 1 := ⟨f.prec - 1, by omega⟩
    rw [h, Nat.add_sub_cancel, Nat.pow_succ]; omega
  have hq : t / (D * 2 ^ e) = (t / D) / 2 ^ e := by rw [Nat.div_div_eq_div_mul]
  have hlt : t / D < 2 ^ ((t / D).log2 + 1) := Nat.lt_log2_self
  constructor
  · rw [hq, hh, Nat.div_lt_iff_lt_mul (Nat.pow_pos (by decide)), ← Nat.pow_add]
    exact Nat.lt_of_lt_of_le hlt (Nat.pow_le_pow_right (by decide) (by omega))
  · by_cases he : e = 0
    · exact .inr he
    · left
      have hne : t / D ≠ 0 := by
        intro h0
        have : e = 0 := by show (t / D).log2 + 1 - f.prec = 0; rw [h0, Nat.log2_zero]; omega
        exact he this
      rw [hq, Nat.le_div_iff_mul_le (Nat.pow_pos (by decide))]
      unfold Format.half
      rw [← Nat.pow_add]
      exact Nat.le_trans (Nat.pow_le_pow_right (by decide) (by omega)) (Nat.log2_self_le hne)

theorem rnd_nearest (f : Format) (hp : 0 < f.prec) (N D : Nat) (hD : 0 < D) :
    Nearest f ((N : ℚ) / D) (rnd f N D) := by
  obtain ⟨h1, h2⟩ := rnd_parts f hp N D
  unfold rnd
  simp only at h1 h2 ⊢
  generalize hE : (N * 2 ^ f.low / D).log2 + 1 - f.prec = e at h1 h2 ⊢
  generalize hM : N * 2 ^ f.low / (D * 2 ^ e) = m at h1 h2 ⊢
  generalize hR : N * 2 ^ f.low % (D * 2 ^ e) = r at h1 h2 ⊢
  have hu : 0 < D * 2 ^ e := Nat.mul_pos hD (Nat.pow_pos (by decide))
  have hdiv := Nat.div_add_mod (N * 2 ^ f.low) (D * 2 ^ e)
  rw [hM, hR] at hdiv
  have hr : r < D * 2 ^ e := by rw [← hR]; exact Nat.mod_lt _ hu
  have hm0 : mag f (m + e * f.half) = m * 2 ^ e := by
    rcases h2 with h2 | h2
    · exact mag_norm h2 h1
    · subst h2; rw [Nat.zero_mul, Nat.add_zero, mag_small h1]; omega
  have hm1 := mag_succ (f := f) h1 h2
  have hDq : (0 : ℚ) < D := by exact_mod_cast hD
  have hL := low_pos f
  have hPe : (0 : ℚ) < 2 ^ e := by positivity
  have hq : (N : ℚ) * 2 ^ f.low = D * 2 ^ e * m + r := by exact_mod_cast hdiv.symm
  have hv : (N : ℚ) / D = (m * 2 ^ e + r / D) / 2 ^ f.low := by
    rw [div_eq_div_iff (ne_of_gt hDq) (ne_of_gt hL), hq]
    field_simp
  have v0 : val f (m + e * f.half) = (m * 2 ^ e : ℚ) / 2 ^ f.low := by
    rw [val_eq, hm0]; push_cast; rfl
  have v1 : val f (m + e * f.half + 1) = (m * 2 ^ e + 2 ^ e : ℚ) / 2 ^ f.low := by
    rw [val_eq, hm1]; push_cast; rfl
  have hrq : (r : ℚ) / D < 2 ^ e := by
    rw [div_lt_iff₀ hDq, mul_comm]; exact_mod_cast hr
  have hr0 : (0 : ℚ) ≤ (r : ℚ) / D := by positivity
  have a1 : val f (m + e * f.half) ≤ (N : ℚ) / D := by
    rw [v0, hv]; exact div_le_div_of_nonneg_right (by linarith) (le_of_lt hL)
  have a2 : (N : ℚ) / D < val f (m + e * f.half + 1) := by
    rw [v1, hv]; exact div_lt_div_of_pos_right (by linarith) hL
  obtain ⟨s1, s2, s3⟩ := nearest_step a1 a2
  have sum : val f (m + e * f.half) + val f (m + e * f.half + 1) = (2 * (m * 2 ^ e) + 2 ^ e : ℚ) / 2 ^ f.low := by
    rw [v0, v1, ← add_div]; ring
  have dbl : 2 * ((N : ℚ) / D) = (2 * (m * 2 ^ e) + 2 * (r / D) : ℚ) / 2 ^ f.low := by rw [hv]; ring
  rw [sum, dbl] at s1 s2 s3
  by_cases c1 : 2 * r < D * 2 ^ e
  · rw [if_pos c1]
    refine s1 (div_lt_div_of_pos_right ?_ hL)
    have : 2 * ((r : ℚ) / D) < 2 ^ e := by
      rw [← mul_div_assoc, div_lt_iff₀ hDq, mul_comm ((2 : ℚ) ^ e)]; exact_mod_cast c1
    linarith
  · rw [if_neg c1]
    by_cases c2 : D * 2 ^ e < 2 * r
    · rw [if_pos c2]
      refine s2 (div_lt_div_of_pos_right ?_ hL)
      have : 2 ^ e < 2 * ((r : ℚ) / D) := by
        rw [← mul_div_assoc, lt_div_iff₀ hDq, mul_comm ((2 : ℚ) ^ e)]; exact_mod_cast c2
      linarith
    · rw [if_neg c2]
      have c3 : 2 * r = D * 2 ^ e := by omega
      have e3 : 2 * ((r : ℚ) / D) = 2 ^ e := by
        rw [← mul_div_assoc, div_eq_iff (ne_of_gt hDq), mul_comm ((2 : ℚ) ^ e)]; exact_mod_cast c3
      obtain ⟨t1, t2⟩ := s3 (by rw [e3])
      by_cases c4 : (m + e * f.half) % 2 = 0
      · rw [if_pos c4]; exact t1 c4
      · rw [if_neg c4]; exact t2 (by omega)

/-- The nearest ordinal is the one `rnd` computes. -/
theorem nearest_iff (hp : 0 < f.prec) {N D : Nat} (hD : 0 < D) {n : Nat} :
    Nearest f ((N : ℚ) / D) n ↔ rnd f N D = n :=
  ⟨fun h => nearest_unique (rnd_nearest f hp N D hD) h, fun h => h ▸ rnd_nearest f hp N D hD⟩

/-- Rounding is monotone. -/
theorem nearest_mono {r s : ℚ} {a b : Nat} (ha : Nearest f r a) (hb : Nearest f s b) (h : r ≤ s) : a ≤ b := by
  by_contra hlt
  have hlt : b < a := by omega
  have m1 := val_strictMono f hlt
  have h1 := ha b (by omega)
  have h2 := hb a (by omega)
  have h1' : |r - val f a| ≤ |r - val f b| := by rcases h1 with h | h <;> linarith [h]
  have h2' : |s - val f b| ≤ |s - val f a| := by rcases h2 with h | h <;> linarith [h]
  have q1 : val f b + val f a ≤ 2 * r := by
    rcases abs_cases (r - val f a) with ⟨e1, _⟩ | ⟨e1, _⟩ <;>
      rcases abs_cases (r - val f b) with ⟨e2, _⟩ | ⟨e2, _⟩ <;> linarith
  have q2 : 2 * s ≤ val f b + val f a := by
    rcases abs_cases (s - val f a) with ⟨e1, _⟩ | ⟨e1, _⟩ <;>
      rcases abs_cases (s - val f b) with ⟨e2, _⟩ | ⟨e2, _⟩ <;> linarith
  have : r = s := by linarith
  subst this
  exact absurd (nearest_unique ha hb) (by omega)

/-! ## Numbers of one format in another -/

/-- Multiples of powers of two with a short significand are numbers. -/
theorem mag_surj (hp : 0 < f.prec) (m j : Nat) (h : m < 2 ^ f.prec) : ∃ k, mag f k = m * 2 ^ j := by
  have hh : 2 ^ f.prec = 2 * f.half := by
    unfold Format.half
    obtain ⟨p, h⟩ : ∃ p, f.prec = p + 1 := ⟨f.prec - 1, by omega⟩
    rw [h, Nat.add_sub_cancel, Nat.pow_succ]; omega
  rw [hh] at h
  induction j generalizing m with
  | zero => exact ⟨m, by rw [mag_small h]; omega⟩
  | succ j ih =>
    by_cases h1 : f.half ≤ m
    · exact ⟨_, mag_norm h1 h⟩
    · obtain ⟨k, hk⟩ := ih (2 * m) (by omega)
      exact ⟨k, by rw [hk]; ring⟩

theorem mag_short (hp : 0 < f.prec) (k : Nat) : ∃ m j, m < 2 ^ f.prec ∧ mag f k = m * 2 ^ j := by
  obtain ⟨m, j, _, h, _, e⟩ := mag_form f k
  refine ⟨m, j, ?_, e⟩
  unfold Format.half at h
  obtain ⟨p, h'⟩ : ∃ p, f.prec = p + 1 := ⟨f.prec - 1, by omega⟩
  rw [h', Nat.add_sub_cancel] at h
  rw [h', Nat.pow_succ]; omega

/-- Formats with longer significands and at least one more small exponent. -/
structure Wider (f g : Format) : Prop where
  pos : 0 < f.prec
  prec : f.prec < g.prec
  low : f.low < g.low

theorem single_double : Wider single double := by constructor <;> decide

theorem val_wider {g : Format} (w : Wider f g) (n : Nat) : ∃ k, val g k = val f n := by
  obtain ⟨m, j, h, e⟩ := mag_short w.pos n
  obtain ⟨k, hk⟩ := mag_surj (f := g) (Nat.lt_trans w.pos w.prec) m (j + (g.low - f.low))
    (Nat.lt_trans h (Nat.pow_lt_pow_right (by decide) w.prec))
  refine ⟨k, ?_⟩
  rw [val_eq, val_eq, hk, e]
  have : g.low = f.low + (g.low - f.low) := by have := w.low; omega
  rw [div_eq_div_iff (ne_of_gt (low_pos g)) (ne_of_gt (low_pos f))]
  push_cast
  rw [pow_add, mul_assoc, mul_assoc, mul_assoc, ← pow_add]
  congr 2
  congr 1
  omega

theorem mid_wider {g : Format} (w : Wider f g) (n : Nat) : ∃ k, 2 * val g k = val f n + val f (n + 1) := by
  obtain ⟨m, j, rfl, h1, h2, e⟩ := mag_form f n
  have hh : 2 * f.half = 2 ^ f.prec := by
    unfold Format.half
    obtain ⟨p, h⟩ : ∃ p, f.prec = p + 1 := ⟨f.prec - 1, by have := w.pos; omega⟩
    rw [h, Nat.add_sub_cancel, Nat.pow_succ]; omega
  have hlt : 2 * m + 1 < 2 ^ g.prec := by
    have : 2 ^ (f.prec + 1) ≤ 2 ^ g.prec := Nat.pow_le_pow_right (by decide) w.prec
    rw [Nat.pow_succ] at this
    omega
  obtain ⟨k, hk⟩ := mag_surj (f := g) (Nat.lt_trans w.pos w.prec) (2 * m + 1) (j + (g.low - f.low - 1)) hlt
  refine ⟨k, ?_⟩
  rw [val_eq, val_eq, val_eq, hk, e, mag_succ h1 h2, ← add_div, ← mul_div_assoc,
    div_eq_div_iff (ne_of_gt (low_pos g)) (ne_of_gt (low_pos f))]
  have e2 : (2 : ℚ) ^ g.low = 2 * 2 ^ (g.low - f.low - 1) * 2 ^ f.low := by
    rw [mul_comm (2 : ℚ) (2 ^ _), ← pow_succ, ← pow_add]
    congr 1
    have := w.low
    omega
  rw [e2]
  push_cast
  rw [pow_add]
  ring

/-- Rounding to the wider format first does no harm if it gives a number of the narrower one. -/
theorem nearest_narrow {g : Format} (w : Wider f g) {r : ℚ} (h0 : 0 ≤ r) {k n : Nat} (hk : Nearest g r k)
    (he : val g k = val f n) : Nearest f r n := by
  have hi : 2 * r < val f n + val f (n + 1) := by
    by_contra hc
    obtain ⟨j, hj⟩ := mid_wider w n
    have m := val_strictMono f (show n < n + 1 by omega)
    have hne : j ≠ k := by rintro rfl; linarith
    have := hk j hne
    have h' : |r - val g k| ≤ |r - val g j| := by rcases this with h | h <;> linarith [h]
    rw [abs_of_nonneg (by linarith), abs_of_nonneg (by linarith)] at h'
    linarith
  refine nearest_of_between ?_ hi
  cases n with
  | zero => exact .inl ⟨rfl, h0⟩
  | succ n =>
    refine .inr ⟨n, rfl, ?_⟩
    by_contra hc
    obtain ⟨j, hj⟩ := mid_wider w n
    have m := val_strictMono f (show n < n + 1 by omega)
    have hne : j ≠ k := by rintro rfl; linarith
    have := hk j hne
    have h' : |r - val g k| ≤ |r - val g j| := by rcases this with h | h <;> linarith [h]
    rw [abs_of_nonpos (by linarith), abs_of_nonpos (by linarith)] at h'
    linarith

end Verif.Float
