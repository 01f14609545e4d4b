import Verif.Lemmas.FloatPrint

/-! # Which texts are read as which numbers -/

namespace Verif.Float

open Verif Verif.Spec Verif.Spec.Float

variable {f g : Format}

theorem signedNumeral_iff {u : Bytes} {e : Int} : SignedNumeral u e ↔
    ∃ s ds neg n, u = s ++ ds ∧ Sgn s neg ∧ Numeral 10 ds n ∧ e = if neg then -(n : Int) else n := by
  constructor
  · intro h
    cases h with
    | plain h => exact ⟨[], u, false, _, rfl, .inl ⟨rfl, rfl⟩, h, rfl⟩
    | plus h => exact ⟨[43], _, false, _, rfl, .inr (.inl ⟨rfl, rfl⟩), h, rfl⟩
    | minus h => exact ⟨[45], _, true, _, rfl, .inr (.inr ⟨rfl, rfl⟩), h, rfl⟩
  · rintro ⟨s, ds, neg, n, rfl, hs, h, rfl⟩
    rcases hs with ⟨rfl, rfl⟩ | ⟨rfl, rfl⟩ | ⟨rfl, rfl⟩
    · exact .plain h
    · exact .plus h
    · exact .minus h

/-- Two exponents that are the same, or both very large, or both very small. -/
def Alike (e e' : Int) : Prop := e = e' ∨ (10000 ≤ e ∧ 10000 ≤ e') ∨ (e ≤ -10000 ∧ e' ≤ -10000)

theorem alike_cval (neg : Bool) (ds : Bytes) :
    Alike (if neg then -(dval 0 ds : Int) else dval 0 ds) (if neg then -(cval 0 ds : Int) else cval 0 ds) := by
  rcases cval_cases 0 ds (by decide) with h | ⟨h1, h2⟩
  · rw [h]; exact .inl rfl
  · cases neg with
    | false =>
      simp only [Bool.false_eq_true, if_false]
      exact .inr (.inl ⟨by omega, by omega⟩)
    | true =>
      simp only [if_true]
      exact .inr (.inr ⟨by omega, by omega⟩)

theorem expo_exponent {x : Bytes} {e : Int} (h : Expo x e) : ∃ e', exponent x = some e' ∧ Alike e e' := by
  rcases h with ⟨rfl, rfl⟩ | ⟨c, u, hc, rfl, hu⟩
  · exact ⟨0, rfl, .inl rfl⟩
  · obtain ⟨s, ds, neg, n, rfl, hs, hn, rfl⟩ := signedNumeral_iff.1 hu
    obtain ⟨h0, h1, rfl⟩ := numeral_iff.1 hn
    exact ⟨_, exponent_iff.2 (.inr ⟨c, s, ds, neg, hc, rfl, hs, h0, h1, rfl⟩), alike_cval neg ds⟩

theorem exponent_expo {x : Bytes} {e' : Int} (h : exponent x = some e') : ∃ e, Expo x e ∧ Alike e e' := by
  rcases exponent_iff.1 h with ⟨rfl, rfl⟩ | ⟨c, s, ds, neg, hc, rfl, hs, h0, h1, rfl⟩
  · exact ⟨0, .inl ⟨rfl, rfl⟩, .inl rfl⟩
  · exact ⟨_, .inr ⟨c, _, hc, rfl, signedNumeral_iff.2 ⟨s, ds, neg, _, rfl, hs, numeral_iff.2 ⟨h0, h1, rfl⟩, rfl⟩⟩,
      alike_cval neg ds⟩

/-- Formats whose numbers are far from the limits that the parser has. -/
structure Usual (f : Format) : Prop where
  prec : 0 < f.prec
  inf : val f f.inf ≤ 10 ^ 1024
  one : f.low ≤ 1074

theorem usual_single : Usual single where
  prec := by decide
  inf := by
    rw [val_inf_single]
    exact le_trans (pow_le_pow_left₀ (by norm_num) (by norm_num) 128) (pow_le_pow_right₀ (by norm_num) (by decide))
  one := by decide

theorem usual_double : Usual double where
  prec := by decide
  inf := by
    rw [val_inf_double]
    exact pow_le_pow_left₀ (by norm_num) (by norm_num) 1024
  one := by decide

theorem usual_fmt (w : Nat) : Usual (fmt w) := by
  rcases fmt_cases w with h | h <;> rw [h]
  · exact usual_single
  · exact usual_double

/-- Numbers beyond `10 ^ 1024` are too large. -/
theorem nearest_big (u : Usual f) {r : ℚ} {n : Nat} (h : Nearest f r n) (hr : 10 ^ 1024 ≤ r) : f.inf ≤ n :=
  nearest_mono (nearest_val f f.inf) h (le_trans u.inf hr)

/-- Numbers below `10 ^ -1075` are zero. -/
theorem nearest_tiny (u : Usual f) {r : ℚ} {n : Nat} (h : Nearest f r n) (h0 : 0 ≤ r) (hr : r * 10 ^ 1075 < 1) : n = 0 := by
  refine nearest_unique h (nearest_of_between (.inl ⟨rfl, h0⟩) ?_)
  rw [val_zero, val_eq, mag_small (by have := half_pos f; omega), zero_add, Nat.cast_one, lt_div_iff₀ (low_pos f)]
  have h1 : (2 : ℚ) ^ f.low ≤ 10 ^ 1074 := 
    le_trans (pow_le_pow_left₀ (by norm_num) (by norm_num) _) (pow_le_pow_right₀ (by norm_num) u.one)
  have h2 : 2 * r * 2 ^ f.low ≤ 2 * r * 10 ^ 1074 := mul_le_mul_of_nonneg_left h1 (by linarith)
  rw [pow_succ] at hr
  have h4 : (0 : ℚ) ≤ 10 ^ 1074 := pow_nonneg (by norm_num) _
  generalize (10 : ℚ) ^ 1074 = T at *
  have h3 : 0 ≤ r * T := mul_nonneg h0 h4
  linarith

/-- In texts of ordinary length, exponents that are cut off make no difference. -/
theorem alike_nearest (u : Usual f) {m k L : Nat} {e e' : Int} (h : Alike e e') (hm : m < 10 ^ L) (hL : L ≤ 5000) (hk : k ≤ L)
    {n n' : Nat} (hn : Nearest f ((m : ℚ) * 10 ^ (e - k)) n) (hn' : Nearest f ((m : ℚ) * 10 ^ (e' - k)) n') :
    n = n' ∨ (f.inf ≤ n ∧ f.inf ≤ n') := by
  by_cases h0 : m = 0
  · subst h0
    rw [Nat.cast_zero, zero_mul] at hn hn'
    exact .inl (nearest_unique hn hn')
  · have h1 : (1 : ℚ) ≤ m := by exact_mod_cast (show 1 ≤ m by omega)
    have big : ∀ {e : Int} {n : Nat}, 10000 ≤ e → Nearest f ((m : ℚ) * 10 ^ (e - k)) n → f.inf ≤ n := by
      intro e n he hn
      refine nearest_big u hn ?_
      have : (10 : ℚ) ^ (1024 : Int) ≤ 10 ^ (e - k) := zpow_le_zpow_right₀ (by norm_num) (by omega)
      have p : (0 : ℚ) ≤ 10 ^ (e - k) := zpow_nonneg (by norm_num) _
      calc (10 : ℚ) ^ 1024 = 10 ^ (1024 : Int) := (zpow_natCast _ _).symm
        _ ≤ 10 ^ (e - k) := this
        _ ≤ (m : ℚ) * 10 ^ (e - k) := le_mul_of_one_le_left p h1
    have tiny : ∀ {e : Int} {n : Nat}, e ≤ -10000 → Nearest f ((m : ℚ) * 10 ^ (e - k)) n → n = 0 := by
      intro e n he hn
      have p : (0 : ℚ) < 10 ^ (e - k) := zpow_pos (by norm_num) _
      refine nearest_tiny u hn (mul_nonneg (by linarith) (le_of_lt p)) ?_
      have hmq : (m : ℚ) < 10 ^ (L : Int) := by rw [zpow_natCast]; exact_mod_cast hm
      have hq : (0 : ℚ) < 10 ^ (1075 : Int) := zpow_pos (by norm_num) _
      calc (m : ℚ) * 10 ^ (e - k) * 10 ^ 1075 = (m : ℚ) * 10 ^ (e - k) * 10 ^ (1075 : Int) := by
              rw [show (10 : ℚ) ^ (1075 : Int) = 10 ^ 1075 from zpow_natCast _ _]
        _ < 10 ^ (L : Int) * 10 ^ (e - k) * 10 ^ (1075 : Int) :=
            mul_lt_mul_of_pos_right (mul_lt_mul_of_pos_right hmq p) hq
        _ = 10 ^ ((L : Int) + (e - k) + 1075) := by
            rw [← zpow_add₀ (by norm_num), ← zpow_add₀ (by norm_num)]
        _ ≤ 10 ^ (0 : Int) := zpow_le_zpow_right₀ (by norm_num) (by omega)
        _ = 1 := zpow_zero _
    rcases h with rfl | ⟨h1, h2⟩ | ⟨h1, h2⟩
    · exact .inl (nearest_unique hn hn')
    · exact .inr ⟨big h1 hn, big h2 hn'⟩
    · exact .inl (by rw [tiny h1 hn, tiny h2 hn'])

theorem parse_iff (odd : Bytes → Option Flt) (u : Usual f) {t : Bytes} (ht : Ordinary t) (hl : t.length ≤ 5000) (y : Flt) :
    parse odd f t = some y ↔ Reads f t y := by
  have bounds : ∀ {s a p b x : Bytes} {m : Nat}, t = s ++ (a ++ (p ++ x)) → Frac p b → Numeral 10 (a ++ b) m →
      m < 10 ^ (a ++ b).length ∧ (a ++ b).length ≤ 5000 ∧ b.length ≤ (a ++ b).length := by
    intro s a p b x m e hp hm
    obtain ⟨_, hall, rfl⟩ := numeral_iff.1 hm
    have h1 := dval_lt 0 (a ++ b) hall
    rw [Nat.zero_add, Nat.one_mul] at h1
    refine ⟨h1, ?_, by simp⟩
    subst e
    have : b.length ≤ p.length := by
      rcases hp with ⟨rfl, rfl⟩ | rfl
      · simp
      · simp
    simp only [List.length_append] at hl ⊢
    omega
  unfold parse
  rw [if_neg (not_not.2 ht)]
  cases hs : special f t with
  | some z =>
    simp only [Option.some.injEq]
    constructor
    · rintro rfl; exact .inl (special_iff.1 hs)
    · rintro (h | ⟨neg, r, e, n, ⟨s, a, p, b, x, m, ht, hs', hp, hx, hm, _⟩, _⟩)
      · rw [special_iff.2 h] at hs; cases hs; rfl
      · obtain ⟨e', he', _⟩ := expo_exponent hx
        rw [special_number (readDecimal_iff.2 ⟨s, a, p, b, x, e', ht, hs', hp, he', hm, rfl⟩)] at hs
        cases hs
  | none =>
    simp only
    constructor
    · intro h
      right
      cases hd : readDecimal t with
      | none => rw [hd] at h; cases h
      | some v =>
        obtain ⟨neg, m, e'⟩ := v
        rw [hd] at h
        simp only at h
        obtain ⟨s, a, p, b, x, e1, ht', hs', hp, hx, hm, rfl⟩ := readDecimal_iff.1 hd
        by_cases hn : rndDecimal f m (e1 - b.length) < f.inf
        · rw [if_pos hn] at h
          cases h
          obtain ⟨e, he, ha⟩ := exponent_expo hx
          obtain ⟨b1, b2, b3⟩ := bounds ht' hp hm
          have n1 := rndDecimal_nearest f u.prec m (e - b.length)
          have n2 := rndDecimal_nearest f u.prec m (e1 - b.length)
          have hsame := alike_nearest u ha b1 b2 b3 n1 n2
          rcases hsame with hsame | ⟨_, hbig⟩
          · exact ⟨neg, _, e, _, ⟨s, a, p, b, x, m, ht', hs', hp, he, hm, rfl⟩, n1, by omega, by rw [hsame]⟩
          · omega
        · rw [if_neg hn] at h; cases h
    · rintro (h | ⟨neg, r, e, n, ⟨s, a, p, b, x, m, ht', hs', hp, hx, hm, rfl⟩, hn, hlt, rfl⟩)
      · rw [special_iff.2 h] at hs; cases hs
      · obtain ⟨e1, he1, ha⟩ := expo_exponent hx
        rw [readDecimal_iff.2 ⟨s, a, p, b, x, e1, ht', hs', hp, he1, hm, rfl⟩]
        simp only
        obtain ⟨b1, b2, b3⟩ := bounds ht' hp hm
        rcases alike_nearest u ha b1 b2 b3 hn (rndDecimal_nearest f u.prec m (e1 - b.length)) with h | ⟨h, _⟩
        · rw [← h, if_pos hlt]
        · omega

/-- Texts without exponent, of any length. -/
theorem parse_plain (odd : Bytes → Option Flt) (hp : 0 < f.prec) {t : Bytes} (ht : Ordinary t) {neg : Bool} {r : ℚ}
    (hw : ∃ s a p b m, t = s ++ (a ++ p) ∧ Sgn s neg ∧ Frac p b ∧ Numeral 10 (a ++ b) m ∧ r = m * (10 : ℚ) ^ (-(b.length : Int)))
    {n : Nat} (hn : Nearest f r n) : parse odd f t = if n < f.inf then some (.num neg n) else none := by
  obtain ⟨s, a, p, b, m, ht', hs, hpb, hm, rfl⟩ := hw
  have hr : readDecimal t = some (neg, m, 0 - (b.length : Int)) :=
    readDecimal_iff.2 ⟨s, a, p, b, [], 0, by rw [List.append_nil]; exact ht', hs, hpb, rfl, hm, rfl⟩
  unfold parse
  rw [if_neg (not_not.2 ht), special_number hr, hr]
  simp only
  have : rndDecimal f m (0 - (b.length : Int)) = n := by
    refine nearest_unique (rndDecimal_nearest f hp m _) ?_
    rw [Int.zero_sub]
    exact hn
  rw [this]

theorem natDec_all (n : Nat) : (natDec n).all isDigit = true := (numeral_iff.1 (natDec_numeral n)).2.1

/-- The bytes of printed numbers. -/
theorem plain_bytes (c : Nat) (q : Int) : ∀ b ∈ plain c q, isDigit b = true ∨ b = 46 := by
  intro b hb
  unfold plain at hb
  simp only [List.mem_append] at hb
  rcases hb with hb | hb
  · exact .inl (List.all_eq_true.1 (natDec_all _) b hb)
  · split at hb
    · simp at hb
    · rcases List.mem_cons.1 hb with hb | hb
      · exact .inr hb
      · exact .inl (List.all_eq_true.1 (fixedDigits_all _ _) b hb)

theorem ordinary_digit {b : Byte} (h : isDigit b = true ∨ b = 46 ∨ b = 45) : b ≠ 95 ∧ b ≠ 120 ∧ b ≠ 88 := by
  refine ⟨?_, ?_, ?_⟩ <;> (rintro rfl; revert h; decide)

/-- Decimals that are printed with a sign are read as the nearest number. -/
theorem parse_signed (odd : Bytes → Option Flt) (hp : 0 < f.prec) (neg : Bool) (c : Nat) (q : Int) {n : Nat}
    (h : rndDecimal f c q = n) :
    parse odd f ((if neg then [45] else []) ++ plain c q) = if n < f.inf then some (.num neg n) else none := by
  have hs : Sgn (if neg then [45] else []) neg := by
    cases neg
    · exact .inl ⟨rfl, rfl⟩
    · exact .inr (.inr ⟨rfl, rfl⟩)
  refine parse_plain odd hp ?_ (r := (c : ℚ) * 10 ^ q) ?_ (h ▸ rndDecimal_nearest f hp c q)
  · intro b hb
    apply ordinary_digit
    rcases List.mem_append.1 hb with hb | hb
    · cases neg
      · simp at hb
      · simp at hb; exact .inr (.inr hb)
    · rcases plain_bytes c q b hb with h | h
      · exact .inl h
      · exact .inr (.inl h)
  · obtain ⟨s, a, p, b, x, m, ht, hs', hpb, hx, hm, hr⟩ := plain_written c q
    have hx' : x = [] := by
      rcases hx with ⟨h, _⟩ | ⟨d, u, hd, rfl, _⟩
      · exact h
      · exfalso
        have := plain_bytes c q d (by rw [ht]; simp)
        rcases hd with rfl | rfl <;> revert this <;> decide
    have hs'' : s = [] := by
      rcases hs' with ⟨h, _⟩ | ⟨rfl, _⟩ | ⟨_, h⟩
      · exact h
      · exfalso
        have := plain_bytes c q 43 (by rw [ht]; simp)
        revert this; decide
      · cases h
    subst hx' hs''
    refine ⟨_, a, p, b, m, by rw [ht]; simp, hs, hpb, hm, ?_⟩
    rw [hr, Int.zero_sub]

/-- What is printed is read back. -/
theorem parse_print (odd : Bytes → Option Flt) (u : Usual f) {x : Flt} (h : x.Of f) : parse odd f (print f x) = some x := by
  cases x with
  | nan =>
    rw [print]
    unfold parse
    rw [if_neg (by decide)]
    rw [show special f (letters "NaN") = some .nan from special_iff.2 (.inl ⟨by decide, rfl⟩)]
  | num neg n =>
    have h : n ≤ f.inf := h
    rw [print]
    by_cases hn : n < f.inf
    · rw [if_pos hn]
      by_cases h0 : n = 0
      · subst h0
        rw [if_pos rfl]
        have : rndDecimal f 0 0 = 0 := by
          refine nearest_unique (rndDecimal_nearest f u.prec 0 0) ?_
          have := nearest_val f 0
          rw [val_zero] at this
          simpa using this
        have := parse_signed odd u.prec neg 0 0 this
        rwa [if_pos hn] at this
      · rw [if_neg h0]
        have := parse_signed odd u.prec neg _ _ (shortest_rounds u.prec n)
        rwa [if_pos hn] at this
    · rw [if_neg hn]
      have e : n = f.inf := by omega
      subst e
      unfold parse
      cases neg with
      | false =>
        rw [if_neg (by decide)]
        rw [show special f ((if false = true then [45] else [43]) ++ letters "Inf") = some (.num false f.inf) from
          special_iff.2 (.inr ⟨[43], letters "Inf", false, rfl, .inr (.inl ⟨rfl, rfl⟩), .inl (by decide), rfl⟩)]
      | true =>
        rw [if_neg (by decide)]
        rw [show special f ((if true = true then [45] else [43]) ++ letters "Inf") = some (.num true f.inf) from
          special_iff.2 (.inr ⟨[45], letters "Inf", true, rfl, .inr (.inr ⟨rfl, rfl⟩), .inl (by decide), rfl⟩)]

theorem parse_of (odd : Bytes → Option Flt) (hodd : ∀ s y, odd s = some y → y.Of f) {t : Bytes} {y : Flt}
    (h : parse odd f t = some y) : y.Of f := by
  unfold parse at h
  split at h
  · exact hodd _ _ h
  · cases hs : special f t with
    | some z =>
      rw [hs] at h
      cases h
      rcases special_iff.1 hs with ⟨_, rfl⟩ | ⟨_, _, _, _, _, _, rfl⟩
      · exact trivial
      · exact Nat.le_refl _
    | none =>
      rw [hs] at h
      simp only at h
      cases hr : readDecimal t with
      | none => rw [hr] at h; cases h
      | some v =>
        rw [hr] at h
        simp only at h
        split at h
        · rename_i hlt
          cases h
          exact Nat.le_of_lt hlt
        · cases h

end Verif.Float
