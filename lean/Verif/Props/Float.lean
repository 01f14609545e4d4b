import Verif.Lemmas.FloatRead
import Verif.Props.JsonSlices

/-!
# C94: floating point fields and lists hold the numbers that were stored
-/

namespace Verif.Props

open Verif Verif.Spec Verif.Spec.Float Verif.Float Verif.Scan

variable (odd : Nat → Bytes → Option Flt) (lib : Std)

/-! ## Numbers -/

/-- C94. What is written for a field of type `float32` or `float64` is read back, whatever the field held: every number,
negative zero, infinities and not-a-number. -/
theorem C94_number (z w : Nat) (strict : Bool) (d : Dest Nat) (x : Flt) (h : x.Of (fmt w)) :
    scanFloat (floats odd lib) z w strict d (write w x) = .ok (store d (bits (fmt w) x)) := by
  simp only [write, scanFloat, floats]
  rw [ofBits_bits (.inr rfl) (conv_of x), conv_double h]

/-- 1/10 as a `float32`: what is written is not 1/10 as a `float64`, and it is read back all the same. -/
example : (Flt.num false 1036831949).Of (fmt 32) ∧
    write 32 (.num false 1036831949) = .float 4591870180174331904 ∧
    bits double (.num false 4591870180066957722) = 4591870180066957722 ∧ (4591870180174331904 : Nat) ≠ 4591870180066957722 := by
  decide +kernel

/-- Different values are different in memory. -/
theorem C94_bits (w : Nat) (x y : Flt) (hx : x.Of (fmt w)) (hy : y.Of (fmt w)) (h : bits (fmt w) x = bits (fmt w) y) : x = y := by
  rw [← ofBits_bits (fmt_cases w) hx, h, ofBits_bits (fmt_cases w) hy]

/-! ## Texts -/

/-- C94 for texts, exactly: a text of at most 5000 bytes is read as the value it stands for, and all others are errors. -/
theorem C94_text (z w : Nat) (d : Dest Nat) (t : Bytes) (ht : Ordinary t) (hl : t.length ≤ 5000)
    (src : Src) (hsrc : src = .bytes t ∨ src = .str t) :
    (∀ y, Reads (fmt w) t y → scanFloat (floats odd lib) z w false d src = .ok (store d (bits (fmt w) y))) ∧
    ((∀ y, ¬ Reads (fmt w) t y) → scanFloat (floats odd lib) z w false d src = .err) := by
  have key : (∀ y, Reads (fmt w) t y → scanFloat (floats odd lib) z w false d (.bytes t) = .ok (store d (bits (fmt w) y))) ∧
      ((∀ y, ¬ Reads (fmt w) t y) → scanFloat (floats odd lib) z w false d (.bytes t) = .err) := by
    have hP : ∀ {y : Flt}, Reads (fmt w) t y → y.Of (fmt w) := by
      rintro y ((⟨_, rfl⟩ | ⟨_, _, _, _, _, _, rfl⟩) | ⟨_, _, _, _, _, _, hn, rfl⟩)
      · exact trivial
      · exact Nat.le_refl _
      · exact Nat.le_of_lt hn
    simp only [scanFloat, floats, Bool.false_eq_true, if_false]
    constructor
    · intro y hy
      rw [(parse_iff (odd w) (usual_fmt w) ht hl y).2 hy]
      simp only [Option.map_some, storeOpt]
      rw [ofBits_bits (.inr rfl) (conv_of y), conv_double (hP hy)]
    · intro hy
      cases hp : parse (odd w) (fmt w) t with
      | none => rfl
      | some y => exact absurd ((parse_iff (odd w) (usual_fmt w) ht hl y).1 hp) (hy y)
  rcases hsrc with rfl | rfl
  · exact key
  · exact key

/-- `-1.5e1`, `+Infinity` and texts that are no numbers. -/
example : Ordinary (letters "-1.5e1") ∧ parse (fun _ => none) double (letters "-1.5e1") = some (.num true 4624633867356078080) ∧
    parse (fun _ => none) double (letters "+Infinity") = some (.num false double.inf) ∧
    parse (fun _ => none) double (letters "1e400") = none ∧ parse (fun _ => none) double (letters "1 ") = none := by
  decide +kernel

/-- A text stands for one value. -/
theorem C94_text_unique (w : Nat) (t : Bytes) (ht : Ordinary t) (hl : t.length ≤ 5000) (y y' : Flt)
    (h : Reads (fmt w) t y) (h' : Reads (fmt w) t y') : y = y' := by
  have e := (parse_iff (fun _ => none) (usual_fmt w) ht hl y).2 h
  rw [(parse_iff (fun _ => none) (usual_fmt w) ht hl y').2 h'] at e
  exact (Option.some.inj e).symm

/-- C94: texts that a database or driver prints for the `float64` that is written for a `float32` field are read as the
field, although they stand for it only as a `float64`. -/
theorem C94_wide_text (t : Bytes) (x : Flt) (hx : x.Of single) (h : Reads double t (conv single double x)) :
    Reads single t x := by
  cases x with
  | nan =>
    rcases h with (⟨h, _⟩ | ⟨_, _, _, _, _, _, h⟩) | ⟨_, _, _, _, _, _, _, h⟩
    · exact .inl (.inl ⟨h, rfl⟩)
    · cases h
    · cases h
  | num neg n =>
    have hx : n ≤ single.inf := hx
    by_cases hn : n < single.inf
    · obtain ⟨k, hk, hv⟩ := single_val n hn
      rw [conv_exact (by decide) neg hn hk hv] at h
      rcases h with (⟨_, h⟩ | ⟨_, _, _, _, _, _, h⟩) | ⟨neg', r, e, k', hw, hr, _, h⟩
      · cases h
      · cases h; omega
      · cases h
        refine .inr ⟨neg, r, e, n, hw, nearest_narrow single_double ?_ hr hv, hn, rfl⟩
        obtain ⟨_, _, _, _, _, m, _, _, _, _, _, rfl⟩ := hw
        exact mul_nonneg (Nat.cast_nonneg m) (zpow_nonneg (by norm_num) _)
    · rw [show n = single.inf by omega, conv_inf] at h
      rw [show n = single.inf by omega]
      rcases h with (⟨_, h⟩ | ⟨s, u, neg', ht, hs, hu, h⟩) | ⟨neg', r, e, k', hw, hr, hlt, h⟩
      · cases h
      · cases h
        exact .inl (.inr ⟨s, u, neg, ht, hs, hu, rfl⟩)
      · cases h; omega

/-- A text for 1/10 as a `float32`, widened. -/
example : Reads double (letters "0.10000000149011612") (conv single double (.num false 1036831949)) :=
  (parse_iff (fun _ => none) (usual_fmt 64) (by decide +kernel) (by decide +kernel) _).1 (by decide +kernel)

private theorem printed_reads (f : Format) (u : Usual f) (x : Flt) (hx : x.Of f) : Reads f (print f x) x := by
  cases x with
  | nan => exact .inl (.inl ⟨(by decide : (letters "NaN").map fold = letters "nan"), rfl⟩)
  | num neg n =>
    have hx : n ≤ f.inf := hx
    rw [print]
    by_cases hn : n < f.inf
    · rw [if_pos hn]
      have hs : Sgn (if neg then [45] else []) neg := by
        cases neg
        · exact .inl ⟨rfl, rfl⟩
        · exact .inr (.inr ⟨rfl, rfl⟩)
      have main : ∀ (c : Nat) (q : Int), rndDecimal f c q = n →
          Reads f ((if neg then [45] else []) ++ plain c q) (.num neg n) := by
        intro c q hc
        obtain ⟨s, a, p, b, x, m, ht, hs', hp, hx, hm, hr⟩ := plain_written c q
        refine .inr ⟨neg, (c : ℚ) * 10 ^ q, 0, n, ?_, hc ▸ rndDecimal_nearest f u.prec c q, hn, rfl⟩
        have hs0 : s = [] := by
          rcases hs' with ⟨h, _⟩ | ⟨rfl, _⟩ | ⟨_, h⟩
          · exact h
          · exfalso
            have := plain_bytes c q 43 (by rw [ht]; simp)
            revert this; decide
          · cases h
        subst hs0
        exact ⟨_, a, p, b, x, m, by rw [ht]; simp, hs, hp, hx, hm, hr⟩
      by_cases h0 : n = 0
      · subst h0
        rw [if_pos rfl]
        refine main 0 0 (nearest_unique (rndDecimal_nearest f u.prec 0 0) ?_)
        have := nearest_val f 0
        rw [val_zero] at this
        simpa using this
      · rw [if_neg h0]
        exact main _ _ (shortest_rounds u.prec n)
    · rw [if_neg hn, show n = f.inf by omega]
      cases neg
      · exact .inl (.inr ⟨[43], letters "Inf", false, rfl, .inr (.inl ⟨rfl, rfl⟩), .inl (by decide), rfl⟩)
      · exact .inl (.inr ⟨[45], letters "Inf", true, rfl, .inr (.inr ⟨rfl, rfl⟩), .inl (by decide), rfl⟩)

/-- C94: what Go prints for a value stands for it, and so does, for a `float32`, what Go prints for it as a `float64`. -/
theorem C94_printed (w : Nat) (x : Flt) (hx : x.Of (fmt w)) :
    Reads (fmt w) (print (fmt w) x) x ∧ Reads (fmt w) (print double (conv (fmt w) double x)) x := by
  refine ⟨printed_reads _ (usual_fmt w) x hx, ?_⟩
  rcases fmt_cases w with e | e <;> rw [e] at hx ⊢
  · exact C94_wide_text _ x hx (printed_reads double usual_double _ (conv_of x))
  · rw [conv_self (by decide) hx]
    exact printed_reads double usual_double x hx

/-- C94: the printed text is the shortest: no decimal number with a larger last place is read as the same number. -/
theorem C94_shortest (w : Nat) (neg : Bool) (n : Nat) (h0 : 0 < n) (hn : n < (fmt w).inf) :
    ∃ c q, print (fmt w) (.num neg n) = (if neg then [45] else []) ++ plain c q ∧ Nearest (fmt w) ((c : ℚ) * 10 ^ q) n ∧
      ∀ (m : Nat) (e : Int), Nearest (fmt w) ((m : ℚ) * 10 ^ e) n → e ≤ q := by
  have u := usual_fmt w
  have hp := u.prec
  refine ⟨(shortest (fmt w) n).1, (shortest (fmt w) n).2,
    by rw [print, if_pos hn, if_neg (show ¬ n = 0 by omega)], ?_, ?_⟩
  · have h := rndDecimal_nearest (fmt w) hp (shortest (fmt w) n).1 (shortest (fmt w) n).2
    rwa [shortest_rounds hp] at h
  · intro m e hm
    obtain ⟨h1, h2, h3⟩ := search_spec hp (n := n) (Format.start (fmt w) + (fmt w).low) (Format.start (fmt w) : Int) (by omega)
    have hr : ∀ (m : Nat) (e : Int), Nearest (fmt w) ((m : ℚ) * 10 ^ e) n → rndDecimal (fmt w) m e = n :=
      fun m e hm => nearest_unique (rndDecimal_nearest (fmt w) hp m e) hm
    by_cases he : e ≤ (Format.start (fmt w) : Int)
    · exact h3 m e (hr m e hm) he
    · exfalso
      have hm0 : m ≠ 0 := by
        rintro rfl
        rw [Nat.cast_zero, zero_mul] at hm
        have := nearest_val (fmt w) 0
        rw [val_zero] at this
        have := nearest_unique this hm
        omega
      have h1m : (1 : ℚ) ≤ m := by exact_mod_cast (show 1 ≤ m by omega)
      have hbig : val (fmt w) (fmt w).inf ≤ (m : ℚ) * 10 ^ e := by
        have a : val (fmt w) (fmt w).inf ≤ (10 : ℚ) ^ ((Format.start (fmt w) + 1 : Nat) : Int) := by
          rw [zpow_natCast]
          rcases fmt_cases w with e | e <;> rw [e]
          · rw [val_inf_single]
            exact pow_le_pow_left₀ (by norm_num) (by norm_num) 128
          · rw [val_inf_double]
            exact pow_le_pow_left₀ (by norm_num) (by norm_num) 1024
        have b : (10 : ℚ) ^ ((Format.start (fmt w) + 1 : Nat) : Int) ≤ 10 ^ e :=
          zpow_le_zpow_right₀ (by norm_num) (by push_cast; omega)
        exact le_trans a (le_trans b (le_mul_of_one_le_left (zpow_nonneg (by norm_num) _) h1m))
      have := nearest_mono (nearest_val (fmt w) (fmt w).inf) hm hbig
      omega

example : print single (.num false 1036831949) = letters "0.1" ∧ print single (.num true 1084227584) = letters "-5" := by
  decide +kernel

/-- C94: a number that is scanned into a text field is written so that it can be read back. -/
theorem C94_string (d : Dest Bytes) (x : Flt) (hx : x.Of double) :
    ∃ t, scanString (floats odd lib) false d (write 64 x) = .ok (store d t) ∧ Reads double t x := by
  have e : fmt 64 = double := by decide
  refine ⟨print double x, ?_, (e ▸ (C94_printed 64 x (e.symm ▸ hx)).1)⟩
  simp only [write, scanString, floats, Bool.false_eq_true, if_false]
  rw [e, ofBits_bits (.inr rfl) (conv_of x), conv_self (by decide) hx]

/-! ## Numbers of another type -/

private theorem number_signed (f : Format) (neg : Bool) (n : Nat) : (Flt.num neg n).number f = signed neg (val f n) := rfl

private theorem signed_inj {neg : Bool} {a b : ℚ} : signed neg a = signed neg b ↔ a = b := by
  cases neg
  · exact Iff.rfl
  · exact neg_inj

/-- C94 for whole numbers, exactly: the field holds the nearest number, and it is the number that was scanned if and only if
that has few enough significant bits. -/
theorem C94_int_iff_partial (z w : Nat) (strict : Bool) (d : Dest Nat) (n : Int) (h : -2 ^ 63 ≤ n ∧ n < 2 ^ 63) :
    ∃ y, scanFloat (floats odd lib) z w strict d (.int64 n) = .ok (store d (bits (fmt w) y)) ∧ y.Finite (fmt w) ∧
      Becomes (fmt w) (n < 0) n.natAbs y ∧
      (y.number (fmt w) = n ↔ ∃ m j, m < 2 ^ (fmt w).prec ∧ n.natAbs = m * 2 ^ j) := by
  have u := usual_fmt w
  have hp := u.prec
  have hr := rnd_nearest (fmt w) hp n.natAbs 1 (by decide)
  rw [Nat.cast_one, div_one] at hr
  have hle : rnd (fmt w) n.natAbs 1 < (fmt w).inf := by
    obtain ⟨k, hk, hv⟩ : ∃ k, k < (fmt w).inf ∧ val (fmt w) k = 2 ^ 63 := by
      rcases fmt_cases w with e | e <;> rw [e]
      · refine ⟨(63 + 127) * 2 ^ 23, by decide, ?_⟩
        rw [val_eq, show mag single ((63 + 127) * 2 ^ 23) = 2 ^ 212 by decide +kernel, Nat.cast_pow, Nat.cast_ofNat,
          show single.low = 149 from rfl, div_eq_iff (by positivity), ← pow_add]
      · refine ⟨(63 + 1023) * 2 ^ 52, by decide, ?_⟩
        rw [val_eq, show mag double ((63 + 1023) * 2 ^ 52) = 2 ^ 1137 by decide +kernel, Nat.cast_pow, Nat.cast_ofNat,
          show double.low = 1074 from rfl, div_eq_iff (by positivity), ← pow_add]
    have hb : ((n.natAbs : Nat) : ℚ) ≤ val (fmt w) k := by
      rw [hv]
      have : n.natAbs ≤ 2 ^ 63 := by omega
      exact_mod_cast this
    have := nearest_mono hr (nearest_val (fmt w) k) hb
    omega
  have e : ofInt (fmt w) n = .num (n < 0) (rnd (fmt w) n.natAbs 1) := by
    rw [ofInt, clip, Nat.min_eq_left (by omega)]
  refine ⟨ofInt (fmt w) n, rfl, by rw [e]; exact hle, ⟨_, hr, by rw [e, Nat.min_eq_left (by omega)]⟩, ?_⟩
  rw [e, number_signed]
  have hn : (n : ℚ) = signed (n < 0) (n.natAbs : Nat) := by
    have habs : ((n.natAbs : Nat) : ℚ) = ((n.natAbs : Int) : ℚ) := (Int.cast_natCast _).symm
    rw [habs]
    by_cases hneg : n < 0
    · simp only [signed, hneg, decide_true, if_true]
      rw [show (n.natAbs : Int) = -n by omega]
      push_cast
      ring
    · simp only [signed, hneg, decide_false, Bool.false_eq_true, if_false]
      rw [show (n.natAbs : Int) = n by omega]
  rw [hn, signed_inj]
  have exact_iff : val (fmt w) (rnd (fmt w) n.natAbs 1) = (n.natAbs : ℚ) ↔ ∃ k, val (fmt w) k = (n.natAbs : ℚ) := by
    constructor
    · intro h; exact ⟨_, h⟩
    · rintro ⟨k, hk⟩
      have := nearest_val (fmt w) k
      rw [hk] at this
      rw [nearest_unique hr this, hk]
  rw [exact_iff]
  have hL := low_pos (fmt w)
  constructor
  · rintro ⟨k, hk⟩
    rw [val_eq, div_eq_iff (ne_of_gt hL)] at hk
    have hk : mag (fmt w) k = n.natAbs * 2 ^ (fmt w).low := by exact_mod_cast hk
    obtain ⟨m, j, hm, hj⟩ := mag_short hp k
    rw [hj] at hk
    -- take the powers of two out of the significand
    have key : ∀ (L m j N : Nat), m < 2 ^ (fmt w).prec → m * 2 ^ j = N * 2 ^ L →
        ∃ m' j', m' < 2 ^ (fmt w).prec ∧ N = m' * 2 ^ j' := by
      intro L
      induction L with
      | zero => intro m j N h1 h2; exact ⟨m, j, h1, by omega⟩
      | succ L ih =>
        intro m j N h1 h2
        cases j with
        | succ j =>
          refine ih m j N h1 ?_
          rw [Nat.pow_succ, Nat.pow_succ] at h2
          have : m * 2 ^ j * 2 = N * 2 ^ L * 2 := by rw [Nat.mul_assoc, h2, Nat.mul_assoc]
          exact Nat.eq_of_mul_eq_mul_right (by decide) this
        | zero =>
          rw [Nat.pow_zero, Nat.mul_one] at h2
          refine ih (N * 2 ^ L) 0 N ?_ (by omega)
          rw [Nat.pow_succ] at h2
          have : N * 2 ^ L ≤ m := by rw [h2, ← Nat.mul_assoc]; omega
          omega
    exact key _ m j _ hm hk
  · rintro ⟨m, j, hm, hj⟩
    obtain ⟨k, hk⟩ := mag_surj hp m (j + (fmt w).low) hm
    refine ⟨k, ?_⟩
    rw [val_eq, hk, hj, div_eq_iff (ne_of_gt hL), Nat.pow_add]
    push_cast
    ring

/-- `2 ^ 53 + 1` becomes `2 ^ 53`. -/
example : ofInt double (2 ^ 53 + 1) = ofInt double (2 ^ 53) := by decide +kernel

/-- C94 for `float64` numbers in `float32` fields, exactly: the field holds the nearest number, infinity if there is none,
and it is the number that was scanned if and only if that is a `float32` number. -/
theorem C94_narrow_iff_partial (z : Nat) (strict : Bool) (d : Dest Nat) (neg : Bool) (n : Nat) (hn : n < double.inf) :
    ∃ y, scanFloat (floats odd lib) z 32 strict d (.float (bits double (.num neg n))) = .ok (store d (bits single y)) ∧
      Becomes single neg (val double n) y ∧
      ((y.Finite single ∧ y.number single = (Flt.num neg n).number double) ↔
        ∃ k, k < single.inf ∧ val single k = val double n) := by
  have hr := rnd_nearest single (by decide) (mag double n) (2 ^ double.low) (Nat.pow_pos (by decide))
  have hv : ((mag double n : Nat) : ℚ) / ((2 ^ double.low : Nat) : ℚ) = val double n := by
    rw [val_eq, Nat.cast_pow, Nat.cast_ofNat]
  rw [hv] at hr
  refine ⟨conv double single (.num neg n), ?_, ⟨_, hr, by rw [conv, if_pos hn, clip]⟩, ?_⟩
  · simp only [scanFloat, floats]
    rw [ofBits_bits (x := .num neg n) (.inr rfl) (Nat.le_of_lt hn)]
    rfl
  · rw [conv, if_pos hn, clip]
    constructor
    · rintro ⟨hf, he⟩
      have hf : min (rnd single (mag double n) (2 ^ double.low)) single.inf < single.inf := hf
      rw [number_signed, number_signed, signed_inj] at he
      exact ⟨_, hf, he⟩
    · rintro ⟨k, hk, he⟩
      have hk' := nearest_val single k
      rw [he] at hk'
      rw [nearest_unique hr hk', Nat.min_eq_left (by omega)]
      exact ⟨hk, by rw [number_signed, number_signed, he]⟩

/-- C94, false: a `float64` number of `2 ^ 128` or more becomes infinity in a `float32` field without an error, although the
same number as a text is an error. -/
theorem C94_narrow_infinite (z : Nat) (strict : Bool) (d : Dest Nat) (neg : Bool) (n : Nat) (hn : n < double.inf)
    (hbig : 2 ^ 128 ≤ val double n) :
    scanFloat (floats odd lib) z 32 strict d (.float (bits double (.num neg n))) =
      .ok (store d (bits single (.num neg single.inf))) ∧
    scanFloat (floats odd lib) z 32 false d (.bytes (print double (.num neg n))) = .err := by
  have hbig' : val single single.inf ≤ val double n := by rw [val_inf_single]; exact hbig
  have over : ∀ {r : ℚ} {k : Nat}, val single single.inf ≤ r → Nearest single r k → single.inf ≤ k :=
    fun h hk => nearest_mono (nearest_val single _) hk h
  constructor
  · obtain ⟨y, h1, ⟨k, hk, rfl⟩, _⟩ := C94_narrow_iff_partial odd lib z strict d neg n hn
    rw [h1, Nat.min_eq_right (over hbig' hk)]
  · have h0 : n ≠ 0 := by
      rintro rfl
      rw [val_zero, val_inf_single] at hbig'
      exact absurd hbig' (not_le.2 (pow_pos (by norm_num) _))
    simp only [scanFloat, floats, Bool.false_eq_true, if_false]
    rw [print, if_pos hn, if_neg h0, show fmt 32 = single from rfl]
    have hd := rndDecimal_nearest double (by decide) (shortest double n).1 (shortest double n).2
    rw [shortest_rounds (by decide)] at hd
    have hs := rndDecimal_nearest single (by decide) (shortest double n).1 (shortest double n).2
    have h0 : (0 : ℚ) ≤ ((shortest double n).1 : ℚ) * 10 ^ (shortest double n).2 :=
      mul_nonneg (Nat.cast_nonneg _) (zpow_nonneg (by norm_num) _)
    rw [parse_signed (odd 32) (by decide) neg _ _ rfl]
    have : single.inf ≤ rndDecimal single (shortest double n).1 (shortest double n).2 := by
      obtain ⟨k, hk⟩ := val_wider single_double single.inf
      rcases eq_or_lt_of_le hbig' with he | hlt
      · exact le_of_eq (nearest_unique (nearest_narrow single_double h0 hd he.symm) hs)
      · refine over (le_of_not_ge fun hle => ?_) hs
        have h1 := nearest_mono hd (nearest_val double k) (by rw [hk]; exact hle)
        have h2 := (val_strictMono double).monotone h1
        rw [hk] at h2
        exact absurd hlt (not_lt.2 h2)
    rw [if_neg (by omega)]
    rfl

/-- `2 ^ 128` -/
example : ∃ n, n < double.inf ∧ (2 : ℚ) ^ 128 ≤ val double n := by
  obtain ⟨k, hk⟩ := val_wider single_double single.inf
  rw [val_inf_single] at hk
  refine ⟨k, ?_, by rw [hk]⟩
  by_contra hc
  have h1 := (val_strictMono double).monotone (show double.inf ≤ k by omega)
  rw [hk, val_inf_double] at h1
  exact absurd h1 (not_le.2 (pow_lt_pow_right₀ (by norm_num) (by decide)))

/-! ## Lists -/

theorem print_bytes (f : Format) (x : Flt) :
    ∀ b ∈ print f x, isDigit b = true ∨ b ∈ ([43, 45, 46, 73, 78, 97, 102, 110] : Bytes) := by
  intro b hb
  have named : ∀ s : Bytes, (∀ b ∈ s, b ∈ ([43, 45, 46, 73, 78, 97, 102, 110] : Bytes)) → b ∈ s →
      isDigit b = true ∨ b ∈ ([43, 45, 46, 73, 78, 97, 102, 110] : Bytes) := fun s h hb => .inr (h b hb)
  cases x with
  | nan => exact named (letters "NaN") (by decide) hb
  | num neg n =>
    rw [print] at hb
    split at hb
    · rcases List.mem_append.1 hb with h | h
      · exact named _ (by cases neg <;> decide) h
      · split at h
        · rw [List.mem_singleton.1 h]; exact .inl (by decide)
        · rcases plain_bytes _ _ b h with h | rfl
          · exact .inl h
          · exact .inr (by decide)
    · exact named _ (by cases neg <;> decide) hb

private theorem plain_ne (c : Nat) (q : Int) : plain c q ≠ [] := by
  intro h
  have := (List.append_eq_nil_iff.1 h).1
  exact (numeral_iff.1 (natDec_numeral _)).1 this

private theorem print_ne (f : Format) (x : Flt) : print f x ≠ [] := by
  cases x with
  | nan => exact (by decide : letters "NaN" ≠ [])
  | num neg n =>
    rw [print]
    intro h
    split at h
    · have h := (List.append_eq_nil_iff.1 h).2
      split at h
      · cases h
      · exact plain_ne _ _ h
    · cases neg <;> exact absurd h (by decide)

private theorem elem_print (a : Fmt) (f : Format) (x : Flt) : Elem a.opn a.cls (print f x) (some (print f x)) := by
  have hb := print_bytes f x
  have hx : ∀ b ∈ print f x, b ≠ 44 ∧ b ≠ 34 ∧ b ≠ 85 ∧ b ≠ a.opn ∧ b ≠ a.cls := by
    intro b h
    refine ⟨?_, ?_, ?_, ?_, ?_⟩ <;> (rintro rfl; have := hb _ h; revert this; cases a <;> decide)
  cases hp : print f x with
  | nil => exact absurd hp (print_ne f x)
  | cons c t =>
    rw [hp] at hx
    refine .bare (hx c (by simp)).2.2.2.1 (hx c (by simp)).2.1 (fun y hy => ⟨(hx y hy).1, (hx y hy).2.2.2.2⟩) ?_
    intro h
    exact (hx 85 (by rw [h]; simp)).2.2.1 rfl

private theorem convFloat_print (w : Nat) (x : Flt) (hx : x.Of (fmt w)) :
    convFloat (odd w) w (some (print (fmt w) x)) = .ok x := by
  simp only [convFloat, Option.getD_some]
  rw [parse_print (odd w) (usual_fmt w) hx]
  simp only
  rw [conv_double hx]

/-- C94 for lists of numbers: what is written for a list of `float32` or `float64` is read back, whatever the list holds, in
brackets and in braces. -/
theorem C94_list (a : Fmt) (w : Nat) (xs : List Flt) (hx : ∀ x ∈ xs, x.Of (fmt w)) (prev : Option (List Flt)) :
    ∃ t, listValue a w (some xs) = some t ∧ listScan (odd w) a w (.str t) prev = (.ok (), some xs) ∧
      listScan (odd w) a w (.bytes t) prev = (.ok (), some xs) := by
  cases xs with
  | nil => exact ⟨_, rfl, scanWith_text a _ (linear_empty a) .nil prev⟩
  | cons x xs =>
    have hL := linear_of_list (o := a.opn) (c := a.cls) (enc := print (fmt w)) (g := fun v => some (print (fmt w) v)) x xs
      (fun y _ => elem_print a _ y)
    exact ⟨_, sliceValue_cons a (print (fmt w)) x xs,
      scanWith_text a _ hL (forall₂_map fun y hy => convFloat_print odd w y (hx y hy)) prev⟩

example : listValue .bracket 32 (some [.num false 1036831949, .num true 0, .nan, .num true single.inf]) =
    some (letters "[0.1,-0,NaN,-Inf]") := by decide +kernel

private theorem isDigit_iff {b : Byte} : isDigit b = true ↔ IsDigit b := by
  unfold isDigit IsDigit
  simp

private theorem json_plain (neg : Bool) (c : Nat) (q : Int) : JsonG .value ((if neg then [45] else []) ++ plain c q) := by
  have hf : ∀ k n, JsonFrac (if k = 0 then [] else 46 :: fixedDigits k n) := by
    intro k n
    by_cases hk : k = 0
    · rw [if_pos hk]; exact .none
    · rw [if_neg hk]
      have hl := fixedDigits_length k n
      have ha := List.all_eq_true.1 (fixedDigits_all k n)
      cases hd : fixedDigits k n with
      | nil => rw [hd] at hl; exact absurd hl.symm hk
      | cons b t =>
        rw [hd] at ha
        exact .some (isDigit_iff.1 (ha b (by simp))) fun y hy => isDigit_iff.1 (ha y (by simp [hy]))
  have := JsonG.num (s := if neg then [45] else []) (by cases neg; exact .inl rfl; exact .inr rfl)
    (jsonInt_natDec (c * 10 ^ q.toNat / 10 ^ (-q).toNat)) (hf (-q).toNat (c * 10 ^ q.toNat % 10 ^ (-q).toNat)) .none
  rw [List.append_nil] at this
  exact this

private theorem json_print (f : Format) (x : Flt) (hx : x.Finite f) : JsonG .value (print f x) := by
  cases x with
  | nan => exact absurd hx id
  | num neg n =>
    rw [print, if_pos (show n < f.inf from hx)]
    by_cases h0 : n = 0
    · rw [if_pos h0]; exact json_plain neg 0 0
    · rw [if_neg h0]; exact json_plain neg _ _

/-- Neither of the letters that begin `Inf` and `NaN`. -/
private def Plain (c : Byte) : Prop := c ≠ 73 ∧ c ≠ 78

private theorem plain_ws {t : Bytes} (h : IsWs t) : ∀ c ∈ t, Plain c := by
  intro c hc
  rcases h c hc with rfl | rfl | rfl | rfl <;> exact ⟨by decide, by decide⟩

private theorem plain_digit {c : Byte} (h : IsDigit c) : Plain c := by
  constructor <;> (rintro rfl; revert h; unfold IsDigit; decide)

private theorem json_unquoted {k : Kind} {t : Bytes} (h : JsonG k t) (hq : (34 : Byte) ∉ t) : ∀ c ∈ t, Plain c := by
  induction h with
  | tru => intro c hc; revert c; unfold Plain; decide
  | fls => intro c hc; revert c; unfold Plain; decide
  | null => intro c hc; revert c; unfold Plain; decide
  | num h1 h2 h3 h4 =>
    simp only [List.forall_mem_append]
    refine ⟨?_, ?_, ?_, ?_⟩
    · rcases h1 with rfl | rfl <;> unfold Plain <;> decide
    · cases h2 with
      | zero => unfold Plain; decide
      | pos h1 _ h2 =>
        simp only [List.forall_mem_cons]
        exact ⟨plain_digit h1, fun c hc => plain_digit (h2 c hc)⟩
    · cases h3 with
      | none => intro c hc; cases hc
      | some h1 h2 =>
        simp only [List.forall_mem_cons]
        exact ⟨⟨by decide, by decide⟩, plain_digit h1, fun c hc => plain_digit (h2 c hc)⟩
    · cases h4 with
      | none => intro c hc; cases hc
      | some h0 h1 h2 h3 =>
        simp only [List.forall_mem_cons, List.forall_mem_append]
        refine ⟨?_, ?_, plain_digit h2, fun c hc => plain_digit (h3 c hc)⟩
        · rcases h0 with rfl | rfl <;> exact ⟨by decide, by decide⟩
        · rcases h1 with rfl | rfl | rfl <;> unfold Plain <;> decide
  | str h => exact absurd (by simp) hq
  | arr0 h =>
    simp only [List.forall_mem_append, List.forall_mem_cons, List.not_mem_nil, false_imp_iff, implies_true, and_true]
    exact ⟨⟨by decide, by decide⟩, plain_ws h, ⟨by decide, by decide⟩⟩
  | arr _ ih =>
    simp only [List.forall_mem_append, List.forall_mem_cons, List.not_mem_nil, false_imp_iff, implies_true, and_true]
    exact ⟨⟨by decide, by decide⟩, ih fun h => hq (by simp [h]), ⟨by decide, by decide⟩⟩
  | obj0 h =>
    simp only [List.forall_mem_append, List.forall_mem_cons, List.not_mem_nil, false_imp_iff, implies_true, and_true]
    exact ⟨⟨by decide, by decide⟩, plain_ws h, ⟨by decide, by decide⟩⟩
  | obj _ ih =>
    simp only [List.forall_mem_append, List.forall_mem_cons, List.not_mem_nil, false_imp_iff, implies_true, and_true]
    exact ⟨⟨by decide, by decide⟩, ih fun h => hq (by simp [h]), ⟨by decide, by decide⟩⟩
  | elem1 h1 _ h2 ih =>
    simp only [List.forall_mem_append]
    exact ⟨plain_ws h1, ih fun h => hq (by simp [h]), plain_ws h2⟩
  | elemS h1 _ h2 _ ih ih' =>
    simp only [List.forall_mem_append, List.forall_mem_cons]
    exact ⟨plain_ws h1, ih fun h => hq (by simp [h]), plain_ws h2, ⟨by decide, by decide⟩, ih' fun h => hq (by simp [h])⟩
  | mem1 => exact absurd (by simp) hq
  | memS => exact absurd (by simp) hq

/-- C94, exactly: what is written for a list is JSON, as JSON columns require, if and only if all its values are finite. -/
theorem C94_list_json_iff_partial (w : Nat) (xs : List Flt) (hx : ∀ x ∈ xs, x.Of (fmt w)) :
    ∃ t, listValue .bracket w (some xs) = some t ∧ (IsJson t ↔ ∀ x ∈ xs, x.Finite (fmt w)) := by
  cases xs with
  | nil => exact ⟨_, rfl, fun _ x h => (by cases h), fun _ => json_empty⟩
  | cons x xs =>
    refine ⟨_, sliceValue_cons .bracket (print (fmt w)) x xs, ?_, fun h => json_arrayText x xs fun y hy => json_print _ y (h y hy)⟩
    rintro ⟨w1, v, w2, ht, h1, h2, h3⟩ y hy
    have ht : arrayText 91 93 (print (fmt w)) x xs = w1 ++ (v ++ w2) := ht
    by_contra hf
    have mem : ∀ b ∈ print (fmt w) y, b ∈ arrayText 91 93 (print (fmt w)) x xs := by
      intro b hb
      unfold arrayText
      rcases List.mem_cons.1 hy with rfl | hy
      · simp [hb]
      · simp only [List.mem_cons, List.mem_append, List.mem_flatMap]
        exact .inr (.inl (.inr ⟨y, hy, .inr hb⟩))
    have hq : (34 : Byte) ∉ arrayText 91 93 (print (fmt w)) x xs := by
      have hp : ∀ z, (34 : Byte) ∉ print (fmt w) z := by
        intro z hz
        have := print_bytes _ _ _ hz
        revert this; decide
      unfold arrayText
      simp only [List.mem_cons, List.mem_append, List.mem_flatMap, not_or, not_exists, not_and]
      refine ⟨by decide, ⟨hp x, fun z _ => ⟨by decide, hp z⟩⟩, by decide, by simp⟩
    have hall : ∀ b ∈ arrayText 91 93 (print (fmt w)) x xs, Plain b := by
      rw [ht] at hq ⊢
      simp only [List.forall_mem_append]
      exact ⟨plain_ws h1, json_unquoted h2 fun h => hq (by simp [h]), plain_ws h3⟩
    cases y with
    | nan => exact (hall 78 (mem 78 (by decide : (78 : Byte) ∈ letters "NaN"))).2 rfl
    | num neg n =>
      have hf : ¬ n < (fmt w).inf := hf
      refine (hall 73 (mem 73 ?_)).1 rfl
      rw [print, if_neg hf]
      cases neg <;> decide

private theorem parse_spaced (g : Bytes → Option Flt) (f : Format) (t : Bytes) (ht : Ordinary t) : parse g f (32 :: t) = none := by
  have h1 : special f (32 :: t) = none := by
    cases hs : special f (32 :: t) with
    | none => rfl
    | some y =>
      exfalso
      rcases special_iff.1 hs with ⟨h, _⟩ | ⟨s, u, neg, h, hsg, hu, _⟩
      · exact absurd (List.cons.inj h).1 (by decide)
      · rcases hsg with ⟨rfl, _⟩ | ⟨rfl, _⟩ | ⟨rfl, _⟩
        · rw [List.nil_append] at h
          rw [← h] at hu
          rcases hu with hu | hu <;> exact absurd (List.cons.inj hu).1 (by decide)
        · exact absurd (List.cons.inj h).1 (by decide)
        · exact absurd (List.cons.inj h).1 (by decide)
  have h2 : readDecimal (32 :: t) = none := by
    cases hr : readDecimal (32 :: t) with
    | none => rfl
    | some y =>
      exfalso
      obtain ⟨neg, m, e⟩ := y
      obtain ⟨s, a, p, b, x, k, h, hsg, hp, hx, hm, _⟩ := readDecimal_iff.1 hr
      obtain ⟨hne, hall, _⟩ := numeral_iff.1 hm
      have hall := List.all_eq_true.1 hall
      rcases hsg with ⟨rfl, _⟩ | ⟨rfl, _⟩ | ⟨rfl, _⟩
      · cases a with
        | cons c a =>
          have hc := (List.cons.inj h).1
          have := hall c (by simp)
          rw [← hc] at this
          exact absurd this (by decide)
        | nil =>
          rcases hp with ⟨_, rfl⟩ | rfl
          · exact hne rfl
          · exact absurd (List.cons.inj h).1 (by decide)
      · exact absurd (List.cons.inj h).1 (by decide)
      · exact absurd (List.cons.inj h).1 (by decide)
  have h3 : Ordinary (32 :: t) := by
    intro b hb
    rcases List.mem_cons.1 hb with rfl | hb
    · decide
    · exact ht b hb
  unfold parse
  rw [if_neg (not_not.2 h3), h1]
  simp only [h2]

/-- C94, false for JSON columns of MySQL, which prints a space after each comma: no list of two or more numbers can be read
back. -/
theorem C94_list_mysql (w : Nat) (x y : Flt) (zs : List Flt) (prev : Option (List Flt)) (r : List Flt) :
    listScan (odd w) .bracket w (.str (mysqlJsonInts ((x :: y :: zs).map (print (fmt w))))) prev ≠ (.ok (), some r) := by
  have hL : LinearArray 91 93 (mysqlJsonInts ((x :: y :: zs).map (print (fmt w))))
      ((print (fmt w) x :: (y :: zs).map (fun n => 32 :: print (fmt w) n)).map some) := by
    have h := linear_of_list (o := 91) (c := 93) (enc := id) (g := some) (print (fmt w) x)
      ((y :: zs).map (fun n => 32 :: print (fmt w) n)) (by
        intro t ht
        rcases List.mem_cons.1 ht with rfl | ht
        · exact elem_print .bracket _ x
        · obtain ⟨n, _, rfl⟩ := List.mem_map.1 ht
          refine .bare (by decide) (by decide) ?_ (by simp)
          intro z hz
          rcases List.mem_cons.1 hz with rfl | hz
          · decide
          · have := print_bytes _ _ z hz
            constructor <;> (rintro rfl; revert this; decide))
    have e : arrayText 91 93 id (print (fmt w) x) ((y :: zs).map (fun n => 32 :: print (fmt w) n))
        = mysqlJsonInts ((x :: y :: zs).map (print (fmt w))) := by
      simp [arrayText, mysqlJsonInts, List.flatMap_map]
    rwa [e] at h
  refine scan_err_of_conv .bracket (convFloat (odd w) w) hL ⟨some (32 :: print (fmt w) y), by simp, fun z => ?_⟩ prev r
  simp only [convFloat, Option.getD_some]
  rw [parse_spaced (odd w) (fmt w) _ (by
    intro b hb
    have := print_bytes _ _ b hb
    refine ⟨?_, ?_, ?_⟩ <;> (rintro rfl; revert this; decide))]
  simp

/-! ## Texts of lists with a given precision -/

private theorem roundEven_spec (p q : Nat) (hq : 0 < q) :
    2 * p ≤ (2 * roundEven p q + 1) * q ∧ 2 * roundEven p q * q ≤ 2 * p + q ∧ (roundEven p q * q = p ↔ q ∣ p) := by
  have hd := Nat.div_add_mod p q
  have hm := Nat.mod_lt p hq
  unfold roundEven
  generalize hP : p / q = P at *
  generalize hR : p % q = R at *
  have e1 : ∀ k : Nat, (2 * k + 1) * q = 2 * (q * k) + q := fun k => by ring
  have e2 : ∀ k : Nat, 2 * k * q = 2 * (q * k) := fun k => by ring
  have e3 : q * (P + 1) = q * P + q := by ring
  have e4 : ∀ k : Nat, k * q = q * k := fun k => by ring
  have hdvd : q ∣ p ↔ R = 0 := by rw [← hR]; exact Nat.dvd_iff_mod_eq_zero
  rw [hdvd]
  split
  · rw [e1, e2, e4]; refine ⟨by omega, by omega, by omega⟩
  · split
    · rw [e1, e2, e4, e3]; refine ⟨by omega, by omega, by omega⟩
    · split
      · rw [e1, e2, e4]; refine ⟨by omega, by omega, by omega⟩
      · rw [e1, e2, e4, e3]; refine ⟨by omega, by omega, by omega⟩

/-- C94 for lists that are written with a number of digits after the point, exactly: each text is a decimal number within
half a unit of the last digit, and it is the number itself if and only if that has no further digits. -/
theorem C94_marshal_iff_partial (prec : Nat) (neg : Bool) (n : Nat) (hn : n < double.inf) :
    ∃ m : Nat, Written (fixed double prec (.num neg n)) neg (m * (10 : ℚ) ^ (-(prec : Int))) 0 ∧
      |val double n - m * (10 : ℚ) ^ (-(prec : Int))| ≤ 10 ^ (-(prec : Int)) / 2 ∧
      (m * (10 : ℚ) ^ (-(prec : Int)) = val double n ↔ ∃ k : Nat, val double n * 10 ^ prec = k) := by
  obtain ⟨h1, h2, h3⟩ := roundEven_spec (mag double n * 10 ^ prec) (2 ^ double.low) (Nat.pow_pos (by decide))
  refine ⟨roundEven (mag double n * 10 ^ prec) (2 ^ double.low), ?_, ?_, ?_⟩
  · rw [fixed, if_pos hn]
    obtain ⟨s, a, p, b, x, m, ht, hs', hp, hx, hm, hr⟩ := plain_written (roundEven (mag double n * 10 ^ prec) (2 ^ double.low)) (-(prec : Int))
    have hs0 : s = [] := by
      rcases hs' with ⟨h, _⟩ | ⟨rfl, _⟩ | ⟨_, h⟩
      · exact h
      · exfalso
        have := plain_bytes (roundEven (mag double n * 10 ^ prec) (2 ^ double.low)) (-(prec : Int)) 43 (by rw [ht]; simp)
        revert this; decide
      · cases h
    subst hs0
    refine ⟨if neg then [45] else [], a, p, b, x, m, by rw [ht, List.nil_append], ?_, hp, hx, hm, hr⟩
    cases neg
    · exact .inl ⟨rfl, rfl⟩
    · exact .inr (.inr ⟨rfl, rfl⟩)
  all_goals
    generalize roundEven (mag double n * 10 ^ prec) (2 ^ double.low) = c at *
    rw [val_eq, zpow_neg, zpow_natCast]
    generalize mag double n = p at *
    have hL := low_pos double
    generalize hq : (2 : ℕ) ^ double.low = q at *
    have hq' : ((2 : ℚ) ^ double.low) = q := by rw [← hq, Nat.cast_pow, Nat.cast_ofNat]
    rw [hq'] at hL ⊢
    have hT : (0 : ℚ) < 10 ^ prec := pow_pos (by norm_num) _
    have g1 : (2 * ((p : ℚ) * 10 ^ prec)) ≤ (2 * c + 1) * q := by exact_mod_cast h1
    have g2 : (2 * (c : ℚ) * q) ≤ 2 * ((p : ℚ) * 10 ^ prec) + q := by exact_mod_cast h2
  · have e : (p : ℚ) / q - c * (10 ^ prec)⁻¹ = (p * 10 ^ prec - c * q) / (q * 10 ^ prec) := by
      field_simp
    rw [e, abs_div, abs_of_pos (mul_pos hL hT), div_le_iff₀ (mul_pos hL hT)]
    have e2 : (10 ^ prec : ℚ)⁻¹ / 2 * (q * 10 ^ prec) = q / 2 := by field_simp
    rw [e2, abs_le]
    constructor <;> linarith
  · have e : (c : ℚ) * (10 ^ prec)⁻¹ = p / q ↔ c * q = p * 10 ^ prec := by
      rw [eq_div_iff (ne_of_gt hL), ← div_eq_mul_inv, div_mul_eq_mul_div, div_eq_iff (ne_of_gt hT)]
      constructor
      · intro h; exact_mod_cast h
      · intro h; exact_mod_cast h
    rw [e, h3]
    constructor
    · rintro ⟨k, hk⟩
      refine ⟨k, ?_⟩
      rw [div_mul_eq_mul_div, div_eq_iff (ne_of_gt hL)]
      have : ((p * 10 ^ prec : Nat) : ℚ) = ((q * k : Nat) : ℚ) := by rw [hk]
      push_cast at this
      rw [this, mul_comm]
    · rintro ⟨k, hk⟩
      refine ⟨k, ?_⟩
      rw [div_mul_eq_mul_div, div_eq_iff (ne_of_gt hL)] at hk
      have : ((p * 10 ^ prec : Nat) : ℚ) = ((k * q : Nat) : ℚ) := by push_cast; exact hk
      rw [Nat.mul_comm q k]
      exact_mod_cast this

private theorem list_congr {f g : Flt → Bytes} : ∀ {xs : List Flt}, (∀ x ∈ xs, f x = g x) → Marshal.list f xs = Marshal.list g xs := by
  have rest : ∀ xs : List Flt, (∀ x ∈ xs, f x = g x) → Marshal.rest f xs = Marshal.rest g xs := by
    intro xs
    induction xs with
    | nil => intro _; rfl
    | cons x xs ih =>
      intro h
      rw [Marshal.rest, Marshal.rest, h x (by simp), ih fun y hy => h y (by simp [hy])]
  intro xs h
  cases xs with
  | nil => rfl
  | cons x xs => rw [Marshal.list, Marshal.list, h x (by simp), rest xs fun y hy => h y (by simp [hy])]

/-- C94, false without a precision: what is written for a list of numbers from 0 to 1/2 is a list of zeros. -/
theorem C94_marshal_zeros (xs : List Flt) (hx : ∀ x ∈ xs, ∃ n, x = .num false n ∧ n < double.inf ∧ val double n ≤ 1 / 2) :
    marshal none xs = Marshal.list (fun _ => [48]) xs := by
  have key : ∀ x ∈ xs, fixed double 0 x = [48] := by
    intro x h
    obtain ⟨n, rfl, hn, hv⟩ := hx x h
    rw [fixed, if_pos hn]
    have h0 : roundEven (mag double n * 10 ^ 0) (2 ^ double.low) = 0 := by
      rw [val_eq, div_le_iff₀ (low_pos double)] at hv
      have hv : 2 * mag double n ≤ 2 ^ double.low := by
        have : (2 : ℚ) * mag double n ≤ 2 ^ double.low := by linarith
        exact_mod_cast this
      have hq : 0 < 2 ^ double.low := Nat.pow_pos (by decide)
      generalize 2 ^ double.low = q at *
      have hlt : mag double n * 10 ^ 0 < q := by omega
      unfold roundEven
      rw [Nat.mod_eq_of_lt hlt, Nat.div_eq_of_lt hlt]
      by_cases h1 : 2 * (mag double n * 10 ^ 0) < q
      · rw [if_pos h1]
      · rw [if_neg h1, if_neg (by omega), if_pos rfl]
    rw [h0]
    decide
  unfold marshal
  exact list_congr key

/-- 1/10 and 1/2. -/
example : marshal none [.num false 4591870180066957722, .num false 4602678819172646912] = letters "[0,0]" ∧
    marshal (some 2) [.num false 4591870180066957722, .num false 4602678819172646912] = letters "[0.10,0.50]" := by
  decide +kernel

/-! ## Columns -/

def brandName : Brand → String
  | .mysql => "mysql"
  | .postgres => "postgres"
  | .sqlite => "sqlite"

/-- C94, partial: the column that is declared for a field can hold every finite value of it, except for `float64` in MySQL. -/
theorem C94_column_partial (b : Brand) (w : Nat) (hb : b ≠ .mysql ∨ w = 32) (x : Flt) (hx : x.Finite (fmt w)) :
    ∃ g, columnFormat (brandName b) (columnType b w) = some g ∧ ∃ y : Flt, y.Finite g ∧ y.number g = x.number (fmt w) := by
  have same : ∃ y : Flt, y.Finite (fmt w) ∧ y.number (fmt w) = x.number (fmt w) := ⟨x, hx, rfl⟩
  have wide : ∃ y : Flt, y.Finite double ∧ y.number double = x.number (fmt w) := by
    rcases fmt_cases w with e | e
    · rw [e] at hx ⊢
      cases x with
      | nan => exact absurd hx id
      | num neg n =>
        obtain ⟨k, hk, hv⟩ := single_val n hx
        exact ⟨.num neg k, hk, by rw [number_signed, number_signed, hv]⟩
    · rw [e] at hx ⊢; exact ⟨x, hx, rfl⟩
  cases b with
  | mysql =>
    have hw : w = 32 := hb.resolve_left (by decide)
    subst hw
    exact ⟨single, by decide, same⟩
  | postgres =>
    by_cases hw : w = 32
    · subst hw; exact ⟨single, by decide, same⟩
    · refine ⟨double, ?_, wide⟩
      rw [columnType, if_neg hw]
      rfl
  | sqlite => exact ⟨double, by rw [columnType]; decide, wide⟩

/-- C94, false for `float64` in MySQL, exactly: its column holds the number if and only if that is a `float32` number. -/
theorem C94_column_mysql_iff (neg : Bool) (n : Nat) :
    ∃ g, columnFormat (brandName .mysql) (columnType .mysql 64) = some g ∧
      ((∃ y : Flt, y.Finite g ∧ y.number g = (Flt.num neg n).number double) ↔ ∃ k, k < single.inf ∧ val single k = val double n) := by
  refine ⟨single, by decide, ?_, ?_⟩
  · rintro ⟨y, hy, he⟩
    cases y with
    | nan => exact absurd hy id
    | num neg' k =>
      have hy : k < single.inf := hy
      rw [number_signed, number_signed] at he
      have h1 := val_nonneg single k
      have h2 := val_nonneg double n
      refine ⟨k, hy, ?_⟩
      cases neg <;> cases neg' <;> simp only [signed, Bool.false_eq_true, if_false, if_true] at he <;> linarith
  · rintro ⟨k, hk, hv⟩
    exact ⟨.num neg k, hk, by rw [number_signed, number_signed, hv]⟩

/-- 1/10 is kept by no MySQL column. -/
example : ¬ ∃ k, k < single.inf ∧ val single k = val double 4591870180066957722 := by
  rintro ⟨k, hk, hv⟩
  have h := conv_exact (f := double) (g := single) (by decide) (n := 4591870180066957722) false (by decide) hk hv
  have h2 : conv double single (.num false 4591870180066957722) = .num false 1036831949 := by decide +kernel
  rw [h2] at h
  cases h
  obtain ⟨j, hj, hw⟩ := single_val 1036831949 (by decide)
  have h3 := conv_exact (f := single) (g := double) (by decide) (n := 1036831949) false (by decide) hj hw
  have h4 : conv single double (.num false 1036831949) = .num false 4591870180174331904 := by decide +kernel
  rw [h4] at h3
  cases h3
  have := val_strictMono double (show 4591870180066957722 < 4591870180174331904 by decide)
  rw [hw, hv] at this
  exact lt_irrefl _ this

end Verif.Props
