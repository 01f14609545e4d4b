import Verif.Model.JsonText
import Verif.Spec.JsonText
import Verif.Lemmas.Numeral
import Verif.Props.Quote
import Verif.Props.JsonSlices

/-!
# The reader of JSON texts
-/

namespace Verif.JsonText

open Verif Verif.Spec Verif.Spec.Scan Verif.JsonField Verif.JsonText.Spec

theorem isSpace_iff (b : Byte) : isSpace b = true ↔ (b = 32 ∨ b = 9 ∨ b = 10 ∨ b = 13) := by
  simp [isSpace, or_assoc]

theorem skip_ws {w : Bytes} (h : IsWs w) (s : Bytes) : skip (w ++ s) = skip s := by
  induction w with
  | nil => rfl
  | cons b w ih =>
    have hb : isSpace b = true := (isSpace_iff b).mpr (h b (by simp))
    have := ih fun c hc => h c (by simp [hc])
    simp only [skip] at this ⊢
    rw [List.cons_append, List.dropWhile_cons_of_pos hb, this]

theorem skip_cons {b : Byte} (h : isSpace b = false) (s : Bytes) : skip (b :: s) = b :: s := by
  simp [skip, h]

theorem expect_ws {w : Bytes} (h : IsWs w) (c : Byte) (s : Bytes) : expect c (w ++ s) = expect c s := by
  simp only [expect, skip_ws h]

theorem expect_cons {b : Byte} (h : isSpace b = false) (c : Byte) (s : Bytes) :
    expect c (b :: s) = if b = c then some s else none := by
  simp only [expect, skip_cons h]

/-! ## Strings -/

theorem hexVal_of {b : Byte} {n : Nat} (h : Hex1 b n) : hexVal b = some n := by
  unfold hexVal
  rcases h with ⟨h1, h2⟩ | ⟨h1, h2, h3 | h3⟩
  · rw [if_pos (by omega)]; congr 1; omega
  · rw [if_neg (by omega), if_pos (by omega)]; congr 1; omega
  · rw [if_neg (by omega), if_neg (by omega), if_pos (by omega)]; congr 1; omega

theorem hex4_of {h : Bytes} {n : Nat} (hh : Hex4 h n) (r : Bytes) : hex4 (h ++ r) = some (n, r) := by
  obtain ⟨a, b, c, d, i, j, k, l, rfl, h1, h2, h3, h4, rfl⟩ := hh
  simp only [List.cons_append, List.nil_append, hex4, hexVal_of h1, hexVal_of h2, hexVal_of h3, hexVal_of h4,
    Option.bind_eq_bind, Option.bind_some, Option.some.injEq, Prod.mk.injEq, and_true]
  omega

theorem hex4_length {h : Bytes} {n : Nat} (hh : Hex4 h n) : h.length = 4 := by
  obtain ⟨a, b, c, d, i, j, k, l, rfl, _⟩ := hh
  rfl

theorem ofNat_toNat {c : Char} {n : Nat} (h : c.toNat = n) : Char.ofNat n = c := by
  subst h; exact Char.ofNat_toNat c

theorem escape_of {b : Byte} {c : Char} (h : (b, c.toNat) ∈ escapes) (r : Bytes) : escape (b :: r) = some (c, r) := by
  simp only [escapes, List.mem_cons, Prod.mk.injEq, List.not_mem_nil, or_false] at h
  rcases h with ⟨rfl, h⟩ | ⟨rfl, h⟩ | ⟨rfl, h⟩ | ⟨rfl, h⟩ | ⟨rfl, h⟩ | ⟨rfl, h⟩ | ⟨rfl, h⟩ | ⟨rfl, h⟩ <;>
    (rw [← ofNat_toNat h]; rfl)

theorem unicode_of {h : Bytes} {c : Char} (hh : Hex4 h c.toNat) (r : Bytes) : unicode (h ++ r) = some (c, r) := by
  have hr := Scan.char_range c
  simp only [unicode, hex4_of hh]
  rw [if_neg (by omega), ofNat_toNat rfl]

theorem pair_of {h l : Bytes} {m n : Nat} {c : Char} (hh : Hex4 h (0xD800 + m)) (hl : Hex4 l (0xDC00 + n))
    (hm : m < 1024) (hn : n < 1024) (hc : c.toNat = 0x10000 + 1024 * m + n) (r : Bytes) :
    unicode (h ++ 92 :: 117 :: (l ++ r)) = some (c, r) := by
  have hlow : low (92 :: 117 :: (l ++ r)) = some (0xDC00 + n, r) := by
    simp only [low, hex4_of hl, and_self, if_true]
    rw [if_pos (by omega)]
  simp only [unicode, hex4_of hh]
  rw [if_pos (by omega), if_pos (by omega), hlow]
  simp only [Option.some.injEq, Prod.mk.injEq, and_true]
  exact ofNat_toNat (by omega)

theorem chars_of {b : Bytes} {cs : List Char} (h : Chars b cs) : ∀ (n : Nat) (r : Bytes), b.length < n →
    chars n (b ++ 34 :: r) = some (cs, r) := by
  induction h with
  | nil =>
    intro n r hn
    cases n with
    | zero => simp at hn
    | succ n => simp [chars]
  | @plain c t cs h1 h2 h3 _ ih =>
    intro n r hn
    cases n with
    | zero => simp at hn
    | succ n =>
      have hpos := Scan.utf8_length_pos c
      have hdec := Scan.decode_utf8 c (t ++ 34 :: r)
      have hdrop : (utf8 c ++ (t ++ 34 :: r)).drop (utf8 c).length = t ++ 34 :: r := List.drop_left
      have hbytes := Props.utf8_bytes c
      rw [List.append_assoc]
      cases hu : utf8 c with
      | nil => rw [hu] at hpos; simp at hpos
      | cons x l =>
        rw [hu] at hdec hdrop hbytes hn
        have hx : x ≠ 34 ∧ x ≠ 92 ∧ ¬ x.toNat < 32 := by
          rcases hbytes with ⟨h4, h5⟩ | ⟨_, _, h5⟩
          · simp only [List.cons.injEq] at h5
            have : x.toNat = c.toNat := by rw [h5.1, Scan.toNat_ofNat_lt (by omega)]
            refine ⟨?_, ?_, by omega⟩
            · rintro rfl; exact h2 this.symm
            · rintro rfl; exact h3 this.symm
          · have := h5 x (by simp)
            refine ⟨?_, ?_, by omega⟩
            · rintro rfl; simp at this
            · rintro rfl; simp at this
        simp only [List.cons_append] at hdec hdrop ⊢
        simp only [chars, if_neg hx.1, if_neg hx.2.1, if_neg hx.2.2, hdec, hdrop]
        rw [ih n r (by simp at hn; omega)]
        simp [Char.ofNat_toNat]
  | @esc b c t cs h1 _ ih =>
    intro n r hn
    cases n with
    | zero => simp at hn
    | succ n =>
      simp only [List.cons_append, chars]
      rw [if_neg (by decide), if_pos trivial, escape_of h1]
      simp only [Option.bind_some]
      rw [ih n r (by simp at hn; omega)]
      rfl
  | @uni h c t cs h1 _ ih =>
    intro n r hn
    cases n with
    | zero => simp at hn
    | succ n =>
      have he : escape (117 :: (h ++ (t ++ 34 :: r))) = some (c, t ++ 34 :: r) := by
        show unicode (h ++ (t ++ 34 :: r)) = _
        exact unicode_of h1 _
      simp only [List.cons_append, List.append_assoc, chars]
      rw [if_neg (by decide), if_pos trivial, he]
      simp only [Option.bind_some]
      rw [ih n r (by simp at hn; omega)]
      rfl
  | @pair h l m k c t cs h1 h2 h3 h4 h5 _ ih =>
    intro n r hn
    cases n with
    | zero => simp at hn
    | succ n =>
      have he : escape (117 :: (h ++ 92 :: 117 :: (l ++ (t ++ 34 :: r)))) = some (c, t ++ 34 :: r) := by
        show unicode (h ++ 92 :: 117 :: (l ++ (t ++ 34 :: r))) = _
        exact pair_of h1 h2 h3 h4 h5 _
      simp only [List.cons_append, List.append_assoc, chars]
      rw [if_neg (by decide), if_pos trivial, he]
      simp only [Option.bind_some]
      rw [ih n r (by simp at hn; omega)]
      rfl

theorem chars_of' {b : Bytes} {cs : List Char} (h : Chars b cs) (r : Bytes) :
    chars ((b ++ 34 :: r).length + 1) (b ++ 34 :: r) = some (cs, r) :=
  chars_of h _ _ (by simp; omega)

/-! ## Numbers -/

theorem isDigit_iff (b : Byte) : isDigit b = true ↔ IsDigit b := by simp [isDigit, IsDigit]

theorem take_digits {t r : Bytes} (h : ∀ x ∈ t, IsDigit x) (hr : ∀ b s, r = b :: s → ¬ IsDigit b) :
    (t ++ r).takeWhile isDigit = t ∧ (t ++ r).dropWhile isDigit = r := by
  induction t with
  | nil =>
    cases r with
    | nil => simp
    | cons b s =>
      have : ¬ isDigit b = true := fun h => hr b s rfl ((isDigit_iff b).mp h)
      simp [this]
  | cons x t ih =>
    have hx : isDigit x = true := (isDigit_iff x).mpr (h x (by simp))
    obtain ⟨h1, h2⟩ := ih fun y hy => h y (by simp [hy])
    simp [hx, h1, h2]

theorem intPart_of {i r : Bytes} (h : JsonInt i) (hr : ∀ b s, r = b :: s → ¬ IsDigit b) :
    intPart (i ++ r) = some (i, r) := by
  cases h with
  | zero => simp [intPart]
  | @pos c t h1 h2 h3 =>
    obtain ⟨h4, h5⟩ := take_digits h3 hr
    simp only [List.cons_append, intPart, if_neg h2, (isDigit_iff c).mpr h1, if_true, h4, h5]

theorem fracPart_of {f r : Bytes} (h : JsonFrac f) (hr : ∀ b s, r = b :: s → ¬ IsDigit b ∧ b ≠ 46) :
    fracPart (f ++ r) = some (f, r) := by
  cases h with
  | none =>
    cases r with
    | nil => rfl
    | cons b s => simp [fracPart, (hr b s rfl).2]
  | @some c t h1 h2 =>
    obtain ⟨h4, h5⟩ := take_digits (t := c :: t) (r := r) (by simpa using ⟨h1, h2⟩) fun b s hb => (hr b s hb).1
    simp only [List.cons_append] at h4 h5
    simp only [List.cons_append, fracPart, if_true, h4, h5]
    simp

theorem sign_digit {c : Byte} (h : IsDigit c) (r : Bytes) : sign (c :: r) = ([], c :: r) := by
  unfold IsDigit at h
  simp only [sign]
  rw [if_neg]
  rintro (rfl | rfl)
  · simp at h
  · simp at h

theorem expPart_of {e r : Bytes} (h : JsonExp e) (hr : ∀ b s, r = b :: s → ¬ IsDigit b ∧ b ≠ 101 ∧ b ≠ 69) :
    expPart (e ++ r) = some (e, r) := by
  cases h with
  | none =>
    cases r with
    | nil => rfl
    | cons b s =>
      have := hr b s rfl
      simp [expPart, this.2.1, this.2.2]
  | @some e s c t he hs h1 h2 =>
    obtain ⟨h4, h5⟩ := take_digits (t := c :: t) (r := r) (by simpa using ⟨h1, h2⟩) fun b s hb => (hr b s hb).1
    simp only [List.cons_append] at h4 h5
    have hsign : sign (s ++ c :: (t ++ r)) = (s, c :: (t ++ r)) := by
      rcases hs with rfl | rfl | rfl
      · exact sign_digit h1 _
      · rfl
      · rfl
    simp only [List.cons_append, List.append_assoc, expPart, hsign, if_pos he, h4, h5]
    simp

theorem minus_int {i : Bytes} (h : JsonInt i) (r : Bytes) : minus (i ++ r) = ([], i ++ r) := by
  cases h with
  | zero => rfl
  | @pos c t h1 h2 h3 =>
    unfold IsDigit at h1
    simp only [List.cons_append, minus]
    rw [if_neg]
    rintro rfl
    simp at h1

theorem frac_head {f : Bytes} (h : JsonFrac f) : ∀ b s, f = b :: s → b = 46 := by
  intro b s hb
  cases h with
  | none => cases hb
  | some => cases hb; rfl

theorem exp_head {e : Bytes} (h : JsonExp e) : ∀ b s, e = b :: s → b = 101 ∨ b = 69 := by
  intro b s hb
  cases h with
  | none => cases hb
  | some h => cases hb; exact h

theorem number_of {m i f e r : Bytes} (hm : m = [] ∨ m = [45]) (hi : JsonInt i) (hf : JsonFrac f) (he : JsonExp e)
    (hr : Stop r) : number (m ++ (i ++ (f ++ (e ++ r)))) = some (mkNumber m i f e, r) := by
  have h0 : minus (m ++ (i ++ (f ++ (e ++ r)))) = (m, i ++ (f ++ (e ++ r))) := by
    rcases hm with rfl | rfl
    · exact minus_int hi _
    · rfl
  have hE : ∀ b s, e ++ r = b :: s → ¬ IsDigit b ∧ b ≠ 46 := by
    intro b s hb
    cases he' : e with
    | nil => rw [he'] at hb; exact ⟨(hr b s hb).1, (hr b s hb).2.1⟩
    | cons x t =>
      have hx := exp_head he x t he'
      rw [he'] at hb
      simp only [List.cons_append, List.cons.injEq] at hb
      rw [← hb.1]
      rcases hx with rfl | rfl <;> simp [IsDigit]
  have hF : ∀ b s, f ++ (e ++ r) = b :: s → ¬ IsDigit b := by
    intro b s hb
    cases hf' : f with
    | nil => rw [hf'] at hb; exact (hE b s hb).1
    | cons x t =>
      have hx := frac_head hf x t hf'
      rw [hf'] at hb
      simp only [List.cons_append, List.cons.injEq] at hb
      rw [← hb.1, hx]; simp [IsDigit]
  have h1 := intPart_of hi hF
  have h2 := fracPart_of hf hE
  have h3 := expPart_of he fun b s hb => ⟨(hr b s hb).1, (hr b s hb).2.2⟩
  simp only [number, h0, h1, h2, h3, Option.bind_eq_bind, Option.bind_some]

theorem digitsVal_of {i : Bytes} {n : Nat} (h : Numeral 10 i n) : digitsVal i = n := by
  have key : ∀ (t : Bytes) (a n : Nat), parseDigits 10 t a = some n →
      t.foldl (fun a b => a * 10 + (b.toNat - 48)) a = n := by
    intro t
    induction t with
    | nil => intro a n h; simpa [parseDigits] using h
    | cons c t ih =>
      intro a n h
      simp only [parseDigits] at h
      split at h
      · exact ih _ _ h
      · cases h
  exact key i 0 n (parseDigits_numeral (by decide) h)

/-- The start of a number. -/
theorem int_head {i : Bytes} (h : JsonInt i) : ∃ b t, i = b :: t ∧ IsDigit b := by
  cases h with
  | zero => exact ⟨48, [], rfl, by simp [IsDigit]⟩
  | @pos c t h1 => exact ⟨c, t, rfl, h1⟩

/-- Where the reader expects a value and finds a sign or a digit, it reads a number. -/
theorem value_number {b : Byte} (hb : b = 45 ∨ IsDigit b) (n d : Nat) (r : Bytes) :
    value (n + 1) d (b :: r) = number (b :: r) := by
  have hs : isSpace b = false := by
    cases h : isSpace b with
    | false => rfl
    | true =>
      rw [isSpace_iff] at h
      unfold IsDigit at hb
      rcases hb with rfl | hb
      · simp at h
      · rcases h with rfl | rfl | rfl | rfl <;> simp at hb
  have hne : ∀ c : Byte, (c ≠ 45 ∧ ¬ (48 ≤ c.toNat ∧ c.toNat ≤ 57)) → b ≠ c := by
    rintro c ⟨h1, h2⟩ rfl
    rcases hb with h | h
    · exact h1 h
    · exact h2 h
  simp only [value, skip_cons hs]
  rw [if_neg (hne 34 (by decide)), if_neg (hne 91 (by decide)), if_neg (hne 123 (by decide)),
    if_neg (hne 110 (by decide)), if_neg (hne 116 (by decide)), if_neg (hne 102 (by decide))]

/-! ## Values -/

theorem head_of {x : Thing} {t : Bytes} (h : Means x t) : ∀ j, x = .val j →
    ∃ b r, t = b :: r ∧ isSpace b = false ∧ b ≠ 93 ∧ b ≠ 125 ∧ b ≠ 44 := by
  have digit : ∀ b : Byte, IsDigit b → isSpace b = false ∧ b ≠ 93 ∧ b ≠ 125 ∧ b ≠ 44 := by
    intro b hb
    unfold IsDigit at hb
    refine ⟨?_, ?_, ?_, ?_⟩
    · cases hs : isSpace b with
      | false => rfl
      | true => rw [isSpace_iff] at hs; rcases hs with rfl | rfl | rfl | rfl <;> simp at hb
    all_goals (rintro rfl; simp at hb)
  cases h <;> intro j hj <;> (try cases hj)
  case null => exact ⟨_, _, rfl, by decide⟩
  case tru => exact ⟨_, _, rfl, by decide⟩
  case fls => exact ⟨_, _, rfl, by decide⟩
  case nat h _ => obtain ⟨b, r, rfl, hb⟩ := int_head h; exact ⟨b, r, rfl, digit b hb⟩
  case neg => exact ⟨_, _, rfl, by decide⟩
  case frac s i f e hs hi hf he _ =>
    obtain ⟨b, r, rfl, hb⟩ := int_head hi
    rcases hs with rfl | rfl
    · exact ⟨b, _, rfl, digit b hb⟩
    · exact ⟨45, _, rfl, by decide⟩
  case str => exact ⟨_, _, rfl, by decide⟩
  case arr0 => exact ⟨_, _, rfl, by decide⟩
  case arr => exact ⟨_, _, rfl, by decide⟩
  case obj0 => exact ⟨_, _, rfl, by decide⟩
  case obj => exact ⟨_, _, rfl, by decide⟩

theorem stop_cons {b : Byte} (h : ¬ IsDigit b ∧ b ≠ 46 ∧ b ≠ 101 ∧ b ≠ 69) (t : Bytes) : Stop (b :: t) := by
  intro c s hc
  simp only [List.cons.injEq] at hc
  rw [← hc.1]; exact h

theorem stop_ws {w : Bytes} (h : IsWs w) {r : Bytes} (hr : Stop r) : Stop (w ++ r) := by
  cases w with
  | nil => exact hr
  | cons b w =>
    refine stop_cons ?_ _
    rcases h b (by simp) with rfl | rfl | rfl | rfl <;> simp [IsDigit]

theorem stop_44 (t : Bytes) : Stop (44 :: t) := stop_cons (by simp [IsDigit]) t
theorem stop_93 (t : Bytes) : Stop (93 :: t) := stop_cons (by simp [IsDigit]) t
theorem stop_125 (t : Bytes) : Stop (125 :: t) := stop_cons (by simp [IsDigit]) t

theorem value_ws {w : Bytes} (h : IsWs w) (n d : Nat) (s : Bytes) : value n d (w ++ s) = value n d s := by
  cases n with
  | zero => rfl
  | succ n => simp only [value, skip_ws h]

/-- What holds of the reader at a piece of text. -/
def Reads : Thing → Bytes → Prop
  | .val j, t => ∀ (n d : Nat) (r : Bytes), 2 * t.length ≤ n → depth j ≤ d → Stop r → value n d (t ++ r) = some (j, r)
  | .elems js, t => ∀ (n d : Nat) (r : Bytes), 2 * t.length < n → depths js ≤ d →
      expect 93 (t ++ 93 :: r) = none ∧ elems n d (t ++ 93 :: r) = some (js, r)
  | .members ms, t => ∀ (n d : Nat) (r : Bytes), 2 * t.length < n → depthm ms ≤ d →
      expect 125 (t ++ 125 :: r) = none ∧ members n d (t ++ 125 :: r) = some (ms, r)

theorem fuel {t : Bytes} {n : Nat} {b : Byte} (h : 2 * (b :: t).length ≤ n) : ∃ m, n = m + 2 ∧ 2 * t.length ≤ m :=
  ⟨n - 2, by simp at h; omega, by simp at h; omega⟩

theorem number_value {m i f e : Bytes} (hm : m = [] ∨ m = [45]) (hi : JsonInt i) (hf : JsonFrac f) (he : JsonExp e)
    (n d : Nat) (r : Bytes) (hn : 2 * (m ++ (i ++ (f ++ e))).length ≤ n) (hr : Stop r) :
    value n d ((m ++ (i ++ (f ++ e))) ++ r) = some (mkNumber m i f e, r) := by
  have h1 := number_of hm hi hf he hr
  obtain ⟨b, t, hb, hd⟩ := int_head hi
  have : ∃ c s, m ++ (i ++ (f ++ (e ++ r))) = c :: s ∧ (c = 45 ∨ IsDigit c) := by
    rcases hm with rfl | rfl
    · exact ⟨b, _, by rw [hb]; rfl, Or.inr hd⟩
    · exact ⟨45, _, rfl, Or.inl rfl⟩
  obtain ⟨c, s, hc, hcd⟩ := this
  simp only [List.append_assoc] at hn ⊢
  cases n with
  | zero => rw [hb] at hn; simp at hn
  | succ n =>
    rw [hc] at h1 ⊢
    rw [value_number hcd, h1]

theorem reads {x : Thing} {t : Bytes} (h : Means x t) : Reads x t := by
  induction h with
  | null =>
    intro n d r hn _ _
    obtain ⟨m, rfl, _⟩ := fuel hn
    rfl
  | tru =>
    intro n d r hn _ _
    obtain ⟨m, rfl, _⟩ := fuel hn
    rfl
  | fls =>
    intro n d r hn _ _
    obtain ⟨m, rfl, _⟩ := fuel hn
    rfl
  | @nat i k h1 h2 =>
    intro n d r hn _ hr
    have := number_value (m := []) (Or.inl rfl) h1 .none .none n d r (by simpa using hn) hr
    simpa [mkNumber, digitsVal_of h2] using this
  | @neg i k h1 h2 =>
    intro n d r hn _ hr
    have := number_value (m := [45]) (Or.inr rfl) h1 .none .none n d r (by simpa using hn) hr
    simpa [mkNumber, digitsVal_of h2] using this
  | @frac s i f e hs hi hf he hne =>
    intro n d r hn _ hr
    have := number_value hs hi hf he n d r hn hr
    rw [this]
    have : ¬ (f = [] ∧ e = []) := by rintro ⟨rfl, rfl⟩; exact hne rfl
    simp only [mkNumber, if_neg this]
  | @str b cs h =>
    intro n d r hn _ _
    obtain ⟨m, rfl, _⟩ := fuel hn
    simp only [List.cons_append, List.append_assoc, List.nil_append, value]
    rw [skip_cons (by decide)]
    simp only [if_true, chars_of' h]
    rfl
  | @arr0 w h =>
    intro n d r hn hd _
    obtain ⟨m, rfl, hm⟩ := fuel hn
    cases d with
    | zero => simp [depth] at hd
    | succ d =>
      simp only [List.cons_append, List.append_assoc, List.nil_append, value]
      rw [skip_cons (by decide)]
      simp only [show ¬ ((91 : Byte) = 34) by decide, if_false, if_true, array, Nat.succ_ne_zero, Nat.add_sub_cancel, expect_ws h]
      rw [expect_cons (by decide)]
      rfl
  | @arr es js _ ih =>
    intro n d r hn hd _
    obtain ⟨m, rfl, hm⟩ := fuel hn
    cases d with
    | zero => simp [depth] at hd
    | succ d =>
      have := ih m d r (by simp at hm; omega) (by simp [depth] at hd; omega)
      simp only [List.cons_append, List.append_assoc, List.nil_append, value]
      rw [skip_cons (by decide)]
      simp only [show ¬ ((91 : Byte) = 34) by decide, if_false, if_true, array, Nat.succ_ne_zero, Nat.add_sub_cancel, this.1, this.2]
      rfl
  | @obj0 w h =>
    intro n d r hn hd _
    obtain ⟨m, rfl, hm⟩ := fuel hn
    cases d with
    | zero => simp [depth] at hd
    | succ d =>
      simp only [List.cons_append, List.append_assoc, List.nil_append, value]
      rw [skip_cons (by decide)]
      simp only [show ¬ ((123 : Byte) = 34) by decide, show ¬ ((123 : Byte) = 91) by decide, if_false, if_true, object, Nat.succ_ne_zero, Nat.add_sub_cancel,
        expect_ws h]
      rw [expect_cons (by decide)]
      rfl
  | @obj t ms _ ih =>
    intro n d r hn hd _
    obtain ⟨m, rfl, hm⟩ := fuel hn
    cases d with
    | zero => simp [depth] at hd
    | succ d =>
      have := ih m d r (by simp at hm; omega) (by simp [depth] at hd; omega)
      simp only [List.cons_append, List.append_assoc, List.nil_append, value]
      rw [skip_cons (by decide)]
      simp only [show ¬ ((123 : Byte) = 34) by decide, show ¬ ((123 : Byte) = 91) by decide, if_false, if_true, object, Nat.succ_ne_zero, Nat.add_sub_cancel,
        this.1, this.2]
      rfl
  | @elem1 w v w' j h1 hv h2 ih =>
    intro n d r hn hd
    obtain ⟨b, s, hb, hs, h93, _, _⟩ := head_of hv j rfl
    simp only [List.append_assoc]
    refine ⟨?_, ?_⟩
    · rw [expect_ws h1, hb, List.cons_append, expect_cons hs, if_neg h93]
    · cases n with
      | zero => omega
      | succ n =>
        simp only [elems, value_ws h1]
        rw [ih n d (w' ++ 93 :: r) (by simp at hn; omega) (by simp [depths] at hd; omega) (stop_ws h2 (stop_93 r))]
        simp only [Option.bind_some, expect_ws h2]
        rw [expect_cons (by decide), expect_cons (by decide)]
        rfl
  | @elemS w v w' es j js h1 hv h2 _ ih ih' =>
    intro n d r hn hd
    obtain ⟨b, s, hb, hs, h93, _, _⟩ := head_of hv j rfl
    simp only [List.append_assoc]
    refine ⟨?_, ?_⟩
    · rw [expect_ws h1, hb, List.cons_append, expect_cons hs, if_neg h93]
    · cases n with
      | zero => omega
      | succ n =>
        simp only [elems, value_ws h1, List.cons_append]
        rw [ih n d (w' ++ 44 :: (es ++ 93 :: r)) (by simp at hn; omega) (by simp [depths] at hd; omega)
          (stop_ws h2 (stop_44 _))]
        simp only [Option.bind_some, expect_ws h2]
        rw [expect_cons (by decide)]
        simp only [if_true]
        rw [(ih' n d r (by simp at hn; omega) (by simp [depths] at hd; omega)).2]
        rfl
  | @mem1 w b k w' u v w'' j h1 hk h2 hu hv h3 ih =>
    intro n d r hn hd
    simp only [List.append_assoc, List.cons_append]
    refine ⟨?_, ?_⟩
    · rw [expect_ws h1, expect_cons (by decide)]; rfl
    · cases n with
      | zero => omega
      | succ n =>
        simp only [members, expect_ws h1]
        rw [expect_cons (by decide)]
        simp only [if_true, Option.bind_some, chars_of' hk, expect_ws h2]
        rw [expect_cons (by decide)]
        simp only [if_true, Option.bind_some, value_ws hu]
        rw [ih n d (w'' ++ 125 :: r) (by simp at hn; omega) (by simp [depthm] at hd; omega) (stop_ws h3 (stop_125 r))]
        simp only [Option.bind_some, expect_ws h3]
        rw [expect_cons (by decide), expect_cons (by decide)]
        rfl
  | @memS w b k w' u v w'' t j ms h1 hk h2 hu hv h3 _ ih ih' =>
    intro n d r hn hd
    simp only [List.append_assoc, List.cons_append]
    refine ⟨?_, ?_⟩
    · rw [expect_ws h1, expect_cons (by decide)]; rfl
    · cases n with
      | zero => omega
      | succ n =>
        simp only [members, expect_ws h1]
        rw [expect_cons (by decide)]
        simp only [if_true, Option.bind_some, chars_of' hk, expect_ws h2]
        rw [expect_cons (by decide)]
        simp only [if_true, Option.bind_some, value_ws hu]
        rw [ih n d (w'' ++ 44 :: (t ++ 125 :: r)) (by simp at hn; omega) (by simp [depthm] at hd; omega)
          (stop_ws h3 (stop_44 _))]
        simp only [Option.bind_some, expect_ws h3]
        rw [expect_cons (by decide)]
        simp only [if_true]
        rw [(ih' n d r (by simp at hn; omega) (by simp [depthm] at hd; omega)).2]
        rfl

end Verif.JsonText
