import Verif.Model.Debug
import Verif.Spec.Debug
import Verif.Lemmas.Numeral
import Verif.Props.Quote
import Verif.Props.PgQuote

/-!
# Property C84: arguments are printed as literals that denote them, without panic
-/

namespace Verif.Props

open Verif Verif.Debug Verif.Debug.Spec Verif.ColumnType Verif.Quote Verif.Spec.Scan

/-! ### Panics -/

/-- C84, refuted in part: printing panics exactly if the argument is, or a valuer ends in, a nil pointer with a
`Value` method for values, or something that is no basic type. -/
theorem C84_panics_iff (lib : Lib) (d : Dialect) (a : Arg) :
    strf lib d a = .panic ↔ core a = .nilValuer ∨ core a = .other := by
  induction a with
  | valuer v ih => simpa [strf, core] using ih
  | _ => simp [strf, core]

/-- Printing never returns an error, and a valuer is printed as its value. -/
theorem C84_valuer (lib : Lib) (d : Dialect) (a : Arg) : strf lib d a = strf lib d (core a) := by
  induction a with
  | valuer v ih => simpa [strf, core] using ih
  | _ => rfl

/-! ### Null, truth values, integers -/

theorem C84_null (lib : Lib) (d : Dialect) : strf lib d .null = .ok [78, 85, 76, 76] := by rfl

theorem C84_bool (lib : Lib) (d : Dialect) (b : Bool) :
    strf lib d (.bool b) = .ok (if b then [116, 114, 117, 101] else [102, 97, 108, 115, 101]) := by
  cases b <;> rfl

/-- Integers are printed as numerals for them. -/
theorem C84_int (lib : Lib) (d : Dialect) (n : Int) :
    ∃ t, strf lib d (.int n) = .ok t ∧ Verif.Spec.SignedNumeral t n := ⟨_, rfl, intDec_numeral n⟩

theorem C84_uint (lib : Lib) (d : Dialect) (n : Nat) :
    ∃ t, strf lib d (.uint n) = .ok t ∧ Verif.Spec.Numeral 10 t n := ⟨_, rfl, natDec_numeral n⟩

/-! ### Texts -/

/-- C84 for PostgreSQL: every text is printed as a literal that denotes it. -/
theorem C84_text_pg (lib : Lib) (s : List Char) :
    ∃ t, strf lib .postgres (.str s) = .ok t ∧ Verif.Spec.lexEString t = some (utf8s s, []) := by
  refine ⟨_, rfl, ?_⟩
  have := C11_quote_is_one_literal (utf8s s) [] (by simp) rfl
  rw [List.append_nil] at this
  rw [quoteText, flatMap_encode]
  exact this

private theorem mysqlBody_cons {c : Byte} (h1 : c ≠ 34) (h2 : c ≠ 92) (r : Bytes) :
    mysqlBody (c :: r) = (mysqlBody r).map fun p => (c :: p.1, p.2) := by
  cases r with
  | nil => simp [mysqlBody, h1]
  | cons d r => simp [mysqlBody, h1, h2]

private theorem mysqlBody_append {a : Bytes} (ha : ∀ b ∈ a, b ≠ 34 ∧ b ≠ 92) (r : Bytes) :
    mysqlBody (a ++ r) = (mysqlBody r).map fun p => (a ++ p.1, p.2) := by
  induction a with
  | nil => simp
  | cons c a ih =>
    have hc := ha c List.mem_cons_self
    rw [List.cons_append, mysqlBody_cons hc.1 hc.2, ih fun b hb => ha b (List.mem_cons_of_mem _ hb)]
    cases mysqlBody r <;> simp

private theorem mysqlBody_esc (d : Byte) (r : Bytes) :
    mysqlBody (92 :: d :: r) = (mysqlBody r).map fun p => (mysqlEscape d ++ p.1, p.2) := by
  simp [mysqlBody]

private theorem hexDigit_bs (n : Nat) : Quote.hexDigit n ≠ 92 := by
  have h92 : (92 : Byte).toNat = 92 := rfl
  unfold Quote.hexDigit
  intro h
  split at h <;> (have := congrArg UInt8.toNat h; rw [Scan.toNat_ofNat_lt (by omega)] at this; omega)

private theorem hexDigits_plain (n x : Nat) : ∀ b ∈ hexDigits n x, b ≠ 34 ∧ b ≠ 92 := by
  induction n generalizing x with
  | zero => simp [hexDigits]
  | succ n ih =>
    intro b hb
    simp only [hexDigits, List.mem_append, List.mem_singleton] at hb
    rcases hb with hb | rfl
    · exact ih _ b hb
    · exact ⟨hexDigit_ne x, hexDigit_bs x⟩

/-- What MySQL reads for a character. -/
private def image (printable : Char → Bool) (c : Char) : Bytes :=
  if c = '"' ∨ c = '\\' then [UInt8.ofNat c.toNat]
  else if printable c then utf8 c
  else if c.toNat = 7 then [97]
  else if c.toNat = 8 then [8]
  else if c.toNat = 12 then [102]
  else if c.toNat = 10 then [10]
  else if c.toNat = 13 then [13]
  else if c.toNat = 9 then [9]
  else if c.toNat = 11 then [118]
  else if c.toNat < 32 ∨ c.toNat = 127 then 120 :: hexDigits 2 c.toNat
  else if c.toNat < 0x10000 then 117 :: hexDigits 4 c.toNat
  else 85 :: hexDigits 8 c.toNat

private theorem mysqlBody_quoteChar (printable : Char → Bool) (c : Char) (r : Bytes) :
    mysqlBody (quoteChar printable c ++ r) = (mysqlBody r).map fun p => (image printable c ++ p.1, p.2) := by
  unfold quoteChar image
  by_cases h1 : c = '"' ∨ c = '\\'
  · simp only [if_pos h1]
    rcases h1 with rfl | rfl
    · exact mysqlBody_esc 34 r
    · exact mysqlBody_esc 92 r
  simp only [if_neg h1]
  rw [not_or] at h1
  by_cases h2 : printable c = true
  · simp only [if_pos h2]
    apply mysqlBody_append
    intro b hb
    constructor
    · rintro rfl
      exact h1.1 (char_eq.1 ((mem_utf8 (b := 34) (by decide)).1 hb))
    · rintro rfl
      exact h1.2 (char_eq.1 ((mem_utf8 (b := 92) (by decide)).1 hb))
  simp only [if_neg h2]
  have hex : ∀ (x : Byte) (n : Nat), mysqlEscape x = [x] →
      mysqlBody ([92, x] ++ hexDigits n c.toNat ++ r) =
        (mysqlBody r).map fun p => (x :: hexDigits n c.toNat ++ p.1, p.2) := by
    intro x n hx
    rw [List.append_assoc]
    show mysqlBody (92 :: x :: (hexDigits n c.toNat ++ r)) = _
    rw [mysqlBody_esc, mysqlBody_append (hexDigits_plain n _), hx]
    cases mysqlBody r <;> simp
  by_cases h3 : c.toNat = 7
  · simp only [if_pos h3]; exact mysqlBody_esc 97 r
  simp only [if_neg h3]
  by_cases h4 : c.toNat = 8
  · simp only [if_pos h4]; exact mysqlBody_esc 98 r
  simp only [if_neg h4]
  by_cases h5 : c.toNat = 12
  · simp only [if_pos h5]; exact mysqlBody_esc 102 r
  simp only [if_neg h5]
  by_cases h6 : c.toNat = 10
  · simp only [if_pos h6]; exact mysqlBody_esc 110 r
  simp only [if_neg h6]
  by_cases h7 : c.toNat = 13
  · simp only [if_pos h7]; exact mysqlBody_esc 114 r
  simp only [if_neg h7]
  by_cases h8 : c.toNat = 9
  · simp only [if_pos h8]; exact mysqlBody_esc 116 r
  simp only [if_neg h8]
  by_cases h9 : c.toNat = 11
  · simp only [if_pos h9]; exact mysqlBody_esc 118 r
  simp only [if_neg h9]
  by_cases h10 : c.toNat < 32 ∨ c.toNat = 127
  · simp only [if_pos h10]; exact hex 120 2 (by decide)
  simp only [if_neg h10]
  by_cases h11 : c.toNat < 0x10000
  · simp only [if_pos h11]; exact hex 117 4 (by decide)
  simp only [if_neg h11]
  exact hex 85 8 (by decide)

private theorem mysqlBody_quoted (printable : Char → Bool) (s : List Char) :
    mysqlBody (s.flatMap (quoteChar printable) ++ [34]) = some (s.flatMap (image printable), []) := by
  induction s with
  | nil => simp [mysqlBody]
  | cons c s ih =>
    rw [List.flatMap_cons, List.append_assoc, mysqlBody_quoteChar, ih, List.flatMap_cons]; rfl

/-- Characters that MySQL reads back: printable ones, quotes, backslashes, and four of the control characters. -/
private def Kept (printable : Char → Bool) (c : Char) : Prop :=
  printable c = true ∨ c = '"' ∨ c = '\\' ∨ c.toNat = 8 ∨ c.toNat = 9 ∨ c.toNat = 10 ∨ c.toNat = 13

/-- `strconv.IsPrint` holds of the letters. -/
private def Letters (printable : Char → Bool) : Prop :=
  ∀ c : Char, (65 ≤ c.toNat ∧ c.toNat ≤ 90) ∨ (97 ≤ c.toNat ∧ c.toNat ≤ 122) → printable c = true

private theorem image_kept {printable : Char → Bool} {c : Char} (h : Kept printable c) :
    image printable c = utf8 c := by
  unfold image
  by_cases h1 : c = '"' ∨ c = '\\'
  · rw [if_pos h1]
    rcases h1 with rfl | rfl <;> rfl
  rw [if_neg h1]
  rw [not_or] at h1
  by_cases h2 : printable c = true
  · rw [if_pos h2]
  rw [if_neg h2]
  have ha : ∀ n : Nat, n < 128 → c.toNat = n → utf8 c = [UInt8.ofNat n] := by
    intro n hn e
    rw [Scan.utf8_ascii (by omega), e]
  rcases h with h | h | h | h | h | h | h
  · exact absurd h h2
  · exact absurd h h1.1
  · exact absurd h h1.2
  · rw [ha 8 (by decide) h]; simp [h]
  · rw [ha 9 (by decide) h]; simp [h]
  · rw [ha 10 (by decide) h]; simp [h]
  · rw [ha 13 (by decide) h]; simp [h]

private theorem image_lost {printable : Char → Bool} (hl : Letters printable) {c : Char}
    (h : ¬ Kept printable c) : ∃ x l, image printable c = x :: l ∧ ∀ y m, utf8 c = y :: m → y ≠ x := by
  unfold Kept at h
  simp only [not_or] at h
  obtain ⟨h2, h1, h1', h4, h8, h6, h7⟩ := h
  -- a letter at the head means that the character is that letter, which is printable
  have key : ∀ x : Byte, (65 ≤ x.toNat ∧ x.toNat ≤ 90) ∨ (97 ≤ x.toNat ∧ x.toNat ≤ 122) →
      ∀ y m, utf8 c = y :: m → y ≠ x := by
    intro x hx y m e he
    subst he
    have hm : y ∈ utf8 c := by rw [e]; exact List.mem_cons_self
    have := (mem_utf8 (b := y) (by omega)).1 hm
    exact h2 (hl c (by omega))
  unfold image
  rw [if_neg (by simp [h1, h1']), if_neg h2]
  by_cases h3 : c.toNat = 7
  · rw [if_pos h3]; exact ⟨97, [], rfl, key 97 (by decide)⟩
  rw [if_neg h3, if_neg h4]
  by_cases h5 : c.toNat = 12
  · rw [if_pos h5]; exact ⟨102, [], rfl, key 102 (by decide)⟩
  rw [if_neg h5, if_neg h6, if_neg h7, if_neg h8]
  by_cases h9 : c.toNat = 11
  · rw [if_pos h9]; exact ⟨118, [], rfl, key 118 (by decide)⟩
  rw [if_neg h9]
  by_cases h10 : c.toNat < 32 ∨ c.toNat = 127
  · rw [if_pos h10]; exact ⟨120, _, rfl, key 120 (by decide)⟩
  rw [if_neg h10]
  by_cases h11 : c.toNat < 0x10000
  · rw [if_pos h11]; exact ⟨117, _, rfl, key 117 (by decide)⟩
  rw [if_neg h11]
  exact ⟨85, _, rfl, key 85 (by decide)⟩

/-- C84 for MySQL, exactly: a text is printed as a literal that MySQL reads as this text if and only if all its
characters are printable, or are backspace, tabulator, line feed or carriage return. -/
theorem C84_text_mysql_iff_partial (lib : Lib)
    (hl : ∀ c : Char, (65 ≤ c.toNat ∧ c.toNat ≤ 90) ∨ (97 ≤ c.toNat ∧ c.toNat ≤ 122) → lib.printable c = true)
    (s : List Char) :
    (∃ t, strf lib .mysql (.str s) = .ok t ∧ mysqlString t = some (utf8s s, [])) ↔
      ∀ c ∈ s, lib.printable c = true ∨ c = '"' ∨ c = '\\' ∨ c.toNat = 8 ∨ c.toNat = 9 ∨ c.toNat = 10 ∨
        c.toNat = 13 := by
  have e : mysqlString (strconvQuote lib.printable s) = some (s.flatMap (image lib.printable), []) := by
    simp only [strconvQuote, mysqlString, if_true]
    exact mysqlBody_quoted lib.printable s
  have e2 : (∃ t, strf lib .mysql (.str s) = .ok t ∧ mysqlString t = some (utf8s s, [])) ↔
      s.flatMap (image lib.printable) = utf8s s := by
    constructor
    · rintro ⟨t, h1, h2⟩
      simp only [strf, quoteText, Res.ok.injEq] at h1
      subst h1
      rw [e] at h2
      simpa using h2
    · intro h
      exact ⟨_, rfl, by rw [quoteText, e, h]; simp⟩
  rw [e2]
  clear e e2
  induction s with
  | nil => simp [utf8s]
  | cons c s ih =>
    rw [List.flatMap_cons, Scan.utf8s_cons]
    constructor
    · intro h
      have hc : Kept lib.printable c := by
        refine Classical.byContradiction fun hk => ?_
        obtain ⟨x, l, hx, hy⟩ := image_lost hl hk
        obtain ⟨y, m, hym⟩ := List.exists_cons_of_ne_nil (Scan.utf8_ne_nil c)
        rw [hx, hym, List.cons_append, List.cons_append, List.cons.injEq] at h
        exact hy y m hym h.1.symm
      rw [image_kept hc] at h
      have := List.append_cancel_left h
      intro d hd
      rcases List.mem_cons.1 hd with rfl | hd
      · exact hc
      · exact ih.1 this d hd
    · intro h
      rw [image_kept (h c List.mem_cons_self), ih.2 fun d hd => h d (List.mem_cons_of_mem _ hd)]

/-- C84, refuted for MySQL: a text with a null character is never read back. -/
theorem C84_mysql_nul (lib : Lib)
    (hl : ∀ c : Char, (65 ≤ c.toNat ∧ c.toNat ≤ 90) ∨ (97 ≤ c.toNat ∧ c.toNat ≤ 122) → lib.printable c = true)
    (h0 : lib.printable (Char.ofNat 0) = false) (s : List Char) (hs : Char.ofNat 0 ∈ s) :
    ¬ ∃ t, strf lib .mysql (.str s) = .ok t ∧ mysqlString t = some (utf8s s, []) := by
  rw [C84_text_mysql_iff_partial lib hl]
  intro h
  have := h _ hs
  rw [h0] at this
  revert this
  decide

/-- C84 for SQLite, exactly.  There a text in double quotes is an identifier, which is taken for a string if there is
no such column; it is read as this text if and only if the text is not empty and consists of printable characters
other than the double quote and the backslash. -/
theorem C84_text_sqlite_iff_partial (lib : Lib) (s : List Char) :
    (∃ t, strf lib .sqlite (.str s) = .ok t ∧ Verif.Spec.Quote.identifier 34 t = some (utf8s s, [])) ↔
      s ≠ [] ∧ ∀ c ∈ s, lib.printable c = true ∧ c ≠ '"' ∧ c ≠ '\\' := by
  rw [← C55_pg_iff lib.printable .sqlite (.inr rfl) s]
  constructor
  · rintro ⟨t, h1, h2⟩
    simp only [strf, quoteText, Res.ok.injEq] at h1
    subst h1; exact h2
  · intro h; exact ⟨_, rfl, h⟩

/-! ### Byte strings in PostgreSQL -/

private theorem hex_length {t v : Bytes} (h : Verif.Spec.HexText t v) : t.length = 2 * v.length := by
  induction h with
  | nil => rfl
  | cons _ _ _ ih => simp [ih]; omega

private theorem esc_length {t v : Bytes} (h : Verif.Spec.EscText t v) :
    v.length ≤ t.length ∧ (92 ∈ t → v.length < t.length) := by
  induction h with
  | nil => simp
  | raw hx _ ih =>
    simp only [List.length_cons, List.mem_cons]
    refine ⟨by omega, ?_⟩
    rintro (h | h)
    · exact absurd h.symm hx
    · have := ih.2 h; omega
  | bs _ ih => simp only [List.length_cons]; exact ⟨by omega, fun _ => by omega⟩
  | oct _ _ _ _ _ ih => simp only [List.length_cons]; exact ⟨by omega, fun _ => by omega⟩

/-- C84 for byte strings in PostgreSQL, exactly: the literal is the text of the bytes; taken as a `bytea` it is these
bytes if and only if there is no backslash among them. -/
theorem C84_bytes_pg_iff_partial (lib : Lib) (s : List Char) :
    ∃ t, strf lib .postgres (.bytes s) = .ok t ∧ Verif.Spec.lexEString t = some (utf8s s, []) ∧
      (ByteaOf (utf8s s) (utf8s s) ↔ '\\' ∉ s) := by
  obtain ⟨t, h1, h2⟩ := C84_text_pg lib s
  refine ⟨t, h1, h2, ?_⟩
  have hm : (92 : Byte) ∈ utf8s s ↔ '\\' ∈ s := by
    rw [mem_utf8s (by decide)]
    constructor
    · rintro ⟨c, hc, e⟩
      have : c = '\\' := char_eq.1 e
      rwa [this] at hc
    · intro h; exact ⟨_, h, rfl⟩
  rw [← hm]
  constructor
  · rintro (⟨r, e, h⟩ | ⟨_, h⟩) hin
    · have := hex_length h
      have := congrArg List.length e
      simp only [List.length_cons] at this
      omega
    · have := (esc_length h).2 hin
      omega
  · intro h
    right
    refine ⟨fun r e => h (by rw [e]; exact List.mem_cons_self), ?_⟩
    revert h
    generalize utf8s s = l
    intro h
    induction l with
    | nil => exact .nil
    | cons x l ih =>
      exact .raw (fun e => h (by rw [e]; exact List.mem_cons_self)) (ih fun e => h (List.mem_cons_of_mem _ e))

/-! ### Floating point numbers -/

private theorem fixed_length (k n : Nat) : (fixedDigits k n).length = k := by
  induction k generalizing n with
  | zero => rfl
  | succ k ih => simp [fixedDigits, ih]

private theorem fixed_numeral (k n : Nat) (h : n < 10 ^ (k + 1)) : Verif.Spec.Numeral 10 (fixedDigits (k + 1) n) n := by
  induction k generalizing n with
  | zero =>
    have : n < 10 := by simpa using h
    have := Verif.Spec.Numeral.one this
    simpa [fixedDigits, Nat.mod_eq_of_lt (show n < 10 by simpa using h)] using this
  | succ k ih =>
    have h1 : n / 10 < 10 ^ (k + 1) := by
      rw [Nat.div_lt_iff_lt_mul (by decide)]
      rwa [Nat.pow_succ] at h
    have := Verif.Spec.Numeral.snoc (ih _ h1) (Nat.mod_lt n (show 0 < 10 by decide))
    rw [show 10 * (n / 10) + n % 10 = n by omega] at this
    exact this

private theorem mod_numeral (k m : Nat) :
    Verif.Spec.Numeral 10 (fixedDigits (k + 1) (m % 10 ^ (k + 1))) (m % 10 ^ (k + 1)) :=
  fixed_numeral k _ (Nat.mod_lt _ (Nat.pow_pos (by decide)))

private theorem numeral_fun {t : Bytes} {a b : Nat} (h1 : Verif.Spec.Numeral 10 t a)
    (h2 : Verif.Spec.Numeral 10 t b) : a = b := by
  have e1 := parseDigits_numeral (by decide) h1
  have e2 := parseDigits_numeral (by decide) h2
  rw [e1] at e2
  simpa using e2

private theorem split_point {a b a' b' : Bytes} (ha : (46 : Byte) ∉ a) (ha' : (46 : Byte) ∉ a')
    (h : a ++ 46 :: b = a' ++ 46 :: b') : a = a' ∧ b = b' := by
  induction a generalizing a' with
  | nil =>
    cases a' with
    | nil => simpa using h
    | cons x a' =>
      rw [List.nil_append, List.cons_append, List.cons.injEq] at h
      exact absurd (by rw [h.1]; exact List.mem_cons_self) ha'
  | cons x a ih =>
    cases a' with
    | nil =>
      rw [List.nil_append, List.cons_append, List.cons.injEq] at h
      exact absurd (by rw [← h.1]; exact List.mem_cons_self) ha
    | cons y a' =>
      rw [List.cons_append, List.cons_append, List.cons.injEq] at h
      obtain ⟨h1, h2⟩ := ih (fun e => ha (List.mem_cons_of_mem _ e)) (fun e => ha' (List.mem_cons_of_mem _ e)) h.2
      exact ⟨by rw [h.1, h1], h2⟩

private theorem numeral_no_point {t : Bytes} {n : Nat} (h : Verif.Spec.Numeral 10 t n) : (46 : Byte) ∉ t := by
  intro hm
  have := h.digits (by decide) _ hm
  revert this; decide

private theorem numeral_head {t : Bytes} {n : Nat} (h : Verif.Spec.Numeral 10 t n) :
    ∃ c r, t = c :: r ∧ c ≠ 45 := by
  cases t with
  | nil => exact absurd rfl h.ne_nil
  | cons c r =>
    refine ⟨c, r, rfl, ?_⟩
    rintro rfl
    have := h.digits (by decide) 45 List.mem_cons_self
    revert this; decide

private theorem decimal_plain {a b : Bytes} {x y : Nat} (ha : Verif.Spec.Numeral 10 a x)
    (hb : Verif.Spec.Numeral 10 b y) {n : Int} {k : Nat} (h : Decimal (a ++ 46 :: b) n k) :
    n = ((x * 10 ^ b.length + y : Nat) : Int) ∧ k = b.length := by
  generalize ht : a ++ 46 :: b = t at h
  cases h with
  | plain ha' hb' =>
    obtain ⟨e1, e2⟩ := split_point (numeral_no_point ha) (numeral_no_point ha') ht
    subst e1; subst e2
    rw [numeral_fun ha ha', numeral_fun hb hb']
    exact ⟨rfl, rfl⟩
  | minus =>
    obtain ⟨c, r, e, hc⟩ := numeral_head ha
    rw [e, List.cons_append, List.cons.injEq] at ht
    exact absurd ht.1 hc

private theorem decimal_minus {t : Bytes} {n : Int} {k : Nat} (h : Decimal (45 :: t) n k) :
    ∃ m, n = -m ∧ Decimal t m k := by
  generalize ht : 45 :: t = u at h
  cases h with
  | plain ha _ =>
    obtain ⟨c, r, e, hc⟩ := numeral_head ha
    rw [e, List.cons_append, List.cons.injEq] at ht
    exact absurd ht.1.symm hc
  | minus _ h =>
    rw [List.cons.injEq] at ht
    obtain ⟨_, rfl⟩ := ht
    exact ⟨_, rfl, h⟩

private theorem roundEven_exact (p q : Nat) : roundEven p q * q = p ↔ q ∣ p := by
  constructor
  · intro h; exact ⟨roundEven p q, by rw [Nat.mul_comm]; exact h.symm⟩
  · rintro ⟨m, rfl⟩
    by_cases hq : q = 0
    · subst hq; simp
    · unfold roundEven
      rw [Nat.mul_mod_right, if_pos (by omega), Nat.mul_div_cancel_left _ (by omega), Nat.mul_comm]

private theorem decimal_text (m k : Nat) (hk : 0 < k) (n : Int) (j : Nat) :
    Decimal (natDec (m / 10 ^ k) ++ 46 :: fixedDigits k (m % 10 ^ k)) n j ↔ n = (m : Int) ∧ j = k := by
  obtain ⟨i, rfl⟩ : ∃ i, k = i + 1 := ⟨k - 1, by omega⟩
  have ha := natDec_numeral (m / 10 ^ (i + 1))
  have hb := mod_numeral i m
  have hv : m / 10 ^ (i + 1) * 10 ^ (fixedDigits (i + 1) (m % 10 ^ (i + 1))).length + m % 10 ^ (i + 1) = m := by
    rw [fixed_length, Nat.mul_comm]; exact Nat.div_add_mod m (10 ^ (i + 1))
  constructor
  · intro h
    obtain ⟨e1, e2⟩ := decimal_plain ha hb h
    rw [hv] at e1
    rw [fixed_length] at e2
    exact ⟨e1, e2⟩
  · rintro ⟨rfl, rfl⟩
    have := Decimal.plain ha hb
    rw [hv, fixed_length] at this
    exact this

private theorem signed_text (num : Int) (m : Nat) (a b : Bytes) (hh : ∃ c r, a = c :: r ∧ c ≠ 45) (d : Nat)
    (key : ∀ n k, Decimal (a ++ 46 :: b) n k ↔ n = (m : Int) ∧ k = d) (n : Int) (k : Nat) :
    Decimal ((if num < 0 then [45] else []) ++ (a ++ 46 :: b)) n k ↔
      n = (if num < 0 then -1 else 1) * (m : Int) ∧ k = d := by
  by_cases hneg : num < 0
  · simp only [if_pos hneg, List.cons_append, List.nil_append]
    constructor
    · intro h
      obtain ⟨x, e, h⟩ := decimal_minus h
      obtain ⟨e1, e2⟩ := (key _ _).1 h
      exact ⟨by rw [e, e1]; omega, e2⟩
    · rintro ⟨rfl, rfl⟩
      have : (-1 : Int) * (m : Int) = -(m : Int) := by omega
      rw [this]
      refine .minus ?_ ((key _ _).2 ⟨rfl, rfl⟩)
      obtain ⟨c, r, e, hc⟩ := hh
      exact ⟨c, _, by rw [e, List.cons_append], hc⟩
  · simp only [if_neg hneg, List.nil_append]
    rw [key, Int.one_mul]

private theorem scale_eq : scale = 10 ^ 10 := by decide

/-- The number of ten-billionths that is printed, and its text. -/
private theorem formatFloat_decimal (f : Flt) (n : Int) (k : Nat) :
    Decimal (formatFloat f) n k ↔
      n = (if f.num < 0 then -1 else 1) * (roundEven (f.num.natAbs * scale) (2 ^ f.exp) : Int) ∧ k = 10 := by
  have key := decimal_text (roundEven (f.num.natAbs * scale) (2 ^ f.exp)) 10 (by decide)
  rw [← scale_eq] at key
  exact signed_text f.num _ _ _ (numeral_head (natDec_numeral _)) 10 key n k

/-- C84 for floating point numbers, exactly: the printed number is the argument if and only if it is a whole number of
ten-billionths. -/
theorem C84_float_iff_partial (lib : Lib) (d : Dialect) (f : Flt) :
    ∃ t, strf lib d (.float f) = .ok t ∧
      (DecimalOf t f.num f.exp ↔ 2 ^ f.exp ∣ f.num.natAbs * 10 ^ 10) := by
  refine ⟨_, rfl, ?_⟩
  rw [← scale_eq]
  rw [← roundEven_exact]
  unfold DecimalOf
  have e : (∃ n k, Decimal (formatFloat f) n k ∧ n * 2 ^ f.exp = f.num * 10 ^ k) ↔
      (if f.num < 0 then -1 else 1) * (roundEven (f.num.natAbs * scale) (2 ^ f.exp) : Int) * 2 ^ f.exp =
        f.num * 10 ^ 10 := by
    constructor
    · rintro ⟨n, k, h1, h2⟩
      obtain ⟨rfl, rfl⟩ := (formatFloat_decimal f n k).1 h1
      exact h2
    · intro h
      exact ⟨_, 10, (formatFloat_decimal f _ _).2 ⟨rfl, rfl⟩, h⟩
  rw [e]
  generalize roundEven (f.num.natAbs * scale) (2 ^ f.exp) = m
  have hc : ((m * 2 ^ f.exp : Nat) : Int) = (m : Int) * 2 ^ f.exp := by
    rw [Int.natCast_mul, Int.natCast_pow]; rfl
  by_cases hneg : f.num < 0
  · rw [if_pos hneg]
    rw [show (-1 : Int) * (m : Int) * 2 ^ f.exp = -((m : Int) * 2 ^ f.exp) by
      rw [Int.mul_assoc, Int.neg_mul, Int.one_mul], ← hc]
    generalize m * 2 ^ f.exp = z
    unfold scale
    omega
  · rw [if_neg hneg, Int.one_mul, ← hc]
    generalize m * 2 ^ f.exp = z
    unfold scale
    omega

/-- C84, refuted: a number between zero and half a ten-billionth is printed as zero. -/
theorem C84_small_float (f : Flt) (h : 2 * (f.num.natAbs * 10 ^ 10) ≤ 2 ^ f.exp) (h0 : f.num ≠ 0) :
    Decimal (formatFloat f) 0 10 ∧ ¬ DecimalOf (formatFloat f) f.num f.exp := by
  have hp : 0 < f.num.natAbs := by omega
  have hm : roundEven (f.num.natAbs * scale) (2 ^ f.exp) = 0 := by
    have hlt : f.num.natAbs * scale < 2 ^ f.exp := by rw [← scale_eq] at h; unfold scale at *; omega
    rw [← scale_eq] at h
    unfold roundEven
    rw [Nat.mod_eq_of_lt hlt, Nat.div_eq_of_lt hlt]
    by_cases h1 : 2 * (f.num.natAbs * scale) < 2 ^ f.exp
    · rw [if_pos h1]
    · rw [if_neg h1, if_neg (by omega), if_pos rfl]
  constructor
  · rw [formatFloat_decimal, hm]
    exact ⟨by split <;> rfl, rfl⟩
  · rintro ⟨n, k, h1, h2⟩
    obtain ⟨rfl, rfl⟩ := (formatFloat_decimal f n k).1 h1
    rw [hm] at h2
    omega

/-! ### Times -/

/-- C84, refuted for times in PostgreSQL: they are printed as identifiers, not as literals. -/
theorem C84_time_pg (lib : Lib) (t : Time) (hne : lib.rfc3339 t.sec t.zone ≠ [])
    (hp : ∀ c ∈ lib.rfc3339 t.sec t.zone, lib.printable c = true ∧ c ≠ '"' ∧ c ≠ '\\') :
    ∃ s, strf lib .postgres (.time t) = .ok s ∧ Verif.Spec.lexEString s = none ∧
      Verif.Spec.Quote.identifier 34 s = some (utf8s (lib.rfc3339 t.sec t.zone), []) := by
  refine ⟨_, rfl, ?_, (C55_pg_iff lib.printable .postgres (.inl rfl) _).2 ⟨hne, hp⟩⟩
  simp [strconvQuote, Verif.Spec.lexEString]

/-- C84, refuted for times: the fraction of a second is not printed, so no reading of the texts gives the times
back. -/
theorem C84_time_fraction (lib : Lib) (d : Dialect) :
    ¬ ∃ read : Bytes → Option Time, ∀ t s, strf lib d (.time t) = .ok s → read s = some t := by
  rintro ⟨read, h⟩
  have h1 := h ⟨0, 0, 0⟩ _ rfl
  have h2 := h ⟨0, 1, 0⟩ _ rfl
  rw [h1] at h2
  simp at h2

/-! ### Examples -/

private def lib0 : Lib := { printable := fun c => decide (32 ≤ c.toNat ∧ c.toNat < 127), rfc3339 := fun _ _ => "2024-01-02T03:04:05Z".toList }

example : strf lib0 .mysql (.str ['a', Char.ofNat 10, '"']) = .ok [34, 97, 92, 110, 92, 34, 34] := by decide +kernel
example : mysqlString [34, 97, 92, 110, 92, 34, 34] = some ([97, 10, 34], []) := by decide +kernel
example : strf lib0 .mysql (.str [Char.ofNat 0]) = .ok [34, 92, 120, 48, 48, 34] := by decide +kernel
example : mysqlString [34, 92, 120, 48, 48, 34] = some ([120, 48, 48], []) := by decide +kernel
example : strf lib0 .mysql (.float ⟨3, 1⟩) = .ok [49, 46, 53, 48, 48, 48, 48, 48, 48, 48, 48, 48] := by decide +kernel
example : strf lib0 .mysql (.float ⟨-1, 40⟩) = .ok [45, 48, 46, 48, 48, 48, 48, 48, 48, 48, 48, 48, 48] := by decide +kernel
example : ¬ (2 ^ 40 ∣ (-1 : Int).natAbs * 10 ^ 10) := by decide +kernel
example : 2 ^ 1 ∣ (3 : Int).natAbs * 10 ^ 10 := by decide +kernel
example : strf lib0 .mysql (.valuer (.valuer (.int 5))) = .ok [53] := by decide +kernel
example : strf lib0 .mysql (.valuer .other) = .panic := by decide +kernel

end Verif.Props
