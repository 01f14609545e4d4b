import Verif.Model.Quote
import Verif.Spec.Quote
import Verif.Lemmas.Scan
import Verif.Props.Parser
import Verif.Props.Naming

/-! # Quoted identifiers and Go literals -/

namespace Verif.Props

open Verif Verif.Scan Verif.Quote Verif.Spec.Quote Verif.Spec.Scan Verif.ColumnType

/-! ## Identifiers -/

theorem encodeRune_eq (c : Char) : encodeRune c.toNat = utf8 c := rfl

theorem flatMap_encode (s : List Char) : s.flatMap (fun c => encodeRune c.toNat) = utf8s s := by
  simp [utf8s, encodeRune_eq, List.flatMap_def]

theorem identBody_cons {q c : Byte} (hc : c ≠ q) (r : Bytes) :
    identBody q (c :: r) = (identBody q r).map fun p => (c :: p.1, p.2) := by
  cases r with
  | nil => simp [identBody, hc]
  | cons d r => simp [identBody, hc]

theorem identBody_append {q : Byte} {a : Bytes} (ha : q ∉ a) (r : Bytes) :
    identBody q (a ++ r) = (identBody q r).map fun p => (a ++ p.1, p.2) := by
  induction a with
  | nil => simp
  | cons c a ih =>
    have hc : c ≠ q := fun e => ha (by simp [e])
    rw [List.cons_append, identBody_cons hc, ih fun h => ha (List.mem_cons_of_mem _ h)]
    cases identBody q r <;> simp

/-- Bytes of a character outside ASCII are large. -/
theorem utf8_bytes (c : Char) : (c.toNat < 128 ∧ utf8 c = [UInt8.ofNat c.toNat]) ∨ (128 ≤ c.toNat ∧ 2 ≤ (utf8 c).length ∧ ∀ b ∈ utf8 c, 128 ≤ b.toNat) := by
  by_cases h : c.toNat < 128
  · exact .inl ⟨h, utf8_ascii h⟩
  · refine .inr ⟨by omega, ?_⟩
    have hr := char_range c
    unfold utf8
    simp only
    rw [if_neg (by omega)]
    split
    · refine ⟨by simp, ?_⟩
      simp only [List.mem_cons, List.not_mem_nil, or_false]
      rintro b (rfl | rfl) <;> rw [toNat_ofNat_lt (by omega)] <;> omega
    · split
      · refine ⟨by simp, ?_⟩
        simp only [List.mem_cons, List.not_mem_nil, or_false]
        rintro b (rfl | rfl | rfl) <;> rw [toNat_ofNat_lt (by omega)] <;> omega
      · refine ⟨by simp, ?_⟩
        simp only [List.mem_cons, List.not_mem_nil, or_false]
        rintro b (rfl | rfl | rfl | rfl) <;> rw [toNat_ofNat_lt (by omega)] <;> omega

/-- A small byte occurs only in its own character. -/
theorem mem_utf8 {c : Char} {b : Byte} (hb : b.toNat < 128) : b ∈ utf8 c ↔ c.toNat = b.toNat := by
  rcases utf8_bytes c with ⟨h, e⟩ | ⟨h, _, h3⟩
  · rw [e, List.mem_singleton]
    constructor
    · rintro rfl; rw [toNat_ofNat_lt (by omega)]
    · intro e; rw [e]; simp
  · constructor
    · intro hm; have := h3 b hm; omega
    · intro e; omega

theorem mem_utf8s {s : List Char} {b : Byte} (hb : b.toNat < 128) : b ∈ utf8s s ↔ ∃ c ∈ s, c.toNat = b.toNat := by
  simp [utf8s, mem_utf8 hb]

theorem char_eq {c d : Char} : c.toNat = d.toNat ↔ c = d := by
  constructor
  · intro h
    have := congrArg Char.ofNat h
    simpa using this
  · rintro rfl; rfl

theorem toNat_ofNat_char {n : Nat} (h : n < 0xD800) : (Char.ofNat n).toNat = n := by
  have hv : n.isValidChar := .inl h
  simp [Char.ofNat, hv, Char.toNat, Char.ofNatAux]

theorem utf8s_eq_nil {s : List Char} : utf8s s = [] ↔ s = [] := by
  cases s with
  | nil => simp [utf8s]
  | cons c s => simp [utf8s_cons, utf8_ne_nil]

/-- The name that is read is shorter than what is written. -/
theorem identBody_length {q : Byte} (n : Nat) (r v w : Bytes) (h : identBody q r = some (v, w)) (hn : r.length ≤ n := by exact Nat.le_refl _) :
    v.length + w.length < r.length := by
  induction n generalizing r v w with
  | zero =>
    cases r with
    | nil => simp [identBody] at h
    | cons => simp at hn
  | succ n ih =>
    match r with
    | [] => simp [identBody] at h
    | [c] =>
      simp only [identBody] at h
      split at h <;> cases h
      simp
    | c :: d :: r =>
      simp only [List.length_cons] at hn
      simp only [identBody] at h
      split at h
      · split at h
        · cases hb : identBody q r with
          | none => rw [hb] at h; cases h
          | some p =>
            rw [hb] at h
            cases h
            have := ih r p.1 p.2 hb (by omega)
            simp; omega
        · cases h; simp
      · cases hb : identBody q (d :: r) with
        | none => rw [hb] at h; cases h
        | some p =>
          rw [hb] at h
          cases h
          have := ih (d :: r) p.1 p.2 hb (by simp; omega)
          simp at this ⊢; omega

/-- C55 for MySQL, exactly: the quoted identifier is read as the name, whatever follows, if and only if the name is not empty and
contains no backquote. -/
theorem C55_mysql_iff (printable : Char → Bool) (name : List Char) :
    identifier 96 (quoteIdent printable .mysql name) = some (utf8s name, []) ↔ name ≠ [] ∧ '`' ∉ name := by
  have hu : ∀ a : List Char, '`' ∉ a → (96 : Byte) ∉ utf8s a := by
    intro a ha h
    obtain ⟨c, hc, e⟩ := (mem_utf8s (b := 96) (by decide)).1 h
    have : c = '`' := char_eq.1 e
    exact ha (this ▸ hc)
  simp only [quoteIdent, flatMap_encode, identifier, if_pos]
  constructor
  · intro h
    have hne : name ≠ [] := by
      rintro rfl
      simp [utf8s, identBody] at h
    refine ⟨hne, fun hin => ?_⟩
    obtain ⟨a, b, rfl, ha⟩ := List.append_of_mem hin |>.elim fun a ⟨b, e⟩ => by
      have := List.eq_append_cons_of_mem hin
      exact this
    have e : utf8s (a ++ '`' :: b) = utf8s a ++ 96 :: utf8s b := by
      simp only [utf8s, List.map_append, List.flatten_append, List.map_cons, List.flatten_cons]
      rfl
    rw [e, List.append_assoc, identBody_append (hu a ha)] at h
    cases b with
    | nil => simp [utf8s, identBody] at h
    | cons c b =>
      obtain ⟨x, l, hx⟩ := List.exists_cons_of_ne_nil (utf8_ne_nil c)
      rw [utf8s_cons, hx] at h
      simp only [List.cons_append, identBody, if_true] at h
      by_cases hx96 : x = 96
      · rw [if_pos hx96] at h
        have hc : c = '`' := by
          have : (96 : Byte) ∈ utf8 c := by rw [hx, hx96]; simp
          exact char_eq.1 ((mem_utf8 (b := 96) (by decide)).1 this)
        subst hc
        have hl : l = [] := by
          have : utf8 '`' = [96] := by decide
          rw [this] at hx
          cases hx
          rfl
        subst hl
        cases hb : identBody 96 ([] ++ utf8s b ++ [96]) with
        | none => rw [hb] at h; simp at h
        | some p =>
          have hlen := identBody_length _ _ p.1 p.2 hb
          rw [hb] at h
          simp only [Option.map_some] at h
          split at h
          · cases h
          · simp only [Option.some.injEq, Prod.mk.injEq] at h
            have h1 := congrArg List.length h.1
            simp only [List.length_append, List.length_cons, List.nil_append, List.length_nil] at h1 hlen
            have := congrArg List.length h.2
            simp at this
            omega
      · rw [if_neg hx96] at h
        simp only [Option.map_some, List.append_nil] at h
        split at h
        · cases h
        · simp at h
  · rintro ⟨hne, hno⟩
    rw [identBody_append (hu name hno)]
    have : utf8s name ≠ [] := fun e => hne (utf8s_eq_nil.1 e)
    obtain ⟨x, l, hx⟩ := List.exists_cons_of_ne_nil this
    rw [hx]
    simp [identBody]

theorem hexDigit_ne (n : Nat) : Quote.hexDigit n ≠ 34 := by
  have h34 : (34 : Byte).toNat = 34 := rfl
  unfold Quote.hexDigit
  intro h
  split at h <;> (have := congrArg UInt8.toNat h; rw [toNat_ofNat_lt (by omega)] at this; omega)

theorem hexDigits_ne (n x : Nat) : (34 : Byte) ∉ hexDigits n x := by
  induction n generalizing x with
  | zero => simp [hexDigits]
  | succ n ih =>
    simp only [hexDigits, List.mem_append, List.mem_singleton, not_or]
    exact ⟨ih _, fun h => hexDigit_ne x h.symm⟩

theorem hexDigits_length (n x : Nat) : (hexDigits n x).length = n := by
  induction n generalizing x with
  | zero => rfl
  | succ n ih => simp [hexDigits, ih]

/-- Only the quote itself is written with a quote. -/
theorem quoteChar_ne (printable : Char → Bool) {c : Char} (h : c ≠ '"') : (34 : Byte) ∉ quoteChar printable c := by
  have hc : c.toNat ≠ 34 := fun e => h (char_eq.1 e)
  have hu : (34 : Byte) ∉ encodeRune c.toNat := by
    rw [encodeRune_eq]
    intro hm
    exact hc ((mem_utf8 (b := 34) (by decide)).1 hm)
  unfold quoteChar
  split
  · rename_i h'
    rcases h' with h' | h'
    · exact absurd h' h
    · subst h'; decide
  · repeat (split; first | exact hu | decide | (simp only [List.cons_append, List.nil_append, List.mem_cons, not_or]; exact ⟨by decide, by decide, hexDigits_ne _ _⟩))
    simp only [List.cons_append, List.nil_append, List.mem_cons, not_or]; exact ⟨by decide, by decide, hexDigits_ne _ _⟩

theorem quoteChar_head (printable : Char → Bool) (c : Char) : ∃ x l, quoteChar printable c = x :: l ∧ x ≠ 34 := by
  by_cases h : c = '"'
  · subst h; exact ⟨92, [34], by simp [quoteChar], by decide⟩
  · have := quoteChar_ne printable h
    cases hq : quoteChar printable c with
    | nil =>
      exfalso
      unfold quoteChar at hq
      repeat (split at hq; first | (rw [encodeRune_eq] at hq; exact utf8_ne_nil c hq) | simp at hq)
      simp at hq
    | cons x l =>
      rw [hq] at this
      exact ⟨x, l, rfl, fun e => this (by simp [e])⟩

/-- Characters that stand for themselves. -/
def Verbatim (printable : Char → Bool) (c : Char) : Prop := printable c = true ∧ c ≠ '"' ∧ c ≠ '\\'

instance (printable : Char → Bool) (c : Char) : Decidable (Verbatim printable c) := inferInstanceAs (Decidable (_ ∧ _ ∧ _))

theorem quoteChar_verbatim {printable : Char → Bool} {c : Char} (h : Verbatim printable c) : quoteChar printable c = utf8 c := by
  unfold quoteChar
  rw [if_neg (by simp [h.2.1, h.2.2]), if_pos h.1]
  rfl

theorem utf8_length_le (c : Char) : (utf8 c).length ≤ 4 ∧ (c.toNat < 128 → (utf8 c).length = 1) ∧ (c.toNat < 0x10000 → (utf8 c).length ≤ 3) := by
  unfold utf8
  simp only
  split
  · simp
  · split
    · simp; omega
    · split
      · simp; omega
      · simp; omega

theorem quoteChar_length (printable : Char → Bool) (c : Char) :
    (utf8 c).length ≤ (quoteChar printable c).length ∧ (¬ Verbatim printable c → (utf8 c).length < (quoteChar printable c).length) := by
  by_cases hv : Verbatim printable c
  · rw [quoteChar_verbatim hv]; exact ⟨Nat.le_refl _, fun h => absurd hv h⟩
  · suffices h : (utf8 c).length < (quoteChar printable c).length from ⟨Nat.le_of_lt h, fun _ => h⟩
    obtain ⟨h4, h1, h3⟩ := utf8_length_le c
    unfold quoteChar
    split
    · rename_i h
      have : c.toNat < 128 := by rcases h with rfl | rfl <;> decide
      simp [h1 this]
    · rename_i hq
      split
      · rename_i hp
        rw [not_or] at hq
        exact absurd ⟨hp, hq.1, hq.2⟩ hv
      · repeat (split; first
          | (rename_i h; rw [h1 (by omega)]; simp)
          | (rename_i h; have := h3 h; simp [hexDigits_length]; omega))
        simp [hexDigits_length]; omega

theorem flatMap_length (printable : Char → Bool) (s : List Char) :
    (utf8s s).length ≤ (s.flatMap (quoteChar printable)).length ∧
    ((utf8s s).length = (s.flatMap (quoteChar printable)).length → ∀ c ∈ s, Verbatim printable c) := by
  induction s with
  | nil => simp [utf8s]
  | cons c s ih =>
    rw [utf8s_cons, List.flatMap_cons, List.length_append, List.length_append]
    have := quoteChar_length printable c
    refine ⟨by omega, fun h => ?_⟩
    intro d hd
    rcases List.mem_cons.1 hd with rfl | hd
    · refine Decidable.by_contra (p := Verbatim printable d) fun hv => ?_
      have := this.2 hv
      omega
    · exact ih.2 (by omega) d hd

theorem flatMap_verbatim {printable : Char → Bool} {s : List Char} (h : ∀ c ∈ s, Verbatim printable c) :
    s.flatMap (quoteChar printable) = utf8s s := by
  induction s with
  | nil => rfl
  | cons c s ih =>
    rw [List.flatMap_cons, utf8s_cons, quoteChar_verbatim (h c List.mem_cons_self), ih fun d hd => h d (List.mem_cons_of_mem _ hd)]

/-- C55 for PostgreSQL and SQLite, exactly: the quoted identifier is read as the name if and only if the name is not empty and
consists of printable characters other than the double quote and the backslash. -/
theorem C55_pg_iff (printable : Char → Bool) (d : Dialect) (hd : d = .postgres ∨ d = .sqlite) (name : List Char) :
    identifier 34 (quoteIdent printable d name) = some (utf8s name, []) ↔
      name ≠ [] ∧ ∀ c ∈ name, printable c = true ∧ c ≠ '"' ∧ c ≠ '\\' := by
  have hq : quoteIdent printable d name = 34 :: (name.flatMap (quoteChar printable) ++ [34]) := by
    rcases hd with rfl | rfl <;> rfl
  have hu : ∀ a : List Char, '"' ∉ a → (34 : Byte) ∉ a.flatMap (quoteChar printable) := by
    intro a ha h
    obtain ⟨c, hc, hm⟩ := List.mem_flatMap.1 h
    exact quoteChar_ne printable (fun e => ha (by rw [← e]; exact hc)) hm
  rw [hq]
  simp only [identifier, if_pos]
  constructor
  · intro h
    have hne : name ≠ [] := by
      rintro rfl
      simp [identBody] at h
    have hno : '"' ∉ name := by
      intro hin
      obtain ⟨a, b, rfl, ha⟩ := List.eq_append_cons_of_mem hin
      have e : (a ++ '"' :: b).flatMap (quoteChar printable) ++ [34] =
          a.flatMap (quoteChar printable) ++ (92 :: 34 :: (b.flatMap (quoteChar printable) ++ [34])) := by
        simp [quoteChar]
      rw [e, identBody_append (hu a ha)] at h
      cases b with
      | nil => simp [identBody] at h
      | cons c b =>
        obtain ⟨x, l, hx, hx34⟩ := quoteChar_head printable c
        rw [List.flatMap_cons, hx] at h
        simp only [List.cons_append, identBody] at h
        rw [if_neg (by decide), if_pos trivial, if_neg hx34] at h
        simp at h
    refine ⟨hne, ?_⟩
    rw [identBody_append (hu name hno)] at h
    have hc : name.flatMap (quoteChar printable) = utf8s name := by
      simp only [identBody, if_pos, Option.map_some, List.append_nil] at h
      split at h
      · cases h
      · simpa using h
    exact (flatMap_length printable name).2 (by rw [hc])
  · rintro ⟨hne, hall⟩
    have hno : '"' ∉ name := fun h => (hall _ h).2.1 rfl
    rw [identBody_append (hu name hno), flatMap_verbatim (fun c hc => hall c hc)]
    have : utf8s name ≠ [] := fun e => hne (utf8s_eq_nil.1 e)
    obtain ⟨x, l, hx⟩ := List.exists_cons_of_ne_nil this
    rw [hx]
    simp [identBody]

/-- The quoted name is read as the name. -/
def Readable (printable : Char → Bool) (d : Dialect) (name : List Char) : Prop :=
  identifier (quoteRune d) (quoteIdent printable d name) = some (utf8s name, [])

/-- Characters without a special meaning in any dialect. -/
def Ordinary (printable : Char → Bool) (c : Char) : Prop := printable c = true ∧ c ≠ '"' ∧ c ≠ '\\' ∧ c ≠ '`'

theorem ordinary_readable {printable : Char → Bool} {name : List Char} (hne : name ≠ []) (h : ∀ c ∈ name, Ordinary printable c) (d : Dialect) :
    Readable printable d name := by
  cases d
  · exact (C55_mysql_iff printable name).2 ⟨hne, fun hm => (h _ hm).2.2.2 rfl⟩
  · exact (C55_pg_iff printable _ (.inl rfl) name).2 ⟨hne, fun c hc => ⟨(h c hc).1, (h c hc).2.1, (h c hc).2.2.1⟩⟩
  · exact (C55_pg_iff printable _ (.inr rfl) name).2 ⟨hne, fun c hc => ⟨(h c hc).1, (h c hc).2.1, (h c hc).2.2.1⟩⟩

/-- What is known about `strconv.IsPrint`: letters (also the two outside of ASCII), digits and the underscore are printable. -/
def PrintsNames (printable : Char → Bool) : Prop :=
  ∀ c, Spec.Parser.letter c ∨ c.isDigit ∨ c = '_' → printable c = true

theorem valid_ordinary {printable : Char → Bool} (hp : PrintsNames printable) {c : Char} (h : Spec.Parser.letter c ∨ c.isDigit ∨ c = '_') :
    Ordinary printable c := by
  refine ⟨hp c h, ?_, ?_, ?_⟩ <;>
  · rintro rfl
    revert h
    unfold Spec.Parser.letter
    decide

/-- C55 for names given in tags. -/
theorem C55_tag_names {printable : Char → Bool} (hp : PrintsNames printable) {name : List Char} (h : Spec.Parser.ValidName name) (d : Dialect) :
    Readable printable d name := by
  obtain ⟨c, cs, rfl, h1, h2⟩ := h
  refine ordinary_readable (by simp) ?_ d
  intro x hx
  rcases List.mem_cons.1 hx with rfl | hx
  · exact valid_ordinary hp (.inl h1)
  · exact valid_ordinary hp (h2 x hx)

section
open Verif.Parser Verif.Spec.Parser
variable {cfg : Config} {srt : Sorter} {env : Env} {n : Nat} {s : Cache} {t : PTable}

/-- C55 for every accepted struct, provided the naming function gives names of ordinary characters to the fields and the struct that have
no name in a tag.  Full statement: without that.  `C55_snake` has it for snake_case, see `C55_camel_empty` for what is missing. -/
theorem C55_accepted_partial {printable : Char → Bool} (hp : PrintsNames printable) (hs : IsSort srt) {out : List Leaf}
    (ho : Fields env [] (env s.t) out) (h : parseStruct cfg srt env n s = some (.ok (some t)))
    (hr : ∀ g, g = s.name ∨ (∃ f ∈ structLeaves out, f.name = g ∧ (isCol f = true ∨ f.ty.marker = true)) →
      cfg.rename g ≠ [] ∧ ∀ c ∈ cfg.rename g, Ordinary printable c) (d : Dialect) :
    Readable printable d t.name ∧ ∀ c ∈ t.columns, Readable printable d c.name := by
  constructor
  · rcases C65_table_names_partial hs ho h with h1 | ⟨f, hf, hm, h1⟩ | h1
    · have := hr s.name (.inl rfl)
      rw [h1]; exact ordinary_readable this.1 this.2 d
    · have := hr f.name (.inr ⟨f, hf, rfl, .inr hm⟩)
      rw [h1]; exact ordinary_readable this.1 this.2 d
    · exact C55_tag_names hp h1 d
  · intro c hc
    rcases C65_tag_names_partial hs ho h c hc with ⟨f, hf, hcol, _, _, h1⟩ | h1
    · have := hr f.name (.inr ⟨f, hf, rfl, .inl hcol⟩)
      rw [h1]; exact ordinary_readable this.1 this.2 d
    · exact C55_tag_names hp h1 d
end

/-! ### Names from the naming conventions -/

/-- The text as the naming functions see it. -/
def nats (t : List Char) : List Nat := (utf8s t).map UInt8.toNat

theorem nats_cons (c : Char) (t : List Char) : nats (c :: t) = (utf8 c).map UInt8.toNat ++ nats t := by
  simp [nats, utf8s_cons]

theorem nats_ascii {c : Char} (h : c.toNat < 128) (t : List Char) : nats (c :: t) = c.toNat :: nats t := by
  rw [nats_cons, utf8_ascii h]
  simp [Nat.mod_eq_of_lt (show c.toNat < 256 by omega)]

open Verif.Naming in
theorem snake_high (hs r : List Nat) (hne : hs ≠ []) (h : ∀ b ∈ hs, 128 ≤ b) (p : Bool) : snakeLoop p (hs ++ r) = hs ++ snakeLoop false r := by
  have cls : ∀ b : Nat, 128 ≤ b → isCap b = false ∧ isLow b = false ∧ isNum b = false ∧ plain b = b := by
    intro b hb
    have h1 : isCap b = false := by simp [isCap]; omega
    refine ⟨h1, by simp [isLow]; omega, by simp [isNum]; omega, ?_⟩
    unfold plain lower
    simp only [h1, Bool.false_eq_true, if_false]
    rw [if_neg (by omega)]
  induction hs generalizing p with
  | nil => exact absurd rfl hne
  | cons b hs ih =>
    obtain ⟨c1, c2, c3, c4⟩ := cls b (h b List.mem_cons_self)
    have hb : ∀ x, boundary b x = false := by intro x; simp [boundary, c1, c2, c3]
    cases hs with
    | nil =>
      cases r with
      | nil => simp [snakeLoop, c4]
      | cons x r => simp [snakeLoop, hb, c4, c1]
    | cons b' hs =>
      have := ih (by simp) (fun x hx => h x (List.mem_cons_of_mem _ hx)) false
      simp only [List.cons_append] at this ⊢
      simp only [snakeLoop, hb, Bool.false_eq_true, if_false, c4, c1]
      rw [this]

open Verif.Naming in
/-- The loop of snake_case on characters: those outside of ASCII are kept, the others become small letters, digits, underscores or stay. -/
theorem snake_chars (t : List Char) (p : Bool) : ∃ t', snakeLoop p (nats t) = nats t' ∧ (t ≠ [] → t' ≠ []) ∧
    ∀ c ∈ t', c ∈ t ∨ c.isLower ∨ c = '_' := by
  induction t generalizing p with
  | nil => exact ⟨[], rfl, fun h => h, by simp⟩
  | cons c t ih =>
    rcases utf8_bytes c with ⟨hc, _⟩ | ⟨hc, hl, hb⟩
    · rw [nats_ascii hc]
      have lowc : ∃ c' : Char, c'.toNat = lower c.toNat ∧ (c' = c ∨ c'.isLower) := by
        unfold lower
        by_cases h : isCap c.toNat
        · rw [if_pos h]
          simp only [isCap, Bool.and_eq_true, decide_eq_true_eq] at h
          have hv : (Char.ofNat (c.toNat + 32)).toNat = c.toNat + 32 := by
            exact toNat_ofNat_char (by omega)
          refine ⟨Char.ofNat (c.toNat + 32), hv, .inr ?_⟩
          have h2 : 97 ≤ c.toNat + 32 ∧ c.toNat + 32 ≤ 122 := by omega
          rw [← hv] at h2
          simp only [Char.isLower, Bool.and_eq_true, decide_eq_true_eq, ge_iff_le]
          exact ⟨h2.1, h2.2⟩
        · rw [if_neg h]; exact ⟨c, rfl, .inl rfl⟩
      obtain ⟨c', hc', hcl⟩ := lowc
      have hc'lt : c'.toNat < 128 := by
        rw [hc']; unfold lower; split
        · rename_i h; simp [isCap] at h; omega
        · exact hc
      have plc : ∃ c'' : Char, c''.toNat = plain c.toNat ∧ c''.toNat < 128 ∧ (c'' = c ∨ c''.isLower ∨ c'' = '_') := by
        unfold plain
        simp only
        split
        · exact ⟨'_', rfl, by decide, .inr (.inr rfl)⟩
        · exact ⟨c', hc', hc'lt, hcl.elim .inl fun h => .inr (.inl h)⟩
      obtain ⟨c'', hc'', hlt'', hcl''⟩ := plc
      have mem : ∀ {x : Char} {t' : List Char}, (∀ y ∈ t', y ∈ t ∨ y.isLower ∨ y = '_') → x ∈ t' → x ∈ c :: t ∨ x.isLower ∨ x = '_' := by
        intro x t' h hx
        rcases h x hx with h | h | h
        · exact .inl (List.mem_cons_of_mem _ h)
        · exact .inr (.inl h)
        · exact .inr (.inr h)
      have h95 : '_'.toNat = 95 := rfl
      cases hn : nats t with
      | nil =>
        refine ⟨[c''], ?_, fun _ => by simp, ?_⟩
        · rw [nats_ascii hlt'']; simp [snakeLoop, hc'', nats, utf8s]
        · intro x hx
          rw [List.mem_singleton] at hx
          subst hx
          rcases hcl'' with rfl | h
          · exact .inl List.mem_cons_self
          · exact .inr h
      | cons b r =>
        obtain ⟨t', h1, _, h3⟩ := ih (isCap c.toNat)
        rw [hn] at h1
        by_cases hbd : boundary c.toNat b
        · refine ⟨(if isCap c.toNat && isLow b && p then ['_'] else []) ++ [c'] ++
            (if isLow c.toNat || isNum c.toNat || isNum b then ['_'] else []) ++ t', ?_, fun _ => by simp, ?_⟩
          · have na : ∀ a b : List Char, nats (a ++ b) = nats a ++ nats b := by intro a b; simp [nats, utf8s]
            have n1 : nats ['_'] = [95] := by decide
            have n0 : nats [] = [] := rfl
            have nc : nats [c'] = [lower c.toNat] := by rw [nats_ascii hc'lt, hc']; rfl
            simp only [snakeLoop, hbd, if_true, h1, na, nc]
            congr 2
            · congr 1
              split <;> simp [n1, n0]
            · split <;> simp [n1, n0]
          · intro x hx
            simp only [List.mem_append, List.mem_singleton] at hx
            rcases hx with ((hx | rfl) | hx) | hx
            · split at hx
              · rw [List.mem_singleton] at hx; exact .inr (.inr hx)
              · cases hx
            · rcases hcl with rfl | h
              · exact .inl List.mem_cons_self
              · exact .inr (.inl h)
            · split at hx
              · rw [List.mem_singleton] at hx; exact .inr (.inr hx)
              · cases hx
            · exact mem h3 hx
        · refine ⟨c'' :: t', ?_, fun _ => by simp, ?_⟩
          · rw [nats_ascii hlt'', hc'']
            simp [snakeLoop, hbd, h1]
          · intro x hx
            rcases List.mem_cons.1 hx with rfl | hx
            · rcases hcl'' with rfl | h
              · exact .inl List.mem_cons_self
              · exact .inr h
            · exact mem h3 hx
    · obtain ⟨t', h1, _, h3⟩ := ih false
      refine ⟨c :: t', ?_, fun _ => by simp, ?_⟩
      · rw [nats_cons, nats_cons, snake_high, h1]
        · intro e; rw [List.map_eq_nil_iff] at e; exact utf8_ne_nil c e
        · intro b hbm
          obtain ⟨x, hx, rfl⟩ := List.mem_map.1 hbm
          exact hb x hx
      · intro x hx
        rcases List.mem_cons.1 hx with rfl | hx
        · exact .inl List.mem_cons_self
        · rcases h3 x hx with h | h
          · exact .inl (List.mem_cons_of_mem _ h)
          · exact .inr h

/-- First and following bytes of a character. -/
theorem utf8_shape (c : Char) : ∃ b l, utf8 c = b :: l ∧ (b.toNat < 128 ∨ 192 ≤ b.toNat) ∧ ∀ x ∈ l, 128 ≤ x.toNat ∧ x.toNat < 192 := by
  have hr := char_range c
  unfold utf8
  simp only
  split
  · exact ⟨_, _, rfl, .inl (by rw [toNat_ofNat_lt (by omega)]; omega), by simp⟩
  · split
    · refine ⟨_, _, rfl, .inr (by rw [toNat_ofNat_lt (by omega)]; omega), ?_⟩
      simp only [List.mem_cons, List.not_mem_nil, or_false]
      rintro b rfl; rw [toNat_ofNat_lt (by omega)]; omega
    · split
      · refine ⟨_, _, rfl, .inr (by rw [toNat_ofNat_lt (by omega)]; omega), ?_⟩
        simp only [List.mem_cons, List.not_mem_nil, or_false]
        rintro b (rfl | rfl) <;> rw [toNat_ofNat_lt (by omega)] <;> omega
      · refine ⟨_, _, rfl, .inr (by rw [toNat_ofNat_lt (by omega)]; omega), ?_⟩
        simp only [List.mem_cons, List.not_mem_nil, or_false]
        rintro b (rfl | rfl | rfl) <;> rw [toNat_ofNat_lt (by omega)] <;> omega

/-- The characters for which `unicode.IsSpace` holds. -/
def whiteSpace : List Nat := [9, 10, 11, 12, 13, 32, 0x85, 0xA0, 0x1680, 0x2000, 0x2001, 0x2002, 0x2003, 0x2004, 0x2005, 0x2006, 0x2007,
  0x2008, 0x2009, 0x200A, 0x2028, 0x2029, 0x202F, 0x205F, 0x3000]

theorem spaceSeqs_chars : Naming.spaceSeqs = whiteSpace.map fun n => (utf8 (Char.ofNat n)).map UInt8.toNat := by decide +kernel

theorem nats_inj {a b : Bytes} (h : a.map UInt8.toNat = b.map UInt8.toNat) : a = b := by
  have := List.map_injective_iff.2 (fun x y (e : UInt8.toNat x = UInt8.toNat y) => UInt8.toNat_inj.1 e)
  exact this h

theorem bytes_lift {z : List Nat} (h : ∀ b ∈ z, ∃ x : UInt8, b = x.toNat) : ∃ z' : Bytes, z = z'.map UInt8.toNat := by
  induction z with
  | nil => exact ⟨[], rfl⟩
  | cons b z ih =>
    obtain ⟨x, rfl⟩ := h b List.mem_cons_self
    obtain ⟨z', rfl⟩ := ih fun b hb => h b (List.mem_cons_of_mem _ hb)
    exact ⟨x :: z', rfl⟩

theorem utf8_prefix_inj {c d : Char} {a b : Bytes} (h : utf8 c ++ a = utf8 d ++ b) : c = d := by
  have := congrArg Scan.decodeRune h
  rw [decode_utf8, decode_utf8] at this
  exact char_eq.1 (Prod.mk.inj this).1

theorem utf8_suffix_inj {c d : Char} {a b : Bytes} (h : a ++ utf8 c = b ++ utf8 d) : c = d := by
  rcases List.append_eq_append_iff.1 h with ⟨m, h1, h2⟩ | ⟨m, h1, h2⟩
  all_goals
    obtain ⟨x, l, hx, hx1, hl⟩ := utf8_shape c
    obtain ⟨y, k, hy, hy1, hk⟩ := utf8_shape d
  · cases m with
    | nil => rw [List.nil_append] at h2; exact utf8_prefix_inj (a := []) (b := []) (by rw [h2])
    | cons z m =>
      rw [hx, hy, List.cons_append] at h2
      have : y ∈ l := by rw [(List.cons.inj h2).2]; simp
      have := hl y this
      omega
  · cases m with
    | nil => rw [List.nil_append] at h2; exact utf8_prefix_inj (a := []) (b := []) (by rw [h2])
    | cons z m =>
      rw [hx, hy, List.cons_append] at h2
      have : x ∈ k := by rw [(List.cons.inj h2).2]; simp
      have := hk x this
      omega

/-- Texts without white space are not trimmed. -/
theorem trim_chars (t : List Char) (h : ∀ c ∈ t, c.toNat ∉ whiteSpace) : Naming.trimSpace (nats t) = nats t := by
  apply Naming.trimSpace_of_trimmed
  have hv : ∀ n ∈ whiteSpace, (Char.ofNat n).toNat = n := by decide +kernel
  constructor
  · intro q hq hpre
    rw [spaceSeqs_chars, List.mem_map] at hq
    obtain ⟨n, hn, rfl⟩ := hq
    obtain ⟨z, hz⟩ := hpre
    cases t with
    | nil =>
      simp only [nats, utf8s, List.map_nil, List.flatten_nil] at hz
      have := (List.append_eq_nil_iff.1 hz).1
      rw [List.map_eq_nil_iff] at this
      exact utf8_ne_nil _ this
    | cons c t =>
      rw [nats_cons] at hz
      have hz' : ∃ z' : Bytes, z = z'.map UInt8.toNat := by
        refine bytes_lift fun b hb => ?_
        have : b ∈ (utf8 c).map UInt8.toNat ++ nats t := by rw [← hz]; exact List.mem_append_right _ hb
        rw [← nats_cons] at this
        obtain ⟨x, _, rfl⟩ := List.mem_map.1 this
        exact ⟨x, rfl⟩
      obtain ⟨z', rfl⟩ := hz'
      rw [← nats_cons, nats, utf8s_cons, ← List.map_append] at hz
      have := utf8_prefix_inj (nats_inj hz)
      apply h c List.mem_cons_self
      rw [← this, hv n hn]; exact hn
  · intro q hq hsuf
    rw [spaceSeqs_chars, List.mem_map] at hq
    obtain ⟨n, hn, rfl⟩ := hq
    obtain ⟨z, hz⟩ := hsuf
    rcases List.eq_nil_or_concat t with rfl | ⟨u, c, rfl⟩
    · simp only [nats, utf8s, List.map_nil, List.flatten_nil] at hz
      have := (List.append_eq_nil_iff.1 hz).2
      rw [List.map_eq_nil_iff] at this
      exact utf8_ne_nil _ this
    · have e : nats (u ++ [c]) = (utf8s u ++ utf8 c).map UInt8.toNat := by simp [nats, utf8s]
      rw [List.concat_eq_append, e] at hz
      have hz' : ∃ z' : Bytes, z = z'.map UInt8.toNat := by
        refine bytes_lift fun b hb => ?_
        have : b ∈ (utf8s u ++ utf8 c).map UInt8.toNat := by rw [← hz]; exact List.mem_append_left _ hb
        obtain ⟨x, _, rfl⟩ := List.mem_map.1 this
        exact ⟨x, rfl⟩
      obtain ⟨z', rfl⟩ := hz'
      rw [← List.map_append] at hz
      have := utf8_suffix_inj (nats_inj hz)
      apply h c (by simp)
      rw [← this, hv n hn]; exact hn

/-- C55: snake_case turns every Go name, ASCII or not, into one that can be quoted. -/
theorem C55_snake {printable : Char → Bool} (hp : PrintsNames printable) (g : List Char) (hne : g ≠ [])
    (h : ∀ c ∈ g, Ordinary printable c ∧ c.toNat ∉ whiteSpace) :
    ∃ name, nats name = Naming.toSnakeCase (nats g) ∧ name ≠ [] ∧ (∀ c ∈ name, Ordinary printable c) ∧ ∀ d, Readable printable d name := by
  obtain ⟨t', h1, h2, h3⟩ := snake_chars g false
  have ho : ∀ c ∈ t', Ordinary printable c := by
    intro c hc
    rcases h3 c hc with h4 | h4 | h4
    · exact (h c h4).1
    · exact valid_ordinary hp (.inl (.inl (by simp [Char.isAlpha, h4])))
    · exact valid_ordinary hp (.inr (.inr h4))
  refine ⟨t', ?_, h2 hne, ho, ordinary_readable (h2 hne) ho⟩
  unfold Naming.toSnakeCase
  rw [trim_chars g fun c hc => (h c hc).2, h1]

theorem readable_nil (printable : Char → Bool) (d : Dialect) : ¬ Readable printable d [] := by
  cases d <;> simp [Readable, quoteRune, quoteIdent, strconvQuote, identifier, identBody, utf8s]

/-- C55 is false for camelCase and PascalCase: every Go name without an ASCII letter or digit becomes the empty name, which no
dialect can quote. -/
theorem C55_camel_empty (printable : Char → Bool) (i : Bool) (g : List Char) (h : ∀ c ∈ g, 128 ≤ c.toNat ∨ c = '_') :
    Naming.toCamelInitCase i (nats g) = nats [] ∧ ∀ d, ¬ Readable printable d [] := by
  refine ⟨?_, readable_nil printable⟩
  have hl := C41_letters i (nats g)
  have : Spec.Naming.alnums (nats g) = [] := by
    unfold Spec.Naming.alnums
    rw [List.filter_eq_nil_iff]
    intro b hb
    unfold nats at hb
    obtain ⟨x, hx, rfl⟩ := List.mem_map.1 hb
    simp only [utf8s, List.mem_flatten, List.mem_map] at hx
    obtain ⟨_, ⟨c, hc, rfl⟩, hx⟩ := hx
    have hb : 128 ≤ x.toNat ∨ x.toNat = 95 := by
      rcases utf8_bytes c with ⟨h1, e⟩ | ⟨_, _, h3⟩
      · rcases h c hc with h2 | rfl
        · omega
        · rw [e, List.mem_singleton] at hx; subst hx; exact .inr rfl
      · exact .inl (h3 x hx)
    rw [decide_eq_true_eq]
    unfold Spec.Naming.capital Spec.Naming.small Spec.Naming.digit
    omega
  rw [this, List.map_nil, List.map_eq_nil_iff] at hl
  rw [hl]; rfl

/-! ## C75: Go literals -/

theorem decode_width (b : Byte) (r : Bytes) : 1 ≤ (Scan.decodeRune (b :: r)).2 := by
  unfold Scan.decodeRune
  repeat' split
  all_goals simp_all

theorem starts_length (n : Nat) (s : Bytes) : (starts n s).length ≤ s.length := by
  induction n generalizing s with
  | zero => simp [starts]
  | succ n ih =>
    cases s with
    | nil => simp [starts]
    | cons b r =>
      have := ih ((b :: r).drop (Scan.decodeRune (b :: r)).2)
      have h1 := decode_width b r
      simp only [starts, List.length_cons, List.length_drop] at this ⊢
      omega

theorem starts_utf8s (t : List Char) (n : Nat) (hn : (utf8s t).length ≤ n) : (starts n (utf8s t)).length = t.length := by
  induction t generalizing n with
  | nil => cases n <;> simp [starts, utf8s]
  | cons c t ih =>
    have hpos := utf8_length_pos c
    rw [utf8s_cons, List.length_append] at hn
    cases n with
    | zero => omega
    | succ n =>
      obtain ⟨x, l, hx⟩ := List.exists_cons_of_ne_nil (utf8_ne_nil c)
      have hd := decode_utf8 c (utf8s t)
      have e : starts (n + 1) (utf8s (c :: t)) = x :: starts n (utf8s t) := by
        rw [utf8s_cons]
        rw [hx] at hd ⊢
        rw [List.cons_append] at hd ⊢
        rw [starts, hd]
        simp
      rw [e, List.length_cons, ih n (by omega), List.length_cons]

theorem utf8s_length_eq (t : List Char) (h : (utf8s t).length = t.length) : ∀ c ∈ t, c.toNat < 128 := by
  induction t with
  | nil => simp
  | cons c t ih =>
    rw [utf8s_cons, List.length_append, List.length_cons] at h
    have h1 := utf8s_length t
    have h2 := utf8_length_pos c
    intro d hd
    rcases List.mem_cons.1 hd with rfl | hd
    · rcases utf8_bytes d with ⟨h3, _⟩ | ⟨_, h3, _⟩
      · exact h3
      · omega
    · exact ih (by omega) d hd

/-- ASCII text as characters. -/
theorem ascii_text {s : Bytes} (h : ∀ b ∈ s, b.toNat < 128) : ∃ t : List Char, s = utf8s t ∧ t.length = s.length ∧ ∀ c ∈ t, UInt8.ofNat c.toNat ∈ s ∧ c.toNat < 128 := by
  induction s with
  | nil => exact ⟨[], rfl, rfl, by simp⟩
  | cons b s ih =>
    obtain ⟨t, rfl, h1, h2⟩ := ih fun x hx => h x (List.mem_cons_of_mem _ hx)
    have hb := h b List.mem_cons_self
    have hv : (Char.ofNat b.toNat).toNat = b.toNat := toNat_ofNat_char (by omega)
    refine ⟨Char.ofNat b.toNat :: t, ?_, by simp [h1], ?_⟩
    · rw [utf8s_cons, utf8_ascii (by omega), hv]; simp
    · intro c hc
      rcases List.mem_cons.1 hc with rfl | hc
      · rw [hv]; exact ⟨by simp, hb⟩
      · exact ⟨List.mem_cons_of_mem _ (h2 c hc).1, (h2 c hc).2⟩

theorem starts_ascii {s : Bytes} (h : ∀ b ∈ s, b.toNat < 128) : starts s.length s = s := by
  have key : ∀ (t : List Char) (n : Nat), (∀ c ∈ t, c.toNat < 128) → (utf8s t).length ≤ n → starts n (utf8s t) = utf8s t := by
    intro t
    induction t with
    | nil => intro n _ _; cases n <;> simp [starts, utf8s]
    | cons c t ih =>
      intro n hc hn
      have hd := decode_utf8 c (utf8s t)
      rw [utf8s_cons, utf8_ascii (hc c List.mem_cons_self)] at hn ⊢
      rw [utf8_ascii (hc c List.mem_cons_self)] at hd
      cases n with
      | zero => simp at hn
      | succ n =>
        rw [List.singleton_append] at hd ⊢
        rw [starts, hd]
        have := ih n (fun d hd => hc d (List.mem_cons_of_mem _ hd)) (by simp at hn; omega)
        simp [this]
  obtain ⟨t, rfl, _, h2⟩ := ascii_text h
  exact key t _ (fun c hc => (h2 c hc).2) (Nat.le_refl _)

theorem number_length {base n v x : Nat} {r r' : Bytes} (h : number base n v r = some (x, r')) : r'.length + n = r.length := by
  induction n generalizing v r with
  | zero => cases h; rfl
  | succ n ih =>
    cases r with
    | nil => cases h
    | cons b r =>
      simp only [number] at h
      split at h
      · split at h
        · have := ih h; simp; omega
        · cases h
      · cases h

theorem goEscape_length {r v r' : Bytes} (h : goEscape r = some (v, r')) : v.length + r'.length ≤ r.length := by
  cases r with
  | nil => cases h
  | cons c r =>
    have one : ∀ {a : Byte}, some ([a], r) = some (v, r') → v.length + r'.length ≤ (c :: r).length := by
      intro a e; cases e; simp; omega
    unfold goEscape at h
    dsimp only at h
    by_cases k : c = 97
    · rw [if_pos k] at h; exact one h
    rw [if_neg k] at h
    clear k
    by_cases k : c = 98
    · rw [if_pos k] at h; exact one h
    rw [if_neg k] at h
    clear k
    by_cases k : c = 102
    · rw [if_pos k] at h; exact one h
    rw [if_neg k] at h
    clear k
    by_cases k : c = 110
    · rw [if_pos k] at h; exact one h
    rw [if_neg k] at h
    clear k
    by_cases k : c = 114
    · rw [if_pos k] at h; exact one h
    rw [if_neg k] at h
    clear k
    by_cases k : c = 116
    · rw [if_pos k] at h; exact one h
    rw [if_neg k] at h
    clear k
    by_cases k : c = 118
    · rw [if_pos k] at h; exact one h
    rw [if_neg k] at h
    clear k
    by_cases k : c = 92 ∨ c = 34
    · rw [if_pos k] at h; exact one h
    rw [if_neg k] at h
    clear k
    by_cases k : c = 120
    · rw [if_pos k] at h
      cases hn : number 16 2 0 r with
      | none => rw [hn] at h; cases h
      | some p =>
        rw [hn] at h
        cases h
        have := number_length hn
        simp; omega
    rw [if_neg k] at h
    clear k
    by_cases k : c = 117
    · rw [if_pos k] at h
      cases hn : number 16 4 0 r with
      | none => rw [hn] at h; cases h
      | some p =>
        rw [hn] at h
        by_cases hv : p.1 < 0xD800 ∨ 0xDFFF < p.1
        · have h := (if_pos hv).symm.trans h
          cases h
          have := number_length hn
          have := (utf8_length_le (Char.ofNat p.1)).1
          simp at this ⊢; omega
        · have h := (if_neg hv).symm.trans h
          cases h
    rw [if_neg k] at h
    clear k
    by_cases k : c = 85
    · rw [if_pos k] at h
      cases hn : number 16 8 0 r with
      | none => rw [hn] at h; cases h
      | some p =>
        rw [hn] at h
        by_cases hv : p.1 < 0xD800 ∨ (0xDFFF < p.1 ∧ p.1 < 0x110000)
        · have h := (if_pos hv).symm.trans h
          cases h
          have := number_length hn
          have := (utf8_length_le (Char.ofNat p.1)).1
          simp at this ⊢; omega
        · have h := (if_neg hv).symm.trans h
          cases h
    rw [if_neg k] at h
    clear k
    by_cases k : 48 ≤ c.toNat ∧ c.toNat ≤ 55
    · rw [if_pos k] at h
      cases hn : number 8 3 0 (c :: r) with
      | none => rw [hn] at h; cases h
      | some p =>
        rw [hn] at h
        by_cases hv : p.1 < 256
        · have h := (if_pos hv).symm.trans h
          cases h
          have := number_length hn
          simp at this ⊢; omega
        · have h := (if_neg hv).symm.trans h
          cases h
    rw [if_neg k] at h
    cases h

/-- The value of a literal is at most as long as its inside; if it is as long, the inside contains nothing special. -/
theorem goInterpreted_length {n : Nat} {r v : Bytes} (h : goInterpreted n r = some v) :
    v.length + 1 ≤ r.length ∧ (v.length + 1 = r.length → r = v ++ [34] ∧ ∀ b ∈ v, b ≠ 34 ∧ b ≠ 92 ∧ b ≠ 10) := by
  induction n generalizing r v with
  | zero => cases h
  | succ n ih =>
    cases r with
    | nil => cases h
    | cons c r =>
      simp only [goInterpreted] at h
      split at h
      · rename_i hc
        split at h
        · cases h; rename_i hr; subst hr hc; simp
        · cases h
      · rename_i hc
        split at h
        · cases h
        · rename_i hc10
          split at h
          · cases he : goEscape r with
            | none => rw [he] at h; cases h
            | some p =>
              rw [he] at h
              simp only at h
              cases hg : goInterpreted n p.2 with
              | none => rw [hg] at h; cases h
              | some w =>
                rw [hg] at h
                cases h
                have h1 := goEscape_length he
                have h2 := (ih hg).1
                simp; omega
          · rename_i hc92
            cases hg : goInterpreted n r with
            | none => rw [hg] at h; cases h
            | some w =>
              rw [hg] at h
              cases h
              obtain ⟨h2, h3⟩ := ih hg
              refine ⟨by simp; omega, fun e => ?_⟩
              obtain ⟨h4, h5⟩ := h3 (by simpa using e)
              refine ⟨by rw [h4]; rfl, ?_⟩
              intro b hb
              rcases List.mem_cons.1 hb with rfl | hb
              · exact ⟨hc, hc92, hc10⟩
              · exact h5 b hb

theorem goRaw_length {r v : Bytes} (h : goRaw r = some v) :
    v.length + 1 ≤ r.length ∧ (v.length + 1 = r.length → r = v ++ [96] ∧ ∀ b ∈ v, b ≠ 96 ∧ b ≠ 13) := by
  induction r generalizing v with
  | nil => cases h
  | cons c r ih =>
    simp only [goRaw] at h
    split at h
    · rename_i hc
      split at h
      · cases h; rename_i hr; subst hr hc; simp
      · cases h
    · rename_i hc
      split at h
      · have := (ih h).1
        simp; omega
      · rename_i hc13
        cases hg : goRaw r with
        | none => rw [hg] at h; cases h
        | some w =>
          rw [hg] at h
          cases h
          obtain ⟨h2, h3⟩ := ih hg
          refine ⟨by simp; omega, fun e => ?_⟩
          obtain ⟨h4, h5⟩ := h3 (by simpa using e)
          refine ⟨by rw [h4]; rfl, ?_⟩
          intro b hb
          rcases List.mem_cons.1 hb with rfl | hb
          · exact ⟨hc, hc13⟩
          · exact h5 b hb

theorem goInterpreted_plain {s : Bytes} (h : ∀ b ∈ s, b ≠ 34 ∧ b ≠ 92 ∧ b ≠ 10) : goInterpreted (s ++ [34]).length (s ++ [34]) = some s := by
  induction s with
  | nil => simp [goInterpreted]
  | cons b s ih =>
    obtain ⟨h1, h2, h3⟩ := h b List.mem_cons_self
    have := ih fun x hx => h x (List.mem_cons_of_mem _ hx)
    simp only [List.cons_append, List.length_cons, goInterpreted, if_neg h1, if_neg h2, if_neg h3]
    rw [this]; rfl

theorem goRaw_plain {s : Bytes} (h : ∀ b ∈ s, b ≠ 96 ∧ b ≠ 13) : goRaw (s ++ [96]) = some s := by
  induction s with
  | nil => simp [goRaw]
  | cons b s ih =>
    obtain ⟨h1, h2⟩ := h b List.mem_cons_self
    have := ih fun x hx => h x (List.mem_cons_of_mem _ hx)
    simp only [List.cons_append, goRaw, if_neg h1, if_neg h2]
    rw [this]; rfl

/-- The inside of a literal in valid Go source is text. -/
theorem source_inside {q : Byte} (hq : q.toNat < 128) {s : Bytes} (h : goSource (q :: (s ++ [q]))) :
    ∃ u : List Char, s = utf8s u ∧ ∀ c ∈ u, c.toNat ≠ 0 := by
  obtain ⟨t, ht, h0⟩ := h
  cases t with
  | nil => simp [utf8s] at ht
  | cons c t =>
    rw [utf8s_cons] at ht
    obtain ⟨x, l, hx⟩ := List.exists_cons_of_ne_nil (utf8_ne_nil c)
    have hqx : q = x := by rw [hx] at ht; exact (List.cons.inj ht).1
    have hl : l = [] := by
      rcases utf8_bytes c with ⟨_, e⟩ | ⟨_, _, h3⟩
      · rw [e] at hx; exact (List.cons.inj hx).2.symm
      · have := h3 x (by rw [hx]; simp)
        rw [← hqx] at this; omega
    rw [hx, hl] at ht
    have ht : s ++ [q] = utf8s t := (List.cons.inj ht).2
    rcases List.eq_nil_or_concat t with rfl | ⟨u, d, rfl⟩
    · simp [utf8s] at ht
    · rw [List.concat_eq_append] at ht
      have e : utf8s (u ++ [d]) = utf8s u ++ utf8 d := by simp [utf8s]
      rw [e] at ht
      have hd : utf8 d = [q] := by
        have hm : q ∈ utf8 d := by
          have h1 := congrArg List.getLast? ht
          rw [List.getLast?_append_of_ne_nil _ (utf8_ne_nil d)] at h1
          simp only [List.getLast?_append, List.getLast?_singleton, Option.some_or] at h1
          exact List.mem_of_getLast? h1.symm
        rcases utf8_bytes d with ⟨_, e⟩ | ⟨_, _, h3⟩
        · rw [e, List.mem_singleton] at hm; rw [e, hm]
        · have := h3 q hm; omega
      rw [hd] at ht
      exact ⟨u, List.append_inj_left' ht rfl, fun c hc => h0 c (by simp [hc])⟩

theorem source_of_ascii {q : Byte} (hq : q.toNat < 128) (hq0 : q.toNat ≠ 0) {s : Bytes} (h : ∀ b ∈ s, 0 < b.toNat ∧ b.toNat < 128) :
    goSource (q :: (s ++ [q])) := by
  obtain ⟨t, h1, _, h2⟩ := ascii_text (s := q :: (s ++ [q])) (by
    intro b hb
    simp only [List.mem_cons, List.mem_append, List.not_mem_nil, or_false] at hb
    rcases hb with rfl | hb | rfl
    · exact hq
    · exact (h b hb).2
    · exact hq)
  refine ⟨t, h1, fun c hc e => ?_⟩
  have := (h2 c hc).1
  rw [e] at this
  simp only [List.mem_cons, List.mem_append, List.not_mem_nil, or_false] at this
  have z : (UInt8.ofNat 0).toNat = 0 := rfl
  rcases this with h3 | h3 | h3
  · exact hq0 (by rw [← h3]; rfl)
  · have := (h _ h3).1; omega
  · exact hq0 (by rw [← h3]; rfl)

/-- A literal denotes the text only if the text is ASCII. -/
theorem ascii_of_starts {q : Byte} (hq : q.toNat < 128) {s : Bytes} (he : starts s.length s = s) (h : goSource (q :: (s ++ [q]))) :
    ∀ b ∈ s, 0 < b.toNat ∧ b.toNat < 128 := by
  obtain ⟨u, rfl, hu⟩ := source_inside hq h
  have h1 := starts_utf8s u _ (Nat.le_refl _)
  rw [he] at h1
  have h2 := utf8s_length_eq u h1
  intro b hb
  simp only [utf8s, List.mem_flatten, List.mem_map] at hb
  obtain ⟨_, ⟨c, hc, rfl⟩, hb⟩ := hb
  rw [utf8_ascii (h2 c hc), List.mem_singleton] at hb
  subst hb
  have h3 := h2 c hc
  have h4 := hu c hc
  rw [toNat_ofNat_lt (by omega)]
  omega

/-- The literal is valid Go and its value is the text. -/
def Denotes (l s : Bytes) : Prop := goSource l ∧ goString l = some s

/-- C75 for MySQL (literals in double quotes), exactly: the literal denotes the text if and only if the text is ASCII
without NUL, double quotes, backslashes and line feeds. -/
theorem C75_mysql_iff_partial (s : Bytes) :
    Denotes (goLiteral .mysql s) s ↔ ∀ b ∈ s, (0 < b.toNat ∧ b.toNat < 128) ∧ b ≠ 34 ∧ b ≠ 92 ∧ b ≠ 10 := by
  have hq : goLiteral .mysql s = 34 :: (starts s.length s ++ [34]) := rfl
  unfold Denotes
  rw [hq]
  simp only [goString, if_pos]
  constructor
  · rintro ⟨h1, h2⟩
    have hl := starts_length s.length s
    obtain ⟨h3, h4⟩ := goInterpreted_length h2
    rw [List.length_append, List.length_singleton] at h3 h4
    obtain ⟨h5, h6⟩ := h4 (by omega)
    have he : starts s.length s = s := List.append_inj_left' h5 rfl
    rw [he] at h1
    exact fun b hb => ⟨ascii_of_starts (by decide) he h1 b hb, h6 b hb⟩
  · intro h
    rw [starts_ascii fun b hb => (h b hb).1.2]
    exact ⟨source_of_ascii (by decide) (by decide) fun b hb => (h b hb).1, goInterpreted_plain fun b hb => (h b hb).2⟩

/-- C75 for PostgreSQL and SQLite (literals in backquotes), exactly: the literal denotes the text if and only if the text is
ASCII without NUL, backquotes and carriage returns. -/
theorem C75_pg_iff_partial (d : Dialect) (hd : d = .postgres ∨ d = .sqlite) (s : Bytes) :
    Denotes (goLiteral d s) s ↔ ∀ b ∈ s, (0 < b.toNat ∧ b.toNat < 128) ∧ b ≠ 96 ∧ b ≠ 13 := by
  have hq : goLiteral d s = 96 :: (starts s.length s ++ [96]) := by rcases hd with rfl | rfl <;> rfl
  unfold Denotes
  rw [hq]
  have hg : ∀ r, goString (96 :: r) = goRaw r := fun r => rfl
  rw [hg]
  constructor
  · rintro ⟨h1, h2⟩
    have hl := starts_length s.length s
    obtain ⟨h3, h4⟩ := goRaw_length h2
    rw [List.length_append, List.length_singleton] at h3 h4
    obtain ⟨h5, h6⟩ := h4 (by omega)
    have he : starts s.length s = s := List.append_inj_left' h5 rfl
    rw [he] at h1
    exact fun b hb => ⟨ascii_of_starts (by decide) he h1 b hb, h6 b hb⟩
  · intro h
    rw [starts_ascii fun b hb => (h b hb).1.2]
    exact ⟨source_of_ascii (by decide) (by decide) fun b hb => (h b hb).1, goRaw_plain fun b hb => (h b hb).2⟩

/-- C75 is false of the code for every text with a character outside of ASCII, in every dialect. -/
theorem C75_not_ascii (d : Dialect) (t : List Char) (c : Char) (hc : c ∈ t) (h : 128 ≤ c.toNat) :
    ¬ Denotes (goLiteral d (utf8s t)) (utf8s t) := by
  have : ∃ b ∈ utf8s t, 128 ≤ b.toNat := by
    rcases utf8_bytes c with ⟨h1, _⟩ | ⟨_, _, h3⟩
    · omega
    · obtain ⟨x, l, hx⟩ := List.exists_cons_of_ne_nil (utf8_ne_nil c)
      have hm : x ∈ utf8 c := by rw [hx]; simp
      exact ⟨x, List.mem_flatten.2 ⟨_, List.mem_map_of_mem hc, hm⟩, h3 x hm⟩
  obtain ⟨b, hb, h2⟩ := this
  intro hd
  cases d
  · have := ((C75_mysql_iff_partial _).1 hd b hb).1; omega
  · have := ((C75_pg_iff_partial _ (.inl rfl) _).1 hd b hb).1; omega
  · have := ((C75_pg_iff_partial _ (.inr rfl) _).1 hd b hb).1; omega

/-! ## Examples -/

/-- A stand-in for `strconv.IsPrint`. -/
def exPrintable (c : Char) : Bool := decide (32 ≤ c.toNat)

example : PrintsNames exPrintable := by
  intro c h
  unfold exPrintable
  rw [decide_eq_true_eq]
  rcases h with (h | rfl | rfl) | h | rfl
  · simp only [Char.isAlpha, Char.isUpper, Char.isLower, Bool.or_eq_true, Bool.and_eq_true, decide_eq_true_eq, ge_iff_le] at h
    rcases h with h | h
    · have : (65 : UInt32).toNat ≤ c.val.toNat := h.1
      have e : c.toNat = c.val.toNat := rfl
      have : (65 : UInt32).toNat = 65 := rfl
      omega
    · have : (97 : UInt32).toNat ≤ c.val.toNat := h.1
      have e : c.toNat = c.val.toNat := rfl
      have : (97 : UInt32).toNat = 97 := rfl
      omega
  · decide
  · decide
  · simp only [Char.isDigit, Bool.and_eq_true, decide_eq_true_eq, ge_iff_le] at h
    have : (48 : UInt32).toNat ≤ c.val.toNat := h.1
    have e : c.toNat = c.val.toNat := rfl
    have : (48 : UInt32).toNat = 48 := rfl
    omega
  · decide
example : quoteIdent exPrintable .postgres ['i', 'd'] = [34, 105, 100, 34] := by decide +kernel
example : identifier 34 (quoteIdent exPrintable .postgres ['a', '"', 'b']) = some ([97, 92], [98, 34]) := by decide +kernel
example : ∀ c ∈ ['Ä', 'b'], Ordinary exPrintable c ∧ c.toNat ∉ whiteSpace := by unfold Ordinary exPrintable; decide +kernel
example : ∀ c ∈ ['Ä'], 128 ≤ c.toNat ∨ c = '_' := by decide
example : goString (goLiteral .mysql (utf8s ['i', 'd', '`'])) = some (utf8s ['i', 'd', '`']) := by decide +kernel
/-- What is left of `Ä` in a literal is not even valid Go. -/
example : goLiteral .postgres (utf8s ['Ä']) = [96, 0xC3, 96] := by decide +kernel

end Verif.Props
