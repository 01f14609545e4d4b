import Verif.Spec.Fixed
import Verif.Lemmas.Utf8Order
import Verif.Props.CustomMore

/-!
# Property C109: arrays of bytes or characters as fields of records
-/

namespace Verif.Props

open Verif Verif.Dispatch Verif.Typed Verif.Fixed Verif.ColumnType Verif.Scan Verif.Spec.Scan Verif.Spec Verif.Spec.Fixed

variable {F U : Type}

/-! ## The entries -/

/-- The name of the elements. -/
def elemName : Fixed.Elem → Text
  | .byte => "byte".toList
  | .rune => "rune".toList

private theorem fixed_keys (d : ColumnType.Dialect) : ∀ e n, tableOf d (.toks [.arr n, .name (elemName e)]) = false ∧
    tableOf d (.fixed (elemName e)) = true := by
  intro e n
  cases d <;> cases e <;> simp [tableOf, Dispatch.mysql, Dispatch.postgres, Dispatch.sqlite, commonKeys, elemName]

theorem fixed_both {W : Fixed.World F U} {f : F} {e : Fixed.Elem} {n : Nat} (h : Is W f e n) :
    W.writes f = some (.table (.fixed (elemName e))) ∧ W.reads f = some (.table (.fixed (elemName e))) ∧ arraySize (W.ty f) = n := by
  obtain ⟨-, ht, hp, hb⟩ := h
  have ht : W.base.base.base.ty f = .array n (.basic (elemName e)) := by rw [ht]; cases e <;> rfl
  rw [ht] at hb
  obtain ⟨k1, k2⟩ := fixed_keys W.base.base.base.dialect e n
  have hf : fixedName [.arr n, .name (elemName e)] = some (elemName e) := by cases e <;> simp [fixedName, elemName]
  have hc : columnKey W.base.base.base.decls (tableOf W.base.base.base.dialect) fuel (.array n (.basic (elemName e))) =
      some (some (.fixed (elemName e))) := by
    simp [columnKey, walk, fuel, lookup, k1, hf, k2]
  refine ⟨?_, ?_, ?_⟩
  · unfold Fixed.World.writes Fixed.World.ty
    rw [ht]
    unfold Dispatch.writes valuer
    simp only [isDirect, Bool.false_eq_true, if_false, hb.confV, show deref (.array n (.basic (elemName e))) = .array n (.basic (elemName e)) from rfl,
      hb.value, hc, Option.map_some, ofKey]
    rw [if_neg (by simp)]
  · unfold Fixed.World.reads Fixed.World.ty
    rw [ht]
    unfold Dispatch.reads Dispatch.scanner
    simp only [isDirect, Bool.false_eq_true, if_false, hb.confS,
      show pointee (.array n (.basic (elemName e))) = .array n (.basic (elemName e)) from rfl, hb.scan, hc, Option.map_some, ofKey]
    rw [if_neg (by simp only [arraySize]; omega), if_neg (by simp)]
  · unfold Fixed.World.ty
    rw [ht]
    rfl

/-! ## What is written and read -/

theorem enc_bytes {W : Fixed.World F U} {f : F} {n : Nat} (h : Is W f .byte n) (l : Bytes) : W.enc f (.bytes l) = W.keep f (.bytes l) := by
  have := (fixed_both h).1
  simp only [elemName] at this
  simp only [Fixed.World.enc, Fixed.World.param]
  rw [if_pos this]

theorem enc_runes {W : Fixed.World F U} {f : F} {n : Nat} (h : Is W f .rune n) (l : List Int) :
    W.enc f (.runes l) = W.keep f (.str (runesValue l)) := by
  have := (fixed_both h).1
  simp only [elemName] at this
  simp only [Fixed.World.enc, Fixed.World.param]
  rw [if_pos this]

theorem dec_bytes {W : Fixed.World F U} {f : F} {n : Nat} (h : Is W f .byte n) (c : Fixed.Cell) (old : Val U) :
    W.dec f c old = (Custom.done (scanByteArr n (oldBytes n old) (W.hand f c))).map .bytes := by
  have hb : elemName .byte = "byte".toList := rfl
  simp only [Fixed.World.dec, h.arr, if_true, (fixed_both h).2.1, (fixed_both h).2.2, hb, Int.toNat_natCast]

theorem dec_runes {W : Fixed.World F U} {f : F} {n : Nat} (h : Is W f .rune n) (c : Fixed.Cell) (old : Val U) :
    W.dec f c old = (Custom.done (scanRuneArr n (oldRunes n old) (W.hand f c))).map fun l => .runes (l.map fun (r : Nat) => toSigned 32 r) := by
  have hb : ¬ elemName .rune = "byte".toList := by decide +kernel
  simp only [Fixed.World.dec, h.arr, if_true, (fixed_both h).2.1, (fixed_both h).2.2, hb, if_false, Int.toNat_natCast]

theorem oldBytes_length (n : Nat) (old : Val U) : (oldBytes n old).length = n := by
  unfold oldBytes
  split
  · split <;> simp [*]
  · simp

theorem oldRunes_length (n : Nat) (old : Val U) : (oldRunes n old).length = n := by
  unfold oldRunes
  split
  · split <;> simp [*]
  · simp

theorem text_iff {p : Src} {s t : Bytes} (h1 : Fixed.Text p s) (h2 : Fixed.Text p t) : s = t := by
  cases h1 <;> cases h2 <;> rfl

/-! ## Bytes -/

/-- The array after a text that is not longer than it was read. -/
theorem read_bytes {W : Fixed.World F U} {f : F} {n : Nat} (h : Is W f .byte n) {c : Fixed.Cell} {s : Bytes}
    (hs : W.hand f c = .bytes s ∨ W.hand f c = .str s) (hl : s.length ≤ n) (old : Val U) :
    W.dec f c old = some (.bytes (s ++ (oldBytes n old).drop s.length)) := by
  have := (C46_scan_partial (oldBytes n old) s (W.hand f c) hs).1
  rw [oldBytes_length, if_pos hl] at this
  rw [dec_bytes h, this]
  rfl

theorem hands_text {W : Fixed.World F U} (hW : Fixed.Behaves W) {f : F} {e : Fixed.Elem} {n : Nat} {col : Fixed.Col}
    (hc : Fixed.Column W f e n col) {p : Src} {s : Bytes} (hk : Fixed.Keeps col p (.text s)) :
    W.hand f (.text s) = .bytes s ∨ W.hand f (.text s) = .str s := by
  have := hW.hands f e n col hc _ _ hk
  generalize W.hand f (.text s) = r at this ⊢
  cases this
  · exact .inr rfl
  · exact .inl rfl

theorem trimmed_unique {s s2 : Bytes} {k : Nat} (hs : ∀ t, s ≠ t ++ [32]) (h : Trimmed (s ++ List.replicate k 32) s2) : s2 = s := by
  generalize hy : s ++ List.replicate k 32 = y at h
  cases h with
  | @mk s2 k2 hs2 =>
    induction k generalizing k2 with
    | zero =>
      cases k2 with
      | zero => simpa using hy.symm
      | succ k2 =>
        rw [List.replicate_succ', ← List.append_assoc] at hy
        simp only [List.replicate_zero, List.append_nil] at hy
        exact absurd hy (hs _)
    | succ k ih =>
      cases k2 with
      | zero =>
        rw [List.replicate_succ', ← List.append_assoc] at hy
        simp only [List.replicate_zero, List.append_nil] at hy
        exact absurd hy.symm (hs2 _)
      | succ k2 =>
        rw [List.replicate_succ', List.replicate_succ', ← List.append_assoc, ← List.append_assoc] at hy
        exact ih (List.append_cancel_right hy)

/-- C109, spaces: of an array that ends with spaces, a column of type `CHAR` gives a shorter text, and the end of what the field had
before stays. -/
theorem C109_spaces {W : Fixed.World F U} (hW : Fixed.Behaves W) {f : F} {n : Nat} {limit : Option Nat} {nul : Bool}
    (hc : Fixed.Column W f .byte n (.text limit nul false)) {s : Bytes} {k : Nat} (hs : ∀ t, s ≠ t ++ [32]) (hl : s.length + k = n)
    (hk : Fixed.Takes limit nul (s ++ List.replicate k 32)) (old : Bytes) (ho : old.length = n) :
    W.dec f (W.enc f (.bytes (s ++ List.replicate k 32))) (.bytes old) = some (.bytes (s ++ old.drop s.length)) := by
  have hkeep := hW.keeps f _ _ _ hc (.bytes (s ++ List.replicate k 32)) (.text s) (.trimmed .bytes hk (.mk hs))
  rw [enc_bytes hc.1]
  generalize hx : W.keep f (.bytes (s ++ List.replicate k 32)) = c at hkeep ⊢
  have hkeep' := hkeep
  cases hkeep with
  | @trimmed _ _ _ s1 s2 ht _ htr =>
    have e := text_iff ht (.bytes)
    subst e
    have e : s2 = s := trimmed_unique hs htr
    subst e
    have := read_bytes hc.1 (hands_text hW hc hkeep') (by omega) (.bytes old)
    rw [this]
    simp [oldBytes, ho]

/-- C109, for one array of bytes that the column keeps: it is read as it was written, whatever the field had before, unless it ends with
a space and the column is of type `CHAR`. -/
theorem C109_bytes_iff_partial {W : Fixed.World F U} (hW : Fixed.Behaves W) {f : F} {n : Nat} {col : Fixed.Col}
    (hc : Fixed.Column W f .byte n col) {l : Bytes} (hl : l.length = n) (hk : ∃ c, Fixed.Keeps col (.bytes l) c) :
    (∀ old, W.dec f (W.enc f (.bytes l)) old = some (.bytes l)) ↔ ¬ ((∃ limit nul, col = .text limit nul false) ∧ ∃ t, l = t ++ [32]) := by
  obtain ⟨c0, hk⟩ := hk
  have hkeep := hW.keeps f _ _ _ hc _ _ hk
  have full : ∀ c, (W.hand f c = .bytes l ∨ W.hand f c = .str l) → ∀ old, W.dec f c old = some (.bytes l) := by
    intro c h old
    rw [read_bytes hc.1 h (by omega) old, List.drop_of_length_le (by rw [oldBytes_length]; omega), List.append_nil]
  rw [enc_bytes hc.1]
  generalize hx : W.keep f (.bytes l) = c at hkeep ⊢
  have hkeep' := hkeep
  cases hkeep with
  | text ht htk =>
    have e := text_iff ht .bytes
    subst e
    refine ⟨fun _ h => ?_, fun _ => full _ (hands_text hW hc hkeep')⟩
    obtain ⟨⟨_, _, h⟩, -⟩ := h
    cases h
  | blob =>
    have := hW.hands f _ _ _ hc _ _ hkeep'
    refine ⟨fun _ h => ?_, fun _ => full _ (.inl ?_)⟩
    · obtain ⟨⟨_, _, h⟩, -⟩ := h
      cases h
    · generalize W.hand f (.blob l) = r at this ⊢
      cases this
      rfl
  | @trimmed _ _ _ s1 s' ht htk htr =>
    have e := text_iff ht .bytes
    subst e
    cases htr with
    | @mk _ k hs =>
      have hr : ∀ old, W.dec f (.text s') old = some (.bytes (s' ++ (oldBytes n old).drop s'.length)) := fun old =>
        read_bytes hc.1 (hands_text hW hc hkeep') (by simp at hl; omega) old
      cases k with
      | zero =>
        refine ⟨fun _ h => ?_, fun _ => ?_⟩
        · obtain ⟨-, t, h⟩ := h
          simp only [List.replicate_zero, List.append_nil] at h
          exact hs t h
        · simp only [List.replicate_zero, List.append_nil] at full ⊢
          exact full _ (hands_text hW hc hkeep')
      | succ k =>
        refine ⟨fun h => ?_, fun h => ?_⟩
        · have := h (.runes [])
          rw [hr] at this
          simp only [oldBytes, Option.some.injEq, Val.bytes.injEq] at this
          have := List.append_cancel_left this
          have h32 : (32 : Byte) ∈ List.drop s'.length (List.replicate n (0 : Byte)) := by rw [this]; simp
          have := List.mem_of_mem_drop h32
          simp at this
        · exact absurd ⟨⟨_, _, rfl⟩, s' ++ List.replicate k 32, by rw [List.replicate_succ', List.append_assoc]⟩ h

/-! ## Characters -/

theorem runeOf_char (r : Int) : ∃ c : Char, (c.toNat : Int) = runeOf r := by
  have hv : (runeOf r).isValidChar := by
    unfold runeOf Nat.isValidChar
    split <;> omega
  refine ⟨Char.ofNat (runeOf r), ?_⟩
  simp [Char.ofNat, hv, Char.toNat, Char.ofNatAux]

theorem runeOf_runeOf (r : Int) : runeOf (runeOf r : Int) = runeOf r := by
  unfold runeOf
  split <;> rename_i h
  · rw [if_pos (by omega)]; omega
  · rw [if_pos (by omega)]; rfl

/-- What is written for any array of characters is a text of as many characters. -/
theorem runes_text (l : List Int) : ∃ cs : List Char, cs.length = l.length ∧ runesValue l = utf8s cs ∧
    ((∃ t : List Char, l = t.map fun c => (c.toNat : Int)) ↔ l = cs.map fun c => (c.toNat : Int)) := by
  have : ∃ cs : List Char, cs.length = l.length ∧ cs.map (fun c => (c.toNat : Int)) = l.map fun r => (runeOf r : Int) := by
    induction l with
    | nil => exact ⟨[], rfl, rfl⟩
    | cons r l ih =>
      obtain ⟨cs, h1, h2⟩ := ih
      obtain ⟨c, hc⟩ := runeOf_char r
      exact ⟨c :: cs, by simp [h1], by simp [hc, h2]⟩
  obtain ⟨cs, h1, h2⟩ := this
  refine ⟨cs, h1, ?_, ?_⟩
  · rw [← runesValue_chars, h2]
    unfold runesValue
    rw [List.flatMap_map]
    have : (fun r : Int => runeValue (runeOf r : Int)) = runeValue := by
      funext r
      show encodeRune (runeOf (runeOf r : Int)) = encodeRune (runeOf r)
      rw [runeOf_runeOf]
    rw [this]
  · constructor
    · rintro ⟨t, rfl⟩
      rw [h2, List.map_map]
      apply List.map_congr_left
      intro c _
      have hv := c.valid
      unfold UInt32.isValidChar Nat.isValidChar at hv
      have : c.toNat = c.val.toNat := rfl
      simp only [Function.comp, runeOf]
      rw [if_pos (by omega)]
      omega
    · intro h; exact ⟨cs, h⟩

theorem toSigned_char (c : Char) : toSigned 32 (c.toNat : Int) = c.toNat := by
  have := char_bound c
  exact toSigned_of_range (by omega) (by omega) (by omega)

theorem read_runes {W : Fixed.World F U} {f : F} {n : Nat} (h : Is W f .rune n) {c : Fixed.Cell} {cs : List Char} (hl : cs.length = n)
    (hs : W.hand f c = .bytes (utf8s cs) ∨ W.hand f c = .str (utf8s cs) ∧ ∀ c ∈ cs, c.toNat < 128) (old : Val U) :
    W.dec f c old = some (.runes (cs.map fun c => (c.toNat : Int))) := by
  have hlen := oldRunes_length n old
  have hb : scanRuneArr n (oldRunes n old) (W.hand f c) = .ok (cs.map Char.toNat) := by
    have := C47_bytes (oldRunes n old) cs
    rw [hlen, if_pos (by omega), List.drop_of_length_le (by omega), List.append_nil] at this
    rcases hs with h | ⟨h, ha⟩
    · rw [h, this]
    · have h2 := C47_ascii_partial (oldRunes n old) cs ha
      rw [hlen] at h2
      rw [h, h2, this]
  rw [dec_runes h, hb]
  simp only [Custom.done, Option.map_some, List.map_map]
  congr 2
  apply List.map_congr_left
  intro c _
  simp [Function.comp, toSigned_char]

/-- C109, for one array of characters that the column keeps: it is read as it was written if and only if all of them are characters, and
they are handed over as bytes or all are ASCII. -/
theorem C109_runes_iff_partial {W : Fixed.World F U} (hW : Fixed.Behaves W) {f : F} {n : Nat} {limit : Option Nat} {nul : Bool}
    (hc : Fixed.Column W f .rune n (.text limit nul true)) {l : List Int} (hl : l.length = n)
    (hk : ∃ c, Fixed.Keeps (.text limit nul true) (.str (runesValue l)) c) (old : Val U) :
    W.dec f (W.enc f (.runes l)) old = some (.runes l) ↔ (∃ cs : List Char, l = cs.map fun c => (c.toNat : Int)) ∧
      (W.hand f (.text (runesValue l)) = .bytes (runesValue l) ∨ ∀ r ∈ l, r < 128) := by
  obtain ⟨c0, hk⟩ := hk
  have hkeep := hW.keeps f _ _ _ hc _ _ hk
  rw [enc_runes hc.1]
  obtain ⟨cs, hcl, he, hchars⟩ := runes_text l
  rw [hchars]
  generalize hx : W.keep f (.str (runesValue l)) = c at hkeep ⊢
  have hkeep' := hkeep
  cases hkeep with
  | text ht htk =>
    have e := text_iff ht .str
    subst e
    have hh := hands_text hW hc hkeep'
    rw [he] at hh ⊢
    have ascii : l = cs.map (fun c => (c.toNat : Int)) → ((∀ r ∈ l, r < 128) ↔ ∀ c ∈ cs, c.toNat < 128) := by
      intro e
      subst e
      simp only [List.mem_map, forall_exists_index, and_imp, forall_apply_eq_imp_iff₂]
      exact ⟨fun h c hc => by have := h c hc; omega, fun h c hc => by have := h c hc; omega⟩
    rcases hh with hh | hh
    · rw [read_runes hc.1 (by omega) (.inl hh)]
      simp only [Option.some.injEq, Val.runes.injEq, hh, true_or, and_true]
      exact eq_comm
    · by_cases ha : ∀ c ∈ cs, c.toNat < 128
      · rw [read_runes hc.1 (by omega) (.inr ⟨hh, ha⟩)]
        simp only [Option.some.injEq, Val.runes.injEq]
        exact ⟨fun h => ⟨h.symm, .inr ((ascii h.symm).2 ha)⟩, fun h => h.1.symm⟩
      · have hl' := oldRunes_length n old
        have ha' : ∃ c ∈ cs, 128 ≤ c.toNat := by
          apply Classical.byContradiction
          intro hno
          apply ha
          intro c hc
          apply Classical.byContradiction
          intro h
          exact hno ⟨c, hc, by omega⟩
        have hlong := C71_string_too_long (oldRunes n old) cs (by omega) ha'
        rw [runesValue_chars, hl'] at hlong
        rw [dec_runes hc.1, hh, hlong]
        constructor
        · intro h; cases h
        · rintro ⟨h1, h2⟩
          rcases h2 with h2 | h2
          · simp at h2
          · exact absurd ((ascii h1).1 h2) ha

/-! ## What columns do not keep -/

/-- Without the spaces at the end. -/
def trim (s : Bytes) : Bytes := (s.reverse.dropWhile (· = 32)).reverse

theorem trim_trimmed (s : Bytes) : Trimmed s (trim s) := by
  have hs : s = trim s ++ List.replicate (s.reverse.takeWhile (· = 32)).length 32 := by
    have h := List.takeWhile_append_dropWhile (p := fun b : Byte => decide (b = 32)) (l := s.reverse)
    have hr : s.reverse.takeWhile (· = 32) = List.replicate (s.reverse.takeWhile (· = 32)).length 32 := by
      rw [List.eq_replicate_iff]
      refine ⟨rfl, fun b hb => ?_⟩
      have := List.mem_takeWhile_imp hb
      simpa using this
    have h2 := congrArg List.reverse h
    rw [List.reverse_append, List.reverse_reverse, hr, List.reverse_replicate] at h2
    exact h2.symm
  have hno : ∀ t, trim s ≠ t ++ [32] := by
    intro t ht
    have : s.reverse.dropWhile (· = 32) = 32 :: t.reverse := by
      have := congrArg List.reverse ht
      simpa [trim] using this
    have hd := List.head_dropWhile_not (p := fun b : Byte => decide (b = 32)) (l := s.reverse) (by rw [this]; simp)
    simp [this] at hd
  have := Trimmed.mk (k := (s.reverse.takeWhile (· = 32)).length) hno
  rwa [← hs] at this

theorem trimmed_exists (s : Bytes) : ∃ t, Fixed.Trimmed s t := ⟨_, trim_trimmed s⟩

theorem column_of {W : Fixed.World F U} {f : F} {n : Nat} {e : Fixed.Elem} {col : Fixed.Col} (hc : Fixed.Column W f e n col) :
    (W.base.base.base.dialect = .mysql ∧ col = .text (some (W.base.base.base.size f)) true (decide (e = .rune))) ∨
    (W.base.base.base.dialect = .postgres ∧ W.base.base.base.size f ≠ 0 ∧ col = .text (some (W.base.base.base.size f)) false true) ∨
    W.base.base.base.dialect = .sqlite := by
  obtain ⟨-, hm⟩ := hc
  cases hd : W.base.base.base.dialect with
  | sqlite => exact .inr (.inr rfl)
  | mysql =>
    rw [hd] at hm
    cases e with
    | byte => exact .inl ⟨rfl, (Option.some.inj hm).symm⟩
    | rune => exact .inl ⟨rfl, (Option.some.inj hm).symm⟩
  | postgres =>
    rw [hd] at hm
    have hm : (if W.base.base.base.size f = 0 then none else some (Fixed.Col.text (some (W.base.base.base.size f)) false true)) = some col := by
      cases e <;> exact hm
    by_cases h0 : W.base.base.base.size f = 0
    · rw [if_pos h0] at hm; cases hm
    · rw [if_neg h0] at hm; exact .inr (.inl ⟨rfl, h0, (Option.some.inj hm).symm⟩)

/-- C109, the size: without one in the tag, MySQL and PostgreSQL keep no array of characters, and neither if it is less than the length of
the array. -/
theorem C109_too_small_runes {W : Fixed.World F U} {f : F} {n : Nat} {col : Fixed.Col} (hc : Fixed.Column W f .rune n col)
    (hd : W.base.base.base.dialect ≠ .sqlite) (hs : W.base.base.base.size f < n) (l : List Int) (hl : l.length = n) (c : Fixed.Cell) :
    ¬ Fixed.Keeps col (.str (runesValue l)) c := by
  intro hk
  obtain ⟨cs, hcl, he, -⟩ := runes_text l
  have fin : ∀ limit nul, limit = W.base.base.base.size f → ¬ Fixed.Takes (some limit) nul (runesValue l) := by
    rintro limit nul rfl ⟨t, ht, hn, -⟩
    rw [he] at ht
    have := utf8s_inj ht
    subst this
    have := hn _ rfl
    omega
  rcases column_of hc with ⟨-, rfl⟩ | ⟨-, -, rfl⟩ | h
  · cases hk with
    | text ht htk => have e := text_iff ht .str; subst e; exact fin _ _ rfl htk
  · cases hk with
    | text ht htk => have e := text_iff ht .str; subst e; exact fin _ _ rfl htk
  · exact hd h

/-- The same for arrays of bytes, without a size. -/
theorem C109_no_size_bytes {W : Fixed.World F U} {f : F} {n : Nat} {col : Fixed.Col} (hc : Fixed.Column W f .byte n col)
    (hd : W.base.base.base.dialect ≠ .sqlite) (hs : W.base.base.base.size f = 0) (l : Bytes) (hl : l.length = n) (c : Fixed.Cell) :
    ¬ Fixed.Keeps col (.bytes l) c := by
  intro hk
  have hi := hc.1
  have fin : ∀ nul, ¬ Fixed.Takes (some 0) nul l := by
    rintro nul ⟨t, ht, hn, -⟩
    have := hn _ rfl
    cases t with
    | nil => have := hi.pos; subst ht; simp [utf8s] at hl; omega
    | cons c t => simp at this
  rcases column_of hc with ⟨-, rfl⟩ | ⟨-, h, -⟩ | h
  · cases hk with
    | trimmed ht htk => have e := text_iff ht .bytes; subst e; rw [hs] at htk; exact fin _ htk
  · exact h hs
  · exact hd h

theorem utf8s_zero {cs : List Char} (h : (0 : Byte) ∈ utf8s cs) : Char.ofNat 0 ∈ cs := by
  induction cs with
  | nil => simp [utf8s] at h
  | cons c cs ih =>
    rw [utf8s_cons] at h
    rcases List.mem_append.1 h with h | h
    · have hb := char_bound c
      have hz : ∀ {p : Nat}, p < 256 → ((0 : Byte) = UInt8.ofNat p ↔ p = 0) := fun hp =>
        (byte_eq (p := 0) (by omega) hp).trans eq_comm
      have h0 : c.toNat = 0 := by
        unfold utf8 at h
        generalize c.toNat = m at h hb
        simp only at h
        split at h
        · simp only [List.mem_singleton] at h
          rwa [hz (by omega)] at h
        · split at h
          · simp only [List.mem_cons, List.not_mem_nil, or_false] at h
            rw [hz (by omega), hz (by omega)] at h
            omega
          · split at h
            · simp only [List.mem_cons, List.not_mem_nil, or_false] at h
              rw [hz (by omega), hz (by omega), hz (by omega)] at h
              omega
            · simp only [List.mem_cons, List.not_mem_nil, or_false] at h
              rw [hz (by omega), hz (by omega), hz (by omega), hz (by omega)] at h
              omega
      have : c = Char.ofNat 0 := char_toNat_inj h0
      rw [this]
      exact List.mem_cons_self
    · exact List.mem_cons_of_mem _ (ih h)

/-- C109, PostgreSQL: arrays with a zero in them, as those are that nothing was put into, cannot be stored. -/
theorem C109_postgres_zero {W : Fixed.World F U} {f : F} {n : Nat} {e : Fixed.Elem} {col : Fixed.Col} (hc : Fixed.Column W f e n col)
    (hd : W.base.base.base.dialect = .postgres) (c : Fixed.Cell) :
    (∀ l : Bytes, 0 ∈ l → ¬ Fixed.Keeps col (.bytes l) c) ∧ ∀ l : List Int, 0 ∈ l → ¬ Fixed.Keeps col (.str (runesValue l)) c := by
  have hm : ∃ n, col = .text (some n) false true := by
    rcases column_of hc with ⟨h, -⟩ | ⟨-, -, h⟩ | h
    · rw [hd] at h; cases h
    · exact ⟨_, h⟩
    · rw [hd] at h; cases h
  obtain ⟨m, rfl⟩ := hm
  have fin : ∀ l : Bytes, 0 ∈ l → ¬ Fixed.Takes (some m) false l := by
    rintro l hl ⟨cs, rfl, -, hz⟩
    exact hz rfl (utf8s_zero hl)
  refine ⟨fun l hl hk => ?_, fun l hl hk => ?_⟩
  · cases hk with
    | text ht htk => have e := text_iff ht .bytes; subst e; exact fin _ hl htk
  · cases hk with
    | text ht htk =>
      have e := text_iff ht .str
      subst e
      exact fin _ (List.mem_flatMap.2 ⟨0, hl, by decide +kernel⟩) htk

/-- C109, what is kept: MySQL and PostgreSQL keep exactly those arrays of bytes that are UTF-8, of no more characters than the size, and
on PostgreSQL without a zero; so most hashes and keys cannot be stored. -/
theorem C109_bytes_kept_iff {W : Fixed.World F U} {f : F} {n : Nat} {col : Fixed.Col} (hc : Fixed.Column W f .byte n col)
    (hd : W.base.base.base.dialect ≠ .sqlite) (l : Bytes) :
    (∃ c, Fixed.Keeps col (.bytes l) c) ↔ ∃ cs : List Char, l = utf8s cs ∧ cs.length ≤ W.base.base.base.size f ∧
      (W.base.base.base.dialect = .postgres → Char.ofNat 0 ∉ cs) := by
  constructor
  · rintro ⟨c, hk⟩
    rcases column_of hc with ⟨h, rfl⟩ | ⟨h, -, rfl⟩ | h
    · cases hk with
      | trimmed ht htk =>
        have e := text_iff ht .bytes
        subst e
        obtain ⟨cs, he, hn, -⟩ := htk
        exact ⟨cs, he, hn _ rfl, fun h' => by rw [h] at h'; cases h'⟩
    · cases hk with
      | text ht htk =>
        have e := text_iff ht .bytes
        subst e
        obtain ⟨cs, he, hn, hz⟩ := htk
        exact ⟨cs, he, hn _ rfl, fun _ => hz rfl⟩
    · exact absurd h hd
  · rintro ⟨cs, he, hn, hz⟩
    rcases column_of hc with ⟨h, rfl⟩ | ⟨h, -, rfl⟩ | h
    · obtain ⟨t, ht⟩ := trimmed_exists l
      exact ⟨.text t, .trimmed .bytes ⟨cs, he, fun n hn' => by cases hn'; exact hn, fun h => by cases h⟩ ht⟩
    · exact ⟨.text l, .text .bytes ⟨cs, he, fun n hn' => by cases hn'; exact hn, fun _ => hz h⟩⟩
    · exact absurd h hd

/-! ## Any field -/

/-- C109, for one field: whatever it had before, a value that its column is for is there after it was read. -/
theorem C109_field {W : Fixed.World F U} (hW : Fixed.Behaves W) {f : F} {x : Val U} (hx : Fixed.Stores W f x) (old : Val U) :
    W.dec f (W.enc f x) old = some x := by
  cases x with
  | base v =>
    obtain ⟨ha, hx⟩ := hx
    simp [Fixed.World.dec, ha, Fixed.World.enc, C104_field hW.base hx]
  | bytes l =>
    obtain ⟨n, col, hc, hl, hm⟩ := hx
    cases col with
    | blob => exact (C109_bytes_iff_partial hW hc hl ⟨_, .blob⟩).2 (by rintro ⟨⟨_, _, h⟩, -⟩; cases h) old
    | text limit nul spaces =>
      obtain ⟨htk, hsp⟩ := hm
      cases spaces with
      | true => exact (C109_bytes_iff_partial hW hc hl ⟨_, .text .bytes htk⟩).2 (by rintro ⟨⟨_, _, h⟩, -⟩; cases h) old
      | false =>
        have htr : Trimmed l l := by
          have := Trimmed.mk (s := l) (k := 0) (hsp rfl)
          simpa using this
        exact (C109_bytes_iff_partial hW hc hl ⟨_, .trimmed .bytes htk htr⟩).2 (by rintro ⟨-, t, h⟩; exact hsp rfl t h) old
  | runes l =>
    obtain ⟨n, limit, nul, hc, cs, rfl, hl, hlim, hnul, hb⟩ := hx
    refine (C109_runes_iff_partial hW hc (by simp [hl]) ⟨_, .text .str ⟨cs, runesValue_chars cs, hlim, hnul⟩⟩ old).2 ⟨⟨cs, rfl⟩, ?_⟩
    rcases hb with hb | hb
    · exact .inl (hb _)
    · refine .inr fun r hr => ?_
      obtain ⟨c, hc, rfl⟩ := List.mem_map.1 hr
      have := hb c hc
      show (c.toNat : Int) < 128
      omega

end Verif.Props
