import Verif.Lemmas.Naming

/-!
# Names derived from Go names

The specification talks about bytes: `capital`, `small`, `digit`, `alnums` (the letters and digits of a
text) and `lc` (small letters).
-/

namespace Verif.Props

open Verif Naming Spec.Naming

/-- Bytes of a text. -/
def txt (s : String) : List Nat := s.toUTF8.toList.map UInt8.toNat

/-! ## C40 -/

/-- C40: a snake_case name contains no capital letter, space, hyphen or dot. -/
theorem C40_bytes (s : List Nat) (b : Nat) (h : b ∈ toSnakeCase s) : ¬ capital b ∧ b ≠ 32 ∧ b ≠ 45 ∧ b ≠ 46 := by
  have := snake_ok false (trimSpace s) b h
  refine ⟨?_, this.2⟩
  rw [← (cls_spec b).1, this.1]
  simp

/-- C40: converting twice is converting once, whatever the text. -/
theorem C40_idempotent (s : List Nat) : toSnakeCase (toSnakeCase s) = toSnakeCase s := by
  unfold toSnakeCase
  rw [trimSpace_of_trimmed (snake_trimmed false _ (trimSpace_trimmed s))]
  exact snake_fix false _ (snake_ok false _) (snake_apart false _)

/-- C40: the letters and digits of the name are those of the text, in small letters and in order. -/
theorem C40_letters (s : List Nat) : alnums (toSnakeCase s) = (alnums s).map lc := by
  have h := snake_content false (trimSpace s)
  have h2 : alnums (toSnakeCase s) = alnums ((toSnakeCase s).filter (· ≠ 95)) := by
    unfold alnums
    rw [List.filter_filter]
    apply List.filter_congr
    intro b _
    by_cases hb : b = 95
    · subst hb; decide
    · simp [hb]
  rw [h2]
  unfold toSnakeCase
  rw [h, ← alnums_trim s]
  generalize trimSpace s = t
  unfold alnums
  rw [List.filter_filter, List.filter_map]
  congr 1
  apply List.filter_congr
  intro b _
  have := alnum_lc b
  simp only [Function.comp]
  by_cases hb : capital b ∨ small b ∨ digit b
  · have hs : sep (lc b) = false := by
      have := this.2 hb
      unfold capital small digit at this
      unfold sep
      simp only [Bool.or_eq_false_iff, beq_eq_false_iff_ne]
      omega
    simp [this, hs, hb]
  · simp [this, hb]

/-- C40: apart from underscores, which stand for the separators, nothing is added, lost or reordered – including
bytes that are no letters – in a text without white space at its ends. -/
theorem C40_nothing_lost (s : List Nat) (h : trimSpace s = s) :
    (toSnakeCase s).filter (· ≠ 95) = (s.map lc).filter fun b => b ≠ 32 ∧ b ≠ 95 ∧ b ≠ 45 ∧ b ≠ 46 := by
  unfold toSnakeCase
  rw [h, snake_content]
  apply List.filter_congr
  intro b _
  unfold sep
  by_cases h1 : b = 32 <;> by_cases h2 : b = 95 <;> by_cases h3 : b = 45 <;> by_cases h4 : b = 46 <;> simp [h1, h2, h3, h4]

/-- A Go identifier in ASCII stays one, in small letters. -/
theorem C40_identifier (s : List Nat) (h : AsciiIdent s) :
    (∃ c r, toSnakeCase s = c :: r ∧ small c) ∧ ∀ b ∈ toSnakeCase s, small b ∨ digit b ∨ b = 95 := by
  obtain ⟨⟨c, r, rfl, hc⟩, hall⟩ := h
  have hsp : ∀ x, (capital x ∨ small x ∨ digit x ∨ x = 95) → x ∉ spaceSeqs.flatten := by
    intro x hx hm
    have : ∀ y ∈ spaceSeqs.flatten, ¬ (capital y ∨ small y ∨ digit y ∨ y = 95) := by decide
    exact this x hm hx
  have htr : trimSpace (c :: r) = c :: r := by
    obtain ⟨r', h1, h2⟩ := trimSpace_prefix (c :: r) [] (by simp)
      (fun x hx => hsp x (hall x (List.mem_of_getLast? (by simpa using hx))))
      (fun x hx => hsp x (hall x (List.mem_of_head? (by simpa using hx))))
    have : r' = [] := List.prefix_nil.1 h2
    subst this
    simpa using h1
  constructor
  · unfold toSnakeCase
    rw [htr]
    have hsm : small (lower c) := by
      rw [lower_eq]; unfold lc
      by_cases hcc : capital c
      · rw [if_pos hcc]; unfold capital at hcc; unfold small; omega
      · rw [if_neg hcc]; exact hc.resolve_left hcc
    have hpl : plain c = lower c := by
      rcases plain_cases c with h | h
      · exfalso
        unfold plain at h
        simp only at h
        unfold small at hsm
        split at h <;> omega
      · exact h.1
    cases r with
    | nil => exact ⟨lower c, [], by simp [snakeLoop, hpl], hsm⟩
    | cons n r =>
      simp only [snakeLoop]
      split
      · exact ⟨lower c, _, by simp; rfl, hsm⟩
      · exact ⟨lower c, _, by rw [hpl], hsm⟩
  · intro b hb
    by_cases h95 : b = 95
    · exact .inr (.inr h95)
    · have hm : b ∈ (toSnakeCase (c :: r)).filter (· ≠ 95) := List.mem_filter.2 ⟨hb, by simpa using h95⟩
      rw [C40_nothing_lost _ htr, List.mem_filter, List.mem_map] at hm
      obtain ⟨⟨a, ha, rfl⟩, _⟩ := hm
      have := hall a ha
      unfold lc at *
      by_cases hcc : capital a
      · rw [if_pos hcc]; left; unfold capital at hcc; unfold small; omega
      · rw [if_neg hcc] at *
        rcases this with h | h | h | h
        · exact absurd h hcc
        · exact .inl h
        · exact .inr (.inl h)
        · exact absurd h h95

/-- Different Go names may have one column name: the conversion is not injective, whatever the rest of the name,
as long as the rest starts with a separator. -/
theorem C40_collisions (r : List Nat) (hr : trimSpace (73 :: 68 :: 95 :: r) = 73 :: 68 :: 95 :: r)
    (hr' : trimSpace (73 :: 100 :: 95 :: r) = 73 :: 100 :: 95 :: r) :
    toSnakeCase (73 :: 68 :: 95 :: r) = toSnakeCase (73 :: 100 :: 95 :: r) := by
  unfold toSnakeCase
  rw [hr, hr']
  cases r <;> simp [snakeLoop, boundary, isCap, isLow, isNum, plain, lower]

example : toSnakeCase (txt "UserID") = txt "user_id" := by decide +kernel
example : toSnakeCase (txt "HTTPServer2Go") = txt "http_server_2_go" := by decide +kernel
example : toSnakeCase (txt " Größe-A.b\t") = txt "größe_a_b" := by decide +kernel
example : AsciiIdent (txt "HTTPServer2Go") := by
  refine ⟨⟨72, txt "TTPServer2Go", by decide +kernel, by decide⟩, by decide +kernel⟩
example : trimSpace (txt "Größe-A.b") = txt "Größe-A.b" := by decide +kernel
/-- `ID_x` and `Id_x` have one column name. -/
example : toSnakeCase (txt "ID_x") = toSnakeCase (txt "Id_x") ∧ toSnakeCase (txt "UserID") = toSnakeCase (txt "UserId") := by decide +kernel

/-! ## C41 -/

/-- C41: camelCase and PascalCase names consist of letters and digits. -/
theorem C41_alphabet (i : Bool) (s : List Nat) (b : Nat) (h : b ∈ toCamelInitCase i s) : capital b ∨ small b ∨ digit b := by
  unfold toCamelInitCase at h
  simp only at h
  split at h
  · exact (camel_content _ _ _ _ _).2 b h
  · exact (camel_content _ _ _ _ _).2 b h

/-- C41: they are the letters and digits of the text, in order and up to case. -/
theorem C41_letters (i : Bool) (s : List Nat) : (toCamelInitCase i s).map lc = (alnums s).map lc := by
  rw [← alnums_trim s]
  unfold toCamelInitCase
  simp only
  split
  · rename_i h
    rw [(camel_content _ _ _ _ _).1, h]
    decide
  · exact (camel_content _ _ _ _ _).1

theorem trim_letter (c : Nat) (r : List Nat) (h : capital c ∨ small c) : ∃ r', trimSpace (c :: r) = c :: r' := by
  have : ∀ y ∈ spaceSeqs.flatten, ¬ (capital y ∨ small y) := by decide
  obtain ⟨r', h1, _⟩ := trimSpace_prefix [c] r (by simp) (by simpa using fun hm => this c hm h)
    (by simpa using fun hm => this c hm h)
  exact ⟨r', by simpa using h1⟩

/-- C41, for texts starting with a letter: the camelCase name starts with a small letter, the PascalCase name with
a capital one.  For other texts this fails, see `C41_camel_capital` and `C41_pascal_small`. -/
theorem C41_first_partial (c : Nat) (r : List Nat) (h : capital c ∨ small c) :
    (∃ d r', toCamelCase (c :: r) = d :: r' ∧ small d) ∧ ∃ d r', toPascalCase (c :: r) = d :: r' ∧ capital d := by
  obtain ⟨r', hr'⟩ := trim_letter c r h
  obtain ⟨hc, hl, _⟩ := cls_spec c
  have hcl : (isCap c || isLow c) = true := by rw [Bool.or_eq_true, hc, hl]; exact h
  unfold toCamelCase toPascalCase toCamelInitCase
  simp only [hr']
  constructor
  · split
    · exact ⟨105, [100], by decide, by decide⟩
    · simp only [camelLoop, hcl, if_true]
      refine ⟨_, _, rfl, ?_⟩
      unfold camelByte
      cases hcc : isCap c with
      | true =>
        have := hc.1 hcc
        simp only [Bool.false_eq_true, if_false, if_true]
        unfold capital at this
        unfold small
        omega
      | false =>
        simp only [Bool.false_eq_true, if_false, if_true]
        exact h.resolve_left (by rw [← hc, hcc]; simp)
  · split
    · exact ⟨73, [100], by decide, by decide⟩
    · simp only [camelLoop, hcl, if_true]
      refine ⟨_, _, rfl, ?_⟩
      unfold camelByte
      cases hll : isLow c with
      | true =>
        have := hl.1 hll
        simp only [if_true]
        unfold small at this
        unfold capital
        omega
      | false =>
        simp only [Bool.false_eq_true, if_false, if_true]
        exact h.resolve_right (by rw [← hl, hll]; simp)

/-- C41 refuted: the camelCase name of a text starting with `_` and a letter starts with a capital letter. -/
theorem C41_camel_capital (c : Nat) (r : List Nat) (h : capital c ∨ small c) :
    ∃ d r', toCamelCase (95 :: c :: r) = d :: r' ∧ capital d := by
  have hsp : ∀ y ∈ spaceSeqs.flatten, ¬ (capital y ∨ small y) := by decide
  obtain ⟨r', hr', _⟩ := trimSpace_prefix [95, c] r (by simp) (by simpa using fun hm => hsp c hm h) (by simp; decide)
  simp only [List.cons_append, List.nil_append] at hr'
  obtain ⟨hc, hl, _⟩ := cls_spec c
  have hcl : (isCap c || isLow c) = true := by rw [Bool.or_eq_true, hc, hl]; exact h
  unfold toCamelCase toCamelInitCase
  simp only [hr']
  rw [if_neg (by simp)]
  have e : camelLoop false false true false (95 :: c :: r') = camelLoop false true false false (c :: r') := by
    simp [camelLoop, camelByte, isCap, isLow, isNum]
  rw [e]
  simp only [camelLoop, hcl, if_true]
  refine ⟨_, _, rfl, ?_⟩
  unfold camelByte
  cases hll : isLow c with
  | true =>
    have := hl.1 hll
    simp only [if_true]
    unfold small at this
    unfold capital
    omega
  | false =>
    simp only [Bool.false_eq_true, if_false, if_true]
    exact h.resolve_right (by rw [← hl, hll]; simp)

/-- C41 refuted: the PascalCase name starts with a small letter if a byte that is no letter, no digit, no
separator and no white space (the first byte of `$`, or of a letter that is not ASCII) is followed by one. -/
theorem C41_pascal_small (x c : Nat) (r : List Nat) (hx : ¬ (capital x ∨ small x ∨ digit x))
    (hs : x ≠ 32 ∧ x ≠ 95 ∧ x ≠ 45 ∧ x ≠ 46) (hw : x ∉ spaceSeqs.flatten) (h : small c) :
    ∃ r', toPascalCase (x :: c :: r) = c :: r' := by
  have hsp : ∀ y ∈ spaceSeqs.flatten, ¬ (capital y ∨ small y) := by decide
  obtain ⟨r', hr', _⟩ := trimSpace_prefix [x, c] r (by simp) (by simpa using fun hm => hsp c hm (.inr h)) (by simpa using hw)
  simp only [List.cons_append, List.nil_append] at hr'
  obtain ⟨hc, hl, hn⟩ := cls_spec x
  obtain ⟨hc', hl', _⟩ := cls_spec c
  simp only [not_or] at hx
  have h1 : isCap x = false := by rw [← Bool.not_eq_true, hc]; exact hx.1
  have h2 : isLow x = false := by rw [← Bool.not_eq_true, hl]; exact hx.2.1
  have h3 : isNum x = false := by rw [← Bool.not_eq_true, hn]; exact hx.2.2
  have hlc : isLow c = true := hl'.2 h
  have hcc : isCap c = false := by
    rw [← Bool.not_eq_true, hc']; unfold capital; unfold small at h; omega
  unfold toPascalCase toCamelInitCase
  simp only [hr']
  rw [if_neg]
  · have e : camelLoop false true true false (x :: c :: r') = camelLoop false false false false (c :: r') := by
      simp [camelLoop, camelByte, h1, h2, h3, hs]
    rw [e]
    simp [camelLoop, camelByte, hlc, hcc]
  · intro he
    simp only [List.cons.injEq] at he
    apply hx.1
    rw [he.1]
    decide

example : toCamelCase (txt "user_id") = txt "userId" ∧ toPascalCase (txt "user_id") = txt "UserId" := by decide +kernel
example : toCamelCase (txt "HTTPServer") = txt "httpserver" := by decide +kernel
example : toCamelCase (txt "_user") = txt "User" := by decide +kernel
example : toPascalCase (txt "$foo") = txt "foo" := by decide +kernel
/-- Letters that are not ASCII are dropped: `Größe` and `Grße` have one name, and `Ä` has none. -/
example : toCamelCase (txt "Größe") = txt "gre" ∧ toCamelCase (txt "Ä") = [] := by decide +kernel

/-! ## Words -/

/-- C41: underscores separate words; in PascalCase every word starts with a capital letter. -/
theorem C41_pascal_words (ws : List (List Nat)) (h : ∀ w ∈ ws, Word w) :
    toPascalCase (join ws) = (ws.map capitalise).flatten := by
  unfold toPascalCase toCamelInitCase
  simp only [trim_join ws h]
  rw [if_neg (join_ne_id ws h)]
  exact camel_join_true false true false ws h

/-- C41: in camelCase every word but the first does. -/
theorem C41_camel_words (w : List Nat) (ws : List (List Nat)) (h : ∀ v ∈ w :: ws, Word v) :
    toCamelCase (join (w :: ws)) = w ++ (ws.map capitalise).flatten := by
  unfold toCamelCase toCamelInitCase
  simp only [trim_join _ h]
  rw [if_neg (join_ne_id _ h)]
  exact camel_join_false w ws h

/-- C40: an underscore is put exactly where a new word starts: the column name of the PascalCase name made of
words with two or more letters consists of these words. -/
theorem C40_words (ws : List (List Nat)) (h : ∀ w ∈ ws, Word w ∧ 2 ≤ w.length) :
    toSnakeCase ((ws.map capitalise).flatten) = join ws := by
  unfold toSnakeCase
  rw [trim_pascal ws fun w hw => (h w hw).1]
  exact snake_words ws h

/-- Column name to Go name and back. -/
theorem C40_pascal_roundtrip (ws : List (List Nat)) (h : ∀ w ∈ ws, Word w ∧ 2 ≤ w.length) :
    toSnakeCase (toPascalCase (join ws)) = join ws := by
  rw [C41_pascal_words ws fun w hw => (h w hw).1, C40_words ws h]

example : ∀ w ∈ [txt "user", txt "id"], Word w ∧ 2 ≤ w.length := by unfold Word; decide +kernel
/-- With words of one letter the way back fails. -/
example : toSnakeCase (toPascalCase (txt "a_b")) = txt "ab" := by decide +kernel

end Verif.Props
