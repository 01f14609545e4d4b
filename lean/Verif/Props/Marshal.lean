import Verif.Props.JsonSlices
import Verif.Props.Scan
import Verif.Model.Marshal

/-! # Rendering lists -/

namespace Verif.Spec

/-- Elements separated by commas; `R t x` says that `t` is a text for `x`. -/
inductive Commas {α : Type} (R : Bytes → α → Prop) : Bytes → List α → Prop
  | one {t x} : R t x → Commas R t [x]
  | more {t x b xs} : R t x → Commas R b xs → Commas R (t ++ 44 :: b) (x :: xs)

/-- A bracketed, comma separated list. -/
inductive Listed {α : Type} (R : Bytes → α → Prop) : Bytes → List α → Prop
  | empty : Listed R [91, 93] []
  | some {b xs} : Commas R b xs → Listed R (91 :: (b ++ [93])) xs

end Verif.Spec

namespace Verif.Props

open Verif Spec Verif.Spec.Scan Marshal

theorem rest_eq {α : Type} (enc : α → Bytes) (xs : List α) : rest enc xs = xs.flatMap (fun y => 44 :: enc y) := by
  induction xs with
  | nil => rfl
  | cons x xs ih => simp [rest, ih]

theorem list_cons {α : Type} (enc : α → Bytes) (x : α) (xs : List α) : list enc (x :: xs) = arrayText 91 93 enc x xs := by
  simp [list, rest_eq, arrayText]

theorem list_listed {α : Type} {R : Bytes → α → Prop} {enc : α → Bytes} (h : ∀ x, R (enc x) x) (xs : List α) :
    Listed R (list enc xs) xs := by
  cases xs with
  | nil => exact .empty
  | cons x xs =>
    have : Commas R (enc x ++ rest enc xs) (x :: xs) := by
      induction xs generalizing x with
      | nil => simpa [rest] using Commas.one (h x)
      | cons y ys ih => simpa [rest] using Commas.more (h x) (ih y)
    simpa [list] using Listed.some this

theorem append_comma_inj {a b r s : Bytes} (ha : 44 ∉ a) (hb : 44 ∉ b) (h : a ++ 44 :: r = b ++ 44 :: s) : a = b ∧ r = s := by
  induction a generalizing b with
  | nil =>
    cases b with
    | nil => simpa using h
    | cons y b => simp at h hb; exact absurd h.1 hb.1
  | cons x a ih =>
    cases b with
    | nil => simp at h ha; exact absurd h.1.symm ha.1
    | cons y b =>
      simp at h ha hb
      obtain ⟨h1, h2⟩ := ih ha.2 hb.2 h.2
      exact ⟨by rw [h.1, h1], h2⟩

theorem commas_unique {α : Type} {R : Bytes → α → Prop} (hR : ∀ t x, R t x → (44 : Byte) ∉ t) (hf : ∀ t x y, R t x → R t y → x = y)
    {b : Bytes} {xs ys : List α} (h : Commas R b xs) (h' : Commas R b ys) : xs = ys := by
  induction h generalizing ys with
  | one hx =>
    cases h' with
    | one hy => rw [hf _ _ _ hx hy]
    | more hy _ => have := hR _ _ hx; simp at this
  | @more t x b xs hx hb ih =>
    generalize hc : t ++ 44 :: b = c at h'
    cases h' with
    | one hy => have := hR _ _ hy; rw [← hc] at this; simp at this
    | more hy hb' =>
      obtain ⟨rfl, rfl⟩ := append_comma_inj (hR _ _ hx) (hR _ _ hy) hc
      rw [hf _ _ _ hx hy, ih hb']

/-- A list text is a text of one list only. -/
theorem listed_unique {α : Type} {R : Bytes → α → Prop} (hR : ∀ t x, R t x → (44 : Byte) ∉ t ∧ t ≠ []) (hf : ∀ t x y, R t x → R t y → x = y)
    {t : Bytes} {xs ys : List α} (h : Listed R t xs) (h' : Listed R t ys) : xs = ys := by
  have hne : ∀ b xs, Commas R b xs → b ≠ [] := by
    intro b xs h
    cases h with
    | one hx => exact (hR _ _ hx).2
    | more hx _ => simp
  cases h with
  | empty =>
    generalize hc : ([91, 93] : Bytes) = c at h'
    cases h' with
    | empty => rfl
    | some hb =>
      rename_i b
      cases b with
      | nil => exact absurd rfl (hne _ _ hb)
      | cons z b => simp at hc
  | @some b xs hb =>
    generalize hc : 91 :: (b ++ [93]) = c at h'
    cases h' with
    | empty =>
      cases b with
      | nil => exact absurd rfl (hne _ _ hb)
      | cons z b => simp at hc
    | some hb' =>
      simp at hc
      subst hc
      exact commas_unique (fun t x h => (hR t x h).1) hf hb hb'

theorem numeral_bytes {t : Bytes} {n : Nat} (h : Numeral 10 t n) : (44 : Byte) ∉ t ∧ t ≠ [] := by
  refine ⟨fun hm => ?_, ?_⟩
  · have := h.digits (by decide) _ hm
    simp at this
  · cases h <;> simp

theorem signedNumeral_bytes {t : Bytes} {n : Int} (h : SignedNumeral t n) : (44 : Byte) ∉ t ∧ t ≠ [] := by
  cases h with
  | plain h => exact numeral_bytes h
  | plus h => simpa using (numeral_bytes h).1
  | minus h => simpa using (numeral_bytes h).1

theorem signedNumeral_unique {t : Bytes} {n m : Int} (h : SignedNumeral t n) (h' : SignedNumeral t m) : n = m := by
  have key : ∀ k : Int, -(2 ^ (n.natAbs + m.natAbs + 2 - 1) : Int) ≤ k ∧ k < (2 ^ (n.natAbs + m.natAbs + 2 - 1) : Int) ↔ 
      -(2 ^ (n.natAbs + m.natAbs + 1) : Int) ≤ k ∧ k < (2 ^ (n.natAbs + m.natAbs + 1) : Int) := fun k => Iff.rfl
  have hlt := Nat.lt_two_pow_self (n := n.natAbs + m.natAbs + 1)
  have hp : ((n.natAbs + m.natAbs + 1 : Nat) : Int) < (2 ^ (n.natAbs + m.natAbs + 1) : Int) := by exact_mod_cast hlt
  have e1 := (parseInt_iff (w := n.natAbs + m.natAbs + 2) (by omega)).2 ⟨h, (key n).2 ⟨by omega, by omega⟩⟩
  have e2 := (parseInt_iff (w := n.natAbs + m.natAbs + 2) (by omega)).2 ⟨h', (key m).2 ⟨by omega, by omega⟩⟩
  rw [e1] at e2
  exact Option.some.inj e2

/-! ## C50 -/

/-- C50: a list of integers of any length is rendered as JSON, as a list of numerals for exactly these numbers, and
as no other list. -/
theorem C50_ints (xs : List Int) :
    IsJson (ints xs) ∧ ∀ ys, Listed SignedNumeral (ints xs) ys ↔ ys = xs := by
  have hl : Listed SignedNumeral (ints xs) xs := list_listed intDec_numeral xs
  refine ⟨?_, fun ys => ⟨fun h => listed_unique (fun _ _ => signedNumeral_bytes) (fun _ _ _ => signedNumeral_unique) h hl,
    fun h => h ▸ hl⟩⟩
  unfold ints
  cases xs with
  | nil => exact json_empty
  | cons x xs => rw [list_cons]; exact json_arrayText x xs (fun y _ => json_intDec y)

theorem C50_uints (xs : List Nat) :
    IsJson (uints xs) ∧ ∀ ys : List Nat, Listed (fun t (n : Nat) => SignedNumeral t n) (uints xs) ys ↔ ys = xs := by
  have hl : Listed (fun t (n : Nat) => SignedNumeral t n) (uints xs) xs := list_listed (fun n => .plain (natDec_numeral n)) xs
  refine ⟨?_, fun ys => ⟨fun h => listed_unique (fun _ _ => signedNumeral_bytes)
    (fun _ _ _ a b => Int.ofNat.inj (signedNumeral_unique a b)) h hl, fun h => h ▸ hl⟩⟩
  unfold uints
  cases xs with
  | nil => exact json_empty
  | cons x xs =>
    rw [list_cons]
    exact json_arrayText x xs (fun y _ => by simpa using JsonG.num (.inl rfl) (jsonInt_natDec y) .none .none)

/-- The JSON texts for truth values. -/
def JsonBool (t : Bytes) (b : Bool) : Prop :=
  (b = true ∧ t = [116, 114, 117, 101]) ∨ (b = false ∧ t = [102, 97, 108, 115, 101])

theorem fmtBool_json (b : Bool) : JsonBool (Scan.fmtBool b) b := by
  have h1 : Scan.fmtBool true = [116, 114, 117, 101] := by decide +kernel
  have h2 : Scan.fmtBool false = [102, 97, 108, 115, 101] := by decide +kernel
  cases b
  · exact .inr ⟨rfl, h2⟩
  · exact .inl ⟨rfl, h1⟩

/-- C50 for booleans. -/
theorem C50_bools (xs : List Bool) : IsJson (bools xs) ∧ ∀ ys, Listed JsonBool (bools xs) ys ↔ ys = xs := by
  have hl : Listed JsonBool (bools xs) xs := list_listed fmtBool_json xs
  refine ⟨?_, fun ys => ⟨fun h => listed_unique ?_ ?_ h hl, fun h => h ▸ hl⟩⟩
  · unfold bools
    cases xs with
    | nil => exact json_empty
    | cons x xs =>
      rw [list_cons]
      refine json_arrayText x xs (fun y _ => ?_)
      rcases fmtBool_json y with ⟨_, h⟩ | ⟨_, h⟩ <;> rw [h]
      · exact .tru
      · exact .fls
  · rintro t b (⟨_, rfl⟩ | ⟨_, rfl⟩) <;> decide
  · rintro t b c (⟨rfl, rfl⟩ | ⟨rfl, rfl⟩) (⟨rfl, h⟩ | ⟨rfl, h⟩) <;> simp_all

/-- C50: what is rendered is what the slice types of this library read: the same list. -/
theorem C50_read_by_slices (xs : List Int) (h : ∀ x ∈ xs, InRange 64 x) (prev : Option (List Int)) :
    intScan .bracket 64 (.str (ints xs)) prev = (.ok (), some xs) := by
  obtain ⟨t, h1, h2, _⟩ := C03_int_roundtrip .bracket 64 (by omega) (by omega) xs h prev
  have : ints xs = t := by
    unfold ints
    cases xs with
    | nil => exact Option.some.inj h1
    | cons x xs =>
      rw [list_cons]
      have := sliceValue_cons .bracket intDec x xs
      unfold intValue at h1
      rw [this] at h1
      exact Option.some.inj h1
  rw [this]
  exact h2

example : ints [1, -2] = "[1,-2]".toUTF8.toList := by decide +kernel
example : bools [true, false] = "[true,false]".toUTF8.toList := by decide +kernel

/-! ## Strings: an extension of C50 -/

/-- Following the strings of a JSON text: outside, inside, after a backslash. -/
inductive Q where
  | out
  | str
  | esc
  deriving DecidableEq

/-- The bytes that may follow a backslash. -/
def escapable : Bytes := [34, 92, 47, 98, 102, 110, 114, 116, 117]

def Q.step : Q → Byte → Option Q
  | .out, c => some (if c = 34 then .str else .out)
  | .str, c => some (if c = 34 then .out else if c = 92 then .esc else .str)
  | .esc, c => if c ∈ escapable then some .str else none

def Q.run : Q → Bytes → Option Q
  | q, [] => some q
  | q, c :: cs => (q.step c).bind fun q' => q'.run cs

theorem Q.run_append (q : Q) (a b : Bytes) : q.run (a ++ b) = (q.run a).bind fun q' => q'.run b := by
  induction a generalizing q with
  | nil => rfl
  | cons c a ih =>
    simp only [List.cons_append, Q.run]
    cases q.step c with
    | none => rfl
    | some q' => simp only [Option.bind_some]; exact ih q'

theorem Q.run_out {t : Bytes} (h : ∀ c ∈ t, c ≠ 34) : Q.out.run t = some .out := by
  induction t with
  | nil => rfl
  | cons c t ih =>
    simp only [Q.run, Q.step, if_neg (h c List.mem_cons_self), Option.bind_some]
    exact ih (fun x hx => h x (List.mem_cons_of_mem _ hx))

theorem Q.run_chars {t : Bytes} (h : JsonChars t) : Q.str.run t = some .str := by
  induction h with
  | nil => rfl
  | plain h1 h2 _ _ ih => simp [Q.run, Q.step, h1, h2, ih]
  | @esc c t h _ ih =>
    have : c ∈ escapable := by
      unfold escapable
      simp at h ⊢
      tauto
    simp [Q.run, Q.step, this, ih]
  | @uni a b c d t h1 h2 h3 h4 _ ih =>
    have hx : ∀ x, IsHex x → x ≠ 34 ∧ x ≠ 92 := by
      intro x hx
      unfold IsHex IsDigit at hx
      constructor <;> rintro rfl <;> simp at hx
    have hu : (117 : Byte) ∈ escapable := by decide
    simp [Q.run, Q.step, hu, (hx a h1), (hx b h2), (hx c h3), (hx d h4), ih]

theorem Q.run_ws {t : Bytes} (h : IsWs t) : Q.out.run t = some .out := by
  refine Q.run_out fun c hc => ?_
  rcases h c hc with rfl | rfl | rfl | rfl <;> decide

theorem digit_ne {c : Byte} (h : IsDigit c) : c ≠ 34 := by
  rintro rfl
  unfold IsDigit at h
  simp at h

theorem Q.run_json {k : Kind} {t : Bytes} (h : JsonG k t) : Q.out.run t = some .out := by
  induction h with
  | tru => rfl
  | fls => rfl
  | null => rfl
  | num h1 h2 h3 h4 =>
    refine Q.run_out ?_
    simp only [List.forall_mem_append]
    refine ⟨?_, ?_, ?_, ?_⟩
    · rcases h1 with rfl | rfl <;> simp
    · cases h2 with
      | zero => simp
      | pos a _ b => simp only [List.forall_mem_cons]; exact ⟨digit_ne a, fun c hc => digit_ne (b c hc)⟩
    · cases h3 with
      | none => simp
      | some a b => simp only [List.forall_mem_cons]; exact ⟨by decide, digit_ne a, fun c hc => digit_ne (b c hc)⟩
    · cases h4 with
      | none => simp
      | some h0 h1 h2 h3 =>
        simp only [List.forall_mem_cons, List.forall_mem_append]
        refine ⟨?_, ?_, digit_ne h2, fun c hc => digit_ne (h3 c hc)⟩
        · rcases h0 with rfl | rfl <;> decide
        · rcases h1 with rfl | rfl | rfl <;> simp
  | str h => simp [Q.run, Q.step, Q.run_append, Q.run_chars h]
  | arr0 h => simp [Q.run, Q.step, Q.run_append, Q.run_ws h]
  | arr _ ih => simp [Q.run, Q.step, Q.run_append, ih]
  | obj0 h => simp [Q.run, Q.step, Q.run_append, Q.run_ws h]
  | obj _ ih => simp [Q.run, Q.step, Q.run_append, ih]
  | elem1 h1 _ h2 ih => simp [Q.run_append, Q.run_ws h1, Q.run_ws h2, ih]
  | elemS h1 _ h2 _ ih ih' => simp [Q.run, Q.step, Q.run_append, Q.run_ws h1, Q.run_ws h2, ih, ih']
  | mem1 h1 h2 h3 hu _ h4 ih => simp [Q.run, Q.step, Q.run_append, Q.run_ws h1, Q.run_chars h2, Q.run_ws h3, Q.run_ws hu, Q.run_ws h4, ih]
  | memS h1 h2 h3 hu _ h4 _ ih ih' =>
    simp [Q.run, Q.step, Q.run_append, Q.run_ws h1, Q.run_chars h2, Q.run_ws h3, Q.run_ws hu, Q.run_ws h4, ih, ih']

theorem Q.run_isJson {t : Bytes} (h : IsJson t) : Q.out.run t = some .out := by
  obtain ⟨w, v, w', rfl, h1, h2, h3⟩ := h
  simp [Q.run_append, Q.run_ws h1, Q.run_json h2, Q.run_ws h3]

/-- ASCII characters that Go and JSON write in the same way inside quotes. -/
def Shared (c : Byte) : Prop := (32 ≤ c.toNat ∧ c.toNat ≤ 126) ∨ c ∈ ([8, 9, 10, 12, 13] : Bytes)

instance (c : Byte) : Decidable (Shared c) := by unfold Shared; infer_instance

theorem quoteByte_shared (c : Byte) (h : Shared c) (r : Bytes) (hr : JsonChars r) : JsonChars (quoteByte c ++ r) := by
  unfold quoteByte
  split
  · rename_i hc
    refine .esc ?_ hr
    rcases hc with rfl | rfl <;> decide
  · rename_i hc
    simp [not_or] at hc
    split
    · rename_i h2
      exact .plain hc.1 hc.2 h2.1 hr
    · rename_i h2
      rcases h with h | h
      · exact absurd h h2
      · simp at h
        rcases h with rfl | rfl | rfl | rfl | rfl <;> exact .esc (by decide) hr

theorem quoteByte_not_shared (c : Byte) (h : ¬ Shared c) (r : Bytes) : Q.str.run (quoteByte c ++ r) = none := by
  unfold Shared at h
  simp only [not_or] at h
  unfold quoteByte
  rw [if_neg (by rintro (rfl | rfl) <;> simp at h), if_neg h.1]
  have h2 := h.2
  simp only [List.mem_cons, List.not_mem_nil, or_false, not_or] at h2
  by_cases h7 : c = 7
  · rw [if_pos h7]; simp [Q.run, Q.step, escapable]
  · rw [if_neg h7, if_neg h2.1, if_neg h2.2.2.2.1, if_neg h2.2.2.1, if_neg h2.2.2.2.2, if_neg h2.2.1]
    by_cases h11 : c = 11
    · rw [if_pos h11]; simp [Q.run, Q.step, escapable]
    · rw [if_neg h11]; simp [Q.run, Q.step, escapable]

theorem quoteAll_shared (s : Bytes) (h : ∀ c ∈ s, Shared c) : JsonChars (quoteAll s) := by
  induction s with
  | nil => exact .nil
  | cons c s ih =>
    exact quoteByte_shared c (h c List.mem_cons_self) _ (ih fun x hx => h x (List.mem_cons_of_mem _ hx))

theorem quoteAll_not_shared (s : Bytes) (h : ∃ c ∈ s, ¬ Shared c) (r : Bytes) : Q.str.run (quoteAll s ++ r) = none := by
  induction s with
  | nil => simp at h
  | cons c s ih =>
    simp only [quoteAll, List.append_assoc]
    by_cases hc : Shared c
    · obtain ⟨d, hd, hd2⟩ := h
      have : ∃ c ∈ s, ¬ Shared c := by
        rcases List.mem_cons.1 hd with rfl | hd
        · exact absurd hc hd2
        · exact ⟨d, hd, hd2⟩
      rw [Q.run_append]
      have hq := quoteByte_shared c hc [] .nil
      rw [List.append_nil] at hq
      rw [Q.run_chars hq]
      exact ih this
    · exact quoteByte_not_shared c hc _

theorem run_goQuote (v : Bytes) (r : Bytes) :
    Q.out.run (goQuote v ++ r) = if ∃ c ∈ v, ¬ Shared c then none else Q.out.run r := by
  unfold goQuote
  simp only [List.cons_append, List.append_assoc, Q.run, Q.step, if_true, Option.bind_some]
  split
  · rename_i h
    exact quoteAll_not_shared v h _
  · rename_i h
    rw [Q.run_append, Q.run_chars (quoteAll_shared v (by
      intro c hc
      refine Classical.byContradiction fun hn => h ⟨c, hc, hn⟩))]
    simp [Q.run, Q.step]

/-- C50, strings of ASCII characters: the list is JSON exactly if no string contains a control character other than
backspace, tab, line feed, form feed and carriage return. -/
theorem C50_strings_json_iff (xs : List Bytes) : IsJson (strings xs) ↔ ∀ v ∈ xs, ∀ c ∈ v, Shared c := by
  constructor
  · intro h v hv c hc
    refine Classical.byContradiction fun hn => ?_
    have hrun := Q.run_isJson h
    have hrest : ∀ xs : List Bytes, v ∈ xs → ∀ r, Q.out.run (rest goQuote xs ++ r) = none := by
      intro xs
      induction xs with
      | nil => simp
      | cons x xs ih =>
        intro hm r
        simp only [rest, List.cons_append, List.append_assoc, Q.run, Q.step]
        rw [if_neg (by decide), Option.bind_some, run_goQuote]
        split
        · rfl
        · rename_i hx
          rcases List.mem_cons.1 hm with rfl | hm
          · exact absurd ⟨c, hc, hn⟩ hx
          · exact ih hm r
    cases xs with
    | nil => simp at hv
    | cons x xs =>
      unfold strings list at hrun
      simp only [Q.run, Q.step] at hrun
      rw [if_neg (by decide), Option.bind_some, run_goQuote] at hrun
      split at hrun
      · cases hrun
      · rename_i hx
        rcases List.mem_cons.1 hv with rfl | hv
        · exact absurd ⟨c, hc, hn⟩ hx
        · rw [hrest xs hv] at hrun
          cases hrun
  · intro h
    unfold strings
    cases xs with
    | nil => exact json_empty
    | cons x xs =>
      rw [list_cons]
      exact json_arrayText x xs (fun y hy => .str (quoteAll_shared y (h y hy)))

example : ¬ IsJson (strings [[1]]) := by
  rw [C50_strings_json_iff]
  intro h
  have := h [1] (by simp) 1 (by simp)
  unfold Shared at this
  revert this
  decide

example : IsJson (strings [[97, 10], [34]]) := by
  rw [C50_strings_json_iff]
  unfold Shared
  decide

end Verif.Props
