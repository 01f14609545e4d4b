import Verif.Spec.Scan
import Verif.Lemmas.Numeral
import Verif.Lemmas.ArrayValue

/-! # Lemmas about scanners -/

namespace Verif.Scan

open Verif.Spec Verif.Spec.Scan

variable {α : Type}

theorem store_eq (d : Dest α) (x : α) : store d x = put d x := by cases d <;> rfl
theorem storeNil_eq (z : α) (d : Dest α) : storeNil z d = putNull z d := by cases d <;> rfl

theorem put_inj {d : Dest α} {x y : α} : put d x = put d y ↔ x = y := by
  cases d <;> simp [put]

theorem putNull_eq_put {z x : α} {d : Dest α} : putNull z d = put d x ↔ (∃ y, d = .val y) ∧ x = z := by
  cases d <;> simp [put, putNull, eq_comm]

theorem storeOpt_ok {d d' : Dest α} {o : Option α} : storeOpt d o = .ok d' ↔ ∃ x, o = some x ∧ d' = put d x := by
  cases o with
  | none => simp [storeOpt]
  | some x => simp [storeOpt, store_eq, eq_comm]

theorem parseBool_iff {s : Bytes} {b : Bool} : parseBool s = some b ↔ BoolText s b := by
  have h1 : (["1", "t", "T", "true", "TRUE", "True"].map fun x => x.toUTF8.toList) =
      ([[49], [116], [84], [116, 114, 117, 101], [84, 82, 85, 69], [84, 114, 117, 101]] : List Bytes) := by decide +kernel
  have h2 : (["0", "f", "F", "false", "FALSE", "False"].map fun x => x.toUTF8.toList) =
      ([[48], [102], [70], [102, 97, 108, 115, 101], [70, 65, 76, 83, 69], [70, 97, 108, 115, 101]] : List Bytes) := by decide +kernel
  unfold parseBool BoolText
  rw [h1, h2]
  by_cases ht : s ∈ ([[49], [116], [84], [116, 114, 117, 101], [84, 82, 85, 69], [84, 114, 117, 101]] : List Bytes)
  · rw [if_pos ht]
    have hf : s ∉ ([[48], [102], [70], [70, 65, 76, 83, 69], [102, 97, 108, 115, 101], [70, 97, 108, 115, 101]] : List Bytes) := by
      revert ht s; decide
    have ht' : s ∈ ([[49], [116], [84], [84, 82, 85, 69], [116, 114, 117, 101], [84, 114, 117, 101]] : List Bytes) := by
      revert ht s; decide
    cases b <;> simp only [ht', hf] <;> simp
  · rw [if_neg ht]
    have ht' : s ∉ ([[49], [116], [84], [84, 82, 85, 69], [116, 114, 117, 101], [84, 114, 117, 101]] : List Bytes) := by
      intro h; apply ht; clear ht; revert h s; decide
    by_cases hf : s ∈ ([[48], [102], [70], [102, 97, 108, 115, 101], [70, 65, 76, 83, 69], [70, 97, 108, 115, 101]] : List Bytes)
    · rw [if_pos hf]
      have hf' : s ∈ ([[48], [102], [70], [70, 65, 76, 83, 69], [102, 97, 108, 115, 101], [70, 97, 108, 115, 101]] : List Bytes) := by
        clear ht ht'; revert hf s; decide
      cases b <;> simp only [ht', hf'] <;> simp
    · rw [if_neg hf]
      have hf' : s ∉ ([[48], [102], [70], [70, 65, 76, 83, 69], [102, 97, 108, 115, 101], [70, 97, 108, 115, 101]] : List Bytes) := by
        intro h; apply hf; clear hf ht ht'; revert h s; decide
      cases b <;> simp only [ht', hf'] <;> simp

/-! ## Conversions of integers -/

theorem toSigned_range (w : Nat) (n : Int) : InRange w (toSigned w n) := by
  unfold toSigned InRange
  have h1 := BitVec.le_toInt (x := BitVec.ofInt w n)
  have h2 := BitVec.toInt_lt (x := BitVec.ofInt w n)
  exact ⟨by simpa using h1, by simpa using h2⟩

theorem toUnsigned_range (w : Nat) (n : Int) : toUnsigned w n < 2 ^ w := by
  unfold toUnsigned
  exact (BitVec.ofInt w n).isLt

/-- An unsigned number of up to 64 bits survives the conversion to `int64` and back. -/
theorem toUnsigned_toSigned {w n : Nat} (hw : w ≤ 64) (h : n < 2 ^ w) : toUnsigned w (toSigned 64 n) = n := by
  unfold toUnsigned toSigned
  have h64 : n < 2 ^ 64 := Nat.lt_of_lt_of_le h (Nat.pow_le_pow_right (by omega) hw)
  have : BitVec.ofInt w (BitVec.ofInt 64 (n : Int)).toInt = (BitVec.ofInt 64 (n : Int)).setWidth w := by
    rw [← BitVec.signExtend_eq_setWidth_of_le _ hw, BitVec.signExtend]
  rw [this, BitVec.toNat_setWidth, BitVec.ofInt_natCast, BitVec.toNat_ofNat, Nat.mod_eq_of_lt h64, Nat.mod_eq_of_lt h]

/-! ## Writing into arrays -/

theorem take_set_succ {v : List α} {i : Nat} (b : α) (h : i < v.length) : (v.set i b).take (i + 1) = v.take i ++ [b] := by
  rw [List.take_add_one, List.take_set_of_le (Nat.le_refl i), List.getElem?_set_self h]
  rfl

theorem writeFrom_ok (v : List α) (bs : List α) (i : Nat) (h : i + bs.length ≤ v.length) :
    writeFrom v i bs = .ok (v.take i ++ bs ++ v.drop (i + bs.length)) := by
  induction bs generalizing v i with
  | nil => simp [writeFrom]
  | cons b bs ih =>
    simp only [List.length_cons] at h
    have hi : i < v.length := by omega
    simp only [writeFrom, setIdx, hi, if_true, Res.ok_bind]
    rw [ih _ _ (by rw [List.length_set]; omega)]
    congr 1
    have e1 := take_set_succ (b) (show i < v.length by omega)
    have e2 : (v.set i b).drop (i + 1 + bs.length) = v.drop (i + (bs.length + 1)) := by
      rw [List.drop_set_of_lt (by omega)]
      congr 1
      omega
    rw [e1, e2]
    simp

/-! ## UTF-8 -/

theorem toNat_ofNat_lt {n : Nat} (h : n < 256) : (UInt8.ofNat n).toNat = n := by
  simp [UInt8.toNat_ofNat', Nat.mod_eq_of_lt h]

theorem cont_ofNat (n : Nat) : cont (UInt8.ofNat (0x80 + n % 64)) = true := by
  unfold cont
  rw [toNat_ofNat_lt (by omega)]
  simp
  omega

theorem char_range (c : Char) : c.toNat < 0xD800 ∨ (0xDFFF < c.toNat ∧ c.toNat < 0x110000) := c.valid

theorem decode_utf8 (c : Char) (r : Bytes) : decodeRune (utf8 c ++ r) = (c.toNat, (utf8 c).length) := by
  have hv := char_range c
  unfold utf8
  simp only
  generalize c.toNat = n at *
  by_cases h1 : n < 0x80
  · rw [if_pos h1]
    simp only [List.cons_append, List.nil_append, decodeRune]
    rw [toNat_ofNat_lt (by omega), if_pos h1]
    simp
  · rw [if_neg h1]
    by_cases h2 : n < 0x800
    · rw [if_pos h2]
      simp only [List.cons_append, List.nil_append, decodeRune]
      rw [toNat_ofNat_lt (by omega), if_neg (by omega)]
      have hl : lead (0xC0 + n / 64) = some (2, 0x80, 0xBF) := by
        unfold lead; rw [if_neg (by omega), if_pos (by omega)]
      rw [hl]
      simp only
      rw [toNat_ofNat_lt (by omega), if_pos (by omega)]
      simp only [List.length_cons, List.length_nil, Prod.mk.injEq, and_true]
      omega
    · rw [if_neg h2]
      by_cases h3 : n < 0x10000
      · rw [if_pos h3]
        simp only [List.cons_append, List.nil_append, decodeRune]
        rw [toNat_ofNat_lt (by omega), if_neg (by omega)]
        have hl : ∃ lo hi, lead (0xE0 + n / 4096) = some (3, lo, hi) ∧ lo ≤ 0x80 + n / 64 % 64 ∧ 0x80 + n / 64 % 64 ≤ hi := by
          unfold lead
          by_cases a : 0xE0 + n / 4096 = 0xE0
          · exact ⟨0xA0, 0xBF, by rw [if_neg (by omega), if_neg (by omega), if_pos a], by omega, by omega⟩
          · by_cases b : 0xE0 + n / 4096 = 0xED
            · exact ⟨0x80, 0x9F, by rw [if_neg (by omega), if_neg (by omega), if_neg a, if_pos b], by omega, by omega⟩
            · exact ⟨0x80, 0xBF, by rw [if_neg (by omega), if_neg (by omega), if_neg a, if_neg b, if_pos (by omega)], by omega, by omega⟩
        obtain ⟨lo, hi, hl, hlo, hhi⟩ := hl
        rw [hl]
        simp only
        rw [if_pos ⟨by rwa [toNat_ofNat_lt (by omega)], by rwa [toNat_ofNat_lt (by omega)], cont_ofNat _⟩,
          toNat_ofNat_lt (n := 0x80 + n / 64 % 64) (by omega), toNat_ofNat_lt (n := 0x80 + n % 64) (by omega)]
        simp only [List.length_cons, List.length_nil, Prod.mk.injEq, and_true]
        omega
      · rw [if_neg h3]
        simp only [List.cons_append, List.nil_append, decodeRune]
        rw [toNat_ofNat_lt (by omega), if_neg (by omega)]
        have hl : ∃ lo hi, lead (0xF0 + n / 262144) = some (4, lo, hi) ∧ lo ≤ 0x80 + n / 4096 % 64 ∧ 0x80 + n / 4096 % 64 ≤ hi := by
          unfold lead
          rw [if_neg (by omega), if_neg (by omega), if_neg (by omega), if_neg (by omega), if_neg (by omega)]
          by_cases a : 0xF0 + n / 262144 = 0xF0
          · exact ⟨0x90, 0xBF, by rw [if_pos a], by omega, by omega⟩
          · by_cases b : 0xF0 + n / 262144 = 0xF4
            · exact ⟨0x80, 0x8F, by rw [if_neg a, if_neg (by omega), if_pos b], by omega, by omega⟩
            · exact ⟨0x80, 0xBF, by rw [if_neg a, if_pos (by omega)], by omega, by omega⟩
        obtain ⟨lo, hi, hl, hlo, hhi⟩ := hl
        rw [hl]
        simp only
        rw [if_pos ⟨by rwa [toNat_ofNat_lt (by omega)], by rwa [toNat_ofNat_lt (by omega)], cont_ofNat _, cont_ofNat _⟩,
          toNat_ofNat_lt (n := 0x80 + n / 4096 % 64) (by omega), toNat_ofNat_lt (n := 0x80 + n / 64 % 64) (by omega),
          toNat_ofNat_lt (n := 0x80 + n % 64) (by omega)]
        simp only [List.length_cons, List.length_nil, Prod.mk.injEq, and_true]
        omega

theorem utf8_length_pos (c : Char) : 0 < (utf8 c).length := by
  unfold utf8
  simp only
  split
  · simp
  · split
    · simp
    · split <;> simp

theorem utf8_ne_nil (c : Char) : utf8 c ≠ [] := List.length_pos_iff.1 (utf8_length_pos c)

theorem utf8s_cons (c : Char) (t : List Char) : utf8s (c :: t) = utf8 c ++ utf8s t := by simp [utf8s]

theorem utf8s_length (t : List Char) : t.length ≤ (utf8s t).length := by
  induction t with
  | nil => simp
  | cons c t ih => rw [utf8s_cons, List.length_append, List.length_cons]; have := utf8_length_pos c; omega

/-- Decoding text: the runes are written one after the other, or the array is too short. -/
theorem runeLoop_utf8 (t : List Char) (n i : Nat) (v : List Nat) (hn : (utf8s t).length ≤ n) :
    runeLoop v.length n i v (utf8s t) =
      if i + t.length ≤ v.length ∨ t = [] then .ok (v.take i ++ t.map Char.toNat ++ v.drop (i + t.length)) else .err := by
  induction t generalizing n i v with
  | nil =>
    cases n with
    | zero => simp [runeLoop]
    | succ n => simp [runeLoop, utf8s]
  | cons c t ih =>
    have hp := utf8_length_pos c
    rw [utf8s_cons, List.length_append] at hn
    cases n with
    | zero => omega
    | succ n =>
      rw [utf8s_cons]
      have hne : utf8 c ++ utf8s t ≠ [] := by
        intro h; exact utf8_ne_nil c (List.append_eq_nil_iff.1 h).1
      simp only [runeLoop, hne, if_false, decode_utf8, List.drop_left]
      by_cases hi : v.length ≤ i
      · rw [if_pos hi, if_neg]
        simp only [List.length_cons, reduceCtorEq, or_false]
        omega
      · rw [if_neg hi]
        have hi' : i < v.length := by omega
        simp only [setIdx, hi', if_true, Res.ok_bind]
        have hl : (v.set i c.toNat).length = v.length := List.length_set
        have := ih n (i + 1) (v.set i c.toNat) (by omega)
        rw [hl] at this
        rw [this]
        have e1 := take_set_succ (c.toNat) (show i < v.length by omega)
        have e2 : (v.set i c.toNat).drop (i + 1 + t.length) = v.drop (i + (t.length + 1)) := by
          rw [List.drop_set_of_lt (by omega)]
          congr 1
          omega
        rw [e1, e2]
        simp only [List.length_cons, reduceCtorEq, or_false, List.map_cons]
        by_cases hc : i + (t.length + 1) ≤ v.length
        · rw [if_pos (by left; omega), if_pos hc]
          simp
        · rw [if_neg hc, if_neg]
          rintro (h | rfl)
          · omega
          · simp at hc; omega

theorem utf8_ascii {c : Char} (h : c.toNat < 128) : utf8 c = [UInt8.ofNat c.toNat] := by
  unfold utf8; simp only; rw [if_pos h]

/-- The loop over strings, as long as the text is ASCII. -/
theorem strLoop_ascii (t : List Char) (rest : Bytes) (n i : Nat) (v : List Nat) (ht : ∀ c ∈ t, c.toNat < 128)
    (hv : i + t.length ≤ v.length) :
    strLoop (t.length + n) i v (utf8s t ++ rest) =
      strLoop n (i + t.length) (v.take i ++ t.map Char.toNat ++ v.drop (i + t.length)) rest := by
  induction t generalizing i v with
  | nil => simp [utf8s]
  | cons c t ih =>
    have hc := ht c List.mem_cons_self
    simp only [List.length_cons] at hv
    have hi' : i < v.length := by omega
    rw [utf8s_cons, List.append_assoc]
    have hd := decode_utf8 c (utf8s t ++ rest)
    rw [utf8_ascii hc] at hd ⊢
    simp only [List.cons_append, List.nil_append] at hd ⊢
    rw [show (c :: t).length + n = (t.length + n) + 1 by simp; omega]
    simp only [strLoop, hd, setIdx, hi', if_true, Res.ok_bind, List.length_cons, List.length_nil]
    simp only [Nat.zero_add, List.drop_succ_cons, List.drop_zero]
    rw [toNat_ofNat_lt (by omega)]
    rw [ih _ _ (fun x hx => ht x (List.mem_cons_of_mem _ hx)) (by rw [List.length_set]; omega)]
    have e1 := take_set_succ (c.toNat) (show i < v.length by omega)
    have e2 : (v.set i c.toNat).drop (i + 1 + t.length) = v.drop (i + (t.length + 1)) := by
      rw [List.drop_set_of_lt (by omega)]
      congr 1
      omega
    rw [e1, e2]
    congr 1
    · omega
    · simp

/-- Positions before the current one are not written any more. -/
theorem strLoop_keeps (n i : Nat) (v v' : List Nat) (s : Bytes) (h : strLoop n i v s = .ok v') (k : Nat) (hk : k < i) :
    v'[k]? = v[k]? := by
  induction n generalizing i v s with
  | zero => simp only [strLoop, Res.ok.injEq] at h; rw [h]
  | succ n ih =>
    cases s with
    | nil => simp only [strLoop, Res.ok.injEq] at h; rw [h]
    | cons b r =>
      simp only [strLoop, Res.bind_eq_ok] at h
      obtain ⟨u, hu, h⟩ := h
      rw [ih _ _ _ h (by omega)]
      unfold setIdx at hu
      split at hu
      · cases hu
        rw [List.getElem?_set_ne (by omega)]
      · cases hu

end Verif.Scan
