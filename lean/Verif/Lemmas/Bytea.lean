import Verif.Lemmas.ArrayValue
import Verif.Spec.Bytea

namespace Verif
open Spec

theorem hexVal_iff (c : Byte) (n : Nat) : hexVal c = some n ↔ HexDigit c n := by
  have hc : c.toNat < 256 := c.toNat_lt
  unfold hexVal HexDigit
  split
  · simp; omega
  · split
    · simp; omega
    · split
      · simp; omega
      · simp; omega

theorem hexDecode_iff (t v : Bytes) : hexDecode t = some v ↔ HexText t v := by
  constructor
  · intro h
    fun_induction hexDecode t generalizing v with
    | case1 => simp at h; subst h; exact .nil
    | case2 => simp at h
    | case3 a b rest x y hx hy ih =>
      obtain ⟨w, hw, rfl⟩ := Option.map_eq_some_iff.1 h
      exact .cons ((hexVal_iff _ _).1 hy) ((hexVal_iff _ _).1 hx) (ih w hw)
    | case4 => simp at h
  · intro h
    induction h with
    | nil => rfl
    | cons h1 h2 _ ih =>
      simp [hexDecode, (hexVal_iff _ _).2 h1, (hexVal_iff _ _).2 h2, ih]

theorem hexDigit_spec {n : Nat} (h : n < 16) : HexDigit (hexDigit n) n := by
  unfold hexDigit HexDigit
  split
  · left; simp [UInt8.toNat_ofNat']; omega
  · right; left; simp [UInt8.toNat_ofNat']; omega

theorem hexText_encode (v : Bytes) : HexText (hexEncode v) v := by
  induction v with
  | nil => exact .nil
  | cons x v ih =>
    have hx : x.toNat < 256 := x.toNat_lt
    have := HexText.cons (hexDigit_spec (n := x.toNat / 16) (by omega))
      (hexDigit_spec (n := x.toNat % 16) (by omega)) ih
    rw [show x.toNat / 16 * 16 + x.toNat % 16 = x.toNat by omega] at this
    simpa [hexEncode] using this

theorem hexEncode_length (v : Bytes) : (hexEncode v).length = 2 * v.length := by
  induction v with
  | nil => rfl
  | cons x v ih => simp [hexEncode, ih]; omega

/-- hex output contains neither quotes nor backslashes -/
theorem quotedBody_hex (v : Bytes) : QuotedBody (hexEncode v) (hexEncode v) := by
  have hd : ∀ n, n < 16 → hexDigit n ≠ 34 ∧ hexDigit n ≠ 92 := by
    intro n hn
    have : (hexDigit n).toNat ≠ 34 ∧ (hexDigit n).toNat ≠ 92 := by
      rcases hexDigit_spec hn with h | h | h <;> omega
    constructor
    · intro h; rw [h] at this; simp at this
    · intro h; rw [h] at this; simp at this
  induction v with
  | nil => exact .nil
  | cons x v ih =>
    have hx : x.toNat < 256 := x.toNat_lt
    have h1 := hd (x.toNat / 16) (by omega)
    have h2 := hd (x.toNat % 16) (by omega)
    exact .plain h1.1 h1.2 (.plain h2.1 h2.2 ih)

theorem writeAt_append (v p q r : Bytes) (hq : q.length = v.length) {off : Nat}
    (ho : off = p.length) : writeAt (p ++ q ++ r) off v = .ok (p ++ v ++ r) := by
  induction v generalizing p q off with
  | nil =>
    have : q = [] := by simpa using hq
    simp [writeAt, this]
  | cons x v ih =>
    match q, hq with
    | y :: q, hq =>
      simp at hq
      simp only [writeAt]
      rw [show p ++ y :: q ++ r = p ++ y :: (q ++ r) by simp, setIdx_append _ _ _ _ ho, Res.ok_bind,
        show p ++ x :: (q ++ r) = (p ++ [x]) ++ q ++ r by simp, ih _ _ hq (by simp; omega)]
      simp

/-- Rendering of one element without the leading comma. -/
def byteaEnc (x : Bytes) : Bytes := 34 :: 92 :: 92 :: 120 :: (hexEncode x ++ [34])

def byteaRest (xs : List Bytes) : Nat := (xs.map (fun x => 6 + 2 * x.length)).sum

theorem byteaLoop_eq (xs : List Bytes) (p q : Bytes) (off : Nat) (hp : off = p.length)
    (hq : q.length = byteaRest xs + 1) :
    ∃ z, byteaLoop xs off (p ++ q) = .ok (p ++ xs.flatMap (fun x => 44 :: byteaEnc x) ++ [z]) := by
  induction xs generalizing p q off with
  | nil =>
    simp [byteaRest] at hq
    obtain ⟨z, rfl⟩ := List.length_eq_one_iff.1 hq
    exact ⟨z, by simp [byteaLoop]⟩
  | cons x xs ih =>
    have hq' : q.length = (6 + 2 * x.length) + (byteaRest xs + 1) := by
      rw [hq]; simp [byteaRest]; omega
    obtain ⟨q1, q2, rfl, h5⟩ : ∃ a b, q = a ++ b ∧ a.length = 5 :=
      ⟨q.take 5, q.drop 5, by simp, by simp; omega⟩
    simp at hq'
    obtain ⟨q3, q4, rfl, h6⟩ : ∃ a b, q2 = a ++ b ∧ a.length = 2 * x.length :=
      ⟨q2.take (2 * x.length), q2.drop (2 * x.length), by simp, by simp; omega⟩
    simp at hq'
    obtain ⟨y, q5, rfl⟩ : ∃ y b, q4 = y :: b := by
      cases q4 with
      | nil => simp at hq'; omega
      | cons y b => exact ⟨y, b, rfl⟩
    simp at hq'
    have hcopy : copyAt (p ++ (q1 ++ (q3 ++ y :: q5))) off byteaPrefix
        = (p ++ byteaPrefix ++ q3 ++ y :: q5, 5) := by
      subst hp
      have hmin : min ((p ++ (q1 ++ (q3 ++ y :: q5))).length - p.length) byteaPrefix.length = 5 := by
        simp [byteaPrefix]; omega
      simp only [copyAt, hmin]
      have e1 : (p ++ (q1 ++ (q3 ++ y :: q5))).take p.length = p := by simp
      have e2 : byteaPrefix.take 5 = byteaPrefix := rfl
      have e3 : (p ++ (q1 ++ (q3 ++ y :: q5))).drop (p.length + 5) = q3 ++ y :: q5 := by
        rw [← List.append_assoc]
        exact List.drop_left' (by simp [h5])
      rw [e1, e2, e3]; simp
    have hw : writeAt (p ++ byteaPrefix ++ q3 ++ y :: q5) (off + 5) (hexEncode x)
        = .ok (p ++ byteaPrefix ++ hexEncode x ++ y :: q5) :=
      writeAt_append _ _ _ _ (by rw [h6, hexEncode_length]) (by simp [byteaPrefix, hp])
    have hs : setIdx (p ++ byteaPrefix ++ hexEncode x ++ y :: q5) (off + (5 + 2 * x.length)) quote
        = .ok (p ++ byteaPrefix ++ hexEncode x ++ quote :: q5) :=
      setIdx_append _ _ _ _ (by simp [byteaPrefix, hexEncode_length, hp]; omega)
    obtain ⟨z, hz⟩ := ih (p ++ byteaPrefix ++ hexEncode x ++ [quote]) q5 (off + (5 + 2 * x.length) + 1)
      (by simp [byteaPrefix, hexEncode_length, hp]; omega) (by omega)
    refine ⟨z, ?_⟩
    simp only [byteaLoop, hcopy, hw, Res.ok_bind, hs]
    rw [show p ++ byteaPrefix ++ hexEncode x ++ quote :: q5
      = (p ++ byteaPrefix ++ hexEncode x ++ [quote]) ++ q5 by simp, hz]
    simp [byteaPrefix, byteaEnc]

theorem foldl_size (a : List Bytes) (k : Nat) :
    a.foldl (fun s x => s + 2 * x.length) k = k + (a.map (fun x => 2 * x.length)).sum := by
  induction a generalizing k with
  | nil => simp
  | cons x a ih => simp [ih]; omega

theorem byteaSize_eq (a : List Bytes) : byteaSize a = byteaRest a + 1 := by
  rw [byteaSize, foldl_size, byteaRest]
  induction a with
  | nil => rfl
  | cons x a ih => simp at ih ⊢; omega

theorem flatMap_length (xs : List Bytes) :
    (xs.flatMap (fun x => 44 :: byteaEnc x)).length = byteaRest xs := by
  induction xs with
  | nil => rfl
  | cons x xs ih => simp [byteaRest, byteaEnc, hexEncode_length] at ih ⊢; omega

theorem byteaValue_cons (x : Bytes) (xs : List Bytes) :
    byteaValue (some (x :: xs)) = .ok (some (arrayText 123 125 byteaEnc x xs)) := by
  obtain ⟨z, hz⟩ := byteaLoop_eq (x :: xs) [] (List.replicate (byteaSize (x :: xs)) 0) 0 rfl
    (by simp [byteaSize_eq])
  simp only [List.nil_append] at hz
  simp only [byteaValue, hz, Res.ok_bind]
  have h1 : setIdx ((x :: xs).flatMap (fun x => 44 :: byteaEnc x) ++ [z]) 0 123
      = .ok (123 :: byteaEnc x ++ xs.flatMap (fun x => 44 :: byteaEnc x) ++ [z]) := by
    simp [setIdx]
  have hl : byteaSize (x :: xs) - 1
      = (123 :: byteaEnc x ++ xs.flatMap (fun x => 44 :: byteaEnc x)).length := by
    have := flatMap_length (x :: xs)
    rw [byteaSize_eq, ← this]; simp
  rw [h1, Res.ok_bind, setIdx_append _ z [] _ hl]
  simp [arrayText]

theorem elem_bytea (x : Bytes) :
    Elem 123 125 (byteaEnc x) (some (92 :: 120 :: hexEncode x)) := by
  have : QuotedBody (92 :: 92 :: 120 :: hexEncode x) (92 :: 120 :: hexEncode x) :=
    .esc (.plain (by decide) (by decide) (quotedBody_hex x))
  simpa [byteaEnc] using Elem.quoted (o := 123) (c := 125) this

theorem parseBytea_hex (v : Bytes) : parseBytea (92 :: 120 :: hexEncode v) = .ok v := by
  simp [parseBytea, (hexDecode_iff _ _).2 (hexText_encode v)]

theorem oct_value {d e g : Byte} {n : Nat} :
    parseUint [d, e, g] 8 8 = some n ↔
      ∃ i j k, i < 8 ∧ j < 8 ∧ k < 8 ∧ d = UInt8.ofNat (48 + i) ∧ e = UInt8.ofNat (48 + j) ∧
        g = UInt8.ofNat (48 + k) ∧ n = i * 64 + j * 8 + k ∧ n < 256 := by
  constructor
  · intro h
    simp only [parseUint, parseDigits] at h
    split at h
    · simp at h
    · rename_i m hm
      split at hm
      · rename_i h1
        split at hm
        · rename_i h2
          split at hm
          · rename_i h3
            simp at hm
            split at h
            · simp at h
              refine ⟨d.toNat - 48, e.toNat - 48, g.toNat - 48, by omega, by omega, by omega,
                ?_, ?_, ?_, by omega, by omega⟩
              · rw [show 48 + (d.toNat - 48) = d.toNat by omega]; simp
              · rw [show 48 + (e.toNat - 48) = e.toNat by omega]; simp
              · rw [show 48 + (g.toNat - 48) = g.toNat by omega]; simp
            · simp at h
          · simp at hm
        · simp at hm
      · simp at hm
  · rintro ⟨i, j, k, hi, hj, hk, rfl, rfl, rfl, rfl, h⟩
    refine (parseUint_iff (by decide)).2 ⟨?_, by omega⟩
    have := Numeral.snoc (Numeral.snoc (Numeral.one hi) hj) hk
    simp only [List.cons_append, List.nil_append] at this
    rwa [show 8 * (8 * i + j) + k = i * 64 + j * 8 + k by omega] at this

theorem Res.map_eq_ok {α β : Type} {f : α → β} {x : Res α} {b : β} :
    x.map f = .ok b ↔ ∃ a, x = .ok a ∧ f a = b := by
  cases x <;> simp [Res.map]

theorem parseByteaEsc_iff (t v : Bytes) : parseByteaEsc t = .ok v ↔ EscText t v := by
  constructor
  · intro h
    fun_induction parseByteaEsc t generalizing v with
    | case1 => simp at h; subst h; exact .nil
    | case2 s' ih =>
      obtain ⟨w, hw, rfl⟩ := Res.map_eq_ok.1 h
      exact .bs (ih w hw)
    | case3 => simp at h
    | case4 d hd e g s'' r hr ih =>
      obtain ⟨w, hw, rfl⟩ := Res.map_eq_ok.1 h
      obtain ⟨i, j, k, hi, hj, hk, rfl, rfl, rfl, rfl, hn⟩ := oct_value.1 hr
      exact .oct hi hj hk hn (ih w hw)
    | case5 => simp at h
    | case6 => simp at h
    | case7 c s hc ih =>
      obtain ⟨w, hw, rfl⟩ := Res.map_eq_ok.1 h
      exact .raw hc (ih w hw)
  · intro h
    induction h with
    | nil => simp [parseByteaEsc]
    | raw hx _ ih => rw [parseByteaEsc.eq_def]; simp only [if_neg hx, ih, Res.map]
    | bs _ ih => rw [parseByteaEsc.eq_def]; simp [ih, Res.map]
    | @oct i j k t v hi hj hk hn _ ih =>
      have h92 : UInt8.ofNat (48 + i) ≠ 92 := by
        intro h0
        have := toNat_digit (b := 8) (by decide) hi
        rw [h0] at this; simp at this; omega
      have ho : parseUint [UInt8.ofNat (48 + i), UInt8.ofNat (48 + j), UInt8.ofNat (48 + k)] 8 8
          = some (i * 64 + j * 8 + k) := oct_value.2 ⟨i, j, k, hi, hj, hk, rfl, rfl, rfl, rfl, hn⟩
      rw [parseByteaEsc.eq_def]
      simp only [if_neg h92, ho, ih, Res.map, if_true]

theorem parseByteaEsc_no_panic (t : Bytes) : parseByteaEsc t ≠ .panic := by
  have hm : ∀ (x : Res Bytes) (f : Bytes → Bytes), x ≠ .panic → x.map f ≠ .panic := by
    intro x f hx; cases x <;> simp_all [Res.map]
  fun_induction parseByteaEsc t with
  | case1 => simp
  | case2 _ ih => exact hm _ _ ih
  | case3 => simp
  | case4 _ _ _ _ _ _ _ ih => exact hm _ _ ih
  | case5 => simp
  | case6 => simp
  | case7 _ _ _ ih => exact hm _ _ ih

theorem parseBytea_no_panic (t : Bytes) : parseBytea t ≠ .panic := by
  unfold parseBytea
  split
  · split <;> simp
  · exact parseByteaEsc_no_panic _

theorem escText_server (v : Bytes) : EscText (serverEscape v) v := by
  induction v with
  | nil => exact .nil
  | cons x v ih =>
    have hx : x.toNat < 256 := x.toNat_lt
    simp only [serverEscape]
    split
    · rename_i h; subst h; exact .bs ih
    · rename_i h
      split
      · have := EscText.oct (i := x.toNat / 64) (j := x.toNat / 8 % 8) (k := x.toNat % 8)
          (by omega) (by omega) (by omega) (by omega) ih
        rw [show x.toNat / 64 * 64 + x.toNat / 8 % 8 * 8 + x.toNat % 8 = x.toNat by omega] at this
        simpa using this
      · exact .raw h ih

end Verif
