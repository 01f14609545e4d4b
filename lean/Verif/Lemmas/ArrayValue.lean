import Verif.Lemmas.Array
import Verif.Lemmas.Numeral
import Verif.Model.Bytea
import Mathlib.Data.List.Forall2
import Mathlib.Tactic.Tauto

namespace Verif
open Spec

/-- The text of a non-empty array: `o`, elements separated by commas, `c`. -/
def arrayText {α : Type} (o c : Byte) (enc : α → Bytes) (x : α) (xs : List α) : Bytes :=
  o :: (enc x ++ xs.flatMap (fun y => 44 :: enc y) ++ [c])

theorem elems_of_list {α : Type} {o c : Byte} {enc : α → Bytes} {g : α → Option Bytes}
    (x : α) (xs : List α) (h : ∀ y ∈ x :: xs, Elem o c (enc y) (g y)) :
    Elems o c (enc x ++ xs.flatMap (fun y => 44 :: enc y)) ((x :: xs).map g) := by
  induction xs generalizing x with
  | nil => simpa using Elems.one (h x (by simp))
  | cons y ys ih =>
    simpa using Elems.more (h x (by simp)) (ih y (fun z hz => h z (by simp at hz ⊢; tauto)))

theorem linear_of_list {α : Type} {o c : Byte} {enc : α → Bytes} {g : α → Option Bytes}
    (x : α) (xs : List α) (h : ∀ y ∈ x :: xs, Elem o c (enc y) (g y)) :
    LinearArray o c (arrayText o c enc x xs) ((x :: xs).map g) :=
  .list (elems_of_list x xs h)

theorem appendElems_eq {α : Type} (enc : α → Bytes) (b : Bytes) (xs : List α) :
    appendElems (fun b x => b ++ enc x) b xs = b ++ xs.flatMap (fun y => 44 :: enc y) := by
  induction xs generalizing b with
  | nil => simp [appendElems]
  | cons x xs ih => simp [appendElems, ih]

theorem sliceValue_cons {α : Type} (f : Fmt) (enc : α → Bytes) (x : α) (xs : List α) :
    sliceValue f (fun b x => b ++ enc x) (some (x :: xs))
      = some (arrayText f.opn f.cls enc x xs) := by
  simp [sliceValue, appendElems_eq, arrayText]

theorem linear_empty (f : Fmt) : LinearArray f.opn f.cls [f.opn, f.cls] [] := by
  simpa using LinearArray.empty (o := f.opn) (c := f.cls) (n := 1) (by decide)

/-! ### scan -/

theorem convAll_ok {α : Type} {conv : Option Bytes → Res α} {es : List (Option Bytes)} {xs : List α} :
    convAll conv es = .ok xs ↔ List.Forall₂ (fun e x => conv e = .ok x) es xs := by
  induction es generalizing xs with
  | nil => cases xs <;> simp [convAll]
  | cons e es ih =>
    cases xs with
    | nil =>
      simp only [convAll, List.forall₂_cons_left_iff]
      constructor
      · intro h
        obtain ⟨_, _, h⟩ := Res.bind_eq_ok.1 h
        obtain ⟨_, _, h⟩ := Res.bind_eq_ok.1 h
        simp at h
      · rintro ⟨_, _, _, _, h⟩; simp at h
    | cons x xs =>
      simp only [convAll, List.forall₂_cons]
      constructor
      · intro h
        obtain ⟨a, ha, h⟩ := Res.bind_eq_ok.1 h
        obtain ⟨b, hb, h⟩ := Res.bind_eq_ok.1 h
        simp at h
        exact ⟨by rw [ha, h.1], ih.1 (by rw [hb, h.2])⟩
      · rintro ⟨h1, h2⟩
        rw [h1, Res.ok_bind, ih.2 h2, Res.ok_bind]

theorem convAll_no_panic {α : Type} {conv : Option Bytes → Res α} (hc : ∀ e, conv e ≠ .panic)
    (es : List (Option Bytes)) : convAll conv es ≠ .panic := by
  induction es with
  | nil => simp [convAll]
  | cons e es ih =>
    simp only [convAll]
    cases h : conv e with
    | panic => exact absurd h (hc e)
    | err => simp
    | ok x =>
      cases h' : convAll conv es with
      | panic => exact absurd h' ih
      | err => simp
      | ok xs => simp

theorem scanLinearArray_iff (f : Fmt) (src : Bytes) (es : List (Option Bytes)) :
    scanLinearArray f src = .ok es ↔ LinearArray f.opn f.cls src es :=
  ⟨scan_sound f, scan_complete f⟩

theorem scanLinearArray_no_panic (f : Fmt) (src : Bytes) : scanLinearArray f src ≠ .panic := by
  unfold scanLinearArray
  cases h : parseArray f src with
  | panic => exact absurd h (parseArray_no_panic f src)
  | err => simp
  | ok p => simp only [Res.ok_bind]; split <;> simp

theorem scanBytesWith_ok {α : Type} (f : Fmt) (conv : Option Bytes → Res α) (src : Bytes)
    (a : Option (List α)) (xs : List α) :
    scanBytesWith f conv src a = (.ok (), some xs) ↔
      ∃ es, LinearArray f.opn f.cls src es ∧ List.Forall₂ (fun e x => conv e = .ok x) es xs := by
  unfold scanBytesWith
  cases h : scanLinearArray f src with
  | panic => exact absurd h (scanLinearArray_no_panic f src)
  | err =>
    simp only [Prod.mk.injEq, reduceCtorEq, false_and, false_iff, not_exists, not_and]
    intro es hes
    rw [← scanLinearArray_iff, h] at hes
    simp at hes
  | ok es =>
    have huniq : ∀ es', LinearArray f.opn f.cls src es' → es' = es := by
      intro es' hes
      rw [← scanLinearArray_iff, h] at hes
      simpa using hes.symm
    have hes := (scanLinearArray_iff f src es).1 h
    simp only
    split
    · rename_i hc
      have h0 : es = [] := List.length_eq_zero_iff.1 hc.2
      subst h0
      constructor
      · intro hh
        simp at hh; subst hh
        exact ⟨[], hes, .nil⟩
      · rintro ⟨es', h1, h2⟩
        rw [huniq es' h1] at h2
        cases h2; rfl
    · constructor
      · intro hh
        split at hh <;> simp at hh
        rename_i b hb
        subst hh
        exact ⟨es, hes, convAll_ok.1 hb⟩
      · rintro ⟨es', h1, h2⟩
        rw [huniq es' h1] at h2
        rw [convAll_ok.2 h2]

theorem scanWith_text {α : Type} (f : Fmt) (conv : Option Bytes → Res α) {src : Bytes}
    {es : List (Option Bytes)} {xs : List α} (h1 : LinearArray f.opn f.cls src es)
    (h2 : List.Forall₂ (fun e x => conv e = .ok x) es xs) (a : Option (List α)) :
    scanWith f conv (.str src) a = (.ok (), some xs) ∧
    scanWith f conv (.bytes src) a = (.ok (), some xs) := by
  have := (scanBytesWith_ok f conv src a xs).2 ⟨es, h1, h2⟩
  exact ⟨this, this⟩

theorem forall₂_map {α : Type} {conv : Option Bytes → Res α} {g : α → Option Bytes} {xs : List α}
    (h : ∀ x ∈ xs, conv (g x) = .ok x) : List.Forall₂ (fun e x => conv e = .ok x) (xs.map g) xs := by
  induction xs with
  | nil => exact .nil
  | cons x xs ih => exact .cons (h x (by simp)) (ih (fun y hy => h y (by simp [hy])))

/-! ### elements -/

theorem quotedBody_escape (v : Bytes) : QuotedBody (escapeBytes v) v := by
  induction v with
  | nil => exact .nil
  | cons c v ih =>
    simp only [escapeBytes]
    split
    · exact .esc ih
    · rename_i h
      simp [not_or] at h
      exact .plain h.1 h.2 ih

theorem elem_string (f : Fmt) (v : Bytes) :
    Elem f.opn f.cls (quote :: (escapeBytes v ++ [quote])) (some v) := .quoted (quotedBody_escape v)

theorem elem_digits (f : Fmt) {t : Bytes} {n : Nat} (h : Numeral 10 t n) :
    Elem f.opn f.cls t (some t) := by
  have hd := h.digits (by decide)
  cases t with
  | nil => exact absurd rfl h.ne_nil
  | cons x t =>
    have hx := hd x (by simp)
    have key : ∀ y : Byte, 48 ≤ y.toNat ∧ y.toNat < 48 + 10 → y ≠ 44 ∧ y ≠ f.cls := by
      intro y hy
      constructor
      · rintro rfl; simp at hy
      · rintro rfl; cases f <;> simp [Fmt.cls] at hy
    refine .bare ?_ ?_ (fun y hy => key y (hd y hy)) ?_
    · rintro rfl; cases f <;> simp [Fmt.opn] at hx
    · rintro rfl; simp at hx
    · intro h0; simp at h0; rw [h0.1] at hx; simp at hx

theorem elem_signed (f : Fmt) (n : Int) : Elem f.opn f.cls (intDec n) (some (intDec n)) := by
  unfold intDec
  split
  · have h := natDec_numeral n.natAbs
    have hd := h.digits (by decide)
    refine .bare ?_ ?_ ?_ ?_
    · cases f <;> decide
    · decide
    · intro y hy
      rcases List.mem_cons.1 hy with rfl | hy
      · cases f <;> decide
      · have := hd y hy
        constructor
        · rintro rfl; simp at this
        · rintro rfl; cases f <;> simp [Fmt.cls] at this
    · simp
  · exact elem_digits f (natDec_numeral _)

theorem elem_bool (f : Fmt) (b : Bool) :
    Elem f.opn f.cls [if b then 116 else 102] (some [if b then 116 else 102]) := by
  refine .bare ?_ ?_ ?_ ?_ <;> cases b <;> cases f <;> simp [Fmt.opn, Fmt.cls]

/-! ### the pre-sized buffer of BoolSlice.Value -/

theorem setIdx_append {α : Type} (p : List α) (x : α) (q : List α) (y : α) {i : Nat}
    (hi : i = p.length) : setIdx (p ++ x :: q) i y = .ok (p ++ y :: q) := by
  subst hi; simp [setIdx]

theorem boolLoop_eq (xs : List Bool) (i : Nat) (p q : Bytes) (hp : p.length = 2 * i)
    (hq : q.length = 2 * xs.length + 1) :
    ∃ z, boolLoop xs i (p ++ q) =
      .ok (p ++ xs.flatMap (fun b => [44, if b then 116 else 102]) ++ [z]) := by
  induction xs generalizing i p q with
  | nil =>
    simp at hq
    obtain ⟨z, rfl⟩ := List.length_eq_one_iff.1 hq
    exact ⟨z, by simp [boolLoop]⟩
  | cons x xs ih =>
    match q, hq with
    | a :: b :: q, hq =>
      simp at hq
      have h1 : setIdx (p ++ a :: b :: q) (2 * i) comma = .ok (p ++ comma :: b :: q) :=
        setIdx_append _ _ _ _ (by omega)
      have h2 : setIdx (p ++ comma :: b :: q) (1 + 2 * i) (if x then 116 else 102)
          = .ok ((p ++ [comma]) ++ (if x then 116 else 102) :: q) := by
        rw [show p ++ comma :: b :: q = (p ++ [comma]) ++ b :: q by simp]
        exact setIdx_append _ _ _ _ (by simp; omega)
      obtain ⟨z, hz⟩ := ih (i + 1) (p ++ [comma, if x then 116 else 102]) q (by simp; omega) (by omega)
      refine ⟨z, ?_⟩
      simp only [boolLoop, h1, Res.ok_bind, h2]
      rw [show (p ++ [comma]) ++ (if x then (116 : Byte) else 102) :: q
        = p ++ [comma, if x then 116 else 102] ++ q by simp, hz]
      simp

theorem boolValue_cons (f : Fmt) (x : Bool) (xs : List Bool) :
    boolValue f (some (x :: xs)) =
      .ok (some (arrayText f.opn f.cls (fun b => [if b then 116 else 102]) x xs)) := by
  obtain ⟨z, hz⟩ := boolLoop_eq (x :: xs) 0 [] (List.replicate (1 + 2 * (x :: xs).length) 0) rfl
    (by simp; omega)
  simp only [List.nil_append] at hz
  simp only [boolValue, hz, Res.ok_bind]
  have h1 : setIdx ((x :: xs).flatMap (fun b => [(44 : Byte), if b then 116 else 102]) ++ [z]) 0 f.opn
      = .ok (f.opn :: (if x then 116 else 102) ::
          xs.flatMap (fun b => [(44 : Byte), if b then 116 else 102]) ++ [z]) := by
    simp [setIdx]
  have hl : (f.opn :: (if x then (116 : Byte) else 102) ::
          xs.flatMap (fun b => [(44 : Byte), if b then 116 else 102])).length
      = 2 * (x :: xs).length := by
    simp [List.length_flatMap, List.map_const']; omega
  rw [h1, Res.ok_bind, setIdx_append _ z [] _ hl.symm]
  simp [arrayText]

/-! ### width conversions -/

theorem toSigned_of_range {w : Nat} (hw : 0 < w) {n : Int} (h1 : -(2 ^ (w - 1) : Int) ≤ n)
    (h2 : n < (2 ^ (w - 1) : Int)) : toSigned w n = n := by
  unfold toSigned
  exact BitVec.toInt_ofInt_eq_self hw h1 h2

theorem toUnsigned_of_range {w n : Nat} (h : n < 2 ^ w) : toUnsigned w n = n := by
  unfold toUnsigned
  simp [Nat.mod_eq_of_lt h]

end Verif
