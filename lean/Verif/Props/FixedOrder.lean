import Verif.Props.Fixed

/-!
# Property C109: how arrays are compared, and records with arrays
-/

namespace Verif.Props

open Verif Verif.Dispatch Verif.Typed Verif.Fixed Verif.ColumnType Verif.Scan Verif.Spec.Scan Verif.Spec Verif.Spec.Fixed
open Verif.Gen Verif.Store Verif.Spec.Store Verif.Spec.Gen

variable {F U : Type} {W : Fixed.World F U} {K : Spec.Sql.Compare Fixed.Cell} {low : Bool}
  {g : Gen.Cfg} {S : Spec.Sql.Dialect} {gen : Spec.Sql.Tbl Fixed.Cell → Fixed.Cell} {auto : Typed.Kind} {t : Gen.Table F}
  {other : Spec.Store.Comp F (Val U)}

/-! ## What is in columns -/

theorem stores_arr {f : F} {x : Val U} (hx : Fixed.Stores W f x) : (∃ v, x = .base v ∧ W.arr f = false ∧ Spec.Custom.Stores W.base f v) ∨
    W.arr f = true ∧ ∀ v, x ≠ .base v := by
  cases x with
  | base v => exact .inl ⟨v, rfl, hx⟩
  | bytes l => obtain ⟨n, col, hc, -⟩ := hx; exact .inr ⟨hc.1.arr, by simp⟩
  | runes l => obtain ⟨n, limit, nul, hc, -⟩ := hx; exact .inr ⟨hc.1.arr, by simp⟩

theorem is_unique {f : F} {e e' : Fixed.Elem} {n n' : Nat} (h : Is W f e n) (h' : Is W f e' n') : e = e' ∧ n = n' := by
  have h1 := (fixed_both h)
  have h2 := (fixed_both h')
  have ha := h1.2.2.symm.trans h2.2.2
  have hb := h1.1.symm.trans h2.1
  simp only [Option.some.injEq, How.table.injEq, Key.fixed.injEq] at hb
  refine ⟨?_, by omega⟩
  cases e <;> cases e' <;> first | rfl | (revert hb; decide +kernel)

/-- What is in a column with these bytes. -/
def cellOf : Fixed.Col → Bytes → Fixed.Cell
  | .blob, l => .blob l
  | .text .., l => .text l

/-- The column of a stored array of bytes has these bytes. -/
theorem bytes_cell (hW : Fixed.Behaves W) {f : F} {n : Nat} {col : Fixed.Col} (hc : Fixed.Column W f .byte n col) {l : Bytes}
    (hm : BytesFor col l) : W.enc f (.bytes l) = cellOf col l := by
  rw [enc_bytes hc.1]
  cases col with
  | blob =>
    have hk := hW.keeps f _ _ _ hc _ _ (.blob (s := l))
    generalize W.keep f (.bytes l) = c at hk ⊢
    cases hk
    rfl
  | text limit nul spaces =>
    obtain ⟨htk, hsp⟩ := hm
    cases spaces with
    | true =>
      have hk := hW.keeps f _ _ _ hc _ _ (.text .bytes htk)
      generalize W.keep f (.bytes l) = c at hk ⊢
      cases hk with
      | text ht _ => have e := text_iff ht .bytes; subst e; rfl
    | false =>
      have htr : Trimmed (l ++ List.replicate 0 32) l := Trimmed.mk (hsp rfl)
      have htr' : Trimmed l l := by simpa using htr
      have hk := hW.keeps f _ _ _ hc _ _ (.trimmed .bytes htk htr')
      generalize W.keep f (.bytes l) = c at hk ⊢
      cases hk with
      | @trimmed _ _ _ s s' ht _ h =>
        have e := text_iff ht .bytes
        subst e
        have h : Trimmed (s ++ List.replicate 0 32) s' := by simpa using h
        rw [trimmed_unique (hsp rfl) h]
        rfl

/-- The column of a stored array of characters has their text. -/
theorem runes_cell (hW : Fixed.Behaves W) {f : F} {n : Nat} {limit : Option Nat} {nul : Bool}
    (hc : Fixed.Column W f .rune n (.text limit nul true)) {cs : List Char} (hlim : ∀ n, limit = some n → cs.length ≤ n)
    (hnul : nul = false → Char.ofNat 0 ∉ cs) : W.enc f (.runes (cs.map fun c => (c.toNat : Int))) = .text (utf8s cs) := by
  rw [enc_runes hc.1, runesValue_chars]
  have hk := hW.keeps f _ _ _ hc _ _ (.text .str ⟨cs, rfl, hlim, hnul⟩)
  generalize W.keep f (.str (utf8s cs)) = c at hk ⊢
  cases hk with
  | text ht _ => have e := text_iff ht .str; subst e; rfl

theorem array_cell (hW : Fixed.Behaves W) {f : F} (ha : W.arr f = true) {x : Val U} (hx : Fixed.Stores W f x) :
    (∃ s, W.enc f x = .text s) ∨ ∃ s, W.enc f x = .blob s := by
  cases x with
  | base v => have := hx.1; rw [ha] at this; cases this
  | bytes l =>
    obtain ⟨n, col, hc, -, hm⟩ := hx
    rw [bytes_cell hW hc hm]
    cases col with
    | blob => exact .inr ⟨_, rfl⟩
    | text => exact .inl ⟨_, rfl⟩
  | runes l =>
    obtain ⟨n, limit, nul, hc, cs, rfl, -, hlim, hnul, -⟩ := hx
    exact .inl ⟨_, runes_cell hW hc hlim hnul⟩

/-- Arrays are compared by the database as they are element by element. -/
theorem array_compares (hW : Fixed.Behaves W) (hK : Fixed.Compares W K low other) {f : F} (ha : W.arr f = true) {x y : Val U}
    (hx : Fixed.Stores W f x) (hy : Fixed.Stores W f y) :
    K.eq (W.enc f x) (W.enc f y) = (Fixed.order W low other).eq f x y ∧ K.lt (W.enc f x) (W.enc f y) = (Fixed.order W low other).lt f x y ∧
      K.before (W.enc f x) (W.enc f y) = (Fixed.order W low other).before f x y := by
  cases x with
  | base v => have := hx.1; rw [ha] at this; cases this
  | bytes l =>
    obtain ⟨n, col, hc, -, hm⟩ := hx
    cases y with
    | base w => have := hy.1; rw [ha] at this; cases this
    | runes m =>
      obtain ⟨n', limit, nul, hc', -⟩ := hy
      have := (is_unique hc.1 hc'.1).1
      cases this
    | bytes m =>
      obtain ⟨n', col', hc', -, hm'⟩ := hy
      have hcol : col' = col := Option.some.inj (hc'.2.symm.trans hc.2)
      subst hcol
      rw [bytes_cell hW hc hm, bytes_cell hW hc' hm']
      cases col' with
      | blob => exact hK.blob l m
      | text => exact hK.text l m
  | runes l =>
    obtain ⟨n, limit, nul, hc, cs, rfl, -, hlim, hnul, -⟩ := hx
    cases y with
    | base w => have := hy.1; rw [ha] at this; cases this
    | bytes m =>
      obtain ⟨n', col, hc', -⟩ := hy
      have := (is_unique hc.1 hc'.1).1
      cases this
    | runes m =>
      obtain ⟨n', limit', nul', hc', cs', rfl, -, hlim', hnul', -⟩ := hy
      rw [runes_cell hW hc hlim hnul, runes_cell hW hc' hlim' hnul']
      obtain ⟨h1, h2, h3⟩ := hK.text (utf8s cs) (utf8s cs')
      have he : decide (utf8s cs = utf8s cs') = decide ((cs.map fun c => (c.toNat : Int)) = cs'.map fun c => (c.toNat : Int)) := by
        rw [decide_eq_decide]
        constructor
        · intro h; rw [utf8s_inj h]
        · intro h
          rw [← runesValue_chars, ← runesValue_chars, h]
      have hl : decide (utf8s cs < utf8s cs') = decide ((cs.map fun c => (c.toNat : Int)) < cs'.map fun c => (c.toNat : Int)) := by
        rw [decide_eq_decide]
        exact utf8s_lt_iff cs cs'
      exact ⟨h1.trans he, h2.trans hl, h3.trans hl⟩

/-! ## What is assumed of records -/

theorem fixed_agrees (hW : Fixed.Behaves W) (hK : Fixed.Compares W K low other) :
    Agrees K (W.env g S gen auto).null (W.env g S gen auto).enc (Fixed.Stores W) t (Fixed.order W low other) := by
  obtain ⟨K', hs, he⟩ := hK.base
  have hag : Agrees K' (W.base.env g S (fun _ => Custom.null) auto).null (W.base.env g S (fun _ => Custom.null) auto).enc
      (Spec.Custom.Stores W.base) t (Spec.Custom.order W.base low (Fixed.onBase other)) := custom_agrees hW.base hs
  have pair : ∀ {f : F} {x y : Val U}, Fixed.Stores W f x → Fixed.Stores W f y →
      (∃ v w, x = .base v ∧ y = .base w ∧ Spec.Custom.Stores W.base f v ∧ Spec.Custom.Stores W.base f w) ∨ W.arr f = true := by
    intro f x y hx hy
    rcases stores_arr hx with ⟨v, rfl, ha, h1⟩ | ⟨ha, -⟩
    · rcases stores_arr hy with ⟨w, rfl, -, h2⟩ | ⟨ha', -⟩
      · exact .inl ⟨v, w, rfl, rfl, h1, h2⟩
      · exact .inr ha'
    · exact .inr ha
  refine ⟨?_, ?_, ?_, ?_, ?_⟩
  · intro c hc x hx
    rcases stores_arr hx with ⟨v, rfl, -, h1⟩ | ⟨ha, hne⟩
    · have := hag.isNil c hc v h1
      constructor
      · intro h; exact this.1 (by injection h)
      · intro h; exact congrArg Fixed.Cell.base (this.2 h)
    · have hno : (Fixed.order W low other).isNil c.field x = false := by
        cases x with
        | base v => exact absurd rfl (hne v)
        | bytes => rfl
        | runes => rfl
      rw [hno]
      show W.enc c.field x = .base Custom.null ↔ _
      rcases array_cell hW ha hx with ⟨s, h⟩ | ⟨s, h⟩ <;> simp [h]
  · intro c hc x y hx hy
    rcases pair hx hy with ⟨v, w, rfl, rfl, h1, h2⟩ | ha
    · exact (he _ _).1.trans (hag.eq c hc v w h1 h2)
    · exact (array_compares hW hK ha hx hy).1
  · intro c hc x y hx hy
    rcases pair hx hy with ⟨v, w, rfl, rfl, h1, h2⟩ | ha
    · exact (he _ _).2.1.trans (hag.lt c hc v w h1 h2)
    · exact (array_compares hW hK ha hx hy).2.1
  · intro c hc x y hx hy
    rcases pair hx hy with ⟨v, w, rfl, rfl, h1, h2⟩ | ha
    · exact (he _ _).2.2.1.trans (hag.like c hc v w h1 h2)
    · exact hK.like _ x y ha hx hy
  · intro c hc x y hx hy
    rcases pair hx hy with ⟨v, w, rfl, rfl, h1, h2⟩ | ha
    · exact (he _ _).2.2.2.trans (hag.before c hc v w h1 h2)
    · exact (array_compares hW hK ha hx hy).2.2

theorem fixed_setup (hk : ∀ c ∈ keyCols t, Fixed.Keyed W c.field) (hW : Fixed.Behaves W) (hs : Spec.Typed.Shape g S t) :
    Setup (W.env g S gen auto) t (Fixed.Stores W) where
  wf := hs.wf
  key := hs.key
  named := hs.named
  bare := hs.bare
  plain := hs.plain
  names := hs.names
  single := hs.single
  back := fun _ _ _ old h => C109_field hW h old
  keyed := by
    intro c hc x hx he
    have he : W.enc c.field x = .base Custom.null := he
    rcases stores_arr hx with ⟨v, rfl, ha, h1⟩ | ⟨ha, -⟩
    · rcases hk c hc with ⟨-, hb⟩ | h
      · cases v with
        | base v =>
          rcases hb with ⟨-, hb⟩ | ⟨ho, -⟩
          · have he : Fixed.Cell.base (.base (W.base.base.enc c.field v)) = .base (.base (.base (.base .null))) := he
            exact doc_key hb hW.base h1.2 (by injection he with he; injection he)
          · have h1 := h1.1; rw [ho] at h1; cases h1
        | own p =>
          have h := custom_null h1
          rw [custom_key hb h1, if_neg (by simp)] at h
          obtain ⟨s, hs⟩ := h
          have he : Fixed.Cell.base (W.base.enc c.field (.own p)) = .base Custom.null := he
          rw [hs] at he
          cases he
      · rw [ha] at h; cases h
    · rcases array_cell hW ha hx with ⟨s, h⟩ | ⟨s, h⟩ <;> rw [h] at he <;> cases he

theorem lists_total {α : Type} [LT α] [DecidableEq α] (tri : ∀ a b : α, a < b ∨ a = b ∨ b < a) (l m : List α) : l = m ∨ l < m ∨ m < l := by
  induction l generalizing m with
  | nil =>
    cases m with
    | nil => exact .inl rfl
    | cons b m => exact .inr (.inl (List.nil_lt_cons b m))
  | cons a l ih =>
    cases m with
    | nil => exact .inr (.inr (List.nil_lt_cons a l))
    | cons b m =>
      simp only [List.cons_lt_cons_iff]
      rcases tri a b with h | h | h
      · exact .inr (.inl (.inl h))
      · subst h
        rcases ih m with h | h | h
        · exact .inl (by rw [h])
        · exact .inr (.inl (.inr ⟨rfl, h⟩))
        · exact .inr (.inr (.inr ⟨rfl, h⟩))
      · exact .inr (.inr (.inl h))

theorem byte_tri (a b : Byte) : a < b ∨ a = b ∨ b < a := by
  rw [UInt8.lt_iff_toNat_lt, UInt8.lt_iff_toNat_lt, ← UInt8.toNat_inj]
  omega

theorem int_tri (a b : Int) : a < b ∨ a = b ∨ b < a := by omega

/-- Arrays of a field have an order. -/
theorem array_ordered {f : F} (ha : W.arr f = true) :
    (∀ x y, Fixed.Stores W f x → Fixed.Stores W f y → ((Fixed.order W low other).eq f x y = true ↔ x = y)) ∧
    (∀ x y, Fixed.Stores W f x → Fixed.Stores W f y → (Fixed.order W low other).before f x y = (Fixed.order W low other).lt f x y) ∧
    (∀ x, Fixed.Stores W f x → (Fixed.order W low other).lt f x x = false) ∧
    (∀ x y z, Fixed.Stores W f x → Fixed.Stores W f y → Fixed.Stores W f z → (Fixed.order W low other).lt f x y = true →
      (Fixed.order W low other).lt f y z = true → (Fixed.order W low other).lt f x z = true) ∧
    ∀ x y, Fixed.Stores W f x → Fixed.Stores W f y →
      x = y ∨ (Fixed.order W low other).lt f x y = true ∨ (Fixed.order W low other).lt f y x = true := by
  have side : (∀ x, Fixed.Stores W f x → ∃ l, x = .bytes l) ∨ ∀ x, Fixed.Stores W f x → ∃ l, x = .runes l := by
    by_cases h : ∃ n, Is W f .byte n
    · obtain ⟨n, h⟩ := h
      left
      intro x hx
      cases x with
      | base v => have := hx.1; rw [ha] at this; cases this
      | bytes l => exact ⟨l, rfl⟩
      | runes l => obtain ⟨_, _, _, hc, -⟩ := hx; have := (is_unique h hc.1).1; cases this
    · right
      intro x hx
      cases x with
      | base v => have := hx.1; rw [ha] at this; cases this
      | bytes l => obtain ⟨n, _, hc, -⟩ := hx; exact absurd ⟨n, hc.1⟩ h
      | runes l => exact ⟨l, rfl⟩
  rcases side with side | side
  · refine ⟨?_, ?_, ?_, ?_, ?_⟩
    · intro x y hx hy
      obtain ⟨l, rfl⟩ := side x hx
      obtain ⟨m, rfl⟩ := side y hy
      simp [Fixed.order]
    · intro x y hx hy
      obtain ⟨l, rfl⟩ := side x hx
      obtain ⟨m, rfl⟩ := side y hy
      rfl
    · intro x hx
      obtain ⟨l, rfl⟩ := side x hx
      exact decide_eq_false fun h => List.lt_asymm h h
    · intro x y z hx hy hz h1 h2
      obtain ⟨l, rfl⟩ := side x hx
      obtain ⟨m, rfl⟩ := side y hy
      obtain ⟨k, rfl⟩ := side z hz
      exact decide_eq_true (List.lt_trans (of_decide_eq_true h1) (of_decide_eq_true h2))
    · intro x y hx hy
      obtain ⟨l, rfl⟩ := side x hx
      obtain ⟨m, rfl⟩ := side y hy
      rcases lists_total byte_tri l m with h | h | h
      · exact .inl (by rw [h])
      · exact .inr (.inl (decide_eq_true h))
      · exact .inr (.inr (decide_eq_true h))
  · refine ⟨?_, ?_, ?_, ?_, ?_⟩
    · intro x y hx hy
      obtain ⟨l, rfl⟩ := side x hx
      obtain ⟨m, rfl⟩ := side y hy
      simp [Fixed.order]
    · intro x y hx hy
      obtain ⟨l, rfl⟩ := side x hx
      obtain ⟨m, rfl⟩ := side y hy
      rfl
    · intro x hx
      obtain ⟨l, rfl⟩ := side x hx
      exact decide_eq_false fun h => List.lt_asymm h h
    · intro x y z hx hy hz h1 h2
      obtain ⟨l, rfl⟩ := side x hx
      obtain ⟨m, rfl⟩ := side y hy
      obtain ⟨k, rfl⟩ := side z hz
      exact decide_eq_true (List.lt_trans (of_decide_eq_true h1) (of_decide_eq_true h2))
    · intro x y hx hy
      obtain ⟨l, rfl⟩ := side x hx
      obtain ⟨m, rfl⟩ := side y hy
      rcases lists_total int_tri l m with h | h | h
      · exact .inl (by rw [h])
      · exact .inr (.inl (decide_eq_true h))
      · exact .inr (.inr (decide_eq_true h))

theorem fixed_ordered (hk : ∀ c ∈ keyCols t, Fixed.Keyed W c.field)
    (hr : ∀ c ∈ keyCols t, W.arr c.field = false → W.base.own c.field = true → Spec.Custom.Ranked W.base (Fixed.onBase other) c.field) :
    Ordered (Fixed.order W low other) (Fixed.Stores W) t := by
  have side : ∀ c ∈ keyCols t, (Ordered (Spec.Custom.order W.base low (Fixed.onBase other)) (Spec.Custom.Stores W.base)
        { name := "", columns := [c], keys := [0] } ∧
      ∀ x, Fixed.Stores W c.field x → ∃ v, x = .base v ∧ Spec.Custom.Stores W.base c.field v) ∨ W.arr c.field = true := by
    intro c hc
    rcases hk c hc with ⟨ha, hb⟩ | ha
    · left
      have hkey : ∀ c', c' ∈ keyCols ({ name := "", columns := [c], keys := [0] } : Gen.Table F) → c' = c := by
        intro c' hc'
        simpa [keyCols, keyPos, pick] using hc'
      refine ⟨custom_ordered (fun c' hc' => ?_) (fun c' hc' => ?_), fun x hx => ?_⟩
      · rw [hkey c' hc']; exact hb
      · rw [hkey c' hc']; exact hr c hc ha
      · rcases stores_arr hx with ⟨v, hv, -, h1⟩ | ⟨h, -⟩
        · exact ⟨v, hv, h1⟩
        · rw [ha] at h; cases h
    · exact .inr ha
  have only : ∀ c : GCol F, c ∈ keyCols ({ name := "", columns := [c], keys := [0] } : Gen.Table F) := by
    intro c; simp [keyCols, keyPos, pick]
  refine ⟨?_, ?_, ?_, ?_, ?_⟩
  · intro c hc x y hx hy
    rcases side c hc with ⟨ho, hv⟩ | ha
    · obtain ⟨v, rfl, h1⟩ := hv x hx
      obtain ⟨w, rfl, h2⟩ := hv y hy
      exact (ho.eq c (only c) v w h1 h2).trans (by simp)
    · exact (array_ordered ha).1 x y hx hy
  · intro c hc x y hx hy
    rcases side c hc with ⟨ho, hv⟩ | ha
    · obtain ⟨v, rfl, h1⟩ := hv x hx
      obtain ⟨w, rfl, h2⟩ := hv y hy
      exact ho.before c (only c) v w h1 h2
    · exact (array_ordered ha).2.1 x y hx hy
  · intro c hc x hx
    rcases side c hc with ⟨ho, hv⟩ | ha
    · obtain ⟨v, rfl, h1⟩ := hv x hx
      exact ho.irrefl c (only c) v h1
    · exact (array_ordered ha).2.2.1 x hx
  · intro c hc x y z hx hy hz
    rcases side c hc with ⟨ho, hv⟩ | ha
    · obtain ⟨v, rfl, h1⟩ := hv x hx
      obtain ⟨w, rfl, h2⟩ := hv y hy
      obtain ⟨u, rfl, h3⟩ := hv z hz
      exact ho.trans c (only c) v w u h1 h2 h3
    · exact (array_ordered ha).2.2.2.1 x y z hx hy hz
  · intro c hc x y hx hy
    rcases side c hc with ⟨ho, hv⟩ | ha
    · obtain ⟨v, rfl, h1⟩ := hv x hx
      obtain ⟨w, rfl, h2⟩ := hv y hy
      rcases ho.total c (only c) v w h1 h2 with h | h | h
      · exact .inl (by rw [h])
      · exact .inr (.inl h)
      · exact .inr (.inr h)
    · exact (array_ordered ha).2.2.2.2 x y hx hy

end Verif.Props
