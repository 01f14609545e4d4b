import Verif.Spec.Rich
import Verif.Props.Typed
import Verif.Props.ArrayCodec
import Verif.Props.JsonSlices
import Verif.Props.Quote
import Verif.Props.Time

/-! # C99: records with lists, byte strings and times -/

namespace Verif.Props

open Verif Verif.Dispatch Verif.Typed Verif.Rich Verif.ColumnType Verif.Scan Verif.Float Verif.Spec
open Verif.Spec.Rich Verif.Spec.Float Verif.Spec.Scan

variable {F : Type}

/-! ## Texts of arrays -/

theorem item_elem {t e : Bytes} (h : Item t e) : Elem 123 125 t (some e) := by
  cases h with
  | quoted h => exact .quoted h
  | bare h1 h2 h3 =>
    cases t with
    | nil => exact absurd rfl h1
    | cons x t =>
      have hx := (h2 x (by simp)).2
      refine .bare (fun h => hx (by simp [h])) (fun h => hx (by simp [h])) (fun y hy => ?_) (fun h => h3 (by rw [h]; decide))
      have := (h2 y hy).2
      exact ⟨fun h => this (by simp [h]), fun h => this (by simp [h])⟩

theorem items_elems {t : Bytes} {es : List Bytes} (h : Items t es) : Elems 123 125 t (es.map some) := by
  induction h with
  | one h => exact .one (item_elem h)
  | more h _ ih => exact .more (item_elem h) ih

theorem arrayText_linear {t : Bytes} {es : List Bytes} (h : ArrayText t es) : LinearArray 123 125 t (es.map some) := by
  cases h with
  | empty => exact LinearArray.empty (o := 123) (c := 125) (n := 1) (by decide)
  | list h => exact .list (items_elems h)

theorem arrayText_unique {t : Bytes} {a b : List Bytes} (ha : ArrayText t a) (hb : ArrayText t b) : a = b := by
  have h1 := (scanLinearArray_iff .brace t _).2 (arrayText_linear ha)
  have h2 := (scanLinearArray_iff .brace t _).2 (arrayText_linear hb)
  have := Res.ok.inj (h1.symm.trans h2)
  exact (List.map_injective_iff.2 (Option.some_injective _)) this

/-- The text of a list, of which `enc` gives the elements. -/
def sliceText {α : Type} (enc : α → Bytes) : List α → Bytes
  | [] => [123, 125]
  | x :: xs => arrayText 123 125 enc x xs

theorem items_of_list {α : Type} {enc g : α → Bytes} (x : α) (xs : List α) (h : ∀ y ∈ x :: xs, Item (enc y) (g y)) :
    Items (enc x ++ xs.flatMap (fun y => 44 :: enc y)) ((x :: xs).map g) := by
  induction xs generalizing x with
  | nil => simpa using Items.one (h x (by simp))
  | cons y ys ih => simpa using Items.more (h x (by simp)) (ih y (fun z hz => h z (by simp at hz ⊢; tauto)))

theorem sliceText_is {α : Type} {enc g : α → Bytes} {l : List α} (h : ∀ y ∈ l, Item (enc y) (g y)) :
    ArrayText (sliceText enc l) (l.map g) := by
  cases l with
  | nil => exact .empty
  | cons x xs => exact .list (items_of_list x xs h)

theorem item_quoted (v : Bytes) : Item (34 :: (escapeBytes v ++ [34])) v := .quoted (quotedBody_escape v)

theorem item_bool (b : Bool) : Item [if b then (116 : Byte) else 102] [if b then 116 else 102] := by
  cases b <;> exact .bare (by decide) (by decide) (by decide)

theorem item_int (n : Int) : Item (intDec n) (intDec n) := by
  have hb := intDec_bytes n
  have hne : intDec n ≠ [] := by
    unfold intDec
    split
    · simp
    · exact (natDec_numeral _).ne_nil
  refine .bare hne (fun y hy => ?_) (fun h => ?_)
  · rcases hb y hy with rfl | ⟨h1, h2⟩
    · decide
    · refine ⟨by omega, fun h => ?_⟩
      simp only [List.mem_cons, List.not_mem_nil, or_false] at h
      rcases h with rfl | rfl | rfl | rfl | rfl <;> revert h1 h2 <;> decide
  · have : (85 : Byte) ∈ (intDec n).map (fun y => if 97 ≤ y.toNat then y - 32 else y) := by rw [h]; simp
    obtain ⟨y, hy, he⟩ := List.mem_map.1 this
    rcases hb y hy with rfl | ⟨h1, h2⟩
    · revert he; decide
    · rw [if_neg (by omega)] at he
      subst he
      revert h2; decide

/-! ## What a column keeps of a list -/

theorem toDV_str (t : Bytes) : toDV (.str t) = .str t ∧ toDV (.bytes t) = .bytes t := ⟨rfl, rfl⟩

/-- Arrays: what is written is kept, and whatever the driver hands over for it is read as the list. -/
theorem array_back {α : Type} {col : Columns.Col} {enc g : α → Bytes} {conv : Option Bytes → Res α} {l : List α}
    (hi : ∀ x ∈ l, Item (enc x) (g x)) (hin : ∀ x ∈ l, ∃ c, ItemIn col (g x) c)
    (ho : ∀ x ∈ l, ∀ c o, ItemIn col (g x) c → ItemOut c o → conv (some o) = .ok x) :
    (∃ c, Spec.Rich.Keeps (.array col) (.str (sliceText enc l)) c) ∧
      ∀ c s, Spec.Rich.Keeps (.array col) (.str (sliceText enc l)) c → Spec.Rich.Hands (.array col) c s →
        ∀ a, scanWith .brace conv (toDV s) a = (.ok (), some l) := by
  have ht := sliceText_is hi
  refine ⟨?_, fun c s hk hh a => ?_⟩
  · have : ∃ cs, List.Forall₂ (ItemIn col) (l.map g) cs := by
      clear ht hi ho
      induction l with
      | nil => exact ⟨[], .nil⟩
      | cons x l ih =>
        obtain ⟨c, hc⟩ := hin x (by simp)
        obtain ⟨cs, hcs⟩ := ih fun y hy => hin y (by simp [hy])
        exact ⟨c :: cs, .cons hc hcs⟩
    obtain ⟨cs, hcs⟩ := this
    exact ⟨_, .array ht hcs⟩
  · cases hk with
    | @array _ _ ts cs hts hcs =>
      have := arrayText_unique hts ht
      subst this
      have hall : ∀ ts', List.Forall₂ ItemOut cs ts' → List.Forall₂ (fun e x => conv e = .ok x) (ts'.map some) l := by
        clear hh ht hi hin hts
        induction l generalizing cs with
        | nil =>
          intro ts' h
          cases hcs
          cases h
          exact .nil
        | cons x l ih =>
          intro ts' h
          cases hcs with
          | cons h1 h2 =>
            cases h with
            | cons h3 h4 => exact .cons (ho x (by simp) _ _ h1 h3) (ih (fun y hy => ho y (by simp [hy])) h2 _ h4)
      cases hh with
      | array h1 h2 => exact (scanWith_text .brace conv (arrayText_linear h1) (hall _ h2) a).1
      | arrayBytes h1 h2 => exact (scanWith_text .brace conv (arrayText_linear h1) (hall _ h2) a).2

/-! ## Proper texts -/

theorem proper_nil : Columns.Proper none [] := ⟨[], rfl, by simp, by simp⟩

theorem proper_append {a b : Bytes} (ha : Columns.Proper none a) (hb : Columns.Proper none b) : Columns.Proper none (a ++ b) := by
  obtain ⟨x, rfl, hx, -⟩ := ha
  obtain ⟨y, rfl, hy, -⟩ := hb
  exact ⟨x ++ y, by simp [utf8s], by simp [hx, hy], by simp⟩

theorem proper_byte {b : Byte} (h : 0 < b.toNat ∧ b.toNat < 128) : Columns.Proper none [b] := by
  have hv : b.toNat.isValidChar := .inl (by omega)
  have hn : (Char.ofNat b.toNat).toNat = b.toNat := by
    simp [Char.ofNat, hv, Char.ofNatAux, Char.toNat]
  refine ⟨[Char.ofNat b.toNat], ?_, ?_, by simp⟩
  · have := utf8_ascii (c := Char.ofNat b.toNat) (by rw [hn]; exact h.2)
    simp [utf8s, this, hn]
  · intro h0
    have h0 := List.mem_singleton.1 h0
    have : (Char.ofNat 0).toNat = (Char.ofNat b.toNat).toNat := by rw [h0]
    rw [hn] at this
    have e0 : (Char.ofNat 0).toNat = 0 := by decide
    omega

theorem proper_bytes {s : Bytes} (h : ∀ b ∈ s, 0 < b.toNat ∧ b.toNat < 128) : Columns.Proper none s := by
  induction s with
  | nil => exact proper_nil
  | cons b s ih => exact proper_append (proper_byte (h b (by simp))) (ih fun c hc => h c (by simp [hc]))

theorem escapeBytes_append (a b : Bytes) : escapeBytes (a ++ b) = escapeBytes a ++ escapeBytes b := by
  induction a with
  | nil => rfl
  | cons c a ih =>
    simp only [List.cons_append, escapeBytes]
    split <;> simp [ih]

theorem escapeBytes_plain {s : Bytes} (h : ∀ b ∈ s, 128 ≤ b.toNat) : escapeBytes s = s := by
  induction s with
  | nil => rfl
  | cons c s ih =>
    have hc := h c (by simp)
    simp only [escapeBytes]
    rw [if_neg, ih fun b hb => h b (by simp [hb])]
    rintro (rfl | rfl) <;> revert hc <;> decide

theorem proper_escape {s : Bytes} (h : Columns.Proper none s) : Columns.Proper none (escapeBytes s) := by
  obtain ⟨cs, rfl, h0, -⟩ := h
  induction cs with
  | nil => exact proper_nil
  | cons c cs ih =>
    rw [utf8s_cons, escapeBytes_append]
    refine proper_append ?_ (ih fun hc => h0 (by simp [hc]))
    rcases utf8_bytes c with ⟨hc, he⟩ | ⟨-, -, hb⟩
    · rw [he]
      have hne : c.toNat ≠ 0 := fun hz => h0 (by
        have : c = Char.ofNat 0 := Char.toNat_inj.1 (by rw [hz]; decide)
        simp [this])
      have hn : (UInt8.ofNat c.toNat).toNat = c.toNat := by simp; omega
      have hp : Columns.Proper none [UInt8.ofNat c.toNat] := proper_byte (by rw [hn]; omega)
      simp only [escapeBytes]
      split
      · exact proper_append (proper_byte (b := backslash) (by decide)) hp
      · exact hp
    · rw [escapeBytes_plain hb]
      exact ⟨[c], by simp [utf8s], fun hc => h0 (by rw [List.mem_singleton.1 hc]; exact List.mem_cons_self), by simp⟩

theorem proper_list {α : Type} {f : Fmt} {enc : α → Bytes} {l : List α} {t : Bytes} (h : ∀ x ∈ l, Columns.Proper none (enc x))
    (ht : sliceValue f (fun b x => b ++ enc x) (some l) = some t) : Columns.Proper none t := by
  have ho : Columns.Proper none [f.opn] := proper_byte (by cases f <;> decide)
  have hc : Columns.Proper none [f.cls] := proper_byte (by cases f <;> decide)
  cases l with
  | nil =>
    simp only [sliceValue, Option.some.injEq] at ht
    exact ht ▸ proper_append ho hc
  | cons x xs =>
    rw [sliceValue_cons, Option.some.injEq] at ht
    subst ht
    have hxs : Columns.Proper none (xs.flatMap fun y => 44 :: enc y) := by
      have : ∀ x ∈ xs, Columns.Proper none (enc x) := fun y hy => h y (by simp [hy])
      clear h
      induction xs with
      | nil => exact proper_nil
      | cons y ys ih =>
        rw [List.flatMap_cons]
        exact proper_append (proper_append (proper_byte (b := 44) (by decide)) (this y (by simp))) (ih fun z hz => this z (by simp [hz]))
    exact proper_append ho (proper_append (proper_append (h x (by simp)) hxs) hc)

/-! ## Lists -/

theorem goOf_int (k : GoInt) : Spec.Typed.goOf (.int k) = if Rich.signed k then .int (width k) else .uint (width k) := by
  cases k <;> rfl

theorem width_pos (k : GoInt) : 0 < width k ∧ width k ≤ 64 := by cases k <;> decide

theorem typeLimits_iff (k : GoInt) (n : Int) : ((Spec.Typed.typeLimits k).1 ≤ n ∧ n ≤ (Spec.Typed.typeLimits k).2) ↔
    if Rich.signed k then InRange (width k) n else ∃ m : Nat, n = m ∧ m < 2 ^ width k := by
  have hu : ∀ w : Nat, (0 ≤ n ∧ n ≤ 2 ^ w - 1) ↔ ∃ m : Nat, n = m ∧ m < 2 ^ w := by
    intro w
    constructor
    · rintro ⟨h1, h2⟩
      refine ⟨n.toNat, by omega, ?_⟩
      have : ((n.toNat : Nat) : Int) < ((2 ^ w : Nat) : Int) := by push_cast; omega
      exact_mod_cast this
    · rintro ⟨m, rfl, h⟩
      have : ((m : Nat) : Int) < ((2 ^ w : Nat) : Int) := by exact_mod_cast h
      push_cast at this
      omega
  cases k <;> simp only [Spec.Typed.typeLimits, Rich.signed, width, InRange, if_true, Bool.false_eq_true, if_false, ← hu] <;> norm_num <;>
    omega

theorem map_toNat_natCast {l : List Int} (h : ∀ n ∈ l, 0 ≤ n) : (l.map Int.toNat).map Int.ofNat = l := by
  rw [List.map_map]
  conv_rhs => rw [← List.map_id l]
  refine List.map_congr_left fun n hn => ?_
  have := h n hn
  simp [this]

theorem intDec_natCast (n : Nat) : intDec (n : Int) = natDec n := by simp [intDec]

/-- A list that is kept as text. -/
theorem listText_back {d : Dialect} (hd : format d = .bracket) {k : Typed.Kind} {v : Rich.Val} (h : ListOf k v) :
    ∃ t, listText d k v = some t ∧ Columns.Proper none t ∧
      ∀ s, s = .str t ∨ s = .bytes t → ∀ L old, listScanner L d old s k = some v := by
  cases h with
  | @bools l =>
    have hrt := C02_bool_roundtrip .bracket l
    obtain ⟨t, ht, -⟩ := hrt none
    refine ⟨t, by simp only [listText, hd, ht], ?_, ?_⟩
    · cases l with
      | nil =>
        cases ht
        exact proper_append (proper_byte (b := 91) (by decide)) (proper_byte (b := 93) (by decide))
      | cons x xs =>
        rw [boolValue_cons, ← sliceValue_cons] at ht
        refine proper_list (f := .bracket) (fun b _ => proper_byte (b := if b then 116 else 102) (by cases b <;> decide)) (Res.ok.inj ht)
    · rintro s hs L old
      obtain ⟨t', ht', h1, h2⟩ := hrt (getBools old)
      have := Option.some.inj (Res.ok.inj (ht.symm.trans ht'))
      subst this
      rcases hs with rfl | rfl <;> simp only [listScanner, hd, toDV, h1, h2, listResult]
  | @ints k l h =>
    by_cases hs : Rich.signed k = true
    · have hr : ∀ n ∈ l, InRange (width k) n := fun n hn => by simpa [hs] using (typeLimits_iff k n).1 (h n hn)
      have hrt := C03_int_roundtrip .bracket (width k) (width_pos k).1 (width_pos k).2 l hr
      obtain ⟨t, ht, -⟩ := hrt none
      refine ⟨t, by simp only [listText, hd, hs, if_true, ht], ?_, ?_⟩
      · refine proper_list (f := .bracket) (enc := intDec) (fun n _ => proper_bytes fun b hb => ?_) ht
        rcases intDec_bytes n b hb with rfl | ⟨h1, h2⟩
        · decide
        · omega
      · rintro s hsr L old
        obtain ⟨t', ht', h1, h2⟩ := hrt (getInts old)
        have := Option.some.inj (ht.symm.trans ht')
        subst this
        rcases hsr with rfl | rfl <;> simp only [listScanner, hd, hs, if_true, toDV, h1, h2, listResult]
    · have hr : ∀ n ∈ l, ∃ m : Nat, n = m ∧ m < 2 ^ width k := fun n hn => by simpa [hs] using (typeLimits_iff k n).1 (h n hn)
      have hr' : ∀ m ∈ l.map Int.toNat, m < 2 ^ width k := by
        intro m hm
        obtain ⟨n, hn, rfl⟩ := List.mem_map.1 hm
        obtain ⟨j, rfl, hj⟩ := hr n hn
        simpa using hj
      have hrt := C04_uint_roundtrip_sqltype (width k) _ hr'
      obtain ⟨t, ht, -⟩ := hrt none
      refine ⟨t, by simp only [listText, hd, if_neg hs, ht], ?_, ?_⟩
      · refine proper_list (f := .bracket) (enc := natDec) (fun n _ => proper_bytes fun b hb => ?_) ht
        have := (natDec_numeral n).digits (by decide) b hb
        omega
      · rintro s hsr L old
        obtain ⟨t', ht', h1, h2⟩ := hrt (getNats old)
        have := Option.some.inj (ht.symm.trans ht')
        subst this
        have hl : (l.map Int.toNat).map Int.ofNat = l := map_toNat_natCast fun n hn => by
          obtain ⟨m, rfl, -⟩ := hr n hn
          omega
        rcases hsr with rfl | rfl <;> simp only [listScanner, hd, if_neg hs, toDV, h1, h2, listResult, hl]
  | @flts w l h =>
    have hrt := fun o => C94_list o .bracket w l h
    obtain ⟨t, ht, -⟩ := hrt (fun _ _ => none) none
    refine ⟨t, by simp only [listText, hd, ht], ?_, ?_⟩
    · refine proper_list (f := .bracket) (enc := Float.print (Float.fmt w)) (fun n _ => proper_bytes fun b hb => ?_) ht
      rcases print_bytes _ _ b hb with hb | hb
      · simp only [isDigit, Bool.and_eq_true, decide_eq_true_eq] at hb
        have h1 := hb.1
        have h2 := hb.2
        exact ⟨by omega, by omega⟩
      · simp only [List.mem_cons, List.not_mem_nil, or_false] at hb
        rcases hb with rfl | rfl | rfl | rfl | rfl | rfl | rfl | rfl <;> decide
    · rintro s hsr L old
      obtain ⟨t', ht', h1, h2⟩ := hrt L.odd (getFlts old)
      have := Option.some.inj (ht.symm.trans ht')
      subst this
      rcases hsr with rfl | rfl <;> simp only [listScanner, hd, toDV, h1, h2, listResult]
  | @strs l h =>
    have hrt := C01_string_roundtrip .bracket l
    obtain ⟨t, ht, -⟩ := hrt none
    refine ⟨t, by simp only [listText, hd, ht], ?_, ?_⟩
    · refine proper_list (f := .bracket) (enc := fun v => 34 :: (escapeBytes v ++ [34])) (l := l) (fun s hs => ?_) ?_
      · exact proper_append (a := [34]) (proper_byte (by decide)) (proper_append (proper_escape (h s hs)) (proper_byte (b := 34) (by decide)))
      · rw [← ht]
        unfold stringValue
        congr 1
        funext b v
        simp [appendArrayQuotedBytes, quote]
    · rintro s hsr L old
      obtain ⟨t', ht', h1, h2⟩ := hrt (getStrs old)
      have := Option.some.inj (ht.symm.trans ht')
      subst this
      rcases hsr with rfl | rfl <;> simp only [listScanner, hd, toDV, h1, h2, listResult]

theorem sliceText_value {α : Type} (enc : α → Bytes) (l : List α) :
    sliceValue .brace (fun b x => b ++ enc x) (some l) = some (sliceText enc l) := by
  cases l with
  | nil => rfl
  | cons x xs => rw [sliceValue_cons]; rfl

theorem boolText_unique {t : Bytes} {a b : Bool} (ha : BoolText t a) (hb : BoolText t b) : a = b := by
  have h1 := parseBool_iff.2 ha
  have h2 := parseBool_iff.2 hb
  exact Option.some.inj (h1.symm.trans h2)

theorem intDec_inj {a b : Int} (h : intDec a = intDec b) : a = b := by
  have hb : ∀ x : Int, x.natAbs ≤ a.natAbs + b.natAbs → parseInt (intDec x) (a.natAbs + b.natAbs + 1) = some x := by
    intro x hx
    have h1 : x.natAbs < 2 ^ (a.natAbs + b.natAbs) := lt_of_le_of_lt hx Nat.lt_two_pow_self
    have h2 : ((x.natAbs : Nat) : Int) < ((2 ^ (a.natAbs + b.natAbs) : Nat) : Int) := by exact_mod_cast h1
    push_cast at h2
    refine parseInt_intDec (by omega) ?_ ?_ <;> simp only [Nat.add_sub_cancel] <;> rcases abs_cases x with h3 | h3 <;> omega
  have h1 := hb a (by omega)
  rw [h] at h1
  exact Option.some.inj (h1.symm.trans (hb b (by omega)))

theorem pow_le_63 {w : Nat} (h : w ≤ 64) : (2 : Int) ^ (w - 1) ≤ 2 ^ (64 - 1) := by
  have : (2 : Nat) ^ (w - 1) ≤ 2 ^ (64 - 1) := Nat.pow_le_pow_right (by decide) (by omega)
  exact_mod_cast this

/-- Lists in arrays. -/
theorem array_list {d : Dialect} (hd : format d = .brace) {k : Typed.Kind} {c : Columns.Col} {v : Rich.Val} (h : Spec.Rich.Fits (.list k) (.array c) v)
    (hw : ∀ w, c = .int w → w ≤ 64) :
    ∃ t, listText d k v = some t ∧ (∃ x, Spec.Rich.Keeps (.array c) (.str t) x) ∧
      ∀ x s, Spec.Rich.Keeps (.array c) (.str t) x → Spec.Rich.Hands (.array c) x s → ∀ L old, listScanner L d old s k = some v := by
  cases h with
  | @bools l =>
    obtain ⟨h1, h2⟩ := array_back (col := .bool) (enc := fun b => [if b then (116 : Byte) else 102]) (g := fun b => [if b then (116 : Byte) else 102])
      (conv := convBool) (l := l) (fun b _ => item_bool b)
      (fun b _ => ⟨.bool b, .bool (by cases b <;> simp [BoolText])⟩) (by
        intro b _ x o hx ho
        have hb : BoolText [if b then (116 : Byte) else 102] b := by cases b <;> simp [BoolText]
        generalize [if b then (116 : Byte) else 102] = t at hx hb
        cases hx with
        | bool h =>
          have := boolText_unique hb h
          subst this
          cases ho
          cases b <;> rfl)
    refine ⟨_, ?_, h1, fun x s hx hs L old => ?_⟩
    · cases l with
      | nil => simp only [listText, hd]; rfl
      | cons y ys => simp only [listText, hd, boolValue_cons]; rfl
    · simp only [listScanner, hd, boolScan, h2 x s hx hs, listResult]
  | @strs l h =>
    obtain ⟨h1, h2⟩ := array_back (col := .text none) (enc := fun v => 34 :: (escapeBytes v ++ [34])) (g := id)
      (conv := convString) (l := l) (fun b _ => item_quoted b) (fun b hb => ⟨.text b, .text (h b hb)⟩) (by
        intro b _ x o hx ho
        cases hx
        cases ho
        rfl)
    refine ⟨_, ?_, h1, fun x s hx hs L old => ?_⟩
    · simp only [listText, hd]
      rw [← sliceText_value]
      unfold stringValue
      congr 1
      funext b v
      simp [appendArrayQuotedBytes, quote]
    · simp only [listScanner, hd, stringScan, h2 x s hx hs, listResult]
  | @ints k w l h =>
    have hw := hw w rfl
    by_cases hs : Rich.signed k = true
    · have hr : ∀ n ∈ l, InRange (width k) n ∧ InRange w n := by
        intro n hn
        have := h n hn
        rw [goOf_int, if_pos hs] at this
        cases this with
        | int h1 h2 => exact ⟨h1, h2⟩
      obtain ⟨h1, h2⟩ := array_back (col := .int w) (enc := intDec) (g := intDec) (conv := convInt (width k)) (l := l)
        (fun b _ => item_int b) (fun b hb => ⟨.num b, .int (hr b hb).2⟩) (by
          intro n hn x o hx ho
          generalize ht : intDec n = t at hx
          cases hx with
          | @int _ m hm =>
            have := intDec_inj ht
            subst this
            cases ho
            obtain ⟨⟨a1, a2⟩, b1, b2⟩ := hr n hn
            have := pow_le_63 hw
            simp only [convInt, Option.getD_some, parseInt_intDec (n := n) (w := 64) (by decide) (by omega) (by omega),
              toSigned_of_range (width_pos k).1 a1 a2])
      refine ⟨_, ?_, h1, fun x s hx hh L old => ?_⟩
      · simp only [listText, hd, hs, if_true]
        exact sliceText_value _ _
      · simp only [listScanner, hd, hs, if_true, intScan, h2 x s hx hh, listResult]
    · have hr : ∀ n ∈ l, ∃ m : Nat, n = m ∧ m < 2 ^ width k ∧ InRange w m := by
        intro n hn
        have := h n hn
        rw [goOf_int, if_neg hs] at this
        cases this with
        | @uint _ _ m h1 h2 => exact ⟨m, rfl, h1, h2⟩
      have hr' : ∀ m ∈ l.map Int.toNat, m < 2 ^ width k ∧ InRange w m := by
        intro m hm
        obtain ⟨n, hn, rfl⟩ := List.mem_map.1 hm
        obtain ⟨j, rfl, hj⟩ := hr n hn
        simpa using hj
      obtain ⟨h1, h2⟩ := array_back (col := .int w) (enc := natDec) (g := natDec) (conv := convUintPg (width k)) (l := l.map Int.toNat)
        (fun b _ => intDec_natCast b ▸ item_int b) (fun b hb => ⟨.num b, intDec_natCast b ▸ .int (hr' b hb).2⟩) (by
          intro n hn x o hx ho
          generalize ht : natDec n = t at hx
          rw [← intDec_natCast] at ht
          cases hx with
          | @int _ m hm =>
            have := intDec_inj ht
            subst this
            cases ho
            obtain ⟨a1, b1, b2⟩ := hr' n hn
            have := pow_le_63 hw
            simp only [convUintPg, Option.getD_some, parseInt_intDec (n := n) (w := 64) (by decide) (by omega) (by omega),
              toUnsigned_of_range a1])
      have hl : (l.map Int.toNat).map Int.ofNat = l := map_toNat_natCast fun n hn => by
        obtain ⟨m, rfl, -⟩ := hr n hn
        omega
      refine ⟨_, ?_, h1, fun x s hx hh L old => ?_⟩
      · simp only [listText, hd, if_neg hs]
        exact sliceText_value _ _
      · simp only [listScanner, hd, if_neg hs, uintScan, h2 x s hx hh, listResult, hl]

/-- The columns declared for lists. -/
theorem list_meaning (d : Dialect) (size : Nat) (k : Typed.Kind) :
    Spec.Rich.meaning (Spec.Typed.dbOf d) (Rich.declared d size (.list k)) =
      match d with
      | .mysql => some .json
      | .sqlite => some (.base (.text none))
      | .postgres =>
        match k with
        | .string => some (.array (.text none))
        | .bool => some (.array .bool)
        | .float _ => none
        | .int e => some (.array (.int (elementBits e))) := by
  cases d with
  | mysql => rfl
  | sqlite => rfl
  | postgres =>
    cases k with
    | int e => cases e <;> rfl
    | _ => rfl

/-- Lists in the columns declared for them. -/
theorem list_back {d : Dialect} {size : Nat} {k : Typed.Kind} {col : Spec.Rich.Col} {v : Rich.Val}
    (hm : Spec.Rich.meaning (Spec.Typed.dbOf d) (Rich.declared d size (.list k)) = some col) (hf : Spec.Rich.Fits (.list k) col v) :
    ∃ t, listText d k v = some t ∧ (∃ x, Spec.Rich.Keeps col (.str t) x) ∧
      ∀ x s, Spec.Rich.Keeps col (.str t) x → Spec.Rich.Hands col x s → ∀ L old, listScanner L d old s k = some v := by
  rw [list_meaning] at hm
  cases d with
  | mysql => cases hm; cases hf
  | sqlite =>
    cases hm
    cases hf with
    | text h =>
      obtain ⟨t, h1, h2, h3⟩ := listText_back (d := .sqlite) rfl h
      refine ⟨t, h1, ⟨_, .base (.text h2)⟩, fun x s hx hs => h3 s ?_⟩
      cases hx with
      | base hx =>
        cases hx
        cases hs with
        | base hs => cases hs with
          | text => exact .inl rfl
          | textBytes => exact .inr rfl
  | postgres =>
    cases k with
    | float w => cases hm
    | int e =>
      cases hm
      refine array_list (d := .postgres) rfl hf fun w hw => ?_
      cases hw
      cases e <;> decide
    | _ =>
      cases hm
      exact array_list (d := .postgres) rfl hf (by simp)

/-! ## What the generator chooses -/

theorem kinds_lists (d : Dialect) : ∀ p ∈ kinds, tableOf d (.toks [.slice, .name p.1]) = true ∧ p.1 ≠ "byte".toList ∧ p.1 ≠ "time.Time".toList := by
  cases d <;> decide +kernel

theorem byte_key (d : Dialect) : tableOf d (.toks [.slice, .name "byte".toList]) = true := by cases d <;> decide +kernel

theorem time_key (d : Dialect) : tableOf d (.toks [.name "time.Time".toList]) = true ∧
    tableOf d (.toks [.star, .name "time.Time".toList]) = false := by cases d <;> decide +kernel

theorem slice_key (d : Dialect) : tableOf d (.toks [.slice]) = false ∧ tableOf d (.toks []) = false := by cases d <;> decide +kernel

/-- The types of lists: their column types are found under the name of the elements. -/
theorem list_both {D : Decls} {fs : Facts} {ty : Ty} {k : Typed.Kind} (d : Dialect) (h : Has D fs ty (.list k)) :
    ∃ b, kindOf b = some k ∧ isPtr ty = false ∧
      writes D (tableOf d) fs fuel ty = some (.table (.toks [.slice, .name b])) ∧
      reads D (tableOf d) fs fuel ty = some (.table (.toks [.slice, .name b])) := by
  obtain ⟨hs1, hs0⟩ := slice_key d
  have hval : ∀ ty' b, ty' = ty → isPtr ty' = false → deref ty' = ty' → pointee ty' = ty' → isDirect D ty' = false → Bare fs ty' → kindOf b = some k →
      columnKey D (tableOf d) fuel ty' = some (some (.toks [.slice, .name b])) →
      writes D (tableOf d) fs fuel ty = some (.table (.toks [.slice, .name b])) ∧
      reads D (tableOf d) fs fuel ty = some (.table (.toks [.slice, .name b])) := by
    rintro ty' b rfl hp hd' hp' hi hb hk hc
    have hw : writes D (tableOf d) fs fuel ty' = valuer D (tableOf d) fs fuel ty' := by
      cases ty' <;> first | rfl | (simp [isPtr] at hp)
    rw [hw]
    constructor
    · unfold valuer
      simp [hi, hb.confV, hd', hb.value, hc, ofKey]
    · unfold Dispatch.reads Dispatch.scanner
      simp [hi, hb.confS, hp', hb.scan, hc, ofKey, needsLen]
  cases h with
  | @list b _ hk hb =>
    obtain ⟨h1, -⟩ := kinds_lists d _ (kindOf_mem hk)
    refine ⟨b, hk, rfl, hval _ b rfl rfl rfl rfl rfl hb hk ?_⟩
    simp [columnKey, walk, fuel, lookup, h1]
  | @listOf id b _ hu hk hb =>
    obtain ⟨h1, -⟩ := kinds_lists d _ (kindOf_mem hk)
    refine ⟨b, hk, rfl, hval _ b rfl rfl rfl rfl rfl hb hk ?_⟩
    simp [columnKey, walk, fuel, lookup, h1, hu, hs1]
  | @named id b _ hu hk hb hn =>
    obtain ⟨h1, -⟩ := kinds_lists d _ (kindOf_mem hk)
    refine ⟨b, hk, rfl, hval _ b rfl rfl rfl rfl (decide_eq_false hn) hb hk ?_⟩
    simp [columnKey, walk, fuel, lookup, h1, hu, hs0]

theorem bytes_both {D : Decls} {fs : Facts} {ty : Ty} (d : Dialect) (h : Has D fs ty .bytes) : isPtr ty = false ∧
    writes D (tableOf d) fs fuel ty = some (.table (.toks [.slice, .name "byte".toList])) ∧
    reads D (tableOf d) fs fuel ty = some (.table (.toks [.slice, .name "byte".toList])) := by
  cases h with
  | bytes hb =>
    have hc : columnKey D (tableOf d) fuel (.slice (.basic "byte".toList)) = some (some (.toks [.slice, .name "byte".toList])) := by
      have := byte_key d
      simp only [columnKey, walk, fuel, lookup, Option.map_some, List.nil_append, List.cons_append, this, if_true]
    refine ⟨rfl, ?_, ?_⟩
    · unfold Dispatch.writes valuer
      simp only [isDirect, Bool.false_eq_true, if_false, hb.confV, show deref (.slice (.basic "byte".toList)) = .slice (.basic "byte".toList) from rfl,
        hb.value, hc, Option.map_some, ofKey]
      rw [if_neg (by simp)]
    · unfold Dispatch.reads Dispatch.scanner
      simp only [isDirect, Bool.false_eq_true, if_false, hb.confS, show pointee (.slice (.basic "byte".toList)) = .slice (.basic "byte".toList) from rfl,
        hb.scan, hc, Option.map_some, ofKey]
      rw [if_neg (by simp [needsLen]), if_neg (by simp)]

theorem time_both {D : Decls} {fs : Facts} {ty : Ty} (d : Dialect) (h : Has D fs ty .time) :
    writes D (tableOf d) fs fuel ty = some .direct ∧
    (isPtr ty = false ∧ isTime D ty = true ∧ reads D (tableOf d) fs fuel ty = some .direct ∨
      isPtr ty = true ∧ reads D (tableOf d) fs fuel ty = some (.table (.toks [.name "time.Time".toList]))) := by
  cases h with
  | @time id hn =>
    have hi : isDirect D (.named id) = true := decide_eq_true hn
    refine ⟨?_, .inl ⟨rfl, decide_eq_true hn, ?_⟩⟩
    · unfold Dispatch.writes valuer
      simp only [hi, if_true]
    · unfold Dispatch.reads Dispatch.scanner
      simp only [hi, if_true]
  | @timePtr id hn hu hs hc =>
    have hi : isDirect D (.named id) = true := decide_eq_true hn
    refine ⟨?_, .inr ⟨rfl, ?_⟩⟩
    · unfold Dispatch.writes valuer
      simp only [hi, if_true]
    · obtain ⟨t1, t2⟩ := time_key d
      have hk : columnKey D (tableOf d) fuel (.ptr (.named id)) = some (some (.toks [.name "time.Time".toList])) := by
        simp only [columnKey, walk, fuel, lookup, Option.map_some, List.nil_append, List.cons_append, hu, hn, if_true, t1, t2, Bool.false_eq_true,
          if_false, List.head?_cons, List.tail_cons, and_self]
      unfold Dispatch.reads Dispatch.scanner
      simp only [isDirect, Bool.false_eq_true, if_false, hc, show pointee (.ptr (.named id)) = .named id from rfl, hs, hk, Option.map_some, ofKey]
      rw [if_neg (by simp [needsLen]), if_neg (by simp)]

/-- Fields of the types of `Model/Typed.lean` are written and read as there. -/
theorem scalar_both {D : Decls} {fs : Facts} {ty : Ty} {k : Typed.Kind} (d : Dialect) (h : Spec.Typed.Scalar D fs ty k) :
    (∀ v, Rich.write d D fs ty (.base v) = Typed.write d D fs ty v) ∧
      ∀ L s old, Rich.read L d D fs ty s old = (Typed.read L d D fs ty s (toBase old)).map .base := by
  have hw : writes D (tableOf d) fs fuel ty = some .direct ∨ ∃ b, writes D (tableOf d) fs fuel ty = some (.table (.toks [.name b])) := by
    cases h with
    | @basic b _ hk hb =>
      have := valuer_basic d D hk hb
      simp only [Dispatch.writes, this]
      split
      · exact .inl rfl
      · exact .inr ⟨_, rfl⟩
    | named hu hk hb hn => exact .inr ⟨_, (named_both d D hu hk hb hn).1⟩
    | @ptr b _ hk hb hc =>
      have := valuer_basic d D hk hb
      simp only [Dispatch.writes, this]
      split
      · exact .inl rfl
      · exact .inr ⟨_, rfl⟩
  have hr : reads D (tableOf d) fs fuel ty = some .direct ∧ isTime D ty = false ∨
      ∃ b, b ≠ "time.Time".toList ∧ reads D (tableOf d) fs fuel ty = some (.table (.toks [.name b])) := by
    cases h with
    | @basic b _ hk hb =>
      have := scanner_basic d D hk hb
      simp only [Dispatch.reads, this]
      split
      · exact .inl ⟨rfl, rfl⟩
      · exact .inr ⟨_, (kinds_lists d _ (kindOf_mem hk)).2.2, rfl⟩
    | named hu hk hb hn => exact .inr ⟨_, (kinds_lists d _ (kindOf_mem hk)).2.2, (named_both d D hu hk hb hn).2⟩
    | @ptr b _ hk hb hc => exact .inr ⟨_, (kinds_lists d _ (kindOf_mem hk)).2.2, scanner_ptr d D hk hb hc⟩
  constructor
  · intro v
    unfold Rich.write
    rcases hw with hw | ⟨b, hw⟩ <;> rw [hw] <;> rfl
  · intro L s old
    unfold Rich.read
    rcases hr with ⟨hr, ht⟩ | ⟨b, hb, hr⟩
    · rw [hr]; simp only [ht, Bool.false_eq_true, if_false]
    · rw [hr]; simp only [if_neg hb]

/-! ## Fields of the types of C96 -/

def baseCell : Rich.Cell → Columns.Cell
  | .base c => c
  | _ => .null

/-- The part of the database with the fields of C96. -/
def baseWorld (W : Rich.World F) : Typed.World F where
  dialect := W.dialect
  decls := W.decls
  facts := W.facts
  lib := W.lib
  ty := W.ty
  size := W.size
  keep f s := if s = .nil then .null else baseCell (W.keep f s)
  hand f c := W.hand f (.base c)

theorem base_col {W : Rich.World F} {f : F} {k : Typed.Kind} {c : Columns.Col} (h : Spec.Typed.HasCol (baseWorld W) f k c) :
    Spec.Rich.HasCol W f (.scalar k) (.base c) := by
  refine ⟨.scalar h.1, ?_⟩
  have := h.2
  simp only [baseWorld] at this
  simp only [Spec.Rich.meaning, Rich.declared, this]

theorem base_behaves {W : Rich.World F} (hW : Spec.Rich.Behaves W) : Spec.Typed.Behaves (baseWorld W) where
  keeps f k col h s c hc _ := by
    by_cases hs : s = .nil
    · subst hs
      simpa [baseWorld] using Columns.Keeps.null
    · have h1 := hW.keeps f _ _ (base_col h) s _ (.base hc) (fun h => absurd h hs)
      simp only [baseWorld, if_neg hs]
      generalize W.keep f s = x at h1
      cases h1 with
      | base h => exact h
      | null => exact absurd rfl hs
  hands f k col h s c hc := by
    have h1 := hW.hands f _ _ (base_col h) s _ (.base hc)
    simp only [baseWorld]
    generalize W.hand f (.base c) = x at h1
    cases h1 with
    | base h => exact h
    | null => exact .null

/-! ## Fields -/

theorem instant_tag (i : Int) : instant (tag i) = i := by
  unfold instant tag
  by_cases h : 0 ≤ i
  · rw [if_pos h, if_pos (by omega)]
    omega
  · rw [if_neg h, if_neg (by omega)]
    omega

theorem tag_inj {i j : Int} (h : tag i = tag j) : i = j := by
  rw [← instant_tag i, h, instant_tag]

theorem keeps_null {col : Spec.Rich.Col} {s : Src} (h : Spec.Rich.Keeps col s (.base .null)) : s = .nil := by
  cases h with
  | base h => cases h; rfl
  | null => rfl

theorem kept_nil {col : Spec.Rich.Col} {c : Rich.Cell} (h : Spec.Rich.Keeps col .nil c) : c = .base .null := by
  cases h with
  | base h => cases h; rfl
  | null => rfl

theorem handed_null {col : Spec.Rich.Col} {s : Src} (h : Spec.Rich.Hands col (.base .null) s) : s = .nil := by
  cases h with
  | base h => cases h; rfl
  | null => rfl

theorem list_name {b : Text} {k : Typed.Kind} (h : kindOf b = some k) : b ≠ "byte".toList :=
  (kinds_lists .mysql _ (kindOf_mem h)).2.1

/-- What is written for a field that is not nil: the column keeps it, and whatever the driver hands over for it is read as the value. -/
theorem form_back {W : Rich.World F} {f : F} {k : Form} {col : Spec.Rich.Col} {v : Rich.Val} (hc : Spec.Rich.HasCol W f k col)
    (hk : ∀ e, k ≠ .scalar e) (hf : Spec.Rich.Fits k col v) :
    ∃ s, Rich.write W.dialect W.decls W.facts (W.ty f) v = s ∧ s ≠ .nil ∧ (∃ x, Spec.Rich.Keeps col s x) ∧
      ∀ x s', Spec.Rich.Keeps col s x → Spec.Rich.Hands col x s' → ∀ old, Rich.read W.lib W.dialect W.decls W.facts (W.ty f) s' old = some v := by
  cases k with
  | scalar e => exact absurd rfl (hk e)
  | list e =>
    obtain ⟨b, hb, -, hw, hr⟩ := list_both W.dialect hc.1
    obtain ⟨t, ht, h1, h2⟩ := list_back hc.2 hf
    refine ⟨.str t, ?_, by simp, h1, fun x s' hx hs old => ?_⟩
    · unfold Rich.write
      rw [hw]
      simp only [Rich.value, if_neg (list_name hb), hb, ht, asText]
    · unfold Rich.read
      rw [hr]
      simp only [if_neg (list_name hb), hb, Option.bind_some]
      exact h2 x s' hx hs _ _
  | bytes =>
    obtain ⟨-, hw, hr⟩ := bytes_both W.dialect hc.1
    cases hf with
    | @bytes limit s h =>
      refine ⟨.bytes s, ?_, by simp, ⟨_, .blob h⟩, fun x s' hx hs old => ?_⟩
      · unfold Rich.write
        rw [hw]
        simp only [Rich.value, if_true]
      · cases hx
        cases hs
        unfold Rich.read
        rw [hr]
        simp only [if_true]
        split
        · rfl
        · simp only [scanBytes, (C49_text _ _ _ _).2, put, reduceCtorEq, if_false]
  | time =>
    obtain ⟨hw, hr⟩ := time_both W.dialect hc.1
    cases hf with
    | @time u lo hi i h1 h2 h3 =>
      refine ⟨.time (tag i), ?_, by simp, ⟨_, .time h1 h2 h3⟩, fun x s' hx hs old => ?_⟩
      · unfold Rich.write
        rw [hw]
      · generalize hj : tag i = j at hx
        cases hx
        have := tag_inj hj
        subst this
        cases hs
        unfold Rich.read
        rcases hr with ⟨-, ht, hr⟩ | ⟨-, hr⟩
        · rw [hr]
          simp only [ht, if_true, assignTime, instant_tag]
        · rw [hr]
          simp only [if_true, scanTimePtr, C88_time, put, instant_tag]

/-- What is written for a field that is nil. -/
theorem nil_write {W : Rich.World F} {f : F} {k : Form} (hk : ∀ e, k ≠ .scalar e) (hc : Has W.decls W.facts (W.ty f) k) (hn : MayBeNil W f k) :
    Rich.write W.dialect W.decls W.facts (W.ty f) (.base .nil) = .nil ∧
      ∀ old, Rich.read W.lib W.dialect W.decls W.facts (W.ty f) .nil old = some (.base .nil) := by
  cases k with
  | scalar e => exact absurd rfl (hk e)
  | list e =>
    obtain ⟨b, hb, -, hw, hr⟩ := list_both W.dialect hc
    refine ⟨?_, fun old => ?_⟩
    · unfold Rich.write
      rw [hw]
      simp only [Rich.value, if_neg (list_name hb), hb]
      cases e <;> rfl
    · unfold Rich.read
      rw [hr]
      simp only [if_neg (list_name hb), hb, Option.bind_some]
      cases e with
      | int g =>
        simp only [listScanner]
        split <;> rfl
      | _ => rfl
  | bytes =>
    obtain ⟨-, hw, hr⟩ := bytes_both W.dialect hc
    refine ⟨?_, fun old => ?_⟩
    · unfold Rich.write
      rw [hw]
      simp only [Rich.value, if_true]
    · unfold Rich.read
      rw [hr]
      simp only [if_true]
      split <;> rfl
  | time =>
    obtain ⟨hw, hr⟩ := time_both W.dialect hc
    have hp : isPtr (W.ty f) = true := by
      rcases hn with h | ⟨-, ⟨e, h⟩ | h⟩
      · exact h
      · cases h
      · cases h
    rcases hr with ⟨h, -⟩ | ⟨-, hr⟩
    · simp [hp] at h
    · refine ⟨?_, fun old => ?_⟩
      · unfold Rich.write
        rw [hw]
        simp only [toBase, Typed.write, hp, and_self, if_true]
      · unfold Rich.read
        rw [hr]
        simp only [if_true]
        rfl

theorem has_scalar {D : Decls} {fs : Facts} {ty : Ty} {k : Typed.Kind} (h : Has D fs ty (.scalar k)) : Spec.Typed.Scalar D fs ty k := by
  cases h with
  | scalar h => exact h

/-- All fields of the types of C96 have columns. -/
theorem scalar_meaning {D : Decls} {fs : Facts} {ty : Ty} {k : Typed.Kind} (d : Dialect) (size : Nat) (h : Spec.Typed.Scalar D fs ty k) :
    ∃ c, Columns.meaning (Spec.Typed.dbOf d) (Typed.declared d size k) = some c := by
  obtain ⟨b, hb⟩ := (scalar_basic h).2
  have hmem := kindOf_cases hb
  simp only [List.mem_cons, List.not_mem_nil, or_false] at hmem
  rcases hmem with rfl | rfl | rfl | rfl | rfl | rfl | rfl | rfl | rfl | rfl | rfl | rfl | rfl | rfl <;> cases d <;> exact ⟨_, rfl⟩

theorem base_keep {W : Rich.World F} (hW : Spec.Rich.Behaves W) {f : F} {e : Typed.Kind} {c : Columns.Col} {u : Columns.Val}
    (hcol : Spec.Typed.HasCol (baseWorld W) f e c) (hst : u = .nil ∧ isPtr (W.ty f) = true ∨ Columns.Fits (Spec.Typed.goOf e) c u) :
    W.keep f (Rich.write W.dialect W.decls W.facts (W.ty f) (.base u)) =
      .base ((baseWorld W).keep f (Typed.write W.dialect W.decls W.facts (W.ty f) u)) := by
  have hsc : Spec.Typed.Scalar W.decls W.facts (W.ty f) e := hcol.1
  obtain ⟨hwr, -⟩ := scalar_both W.dialect hsc
  rw [← hwr]
  obtain ⟨x, hx⟩ : ∃ x, Columns.Keeps c (Rich.write W.dialect W.decls W.facts (W.ty f) (.base u)) x := by
    rw [hwr]
    obtain ⟨hw, -⟩ := write_read hsc W.dialect W.lib
    rcases hst with ⟨rfl, hp⟩ | hfit
    · refine ⟨.null, ?_⟩
      unfold Typed.write
      rw [if_pos ⟨hp, rfl⟩]
      exact .null
    · obtain ⟨⟨hx, -⟩, hsame, hnil⟩ := back_kind (scalar_byte hsc) hcol.2 hfit
      rcases hw with hw | ⟨hp, hw⟩
      · rw [hw u (.inr hnil)]; exact hx
      · rw [hw u (.inr hnil), hsame hp]; exact hx
  have hcond : Rich.write W.dialect W.decls W.facts (W.ty f) (.base u) = .nil → MayBeNil W f (.scalar e) := by
    intro hz
    rcases hst with ⟨-, hp⟩ | hfit
    · exact .inl hp
    · exfalso
      rw [hwr] at hz
      obtain ⟨-, hsame, hnil⟩ := back_kind (scalar_byte hsc) hcol.2 hfit
      rcases (write_read hsc W.dialect W.lib).1 with hw | ⟨hp, hw⟩
      · rw [hw u (.inr hnil)] at hz
        exact value_ne_nil _ _ _ hz
      · rw [hw u (.inr hnil), hsame hp] at hz
        exact value_ne_nil _ _ _ hz
  have hk2 := hW.keeps f _ _ (base_col hcol) _ _ (.base hx) hcond
  generalize Rich.write W.dialect W.decls W.facts (W.ty f) (.base u) = s at hk2
  simp only [baseWorld]
  split
  · rename_i hz
    subst hz
    rw [kept_nil hk2]
  · rename_i hz
    generalize W.keep f s = y at hk2
    cases hk2 with
    | base h => rfl
    | null => exact absurd rfl hz

/-- C99, one field: whatever the database keeps of what is written and the driver hands over for it, the field is read back as it was. -/
theorem C99_field {W : Rich.World F} (hW : Spec.Rich.Behaves W) {f : F} {v : Rich.Val} (h : Spec.Rich.Stores W f v) (old : Rich.Val) :
    Rich.read W.lib W.dialect W.decls W.facts (W.ty f)
      (W.hand f (W.keep f (Rich.write W.dialect W.decls W.facts (W.ty f) v))) old = some v := by
  obtain ⟨k, col, hc, h⟩ := h
  by_cases hs : ∃ e, k = .scalar e
  · obtain ⟨e, rfl⟩ := hs
    have hsc := has_scalar hc.1
    obtain ⟨hwr, hrd⟩ := scalar_both W.dialect hsc
    have key : ∀ (c : Columns.Col) (u : Columns.Val), col = .base c → v = .base u →
        Spec.Typed.HasCol (baseWorld W) f e c →
        (u = .nil ∧ isPtr (W.ty f) = true ∨ Columns.Fits (Spec.Typed.goOf e) c u) →
        Rich.read W.lib W.dialect W.decls W.facts (W.ty f)
          (W.hand f (W.keep f (Rich.write W.dialect W.decls W.facts (W.ty f) v))) old = some v := by
      rintro c u rfl rfl hcol hst
      have hfield := C96_field (base_behaves hW) (f := f) (v := u) ⟨e, c, hcol, hst⟩ (toBase old)
      have hw' : Typed.write (baseWorld W).dialect (baseWorld W).decls (baseWorld W).facts ((baseWorld W).ty f) u =
        Rich.write W.dialect W.decls W.facts (W.ty f) (.base u) := (hwr u).symm
      rw [hw'] at hfield
      have hkp : (baseWorld W).hand f ((baseWorld W).keep f (Rich.write W.dialect W.decls W.facts (W.ty f) (.base u))) =
          W.hand f (W.keep f (Rich.write W.dialect W.decls W.facts (W.ty f) (.base u))) := by
        rw [base_keep hW hcol hst, hwr]
        rfl
      rw [hkp] at hfield
      rw [hrd]
      have hfield : Typed.read W.lib W.dialect W.decls W.facts (W.ty f) (W.hand f (W.keep f
        (Rich.write W.dialect W.decls W.facts (W.ty f) (.base u)))) (toBase old) = some u := hfield
      rw [hfield]
      rfl
    have hcb : ∀ c, col = .base c → Spec.Typed.HasCol (baseWorld W) f e c := by
      rintro c rfl
      refine ⟨hsc, ?_⟩
      have h2 := hc.2
      obtain ⟨c', hcm⟩ := scalar_meaning W.dialect (W.size f) hsc
      simp only [Spec.Rich.meaning, Rich.declared, hcm] at h2
      cases h2
      exact hcm
    rcases h with ⟨rfl, hn⟩ | hf
    · have hp : isPtr (W.ty f) = true := by
        rcases hn with h | ⟨-, ⟨e, h⟩ | h⟩
        · exact h
        · cases h
        · cases h
      obtain ⟨c, hcc⟩ : ∃ c, col = .base c := by
        obtain ⟨c, hcm⟩ := scalar_meaning W.dialect (W.size f) hsc
        have h2 := hc.2
        simp only [Spec.Rich.meaning, Rich.declared, hcm] at h2
        exact ⟨c, (Option.some.inj h2).symm⟩
      exact key c .nil hcc rfl (hcb c hcc) (.inl ⟨rfl, hp⟩)
    · cases hf with
      | @base _ c u hfit => exact key c u rfl rfl (hcb c rfl) (.inr hfit)
  · have hk : ∀ e, k ≠ .scalar e := fun e he => hs ⟨e, he⟩
    rcases h with ⟨rfl, hn⟩ | hf
    · obtain ⟨h1, h2⟩ := nil_write hk hc.1 hn
      rw [h1]
      have hkp := hW.keeps f k col hc .nil _ .null (fun _ => hn)
      have hh := hW.hands f k col hc _ _ hkp
      rw [kept_nil hkp] at hh ⊢
      rw [handed_null hh]
      exact h2 old
    · obtain ⟨s, hwr, hne, ⟨x, hx⟩, hback⟩ := form_back hc hk hf
      rw [hwr]
      have hkp := hW.keeps f k col hc s x hx (fun h => absurd h hne)
      exact hback _ _ hkp (hW.hands f k col hc _ _ hkp) old

/-! ## Which values fit -/

theorem fits_ints (k : GoInt) (w : Nat) (n : Int) : Columns.Fits (Spec.Typed.goOf (.int k)) (.int w) (.int n) ↔
    (Spec.Typed.typeLimits k).1 ≤ n ∧ n ≤ (Spec.Typed.typeLimits k).2 ∧ -2 ^ (w - 1) ≤ n ∧ n < 2 ^ (w - 1) := by
  rw [← and_assoc, typeLimits_iff, goOf_int]
  by_cases hs : Rich.signed k = true
  · simp only [hs, if_true]
    constructor
    · intro h
      cases h with
      | int h1 h2 => exact ⟨h1, h2⟩
    · rintro ⟨h1, h2⟩
      exact .int h1 h2
  · simp only [if_neg hs]
    constructor
    · intro h
      cases h with
      | uint h1 h2 => exact ⟨⟨_, rfl, h1⟩, h2⟩
    · rintro ⟨⟨m, rfl, h1⟩, h2⟩
      exact .uint h1 h2

theorem form_unique {D : Decls} {fs : Facts} {ty : Ty} {k k' : Form} (h : Has D fs ty k) (h' : Has D fs ty k') : k = k' := by
  cases h with
  | scalar h =>
    cases h' with
    | scalar h' =>
      have h1 := (scalar_basic h).1
      rw [(scalar_basic h').1] at h1
      cases h1; rfl
    | list => cases h
    | listOf => cases h
    | named hu => cases h with
      | named hu' => rw [hu] at hu'; cases hu'
    | bytes => cases h
    | time hn => cases h with
      | named _ _ _ hn' => exact absurd hn hn'
    | timePtr => cases h
  | list hk =>
    cases h' with
    | scalar h' => cases h'
    | list hk' => rw [hk] at hk'; cases hk'; rfl
    | bytes => exact absurd rfl (list_name hk)
  | listOf hu hk =>
    cases h' with
    | scalar h' => cases h'
    | listOf hu' hk' =>
      rw [hu] at hu'
      cases hu'
      rw [hk] at hk'
      cases hk'; rfl
  | named hu hk _ hn =>
    cases h' with
    | scalar h' => cases h' with
      | named hu' => rw [hu] at hu'; cases hu'
    | named hu' hk' =>
      rw [hu] at hu'
      cases hu'
      rw [hk] at hk'
      cases hk'; rfl
    | time hn' => exact absurd hn' hn
  | bytes =>
    cases h' with
    | scalar h' => cases h'
    | list hk => exact absurd rfl (list_name hk)
    | bytes => rfl
  | time hn =>
    cases h' with
    | scalar h' => cases h' with
      | named _ _ _ hn' => exact absurd hn hn'
    | named _ _ _ hn' => exact absurd hn hn'
    | time => rfl
  | timePtr hn =>
    cases h' with
    | scalar h' => cases h'
    | timePtr => rfl

/-- Values that fit the column declared for them. -/
theorem fits_iff {W : Rich.World F} {f : F} {k : Form} (hs : Has W.decls W.facts (W.ty f) k) (v : Rich.Val) :
    (∃ col, Spec.Rich.HasCol W f k col ∧ Spec.Rich.Fits k col v) ↔ Spec.Rich.KeptIn W.dialect (W.size f) k v := by
  have hex : (∃ col, Spec.Rich.HasCol W f k col ∧ Spec.Rich.Fits k col v) ↔
      ∃ col, Spec.Rich.meaning (Spec.Typed.dbOf W.dialect) (Rich.declared W.dialect (W.size f) k) = some col ∧ Spec.Rich.Fits k col v :=
    ⟨fun ⟨c, h1, h2⟩ => ⟨c, h1.2, h2⟩, fun ⟨c, h1, h2⟩ => ⟨c, ⟨hs, h1⟩, h2⟩⟩
  rw [hex]
  cases k with
  | scalar e =>
    have hsc := has_scalar hs
    obtain ⟨c, hcm⟩ := scalar_meaning W.dialect (W.size f) hsc
    have h96 := C96_stores_iff (W := baseWorld W) (f := f) hsc
    simp only [Spec.Rich.meaning, Rich.declared, hcm, Option.some.injEq, exists_eq_left']
    cases v with
    | base u =>
      have h1 : Spec.Rich.Fits (.scalar e) (.base c) (.base u) ↔ Columns.Fits (Spec.Typed.goOf e) c u :=
        ⟨fun h => by cases h with
          | base h => exact h, .base⟩
      rw [h1]
      have h2 := h96 u
      simp only [Spec.Rich.KeptIn]
      constructor
      · intro h
        rcases h2.1 ⟨e, c, ⟨hsc, hcm⟩, .inr h⟩ with ⟨rfl, -⟩ | h
        · generalize Spec.Typed.goOf e = g at h
          cases h
        · exact h
      · intro h
        obtain ⟨k', c', hc', h'⟩ := h2.2 (.inr h)
        have hk' : k' = e := by
          have := (scalar_basic hc'.1).1
          rw [show (baseWorld W).decls = W.decls from rfl, show (baseWorld W).ty f = W.ty f from rfl, (scalar_basic hsc).1] at this
          cases this; rfl
        subst hk'
        have hcc : c' = c := Option.some.inj (hc'.2.symm.trans hcm)
        subst hcc
        rcases h' with ⟨rfl, -⟩ | h'
        · simp only [Spec.Typed.KeptIn] at h
        · exact h'
    | _ =>
      simp only [Spec.Rich.KeptIn, iff_false]
      intro h
      cases h
  | list e =>
    rw [list_meaning]
    cases hd : W.dialect with
    | mysql =>
      simp only [Option.some.injEq, exists_eq_left', Spec.Rich.KeptIn, iff_false]
      exact fun h => by cases h
    | sqlite =>
      simp only [Option.some.injEq, exists_eq_left', Spec.Rich.KeptIn]
      exact ⟨fun h => by cases h with
        | text h => exact h, .text⟩
    | postgres =>
      simp only [Spec.Rich.KeptIn]
      cases e with
      | float w => simp
      | bool =>
        simp only [Option.some.injEq, exists_eq_left']
        refine ⟨fun h => ?_, fun ⟨h, _⟩ => ?_⟩
        · cases h
          exact ⟨.bools, by simp, by simp⟩
        · cases h
          exact .bools
      | string =>
        simp only [Option.some.injEq, exists_eq_left']
        refine ⟨fun h => ?_, fun ⟨h, _⟩ => ?_⟩
        · cases h with
          | strs h => exact ⟨.strs h, by simp, by simp⟩
        · cases h with
          | strs h => exact .strs h
      | int g =>
        simp only [Option.some.injEq, exists_eq_left']
        refine ⟨fun h => ?_, fun ⟨h, _, hb⟩ => ?_⟩
        · cases h with
          | ints h =>
            refine ⟨.ints fun n hn => ?_, by simp, ?_⟩
            · have := (fits_ints g _ n).1 (h n hn)
              exact ⟨this.1, this.2.1⟩
            · rintro e l hg hl n hn
              cases hg
              cases hl
              have := (fits_ints g _ n).1 (h n hn)
              exact this.2.2
        · cases h with
          | ints h => exact .ints fun n hn => (fits_ints g _ n).2 ⟨(h n hn).1, (h n hn).2, hb g _ rfl rfl n hn⟩
  | bytes =>
    cases hd : W.dialect with
    | postgres =>
      have : Spec.Rich.meaning (Spec.Typed.dbOf .postgres) (Rich.declared .postgres (W.size f) .bytes) = none := rfl
      simp only [this, reduceCtorEq, false_and, exists_false, false_iff]
      cases v <;> simp [Spec.Rich.KeptIn]
    | mysql =>
      have : Spec.Rich.meaning (Spec.Typed.dbOf .mysql) (Rich.declared .mysql (W.size f) .bytes) = some (.blob (some 65535)) := rfl
      simp only [this, Option.some.injEq, exists_eq_left']
      cases v with
      | bytes s =>
        refine ⟨fun h => ?_, fun h => ?_⟩
        · cases h with
          | bytes h => exact .inr ⟨rfl, h _ rfl⟩
        · rcases h with h | ⟨-, h⟩
          · cases h
          · exact .bytes fun n hn => by cases hn; exact h
      | _ =>
        simp only [Spec.Rich.KeptIn, iff_false]
        intro h
        cases h
    | sqlite =>
      have : Spec.Rich.meaning (Spec.Typed.dbOf .sqlite) (Rich.declared .sqlite (W.size f) .bytes) = some (.blob none) := rfl
      simp only [this, Option.some.injEq, exists_eq_left']
      cases v with
      | bytes s => exact ⟨fun _ => .inl rfl, fun _ => .bytes (by simp)⟩
      | _ =>
        simp only [Spec.Rich.KeptIn, iff_false]
        intro h
        cases h
  | time =>
    cases hd : W.dialect with
    | postgres =>
      have : Spec.Rich.meaning (Spec.Typed.dbOf .postgres) (Rich.declared .postgres (W.size f) .time) =
        some (.time 1000 (-62135596800000000000) 253402300799999999000) := rfl
      simp only [this, Option.some.injEq, exists_eq_left']
      cases v with
      | time i =>
        refine ⟨fun h => ?_, fun ⟨u, h1, h2, h3⟩ => .time (by omega) (by omega) (by omega)⟩
        cases h with
        | time h1 h2 h3 => exact ⟨i / 1000, by omega, by omega, by omega⟩
      | _ =>
        simp only [Spec.Rich.KeptIn, iff_false]
        intro h
        cases h
    | mysql =>
      have : Spec.Rich.meaning (Spec.Typed.dbOf .mysql) (Rich.declared .mysql (W.size f) .time) =
        some (.time 1000000000 1000000000 2147483647000000000) := rfl
      simp only [this, Option.some.injEq, exists_eq_left']
      cases v with
      | time i =>
        refine ⟨fun h => ?_, fun ⟨u, h1, h2, h3⟩ => .time (by omega) (by omega) (by omega)⟩
        cases h with
        | time h1 h2 h3 => exact ⟨i / 1000000000, by omega, by omega, by omega⟩
      | _ =>
        simp only [Spec.Rich.KeptIn, iff_false]
        intro h
        cases h
    | sqlite =>
      have : Spec.Rich.meaning (Spec.Typed.dbOf .sqlite) (Rich.declared .sqlite (W.size f) .time) = some (.base (.text none)) := rfl
      simp only [this, Option.some.injEq, exists_eq_left']
      refine ⟨fun h => ?_, fun h => ?_⟩
      · cases h
      · cases v <;> simp [Spec.Rich.KeptIn] at h

/-- C99, what fits: exactly these values are kept in the columns declared for the types; and nil, where there is a column. -/
theorem C99_stores_iff {W : Rich.World F} {f : F} {k : Form} (hs : Has W.decls W.facts (W.ty f) k) (v : Rich.Val) :
    Spec.Rich.Stores W f v ↔ (v = .base .nil ∧ MayBeNil W f k ∧ ∃ col, Spec.Rich.HasCol W f k col) ∨
      Spec.Rich.KeptIn W.dialect (W.size f) k v := by
  rw [← fits_iff hs]
  constructor
  · rintro ⟨k', col, hc, h⟩
    have := form_unique hs hc.1
    subst this
    rcases h with ⟨h1, h2⟩ | h
    · exact .inl ⟨h1, h2, col, hc⟩
    · exact .inr ⟨col, hc, h⟩
  · rintro (⟨h1, h2, col, hc⟩ | ⟨col, hc, h⟩)
    · exact ⟨k, col, hc, .inl ⟨h1, h2⟩⟩
    · exact ⟨k, col, hc, .inr h⟩

/-! ## Records -/

/-- What is written of a value that fits is kept, and is not NULL. -/
theorem fits_written {W : Rich.World F} {f : F} {k : Form} {col : Spec.Rich.Col} {v : Rich.Val} (hc : Spec.Rich.HasCol W f k col)
    (hf : Spec.Rich.Fits k col v) :
    (∃ x, Spec.Rich.Keeps col (Rich.write W.dialect W.decls W.facts (W.ty f) v) x) ∧
      Rich.write W.dialect W.decls W.facts (W.ty f) v ≠ .nil := by
  by_cases hs : ∃ e, k = .scalar e
  · obtain ⟨e, rfl⟩ := hs
    have hsc := has_scalar hc.1
    cases hf with
    | @base _ c u hfit =>
      have hcm : Columns.meaning (Spec.Typed.dbOf W.dialect) (Typed.declared W.dialect (W.size f) e) = some c := by
        obtain ⟨c', hcm⟩ := scalar_meaning W.dialect (W.size f) hsc
        have h2 := hc.2
        simp only [Spec.Rich.meaning, Rich.declared, hcm] at h2
        cases h2
        exact hcm
      rw [(scalar_both W.dialect hsc).1]
      obtain ⟨⟨⟨x, hx⟩, -⟩, hsame, hnil⟩ := back_kind (scalar_byte hsc) hcm hfit
      have hw : Typed.write W.dialect W.decls W.facts (W.ty f) u = Typed.value W.dialect e u := by
        rcases (write_read hsc W.dialect W.lib).1 with hw | ⟨hp, hw⟩
        · exact hw u (.inr hnil)
        · rw [hw u (.inr hnil), hsame hp]
      rw [hw]
      exact ⟨⟨_, .base hx⟩, value_ne_nil _ _ _⟩
  · obtain ⟨s, hwr, hne, hx, -⟩ := form_back hc (fun e he => hs ⟨e, he⟩) hf
    rw [hwr]
    exact ⟨hx, hne⟩

section Records

open Verif.Gen Verif.Store Verif.Spec.Store Verif.Spec.Gen Verif.Spec.Sql

variable [DecidableEq F] {W : Rich.World F} {g : Cfg} {S : Spec.Sql.Dialect} {gen : Tbl Rich.Cell → Rich.Cell} {auto : Typed.Kind}
  {t : Gen.Table F}

omit [DecidableEq F] in
theorem rich_setup (hW : Spec.Rich.Behaves W) (hs : Spec.Typed.Shape g S t)
    (hk : ∀ c ∈ pick t (keyPos t), ∀ k, ¬ MayBeNil W c.field k) : Setup (W.env g S gen auto) t (Spec.Rich.Stores W) where
  wf := hs.wf
  key := hs.key
  named := hs.named
  bare := hs.bare
  plain := hs.plain
  names := hs.names
  single := hs.single
  back := fun _ _ _ old h => C99_field hW h old
  keyed := by
    intro c hc v hv he
    obtain ⟨k, col, hcol, h⟩ := hv
    rcases h with ⟨-, hn⟩ | hf
    · exact hk c hc k hn
    · obtain ⟨⟨x, hx⟩, hne⟩ := fits_written hcol hf
      have h1 := hW.keeps _ k col hcol _ _ hx (fun h => absurd h hne)
      have he : W.keep c.field (Rich.write W.dialect W.decls W.facts (W.ty c.field) v) = .base .null := he
      rw [he] at h1
      exact hne (keeps_null h1)

/-- C99: records of fields of the types of C96, of lists of them, of byte strings and of times, in the columns declared for them, of
which every value fits its column.  Whatever the sequence of inserts, finds, updates and deletes: every call gives what it would on
a map from keys to records, the table has the records of the map afterwards, and no other table has changed. -/
theorem C99_store_partial (hW : Spec.Rich.Behaves W) (hs : Spec.Typed.Shape g S t)
    (hk : ∀ c ∈ pick t (keyPos t), ∀ k, ¬ MayBeNil W c.field k) (hw : AllWritten t) (ha : t.auto = none)
    (ops : List (Spec.Store.Op F Rich.Val)) (hf : ∀ o ∈ ops, Fine (Spec.Rich.Stores W) t o) (m : Map F Rich.Val)
    (σ : Spec.Sql.Store Rich.Cell) (hm : Store.Keeps (W.env g S gen auto) (Spec.Rich.Stores W) t m σ) :
    (performs (W.env g S gen auto) t ops σ).1 = (acts t ops m).1 ∧
      Store.Keeps (W.env g S gen auto) (Spec.Rich.Stores W) t (acts t ops m).2 (performs (W.env g S gen auto) t ops σ).2 ∧
      ∀ n, n ≠ tableName S t → (performs (W.env g S gen auto) t ops σ).2 n = σ n :=
  C90_keyed_store (rich_setup hW hs hk) hw ha ops hf m σ hm

/-- C99, for one record: what `InsertOne` stored is found by `FindByPK`, whatever is done with other keys in between. -/
theorem C99_reads_back_partial (hW : Spec.Rich.Behaves W) (hs : Spec.Typed.Shape g S t)
    (hk : ∀ c ∈ pick t (keyPos t), ∀ k, ¬ MayBeNil W c.field k) (hw : AllWritten t) (ha : t.auto = none) (m : Map F Rich.Val)
    (σ : Spec.Sql.Store Rich.Cell) (hm : Store.Keeps (W.env g S gen auto) (Spec.Rich.Stores W) t m σ) (r r' : F → Rich.Val)
    (hr : Good (Spec.Rich.Stores W) t r) (hr' : Good (Spec.Rich.Stores W) t r') (hkey : keyOf t r' = keyOf t r)
    (ops : List (Spec.Store.Op F Rich.Val)) (hf : ∀ o ∈ ops, Fine (Spec.Rich.Stores W) t o)
    (ho : ∀ o ∈ ops, keyOf t o.record ≠ keyOf t r) (σ₁ : Spec.Sql.Store Rich.Cell)
    (hin : insertOne (W.env g S gen auto) t r σ = (.ok r, σ₁)) :
    (findByPK (W.env g S gen auto) t r' (performs (W.env g S gen auto) t ops σ₁).2).1 = .ok (load t r r') :=
  C90_reads_back (rich_setup hW hs hk) hw ha m σ hm r r' hr hr' hkey ops hf ho σ₁ hin

end Records

end Verif.Props
