import Verif.Spec.Typed
import Verif.Props.Store
import Verif.Props.Scan
import Verif.Props.Float

/-! # C96: records of typed fields -/

namespace Verif.Props

open Verif Verif.Dispatch Verif.Typed Verif.ColumnType Verif.Scan Verif.Float
open Verif.Spec.Columns Verif.Spec.Typed Verif.Spec.Float Verif.Spec.Scan

variable {F : Type}

/-! ## What the generator chooses -/

theorem lookup_mem {α β : Type} [BEq α] [LawfulBEq α] {l : List (α × β)} {a : α} {b : β} (h : l.lookup a = some b) : (a, b) ∈ l := by
  induction l with
  | nil => cases h
  | cons p l ih =>
    obtain ⟨x, y⟩ := p
    simp only [List.lookup_cons] at h
    split at h
    · rename_i e
      cases h
      rw [eq_of_beq e]; simp
    · simp [ih h]

theorem kindOf_mem {b : Text} {k : Kind} (h : kindOf b = some k) : (b, k) ∈ kinds := lookup_mem h

/-- The names that are written and read as they are. -/
def AsIs (b : Text) : Prop := b ∈ ["string", "bool", "int64", "float64"].map String.toList

instance (b : Text) : Decidable (AsIs b) := by unfold AsIs; infer_instance

theorem kinds_keys (d : Dialect) : ∀ p ∈ kinds, tableOf d (.toks [.name p.1]) = true ∧ tableOf d (.toks [.star, .name p.1]) = false := by
  cases d <;> decide +kernel

theorem kinds_asIs : ∀ p ∈ kinds, AsIs p.1 → p.2 = .string ∨ p.2 = .bool ∨ p.2 = .int .int64 ∨ p.2 = .float 64 := by
  decide +kernel

theorem no_key (d : Dialect) : tableOf d (.toks []) = false := by cases d <;> decide +kernel

theorem valuer_basic (d : Dialect) (D : Decls) {fs : Facts} {b : Text} {k : Kind} (hk : kindOf b = some k) (hb : Bare fs (.basic b)) :
    valuer D (tableOf d) fs fuel (.basic b) = some (if AsIs b then .direct else .table (.toks [.name b])) := by
  have hkey := (kinds_keys d _ (kindOf_mem hk)).1
  unfold valuer
  by_cases h : AsIs b
  · rw [if_pos (show isDirect D (.basic b) = true by simpa only [isDirect, decide_eq_true_eq, AsIs] using h), if_pos h]
  · rw [if_neg (fun h' => h (by simpa only [isDirect, decide_eq_true_eq, AsIs] using h')), if_neg h, if_neg (by simp [hb.confV]),
      show deref (.basic b) = .basic b from rfl, if_neg (by simp [hb.value])]
    simp [columnKey, walk, fuel, lookup, hkey, ofKey]

theorem scanner_basic (d : Dialect) (D : Decls) {fs : Facts} {b : Text} {k : Kind} (hk : kindOf b = some k) (hb : Bare fs (.basic b)) :
    Dispatch.scanner D (tableOf d) fs fuel (.basic b) = some (if AsIs b then .direct else .table (.toks [.name b])) := by
  have hkey := (kinds_keys d _ (kindOf_mem hk)).1
  unfold Dispatch.scanner
  by_cases h : AsIs b
  · rw [if_pos (show isDirect D (.basic b) = true by simpa only [isDirect, decide_eq_true_eq, AsIs] using h), if_pos h]
  · rw [if_neg (fun h' => h (by simpa only [isDirect, decide_eq_true_eq, AsIs] using h')), if_neg h, if_neg (by simp [hb.confS]),
      show pointee (.basic b) = .basic b from rfl, if_neg (by simp [hb.scan])]
    simp [columnKey, walk, fuel, lookup, hkey, ofKey, needsLen]

theorem scanner_ptr (d : Dialect) (D : Decls) {fs : Facts} {b : Text} {k : Kind} (hk : kindOf b = some k) (hb : Bare fs (.basic b))
    (hc : fs.confScan (.ptr (.basic b)) = false) :
    Dispatch.scanner D (tableOf d) fs fuel (.ptr (.basic b)) = some (.table (.toks [.name b])) := by
  obtain ⟨hkey, hstar⟩ := kinds_keys d _ (kindOf_mem hk)
  unfold Dispatch.scanner
  rw [if_neg (by simp [isDirect]), if_neg (by simp [hc]), show pointee (.ptr (.basic b)) = .basic b from rfl, if_neg (by simp [hb.scan])]
  simp [columnKey, walk, fuel, lookup, hkey, hstar, ofKey, needsLen]

theorem named_both (d : Dialect) (D : Decls) {fs : Facts} {id : Nat} {b : Text} {k : Kind} (hu : D.under id = .basic b) (hk : kindOf b = some k)
    (hb : Bare fs (.named id)) (hn : D.name id ≠ "time.Time".toList) :
    valuer D (tableOf d) fs fuel (.named id) = some (.table (.toks [.name b])) ∧
    Dispatch.scanner D (tableOf d) fs fuel (.named id) = some (.table (.toks [.name b])) := by
  obtain ⟨hkey, hstar⟩ := kinds_keys d _ (kindOf_mem hk)
  have hd : ¬ isDirect D (.named id) = true := fun h => hn (by simpa only [isDirect, decide_eq_true_eq] using h)
  constructor
  · unfold valuer
    rw [if_neg hd, if_neg (by simp [hb.confV]), show deref (.named id) = .named id from rfl, if_neg (by simp [hb.value])]
    simp [columnKey, walk, fuel, lookup, hkey, ofKey, hu, no_key]
  · unfold Dispatch.scanner
    rw [if_neg hd, if_neg (by simp [hb.confS]), show pointee (.named id) = .named id from rfl, if_neg (by simp [hb.scan])]
    simp [columnKey, walk, fuel, lookup, hkey, ofKey, needsLen, hu, no_key]

/-- How a field of one of these types is written and read: in both cases as its kind says, or as it is. -/
theorem write_read {D : Decls} {fs : Facts} {ty : Ty} {k : Kind} (h : Scalar D fs ty k) (d : Dialect) (L : Lib) :
    ((∀ v, isPtr ty = false ∨ v ≠ .nil → Typed.write d D fs ty v = value d k v) ∨
      (k = .string ∨ k = .bool ∨ k = .int .int64 ∨ k = .float 64) ∧ ∀ v, isPtr ty = false ∨ v ≠ .nil → Typed.write d D fs ty v = same v) ∧
    ((∀ s old, Typed.read L d D fs ty s old = Typed.scanner L (isPtr ty) old s k) ∨
      isPtr ty = false ∧ (k = .string ∨ k = .bool ∨ k = .int .int64 ∨ k = .float 64) ∧
        ∀ s old, Typed.read L d D fs ty s old = assign L k s) := by
  have np : ∀ v, isPtr ty = false ∨ v ≠ .nil → ¬ (isPtr ty = true ∧ v = Val.nil) := by
    rintro v (h | h) ⟨h1, h2⟩
    · simp [h] at h1
    · exact h h2
  cases h with
  | @basic b k hk hb =>
    by_cases ha : AsIs b
    · have hp := kinds_asIs _ (kindOf_mem hk) ha
      refine ⟨.inr ⟨hp, fun v hv => ?_⟩, .inr ⟨rfl, hp, fun s old => ?_⟩⟩
      · unfold Typed.write Dispatch.writes
        rw [if_neg (np v hv)]
        simp only [valuer_basic d D hk hb, if_pos ha]
      · unfold Typed.read Dispatch.reads
        rw [scanner_basic d D hk hb, if_pos ha]
        simp only [kindOfTy, hk, Option.bind_some]
    · refine ⟨.inl fun v hv => ?_, .inl fun s old => ?_⟩
      · unfold Typed.write Dispatch.writes
        rw [if_neg (np v hv)]
        simp only [valuer_basic d D hk hb, if_neg ha, hk]
      · unfold Typed.read Dispatch.reads
        rw [scanner_basic d D hk hb, if_neg ha]
        simp only [hk, Option.bind_some]
  | @named id b k hu hk hb hn =>
    obtain ⟨hw, hr⟩ := named_both d D hu hk hb hn
    refine ⟨.inl fun v hv => ?_, .inl fun s old => ?_⟩
    · unfold Typed.write Dispatch.writes
      rw [if_neg (np v hv)]
      simp only [hw, hk]
    · unfold Typed.read Dispatch.reads
      rw [hr]
      simp only [hk, Option.bind_some]
  | @ptr b k hk hb hc =>
    refine ⟨?_, .inl fun s old => ?_⟩
    · by_cases ha : AsIs b
      · refine .inr ⟨kinds_asIs _ (kindOf_mem hk) ha, fun v hv => ?_⟩
        unfold Typed.write Dispatch.writes
        rw [if_neg (np v hv)]
        simp only [valuer_basic d D hk hb, if_pos ha]
      · refine .inl fun v hv => ?_
        unfold Typed.write Dispatch.writes
        rw [if_neg (np v hv)]
        simp only [valuer_basic d D hk hb, if_neg ha, hk]
    · unfold Typed.read Dispatch.reads
      rw [scanner_ptr d D hk hb hc]
      simp only [hk, Option.bind_some]

/-! ## Kinds and columns -/

theorem result_put {α : Type} (g : α → Val) (d : Dest α) (x : α) : result g (.ok (put d x)) = some (g x) := by cases d <;> rfl

/-- What a parameter is read as, whatever the column keeps of it and the driver hands over. -/
def Back (k : Kind) (col : Spec.Columns.Col) (w : Src) (v : Val) : Prop :=
  (∃ c, Keeps col w c) ∧ ∀ c s, Keeps col w c → Hands col c s →
    (∀ L ptr old, Typed.scanner L ptr old s k = some v) ∧
    ((k = .string ∨ k = .bool ∨ k = .int .int64 ∨ k = .float 64) → ∀ L, assign L k s = some v)

theorem back_bool (b : Bool) : Back .bool .bool (.bool b) (.bool b) := by
  refine ⟨⟨_, .bool⟩, fun c s hc hs => ?_⟩
  cases hc
  have hm : BoolMeans false s b := by
    cases hs with
    | bool => exact .bool b
    | boolNumber => cases b; exact .zero; exact .nonzero (by decide)
    | boolText h => exact .bytes rfl h
  refine ⟨fun L ptr old => ?_, fun _ L => ?_⟩
  · simp only [Typed.scanner]
    rw [(C44_scan_iff false _ _ s).2 (.inr ⟨b, hm, rfl⟩), result_put]
  · cases hs with
    | bool => rfl
    | boolNumber => cases b <;> rfl
    | boolText h => simp only [assign, parseBool_iff.2 h, Option.map_some]

theorem back_string (l : Option Nat) (t : Bytes) (h : Proper l t) : Back .string (.text l) (.str t) (.str t) := by
  refine ⟨⟨_, .text h⟩, fun c s hc hs => ?_⟩
  cases hc
  cases hs with
  | text =>
    refine ⟨fun L ptr old => ?_, fun _ L => rfl⟩
    simp only [Typed.scanner]
    rw [(C49_text _ _ _ _).1, result_put]
  | textBytes =>
    refine ⟨fun L ptr old => ?_, fun _ L => rfl⟩
    simp only [Typed.scanner]
    rw [(C49_text _ _ _ _).2, result_put]

/-- Bits and sign of the integer types. -/
theorem scanner_int (k : GoInt) (w : Nat) (h : goOf (.int k) = .int w) (L : Lib) (ptr : Bool) (old : Val) (s : Src) :
    0 < w ∧ w ≤ 64 ∧ Typed.scanner L ptr old s (.int k) = result .int (scanInt w (dest 0 getInt ptr old) s) := by
  cases k <;> simp only [goOf, Go.int.injEq, reduceCtorEq] at h <;> subst h <;> exact ⟨by decide, by decide, rfl⟩

theorem scanner_uint (k : GoInt) (w : Nat) (hb : k ≠ .byte) (h : goOf (.int k) = .uint w) (L : Lib) (ptr : Bool) (old : Val) (s : Src) :
    w ≤ 64 ∧ Typed.scanner L ptr old s (.int k) = result (fun n : Nat => .int n) (scanUint w (dest 0 getNat ptr old) s) := by
  cases k <;> simp only [goOf, Go.uint.injEq, reduceCtorEq] at h <;> first | exact absurd rfl hb | (subst h; exact ⟨by decide, rfl⟩)

theorem inRange_mono {a b : Nat} (h : a ≤ b) {n : Int} (hn : InRange a n) : InRange b n := by
  unfold InRange at *
  have : (2 : Int) ^ (a - 1) ≤ 2 ^ (b - 1) := by
    exact_mod_cast Nat.pow_le_pow_right (n := 2) (by omega) (show a - 1 ≤ b - 1 by omega)
  omega

theorem back_int (k : GoInt) (w c : Nat) (n : Int) (h : goOf (.int k) = .int w) (hw : InRange w n) (hc : InRange c n) :
    Back (.int k) (.int c) (.int64 n) (.int n) := by
  refine ⟨⟨_, .int hc⟩, fun x s hx hs => ?_⟩
  cases hx
  have key : ∀ d : Dest Int, scanInt w d s = .ok (put d n) := by
    intro d
    obtain ⟨h0, h64, -⟩ := scanner_int k w h ⟨⟨fun _ => [], fun _ => [], fun _ => none, fun _ _ => none, fun _ _ => 0, fun _ _ => 0,
      fun _ _ => none, fun _ => 0⟩, fun _ _ => none, fun _ _ => none⟩ false .nil .nil
    cases hs with
    | int =>
      obtain ⟨e, r⟩ := C42_signed h0 h64 d n hw
      rw [← e]; exact r
    | intText => exact C42_text h0 d n hw
  refine ⟨fun L ptr old => ?_, fun hp L => ?_⟩
  · rw [(scanner_int k w h L ptr old s).2.2, key, result_put]
  · have hk : k = .int64 := by simpa using hp
    subst hk
    cases hs with
    | int => rfl
    | intText =>
      cases h
      simp only [assign]
      rw [parseInt_intDec (by decide) hw.1 hw.2]; rfl

theorem back_uint (k : GoInt) (hb : k ≠ .byte) (w c : Nat) (n : Nat) (h : goOf (.int k) = .uint w) (hw : n < 2 ^ w) (hc : InRange c n) (hc64 : c ≤ 64)
    (src : Src) (hsrc : src = .int64 n ∨ src = .uint64 n) : Back (.int k) (.int c) src (.int n) := by
  have hk : ∀ x, Keeps (.int c) src x ↔ x = .num n := by
    intro x
    rcases hsrc with rfl | rfl
    · exact ⟨fun h => by cases h; rfl, fun h => h ▸ .int hc⟩
    · exact ⟨fun h => by cases h; rfl, fun h => h ▸ .uint hc⟩
  refine ⟨⟨_, (hk _).2 rfl⟩, fun x s hx hs => ?_⟩
  have := (hk _).1 hx
  subst this
  have h64 : InRange 64 n := inRange_mono hc64 hc
  refine ⟨fun L ptr old => ?_, fun hp L => ?_⟩
  · obtain ⟨h1, h2⟩ := scanner_uint k w hb h L ptr old s
    rw [h2]
    have : ∀ d : Dest Nat, scanUint w d s = .ok (put d n) := by
      intro d
      cases hs with
      | int =>
        have e := C42_unsigned h1 d n hw
        rwa [writeInt, toSigned_of_range (by decide) h64.1 h64.2] at e
      | intText =>
        have e : intDec (n : Int) = natDec n := by simp [intDec]
        rw [e]
        exact C42_text_unsigned d n hw
    rw [this, result_put]
  · have hk : k = .int64 := by simpa using hp
    subst hk
    cases h

theorem bits_inj {a b : Bool} {m n : Nat} (hm : m ≤ double.inf) (hn : n ≤ double.inf)
    (h : bits double (.num a m) = bits double (.num b n)) : a = b ∧ m = n := by
  have h1 := ofBits_bits (f := double) (.inr rfl) (x := .num a m) hm
  have h2 := ofBits_bits (f := double) (.inr rfl) (x := .num b n) hn
  rw [h, h2] at h1
  cases h1
  exact ⟨rfl, rfl⟩

theorem keeps_float {f : Format} {neg : Bool} {n : Nat} (hn : n < double.inf) {c : Cell}
    (h : Keeps (.float f) (.float (bits double (.num neg n))) c) :
    ∃ y, c = .flt y ∧ Becomes f neg (val double n) y ∧ y.Finite f := by
  generalize hb : bits double (.num neg n) = b at h
  cases h with
  | float h1 h2 h3 h4 =>
    obtain ⟨rfl, rfl⟩ := bits_inj (Nat.le_of_lt hn) (Nat.le_of_lt h1) hb
    exact ⟨_, rfl, h3, h4⟩

theorem wide_val (w : Nat) {n : Nat} (hn : n < (fmt w).inf) : ∃ k, k < double.inf ∧ val double k = val (fmt w) n := by
  rcases fmt_cases w with e | e <;> rw [e] at hn ⊢
  · exact single_val n hn
  · exact ⟨n, hn, rfl⟩

theorem back_float (w : Nat) (f : Format) (neg : Bool) (n : Nat) (hn : n < (fmt w).inf) (hz : Common neg n) (hf : f = fmt w ∨ f = double) :
    Back (.float w) (.float f) (Float.write w (.num neg n)) (.flt (.num neg n)) := by
  obtain ⟨k, hk, hv⟩ := wide_val w hn
  have hx : (Flt.num neg n).Of (fmt w) := Nat.le_of_lt hn
  have hc : conv (fmt w) double (.num neg n) = .num neg k := conv_exact (by decide) neg hn hk hv
  have hw : Float.write w (.num neg n) = .float (bits double (.num neg k)) := by rw [Float.write, hc]
  -- the number is one of the column
  obtain ⟨j, hj, hjv⟩ : ∃ j, j < f.inf ∧ val f j = val double k := by
    rcases hf with rfl | rfl
    · exact ⟨n, hn, hv.symm⟩
    · exact ⟨k, hk, rfl⟩
  have hkz : Common neg k := by
    rintro ⟨h1, rfl⟩
    refine hz ⟨h1, ?_⟩
    have h0 : val double 0 = val (fmt w) 0 := by
      rw [val, val, if_pos (Nat.zero_div _), if_pos (Nat.zero_div _)]
      simp
    rw [h0] at hv
    exact ((val_strictMono (fmt w)).injective hv).symm
  have near : Nearest f (val double k) j := hjv ▸ nearest_val f j
  rw [hw]
  refine ⟨⟨_, .float hk hkz ⟨j, near, rfl⟩ (by rw [Nat.min_eq_left (Nat.le_of_lt hj)]; exact hj)⟩, fun c s hcell hs => ?_⟩
  obtain ⟨y, rfl, ⟨j', hj', rfl⟩, hfin⟩ := keeps_float hk hcell
  obtain rfl := nearest_unique hj' near
  rw [Nat.min_eq_left (Nat.le_of_lt hj)] at hs
  -- what is handed over
  have hcase : s = .float (bits double (.num neg k)) ∨ ∃ t, s = .bytes t ∧ Ordinary t ∧ t.length ≤ 5000 ∧ Reads (fmt w) t (.num neg n) := by
    cases hs with
    | @float _ _ _ m h1 h2 h3 =>
      have : m = k := (val_strictMono double).injective (h3.trans hjv)
      exact .inl (by rw [this])
    | @floatText _ _ t h1 h2 h3 =>
      refine .inr ⟨t, rfl, h1, h2, ?_⟩
      rcases hf with rfl | rfl
      · have : j' = n := (val_strictMono (fmt w)).injective (hjv.trans hv)
        rwa [← this]
      · have : j' = k := (val_strictMono double).injective hjv
        subst this
        rcases fmt_cases w with e | e <;> rw [e] at hx hc hn hv ⊢
        · exact C94_wide_text t _ hx (by rw [hc]; exact h3)
        · have : j' = n := (val_strictMono double).injective hv
          rwa [← this]
  refine ⟨fun L ptr old => ?_, fun hp L => ?_⟩
  · simp only [Typed.scanner]
    have key : ∀ d : Dest Nat, scanFloat (floats L.odd L.std) 0 w false d s = .ok (put d (bits (fmt w) (.num neg n))) := by
      intro d
      rcases hcase with rfl | ⟨t, rfl, h1, h2, h3⟩
      · rw [← hw, ← store_eq]; exact C94_number L.odd L.std 0 w false d _ hx
      · rw [← store_eq]; exact (C94_text L.odd L.std 0 w d t h1 h2 _ (.inl rfl)).1 _ h3
    rw [key, result_put, ofBits_bits (fmt_cases w) hx]
  · have hw64 : w = 64 := by simpa using hp
    subst hw64
    have e : fmt 64 = double := by decide
    rw [e] at hx hv hn
    obtain rfl : k = n := (val_strictMono double).injective hv
    rcases hcase with rfl | ⟨t, rfl, h1, h2, h3⟩
    · simp only [assign]
      rw [ofBits_bits (.inr rfl) hx]
    · simp only [assign]
      rw [e] at h3
      rw [(parse_iff (L.odd 64) usual_double h1 h2 _).2 h3]; rfl

/-! ## All kinds -/

theorem meaning_int {db : Db} {decl : String × Option Nat} {c : Nat} (h : meaning db decl = some (.int c)) : 0 < c ∧ c ≤ 64 := by
  unfold meaning at h
  split at h <;> simp at h <;> omega

theorem toSigned_64 {c : Nat} (hc : c ≤ 64) {n : Int} (h : InRange c n) : toSigned 64 n = n :=
  have := inRange_mono hc h
  toSigned_of_range (by decide) this.1 this.2

theorem back_kind {d : Dialect} {size : Nat} {k : Kind} {col : Spec.Columns.Col} {v : Val} (hb : k ≠ .int .byte)
    (hm : meaning (dbOf d) (declared d size k) = some col) (hf : Fits (goOf k) col v) :
    Back k col (value d k v) v ∧ ((k = .string ∨ k = .bool ∨ k = .int .int64 ∨ k = .float 64) → same v = value d k v) ∧ v ≠ .nil := by
  generalize hg : goOf k = T at hf
  cases hf with
  | @bool b =>
    cases k with
    | bool => exact ⟨back_bool b, fun _ => rfl, by simp⟩
    | int k => cases k <;> cases hg
    | _ => cases hg
  | @string l t h =>
    cases k with
    | string => exact ⟨back_string l t h, fun _ => rfl, by simp⟩
    | int k => cases k <;> cases hg
    | _ => cases hg
  | @int w c n h1 h2 =>
    have hc := (meaning_int hm).2
    cases k with
    | int k =>
      have hv : value d (.int k) (.int n) = .int64 n := by
        have := toSigned_64 hc h2
        cases k <;> simp only [goOf, reduceCtorEq] at hg <;> cases d <;> simp only [value, written, this]
      refine ⟨hv ▸ back_int k w c n hg h1 h2, fun _ => hv.symm, by simp⟩
    | _ => cases hg
  | @uint w c n h1 h2 =>
    have hc := (meaning_int hm).2
    cases k with
    | int k =>
      have hv : value d (.int k) (.int n) = .int64 n ∨ value d (.int k) (.int n) = .uint64 n := by
        have := toSigned_64 hc h2
        cases k <;> simp only [goOf, reduceCtorEq] at hg <;> cases d <;>
          simp [value, written, this] at hb ⊢
      refine ⟨back_uint k (fun h => hb (h ▸ rfl)) w c n hg h1 h2 hc _ hv, fun h => ?_, by simp⟩
      have : k = .int64 := by simpa using h
      subst this; cases hg
    | _ => cases hg
  | @float w f neg n h1 h2 h3 =>
    cases k with
    | float w' =>
      simp only [goOf, Go.float.injEq] at hg
      subst hg
      refine ⟨back_float _ f neg n h1 h2 h3, fun h => ?_, by simp⟩
      have hw : w' = 64 := by simpa using h
      subst hw
      have e : fmt 64 = double := by decide
      rw [e] at h1
      simp only [same, value, Float.write]
      rw [e, conv_self (by decide) (show Flt.Of double (.num neg n) from Nat.le_of_lt h1)]
    | int k => cases k <;> cases hg
    | _ => cases hg

theorem value_ne_nil (d : Dialect) (k : Kind) (v : Val) : value d k v ≠ .nil := by
  unfold value
  split <;> first | (split <;> simp) | simp [Float.write]

/-- What a column keeps of a whole number that fits. -/
theorem kept_int {d : Dialect} {size : Nat} {k : GoInt} {w : Nat} {n : Int} (hm : meaning (dbOf d) (declared d size (.int k)) = some (.int w))
    (hf : Fits (goOf (.int k)) (.int w) (.int n)) (hb : k ≠ .byte) {c : Cell} (h : Keeps (.int w) (value d (.int k) (.int n)) c) : c = .num n := by
  have hc := (meaning_int hm).2
  generalize hg : goOf (.int k) = T at hf
  cases hf with
  | int h1 h2 =>
    have hv : value d (.int k) (.int n) = .int64 n := by
      have := toSigned_64 hc h2
      cases k <;> simp only [goOf, reduceCtorEq] at hg <;> cases d <;> simp only [value, written, this]
    rw [hv] at h
    cases h; rfl
  | @uint _ _ n h1 h2 =>
    have hv : value d (.int k) (.int n) = .int64 n ∨ value d (.int k) (.int n) = .uint64 n := by
      have := toSigned_64 hc h2
      cases k <;> simp only [goOf, reduceCtorEq] at hg <;> cases d <;> simp [value, written, this] at hb ⊢
    rcases hv with hv | hv <;> rw [hv] at h <;> cases h <;> rfl

theorem kind_byte {b : Text} {k : Kind} (h : kindOf b = some k) : k ≠ .int .byte := by
  have : ∀ p ∈ kinds, p.2 ≠ .int .byte := by decide +kernel
  exact this _ (kindOf_mem h)

theorem scalar_byte {D : Decls} {fs : Facts} {ty : Ty} {k : Kind} (h : Scalar D fs ty k) : k ≠ .int .byte := by
  cases h with
  | basic h _ => exact kind_byte h
  | named _ h _ _ => exact kind_byte h
  | ptr h _ _ => exact kind_byte h

/-! ## C96 -/

theorem kindOf_cases {b : Text} {k : Kind} (h : kindOf b = some k) :
    k ∈ [Kind.string, .bool, .int .int, .int .int8, .int .int16, .int .int32, .int .int64, .int .uint, .int .uint8, .int .uint16,
      .int .uint32, .int .uint64, .float 32, .float 64] := by
  exact List.mem_map_of_mem (f := Prod.snd) (kindOf_mem h)

theorem scalar_basic {D : Decls} {F : Facts} {ty : Ty} {k : Kind} (h : Scalar D F ty k) : kindOfTy D ty = some k ∧ ∃ b, kindOf b = some k := by
  cases h with
  | basic h _ => exact ⟨h, _, h⟩
  | named hu h _ _ => exact ⟨by simp [kindOfTy, hu, h], _, h⟩
  | ptr h _ _ => exact ⟨h, _, h⟩

/-- C96, what fits: exactly these values are kept in the columns declared for the types. -/
theorem C96_stores_iff {W : World F} {f : F} {k : Kind} (hs : Scalar W.decls W.facts (W.ty f) k) (v : Val) :
    Stores W f v ↔ v = .nil ∧ isPtr (W.ty f) = true ∨ KeptIn W.dialect (W.size f) k v := by
  obtain ⟨hk, b, hb⟩ := scalar_basic hs
  have hone : ∀ k' col, HasCol W f k' col → k' = k := fun k' col h => by
    have := (scalar_basic h.1).1
    rw [hk] at this
    exact (Option.some.inj this).symm
  have hcol : ∃ col, HasCol W f k col ∧ (∀ col', HasCol W f k col' → col' = col) ∧ ∀ v, Fits (goOf k) col v ↔ KeptIn W.dialect (W.size f) k v := by
    have hu : ∀ col, HasCol W f k col → ∀ col', HasCol W f k col' → col' = col := fun _ h _ h' => Option.some.inj (h'.2.symm.trans h.2)
    have hmk : ∀ col, meaning (dbOf W.dialect) (declared W.dialect (W.size f) k) = some col →
        (∀ v, Fits (goOf k) col v ↔ KeptIn W.dialect (W.size f) k v) →
        ∃ col, HasCol W f k col ∧ (∀ col', HasCol W f k col' → col' = col) ∧ ∀ v, Fits (goOf k) col v ↔ KeptIn W.dialect (W.size f) k v :=
      fun col h1 h2 => ⟨col, ⟨hs, h1⟩, hu col ⟨hs, h1⟩, h2⟩
    have hint : ∀ (g : GoInt) (w : Nat), k = .int g → w = columnBits W.dialect g → (∀ n, Fits (goOf (.int g)) (.int w) (.int n) ↔
        ((typeLimits g).1 ≤ n ∧ n ≤ (typeLimits g).2 ∧ -2 ^ (w - 1) ≤ n ∧ n < 2 ^ (w - 1))) →
        ∀ v, Fits (goOf k) (.int w) v ↔ KeptIn W.dialect (W.size f) k v := by
      rintro g w rfl rfl h v
      cases v with
      | int n => exact h n
      | _ =>
        refine ⟨fun h => ?_, fun h => ?_⟩
        · cases g <;> cases h
        · exact absurd h (by simp [KeptIn])
    have hsig : ∀ (g : GoInt) (w c : Nat), goOf (.int g) = .int w → typeLimits g = (-2 ^ (w - 1), 2 ^ (w - 1) - 1) →
        ∀ n, Fits (goOf (.int g)) (.int c) (.int n) ↔ ((typeLimits g).1 ≤ n ∧ n ≤ (typeLimits g).2 ∧ -2 ^ (c - 1) ≤ n ∧ n < 2 ^ (c - 1)) := by
      intro g w c h1 h2 n
      rw [h1, h2]
      refine ⟨fun h => ?_, fun h => .int ⟨h.1, by have := h.2.1; dsimp only at this; omega⟩ h.2.2⟩
      cases h with
      | int h3 h4 => exact ⟨h3.1, by have := h3.2; dsimp only; omega, h4⟩
    have huns : ∀ (g : GoInt) (w c : Nat), goOf (.int g) = .uint w → typeLimits g = (0, 2 ^ w - 1) →
        ∀ n, Fits (goOf (.int g)) (.int c) (.int n) ↔ ((typeLimits g).1 ≤ n ∧ n ≤ (typeLimits g).2 ∧ -2 ^ (c - 1) ≤ n ∧ n < 2 ^ (c - 1)) := by
      intro g w c h1 h2 n
      rw [h1, h2]
      refine ⟨fun h => ?_, fun h => ?_⟩
      · cases h with
        | @uint _ _ m h3 h4 =>
          have : (m : Int) < 2 ^ w := by exact_mod_cast h3
          exact ⟨by dsimp only; omega, by dsimp only; omega, h4⟩
      · obtain ⟨m, rfl⟩ := Int.eq_ofNat_of_zero_le h.1
        have h5 := h.2.1
        dsimp only at h5
        have : (m : Int) < 2 ^ w := by omega
        exact .uint (by exact_mod_cast this) h.2.2
    have hm := kindOf_cases hb
    simp only [List.mem_cons, List.not_mem_nil, or_false] at hm
    rcases hm with rfl | rfl | rfl | rfl | rfl | rfl | rfl | rfl | rfl | rfl | rfl | rfl | rfl | rfl
    · refine hmk (.text (if W.dialect = .sqlite then none else some (if W.size f = 0 then 255 else W.size f))) ?_ fun v => ?_
      · rcases Nat.eq_zero_or_pos (W.size f) with h | h <;> generalize W.dialect = d <;> cases d <;>
          simp [declared, meaning, dbOf, h, Nat.ne_of_gt]
      · refine ⟨fun h => ?_, fun h => ?_⟩
        · cases h with
          | string h => exact h
        · cases v with
          | str s => exact .string h
          | _ => exact absurd h (by simp [KeptIn])
    · refine hmk .bool (by generalize W.dialect = d; cases d <;> rfl) fun v => ⟨fun h => ?_, fun h => ?_⟩
      · cases h; trivial
      · cases v with
        | bool b => exact .bool
        | _ => exact absurd h (by simp [KeptIn])
    · exact hmk (.int (columnBits W.dialect .int)) (by generalize W.dialect = d; cases d <;> rfl) (hint _ _ rfl rfl (hsig _ 64 _ rfl (by decide)))
    · exact hmk (.int (columnBits W.dialect .int8)) (by generalize W.dialect = d; cases d <;> rfl) (hint _ _ rfl rfl (hsig _ 8 _ rfl (by decide)))
    · exact hmk (.int (columnBits W.dialect .int16)) (by generalize W.dialect = d; cases d <;> rfl) (hint _ _ rfl rfl (hsig _ 16 _ rfl (by decide)))
    · exact hmk (.int (columnBits W.dialect .int32)) (by generalize W.dialect = d; cases d <;> rfl) (hint _ _ rfl rfl (hsig _ 32 _ rfl (by decide)))
    · exact hmk (.int (columnBits W.dialect .int64)) (by generalize W.dialect = d; cases d <;> rfl) (hint _ _ rfl rfl (hsig _ 64 _ rfl (by decide)))
    · exact hmk (.int (columnBits W.dialect .uint)) (by generalize W.dialect = d; cases d <;> rfl) (hint _ _ rfl rfl (huns _ 64 _ rfl (by decide)))
    · exact hmk (.int (columnBits W.dialect .uint8)) (by generalize W.dialect = d; cases d <;> rfl) (hint _ _ rfl rfl (huns _ 8 _ rfl (by decide)))
    · exact hmk (.int (columnBits W.dialect .uint16)) (by generalize W.dialect = d; cases d <;> rfl) (hint _ _ rfl rfl (huns _ 16 _ rfl (by decide)))
    · exact hmk (.int (columnBits W.dialect .uint32)) (by generalize W.dialect = d; cases d <;> rfl) (hint _ _ rfl rfl (huns _ 32 _ rfl (by decide)))
    · exact hmk (.int (columnBits W.dialect .uint64)) (by generalize W.dialect = d; cases d <;> rfl) (hint _ _ rfl rfl (huns _ 64 _ rfl (by decide)))
    · refine hmk (.float (if W.dialect = .sqlite then double else single)) (by generalize W.dialect = d; cases d <;> rfl) fun v => ⟨fun h => ?_, fun h => ?_⟩
      · cases h with
        | float h1 h2 h3 => exact ⟨h1, h2, fun _ => rfl⟩
      · cases v with
        | flt x =>
          cases x with
          | num neg n => exact .float h.1 h.2.1 (by split <;> simp [Float.fmt])
          | _ => exact absurd h (by simp [KeptIn])
        | _ => exact absurd h (by simp [KeptIn])
    · refine hmk (.float (if W.dialect = .mysql then single else double)) (by generalize W.dialect = d; cases d <;> rfl) fun v => ⟨fun h => ?_, fun h => ?_⟩
      · cases h with
        | float h1 h2 h3 =>
          refine ⟨h1, h2, fun hd => ?_⟩
          rw [if_pos hd] at h3
          rcases h3 with h3 | h3 <;> exact absurd h3 (by decide)
      · cases v with
        | flt x =>
          cases x with
          | num neg n => exact .float h.1 h.2.1 (.inr (if_neg fun hd => absurd (h.2.2 hd) (by decide)))
          | _ => exact absurd h (by simp [KeptIn])
        | _ => exact absurd h (by simp [KeptIn])
  obtain ⟨col, hcol, hu, hfit⟩ := hcol
  constructor
  · rintro ⟨k', col', hc, h⟩
    obtain rfl := hone _ _ hc
    obtain rfl := hu _ hc
    exact h.imp_right (hfit v).1
  · intro h
    exact ⟨k, col, hcol, h.imp_right (hfit v).2⟩

/-- C96 for one field: whatever is in the field before, it has the value that was written after what the column keeps was read,
in whatever form the driver hands it over. -/
theorem C96_field {W : World F} (hW : Behaves W) {f : F} {v : Val} (h : Stores W f v) (old : Val) :
    Typed.read W.lib W.dialect W.decls W.facts (W.ty f)
      (W.hand f (W.keep f (Typed.write W.dialect W.decls W.facts (W.ty f) v))) old = some v := by
  obtain ⟨k, col, hc, h⟩ := h
  obtain ⟨hw, hr⟩ := write_read hc.1 W.dialect W.lib
  have hbyte := scalar_byte hc.1
  rcases h with ⟨rfl, hp⟩ | hf
  · have hwr : Typed.write W.dialect W.decls W.facts (W.ty f) .nil = .nil := by
      unfold Typed.write; rw [if_pos ⟨hp, rfl⟩]
    rw [hwr]
    have h1 := hW.keeps f k col hc _ _ Keeps.null fun _ => hp
    have h2 := hW.hands f k col hc _ _ h1
    have e : W.keep f .nil = .null := by
      generalize W.keep f .nil = c at h1
      cases h1; rfl
    rw [e] at h2 ⊢
    have e2 : W.hand f .null = .nil := by
      generalize W.hand f .null = s at h2
      cases h2; rfl
    rw [e2]
    rcases hr with hr | ⟨hr, -⟩
    · rw [hr, hp]
      cases k with
      | int k => cases k <;> first | exact absurd rfl hbyte | rfl
      | _ => rfl
    · simp [hp] at hr
  · obtain ⟨⟨⟨c, hk⟩, hback⟩, hsame, hnil⟩ := back_kind hbyte hc.2 hf
    have hwr : Typed.write W.dialect W.decls W.facts (W.ty f) v = value W.dialect k v := by
      rcases hw with hw | ⟨hp, hw⟩
      · exact hw v (.inr hnil)
      · rw [hw v (.inr hnil), hsame hp]
    rw [hwr]
    have h1 := hW.keeps f k col hc _ _ hk fun e => absurd e (value_ne_nil _ _ _)
    obtain ⟨hs, ha⟩ := hback _ _ h1 (hW.hands f k col hc _ _ h1)
    rcases hr with hr | ⟨-, hp, hr⟩
    · rw [hr]; exact hs _ _ _
    · rw [hr]; exact ha hp _

section Records

open Verif.Gen Verif.Store Verif.Spec.Store Verif.Spec.Gen Verif.Spec.Sql

variable [DecidableEq F] {W : World F} {g : Cfg} {S : Spec.Sql.Dialect} {gen : Tbl Cell → Cell} {auto : Kind} {t : Gen.Table F}

omit [DecidableEq F] in
theorem typed_setup (hW : Behaves W) (hs : Shape g S t) (hk : ∀ c ∈ pick t (keyPos t), isPtr (W.ty c.field) = false) :
    Setup (W.env g S gen auto) t (Stores W) where
  wf := hs.wf
  key := hs.key
  named := hs.named
  bare := hs.bare
  plain := hs.plain
  names := hs.names
  single := hs.single
  back := fun _ _ _ old h => C96_field hW h old
  keyed := by
    intro c hc v hv he
    obtain ⟨k, col, hcol, h⟩ := hv
    rcases h with ⟨-, hp⟩ | hf
    · simp [hk c hc] at hp
    · obtain ⟨⟨⟨x, hx⟩, -⟩, hsame, hnil⟩ := back_kind (scalar_byte hcol.1) hcol.2 hf
      have hwr : Typed.write W.dialect W.decls W.facts (W.ty c.field) v = value W.dialect k v := by
        rcases (write_read hcol.1 W.dialect W.lib).1 with hw | ⟨hp, hw⟩
        · exact hw v (.inr hnil)
        · rw [hw v (.inr hnil), hsame hp]
      have h1 := hW.keeps _ k col hcol _ _ hx fun e => absurd e (value_ne_nil _ _ _)
      have he : W.keep c.field (Typed.write W.dialect W.decls W.facts (W.ty c.field) v) = .null := he
      rw [hwr] at he
      rw [he] at h1
      generalize hval : value W.dialect k v = w at h1
      cases h1
      exact value_ne_nil _ _ _ hval

/-- C96: records of fields of predeclared types, of types defined from them and of pointers, in the columns declared for them, of
which every value fits its column.  Whatever the sequence of inserts, finds, updates and deletes: every call gives what it would on
a map from keys to records, the table has the records of the map afterwards, and no other table has changed. -/
theorem C96_store_partial (hW : Behaves W) (hs : Shape g S t) (hk : ∀ c ∈ pick t (keyPos t), isPtr (W.ty c.field) = false)
    (hw : AllWritten t) (ha : t.auto = none) (ops : List (Spec.Store.Op F Val)) (hf : ∀ o ∈ ops, Fine (Stores W) t o) (m : Map F Val) (σ : Spec.Sql.Store Cell)
    (hm : Store.Keeps (W.env g S gen auto) (Stores W) t m σ) :
    (performs (W.env g S gen auto) t ops σ).1 = (acts t ops m).1 ∧
      Store.Keeps (W.env g S gen auto) (Stores W) t (acts t ops m).2 (performs (W.env g S gen auto) t ops σ).2 ∧
      ∀ n, n ≠ tableName S t → (performs (W.env g S gen auto) t ops σ).2 n = σ n :=
  C90_keyed_store (typed_setup hW hs hk) hw ha ops hf m σ hm

/-- C96, for one record: what `InsertOne` stored is found by `FindByPK`, whatever is done with other keys in between. -/
theorem C96_reads_back_partial (hW : Behaves W) (hs : Shape g S t) (hk : ∀ c ∈ pick t (keyPos t), isPtr (W.ty c.field) = false)
    (hw : AllWritten t) (ha : t.auto = none) (m : Map F Val) (σ : Spec.Sql.Store Cell) (hm : Store.Keeps (W.env g S gen auto) (Stores W) t m σ)
    (r r' : F → Val) (hr : Good (Stores W) t r) (hr' : Good (Stores W) t r') (hkey : keyOf t r' = keyOf t r)
    (ops : List (Spec.Store.Op F Val)) (hf : ∀ o ∈ ops, Fine (Stores W) t o) (ho : ∀ o ∈ ops, keyOf t o.record ≠ keyOf t r)
    (σ₁ : Spec.Sql.Store Cell) (hin : insertOne (W.env g S gen auto) t r σ = (.ok r, σ₁)) :
    (findByPK (W.env g S gen auto) t r' (performs (W.env g S gen auto) t ops σ₁).2).1 = .ok (load t r r') :=
  C90_reads_back (typed_setup hW hs hk) hw ha m σ hm r r' hr hr' hkey ops hf ho σ₁ hin

theorem convert_fits {k : GoInt} {c : Nat} {n : Int} (hb : k ≠ .byte) (h : Fits (goOf (.int k)) (.int c) (.int n)) :
    convert (.int k) (.num n) = some (.int n) := by
  generalize hg : goOf (.int k) = T at h
  cases h with
  | int h1 h2 =>
    cases k <;> simp only [goOf, Go.int.injEq, reduceCtorEq] at hg <;> subst hg <;>
      simp only [convert] <;> rw [toSigned_of_range (by decide) h1.1 h1.2]
  | @uint w _ n h1 h2 =>
    cases k <;> simp only [goOf, Go.uint.injEq, reduceCtorEq] at hg <;> first | exact absurd rfl hb | skip
    all_goals
      subst hg
      simp only [convert]
      rw [toUnsigned_of_range h1]

/-- C96, for keys of integer types made up by the database: as before, with each insert storing the record under a new key, which
the record then has.  The database is to make up numbers that are not in the table and that fit the field and the column. -/
theorem C96_made_up_keys_partial {k : GoInt} (hW : Behaves W) (hs : Shape g S t)
    (hk : ∀ c ∈ pick t (keyPos t), isPtr (W.ty c.field) = false) (hw : AllWritten t) {c : GCol F} (ha : t.autoCol = some c)
    (hfs : (t.columns.map (·.field)).Nodup) (hi : pick t (insertPos t) ≠ []) {w : Nat} (hcol : HasCol W c.field (.int k) (.int w))
    (hgen : ∀ rows, ∃ n : Int, gen (tableOf S t rows) = .num n ∧ Fits (goOf (.int k)) (.int w) (.int n) ∧
      ∀ row ∈ rows, row (colName S c) ≠ .num n)
    (ops : List (Spec.Store.Op F Val)) (hf : ∀ o ∈ ops, Fine (Stores W) t o) (m : Map F Val) (σ : Spec.Sql.Store Cell)
    (hm : Store.Keeps (W.env g S gen (.int k)) (Stores W) t m σ) :
    ∃ m', Acts t ops m (performs (W.env g S gen (.int k)) t ops σ).1 m' ∧
      Store.Keeps (W.env g S gen (.int k)) (Stores W) t m' (performs (W.env g S gen (.int k)) t ops σ).2 ∧
      ∀ n, n ≠ tableName S t → (performs (W.env g S gen (.int k)) t ops σ).2 n = σ n := by
  refine C90_made_up_keys (typed_setup hW hs hk) hw ha hfs hi (fun rows => ?_) ops hf m σ hm
  obtain ⟨n, hn, hfit, hnew⟩ := hgen rows
  have hbyte := scalar_byte hcol.1
  have hst : Stores W c.field (.int n) := ⟨_, _, hcol, .inr hfit⟩
  have hg : (W.env g S gen (.int k)).gen (tableOf (W.env g S gen (.int k)).D t rows) = .num n := hn
  refine ⟨.int n, hst, ?_, ?_, ?_⟩
  · rw [hg]
    obtain ⟨⟨⟨x, hx⟩, -⟩, hsame, hnil⟩ := back_kind hbyte hcol.2 hfit
    have hwr : Typed.write W.dialect W.decls W.facts (W.ty c.field) (.int n) = Typed.value W.dialect (.int k) (.int n) := by
      rcases (write_read hcol.1 W.dialect W.lib).1 with hw | ⟨hp, hw⟩
      · exact hw _ (.inr hnil)
      · rw [hw _ (.inr hnil), hsame hp]
    have h1 := hW.keeps _ _ _ hcol _ _ hx fun e => absurd e (value_ne_nil _ _ _)
    show W.keep c.field (Typed.write W.dialect W.decls W.facts (W.ty c.field) (.int n)) = _
    rw [hwr]
    exact kept_int hcol.2 hfit (fun h => hbyte (h ▸ rfl)) h1
  · rw [hg]
    exact convert_fits (fun h => hbyte (h ▸ rfl)) hfit
  · rw [hg]
    exact hnew

end Records

end Verif.Props
