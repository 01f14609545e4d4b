import Verif.Props.RichOrder

/-!
# Which lists, byte strings and times are not kept (C99)
-/

namespace Verif.Props

open Verif Verif.Dispatch Verif.Typed Verif.Rich Verif.ColumnType Verif.Scan Verif.Float Verif.Spec
open Verif.Spec.Rich Verif.Spec.Float Verif.Spec.Scan Verif.Spec.Time

variable {F : Type}

/-- C99, false for byte strings and for lists of floating point numbers on PostgreSQL: the types declared for them, `blob` and
`double[]`, do not exist. -/
theorem C99_postgres_no_column {W : Rich.World F} (hd : W.dialect = .postgres) {f : F} {k : Form} (hs : Has W.decls W.facts (W.ty f) k)
    (hk : k = .bytes ∨ ∃ w, k = .list (.float w)) : (¬ ∃ col, Spec.Rich.HasCol W f k col) ∧ ∀ v, ¬ Spec.Rich.Stores W f v := by
  suffices h : ¬ ∃ col, Spec.Rich.HasCol W f k col by
    refine ⟨h, ?_⟩
    rintro v ⟨k', col, hc, -⟩
    obtain rfl := form_unique hs hc.1
    exact h ⟨col, hc⟩
  rintro ⟨col, hc⟩
  have h2 := hc.2
  rw [hd] at h2
  rcases hk with rfl | ⟨w, rfl⟩
  · cases h2
  · rw [list_meaning] at h2
    cases h2

/-- C99, false for lists of `int`, `uint` and `uint32` on PostgreSQL, whose arrays have 32 bits: no list with a number that does not fit is
kept.  In general: of lists of integers exactly those are kept whose elements have the bits of the array. -/
theorem C99_postgres_large_elements {W : Rich.World F} (hd : W.dialect = .postgres) {f : F} {k : GoInt}
    (hs : Has W.decls W.facts (W.ty f) (.list (.int k))) (l : List Int)
    (hl : ∀ n ∈ l, (Spec.Typed.typeLimits k).1 ≤ n ∧ n ≤ (Spec.Typed.typeLimits k).2) :
    (∃ c, Spec.Rich.Keeps (.array (.int (Spec.Rich.elementBits k))) (Rich.write W.dialect W.decls W.facts (W.ty f) (.ints l)) c) ↔
      ∀ n ∈ l, -2 ^ (Spec.Rich.elementBits k - 1) ≤ n ∧ n < 2 ^ (Spec.Rich.elementBits k - 1) := by
  have htext : ∃ t, Rich.write W.dialect W.decls W.facts (W.ty f) (.ints l) = .str t ∧ ArrayText t (l.map intDec) := by
    obtain ⟨b, hb, -, hw, -⟩ := list_both W.dialect hs
    unfold Rich.write
    rw [hw]
    simp only [Rich.value, if_neg (list_name hb), hb, listText, hd, show format .postgres = .brace from rfl]
    by_cases hk : Rich.signed k = true
    · simp only [if_pos hk, intValue, sliceText_value, asText]
      exact ⟨_, rfl, sliceText_is fun n _ => item_int n⟩
    · simp only [if_neg hk, uintValue, sliceText_value, asText]
      refine ⟨_, rfl, ?_⟩
      have h1 := sliceText_is (enc := natDec) (g := natDec) (l := l.map Int.toNat) fun n _ => intDec_natCast n ▸ item_int n
      rw [List.map_map] at h1
      have e : l.map (natDec ∘ Int.toNat) = l.map intDec := by
        refine List.map_congr_left fun n hn => ?_
        have h2 := (typeLimits_iff k n).1 (hl n hn)
        rw [if_neg hk] at h2
        obtain ⟨m, rfl, -⟩ := h2
        simp [intDec_natCast]
      rwa [e] at h1
  obtain ⟨t, ht, hat⟩ := htext
  rw [ht]
  constructor
  · rintro ⟨c, hc⟩ n hn
    cases hc with
    | @array _ _ ts cs h1 h2 =>
      obtain rfl := arrayText_unique h1 hat
      obtain ⟨c, hc⟩ : ∃ c, ItemIn (.int (Spec.Rich.elementBits k)) (intDec n) c := by
        clear h1 ht hat hl
        induction l generalizing cs with
        | nil => cases hn
        | cons x xs ih =>
          cases h2 with
          | cons h3 h4 =>
            rcases List.mem_cons.1 hn with rfl | hn
            · exact ⟨_, h3⟩
            · exact ih hn h4
      generalize hj : intDec n = u at hc
      cases hc with
      | int h =>
        rw [intDec_inj hj]
        exact h
  · intro h
    refine ⟨.array (l.map .num), .array hat ?_⟩
    clear ht hat hl
    induction l with
    | nil => exact .nil
    | cons x xs ih => exact .cons (.int (h x (by simp))) (ih fun n hn => h n (by simp [hn]))

theorem listResult_none {α : Type} {put : List α → Rich.Val} {f : Fmt} {conv : Option Bytes → Res α} {b : Bytes} {a : Option (List α)}
    (h : ∀ r, scanBytesWith f conv b a ≠ (.ok (), some r)) : listResult put (scanBytesWith f conv b a) = none := by
  unfold scanBytesWith at h ⊢
  split
  · rfl
  · rfl
  · rename_i es he
    rw [he] at h
    simp only at h
    split
    · rename_i hc
      rw [if_pos hc] at h
      exact absurd rfl (h _)
    · rename_i hc
      rw [if_neg hc] at h
      split
      · rename_i hx
        rw [hx] at h
        exact absurd rfl (h _)
      · rfl
      · rfl

theorem list_read {D : Decls} {fs : Facts} {ty : Ty} {k : Typed.Kind} (L : Lib) (d : ColumnType.Dialect) (h : Has D fs ty (.list k)) (s : Src)
    (old : Rich.Val) : Rich.read L d D fs ty s old = listScanner L d old s k := by
  obtain ⟨b, hb, -, -, hr⟩ := list_both d h
  unfold Rich.read
  rw [hr]
  simp only [if_neg (list_name hb), hb, Option.bind_some]

theorem list_write {D : Decls} {fs : Facts} {ty : Ty} {k : Typed.Kind} (d : ColumnType.Dialect) (h : Has D fs ty (.list k)) (v : Rich.Val) :
    Rich.write d D fs ty v = asText (listText d k v) := by
  obtain ⟨b, hb, -, hw, -⟩ := list_both d h
  unfold Rich.write
  rw [hw]
  simp only [Rich.value, if_neg (list_name hb), hb]

theorem scan_uints (x y : Int) (zs : List Int) (w : Nat) (a : Option (List Nat)) (r : List Nat) :
    scanBytesWith .bracket (convUint w) (mysqlJsonInts ((x :: y :: zs).map intDec)) a ≠ (.ok (), some r) := by
  refine scan_err_of_conv .bracket (convUint w) (linear_mysql x (y :: zs)) ⟨some (32 :: intDec y), by simp, fun z => ?_⟩ a r
  have h : parseDigits 10 (32 :: intDec y) 0 = none := by simp [parseDigits]
  simp [convUint, parseUint, h]

/-- C99, lists on MySQL: they have JSON columns, in which no list is kept but nil, where it may be. -/
theorem C99_mysql_json {W : Rich.World F} (hd : W.dialect = .mysql) {f : F} {k : Typed.Kind} (hs : Has W.decls W.facts (W.ty f) (.list k)) :
    (∀ col, Spec.Rich.HasCol W f (.list k) col ↔ col = .json) ∧
      ∀ v, Spec.Rich.Stores W f v ↔ v = .base .nil ∧ Spec.Rich.MayBeNil W f (.list k) := by
  have hcol : ∀ col, Spec.Rich.HasCol W f (.list k) col ↔ col = .json := by
    intro col
    unfold Spec.Rich.HasCol
    rw [hd, list_meaning]
    simp [hs, eq_comm]
  refine ⟨hcol, fun v => ?_⟩
  rw [C99_stores_iff hs, hd]
  simp [Spec.Rich.KeptIn, hcol]

/-- C99, false for lists of numbers on MySQL: a JSON column prints `[1, 2]`, and of this no list of two or more numbers is read.  Lists of
truth values are not JSON when they are written. -/
theorem C99_mysql_numbers {D : Decls} {fs : Facts} {ty : Ty} (L : Lib) (old : Rich.Val) :
    (∀ k, Has D fs ty (.list (.int k)) → ∀ x y zs,
      Rich.read L .mysql D fs ty (.bytes (mysqlJsonInts ((x :: y :: zs).map intDec))) old = none) ∧
    (∀ w, Has D fs ty (.list (.float w)) → ∀ x y zs,
      Rich.read L .mysql D fs ty (.bytes (mysqlJsonInts ((x :: y :: zs).map (print (fmt w))))) old = none) ∧
    (Has D fs ty (.list .bool) → ∀ l, l ≠ [] → ∃ t, Rich.write .mysql D fs ty (.bools l) = .str t ∧ ¬ IsJson t) := by
  refine ⟨fun k h x y zs => ?_, fun w h x y zs => ?_, fun h l hl => ?_⟩
  · rw [list_read L .mysql h]
    by_cases hs : Rich.signed k = true
    · simp only [listScanner, hs, if_true]
      exact listResult_none (C57_mysql_json_ints_unreadable _ x y zs _)
    · simp only [listScanner, if_neg hs]
      exact listResult_none (scan_uints x y zs _ _)
  · rw [list_read L .mysql h]
    exact listResult_none (C94_list_mysql L.odd w x y zs _)
  · rw [list_write .mysql h]
    obtain ⟨t, h1, h2⟩ := C10_bool_slices_never_json l hl
    refine ⟨t, ?_, h2⟩
    simp only [listText, show format .mysql = .bracket from rfl, h1, asText]

/-- C99, false for lists of texts on MySQL: a JSON column prints `["a", "b"]`, which is read without an error, but as other texts: all but
the first have a space and quotes around them. -/
theorem C99_mysql_texts {D : Decls} {fs : Facts} {ty : Ty} (L : Lib) (old : Rich.Val) (h : Has D fs ty (.list .string)) (x : Bytes)
    (ys : List Bytes) (hp : ∀ s ∈ x :: ys, ∀ b ∈ s, 32 ≤ b.toNat ∧ b ∉ [34, 44, 92, 93]) :
    Rich.read L .mysql D fs ty (.bytes (mysqlJsonInts ((x :: ys).map fun s => 34 :: (s ++ [34])))) old =
      some (.strs (x :: ys.map fun s => 32 :: 34 :: (s ++ [34]))) := by
  rw [list_read L .mysql h]
  have hq : ∀ s : Bytes, (∀ b ∈ s, 32 ≤ b.toNat ∧ b ∉ ([34, 44, 92, 93] : List Byte)) → QuotedBody s s := by
    intro s
    induction s with
    | nil => exact fun _ => .nil
    | cons b s ih =>
      intro hs
      have hb := (hs b (by simp)).2
      exact .plain (fun e => hb (by simp [e])) (fun e => hb (by simp [e])) (ih fun c hc => hs c (by simp [hc]))
  have hL : LinearArray 91 93 (mysqlJsonInts ((x :: ys).map fun s => 34 :: (s ++ [34])))
      (some x :: (ys.map fun s => 32 :: 34 :: (s ++ [34])).map some) := by
    have hi := linear_of_list (o := 91) (c := 93) (enc := fun p : Bool × Bytes => if p.1 then 34 :: (p.2 ++ [34]) else 32 :: 34 :: (p.2 ++ [34]))
      (g := fun p => some (if p.1 then p.2 else 32 :: 34 :: (p.2 ++ [34]))) (true, x) (ys.map fun s => (false, s)) (by
        intro p hm
        rcases List.mem_cons.1 hm with rfl | hm
        · exact .quoted (hq x (hp x (by simp)))
        · obtain ⟨s, hs, rfl⟩ := List.mem_map.1 hm
          refine .bare (by decide) (by decide) (fun b hb => ?_) (by simp)
          simp only [List.mem_cons, List.mem_append, List.not_mem_nil, or_false] at hb
          rcases hb with rfl | rfl | hb | rfl
          · decide
          · decide
          · have := (hp s (by simp [hs]) b hb).2
            exact ⟨fun e => this (by simp [e]), fun e => this (by simp [e])⟩
          · decide)
    have e : arrayText 91 93 (fun p : Bool × Bytes => if p.1 then 34 :: (p.2 ++ [34]) else 32 :: 34 :: (p.2 ++ [34])) (true, x)
        (ys.map fun s => (false, s)) = mysqlJsonInts ((x :: ys).map fun s => 34 :: (s ++ [34])) := by
      simp [arrayText, mysqlJsonInts, List.flatMap_map]
    rw [e] at hi
    simpa [Function.comp_def] using hi
  have := (scanBytesWith_ok .bracket convString _ (getStrs old) (x :: ys.map fun s => 32 :: 34 :: (s ++ [34]))).2
    ⟨_, hL, .cons rfl (by
      clear hL hp hq
      induction ys with
      | nil => exact .nil
      | cons y ys ih => exact .cons rfl ih)⟩
  simp only [listScanner, show format .mysql = .bracket from rfl, stringScan, toDV, scanWith]
  rw [this]
  rfl

/-- C99, false for times on SQLite, in whose columns they are texts, and on MySQL without `parseTime`: into a `time.Time` no text is
read; into a `*time.Time` of a date and a clock with a space between them and a zone, which is how the driver of SQLite writes times,
none is read either. -/
theorem C99_text_times {D : Decls} {fs : Facts} {ty : Ty} (L : Lib) (d : ColumnType.Dialect) (old : Rich.Val) (h : Has D fs ty .time) :
    (isPtr ty = false → ∀ s, Rich.read L d D fs ty (.str s) old = none ∧ Rich.read L d D fs ty (.bytes s) old = none) ∧
    ∀ tg, Verif.Time.IsGo L.std tg → ∀ (dt : Date) (c : Clock) (f zt : Bytes) (ns : Nat) (off : Int), dt.Valid → c.Valid → Fraction 46 f ns →
      Zone 24 60 zt off → Rich.read L d D fs ty (.str (dt.text ++ 32 :: (c.text ++ (f ++ zt)))) old = none := by
  obtain ⟨-, hr⟩ := time_both d h
  refine ⟨fun hp s => ?_, fun tg hg dt c f zt ns off hd hc hf hz => ?_⟩
  · rcases hr with ⟨-, ht, hr⟩ | ⟨hp', -⟩
    · unfold Rich.read
      rw [hr]
      simp only [ht, if_true, assignTime, and_self]
    · rw [hp] at hp'; cases hp'
  · rcases hr with ⟨-, ht, hr⟩ | ⟨-, hr⟩
    · unfold Rich.read
      rw [hr]
      simp only [ht, if_true, assignTime]
    · unfold Rich.read
      rw [hr]
      simp only [if_true, scanTimePtr, C88_space_zone_never hg _ _ hd hc hf hz]

end Verif.Props
