import Verif.Props.FixedMore
import Verif.Props.CustomExample

/-!
# C109 at work: records with a key of type `[4]byte`, a `[3]rune` and a `[2]byte`, on all databases
-/

namespace Verif.Props

open Verif Verif.Dispatch Verif.Typed Verif.Fixed Verif.ColumnType Verif.Scan Verif.Spec.Scan Verif.Spec Verif.Spec.Fixed
open Verif.Gen Verif.Store Verif.Spec.Store Verif.Spec.Gen

def fixedBase (d : ColumnType.Dialect) : Rich.World Nat :=
  { customBase with
    dialect := d
    facts := ⟨fun _ => false, fun _ => false, fun _ => false, fun _ => false, fun _ => false, fun _ => false⟩
    ty := fun f => if f = 10 then .array 4 (.basic "byte".toList) else if f = 13 then .array 3 (.basic "rune".toList)
      else .array 2 (.basic "byte".toList)
    size := fun _ => 4 }

def fixedWorld (d : ColumnType.Dialect) : Fixed.World Nat Bytes where
  base := { customWorld with base := { customWorld.base with base := fixedBase d }, own := fun _ => false }
  arr _ := true
  keep f p := if f = 13 then .text (srcText p) else
    match d with
    | .mysql => .text (trim (srcText p))
    | .postgres => .text (srcText p)
    | .sqlite => .blob (srcText p)
  hand _
    | .text s => if d = .mysql then .bytes s else .str s
    | .blob s => .bytes s
    | .base _ => .nil

variable (d : ColumnType.Dialect)

theorem fixedTy (f : Nat) : (f = 10 ∧ Is (fixedWorld d) f .byte 4) ∨ (f = 13 ∧ Is (fixedWorld d) f .rune 3) ∨
    (f ≠ 10 ∧ f ≠ 13 ∧ Is (fixedWorld d) f .byte 2) := by
  by_cases h : f = 10
  · subst h; exact .inl ⟨rfl, rfl, rfl, by omega, ⟨rfl, rfl, rfl, rfl, rfl, rfl⟩⟩
  · by_cases h2 : f = 13
    · subst h2; exact .inr (.inl ⟨rfl, rfl, rfl, by omega, ⟨rfl, rfl, rfl, rfl, rfl, rfl⟩⟩)
    · refine .inr (.inr ⟨h, h2, rfl, ?_, by omega, ⟨rfl, rfl, rfl, rfl, rfl, rfl⟩⟩)
      show (fixedBase d).ty f = _
      simp [fixedBase, h, h2]

/-- The columns. -/
theorem fixedColumn (f : Nat) : ∃ e n, Is (fixedWorld d) f e n ∧ (e = .rune ↔ f = 13) ∧ Fixed.Column (fixedWorld d) f e n
    (match d, e with
      | .mysql, e => .text (some 4) true (decide (e = .rune))
      | .postgres, _ => .text (some 4) false true
      | .sqlite, .byte => .blob
      | .sqlite, .rune => .text none true true) := by
  rcases fixedTy d f with ⟨h, hi⟩ | ⟨h, hi⟩ | ⟨h, h2, hi⟩
  · exact ⟨_, _, hi, by simp [h], hi, by cases d <;> rfl⟩
  · exact ⟨_, _, hi, by simp [h], hi, by cases d <;> rfl⟩
  · exact ⟨_, _, hi, by simp [h2], hi, by cases d <;> rfl⟩

theorem has_no_array {D F n t k} (h : Spec.Rich.Has D F (.array n t) k) : False := by
  cases h with
  | scalar h => cases h

theorem doc_no_array {D F n b} (h : Spec.Document.Doc D F (.array n (.basic b))) : (kindOf b).isSome ∧ b ≠ "byte".toList := by
  cases h with
  | plain h =>
    cases h with
    | numbers h1 h2 => exact ⟨by simp [h1], fun h => h2 (by simp [h])⟩

theorem fixedBehaves : Fixed.Behaves (fixedWorld d) := by
  have hk : kindOf "rune".toList = none := by decide +kernel
  refine ⟨⟨⟨fun f k col h => ?_, fun f k col h => ?_⟩, fun f col h => ?_⟩, fun f e n col hc s c hk => ?_, fun f e n col hc s c hk => ?_⟩
  · obtain ⟨h, -⟩ := h
    rcases fixedTy d f with ⟨-, hi⟩ | ⟨-, hi⟩ | ⟨-, -, hi⟩ <;>
    · exact False.elim <| has_no_array (hi.ty ▸ h)
  · obtain ⟨h, -⟩ := h
    rcases fixedTy d f with ⟨-, hi⟩ | ⟨-, hi⟩ | ⟨-, -, hi⟩ <;>
    · exact False.elim <| has_no_array (hi.ty ▸ h)
  · have h := h.ty
    rcases fixedTy d f with ⟨-, hi⟩ | ⟨-, hi⟩ | ⟨-, -, hi⟩
    · exact False.elim <| (doc_no_array (hi.ty ▸ h)).2 rfl
    · have := (doc_no_array (hi.ty ▸ h)).1
      rw [show kindOf (match Elem.rune with | .byte => "byte".toList | .rune => "rune".toList) = none from hk] at this
      cases this
    · exact False.elim <| (doc_no_array (hi.ty ▸ h)).2 rfl
  · obtain ⟨e', n', hi, hf, hc'⟩ := fixedColumn d f
    obtain ⟨rfl, rfl⟩ := is_unique hc.1 hi
    have hcol := Option.some.inj (hc.2.symm.trans hc'.2)
    subst hcol
    have hr : f = 13 → (fixedWorld d).keep f s = .text (srcText s) := fun h => by simp [fixedWorld, h]
    have hst : ∀ t, Fixed.Text s t → srcText s = t := by intro t h; cases h <;> rfl
    cases e with
    | rune =>
      rw [hr (hf.1 rfl)]
      cases d with
      | mysql => cases hk with | text ht htk => rw [hst _ ht]; exact .text ht htk
      | postgres => cases hk with | text ht htk => rw [hst _ ht]; exact .text ht htk
      | sqlite => cases hk with | text ht htk => rw [hst _ ht]; exact .text ht htk
    | byte =>
      have hne : ¬ f = 13 := fun h => by have := hf.2 h; cases this
      cases d with
      | mysql =>
        have : (fixedWorld .mysql).keep f s = .text (trim (srcText s)) := by simp [fixedWorld, hne]
        rw [this]
        cases hk with | trimmed ht htk _ => rw [hst _ ht]; exact .trimmed ht htk (trim_trimmed _)
      | postgres =>
        have : (fixedWorld .postgres).keep f s = .text (srcText s) := by simp [fixedWorld]
        rw [this]
        cases hk with | text ht htk => rw [hst _ ht]; exact .text ht htk
      | sqlite =>
        have : (fixedWorld .sqlite).keep f s = .blob (srcText s) := by simp [fixedWorld, hne]
        rw [this]
        cases hk with | blob => exact .blob
  · have htx : ∀ s, Fixed.Hands (.text s) ((fixedWorld d).hand f (.text s)) := by
      intro s
      by_cases h : d = .mysql
      · simp only [fixedWorld, h, if_true]; exact .bytes
      · simp only [fixedWorld, h, if_false]; exact .str
    cases hk with
    | text => exact htx _
    | trimmed => exact htx _
    | blob => exact .blob

/-! ## A database that compares -/

/-- NULL and other values first; then texts and byte strings by their bytes. -/
def fixedLess : Fixed.Cell → Fixed.Cell → Bool
  | .base a, .base b => customLess a b
  | .base _, _ => true
  | .text a, .text b => decide (a < b)
  | .text _, .blob _ => true
  | .blob a, .blob b => decide (a < b)
  | _, _ => false

theorem fixedLess_weak : (∀ x y, fixedLess x y = true → fixedLess y x = false) ∧
    ∀ x y z, fixedLess y x = false → fixedLess z y = false → fixedLess z x = false := by
  constructor
  · intro x y
    cases x <;> cases y <;> simp [fixedLess]
    · exact customLess_weak.1 _ _
    · intro h; exact List.le_of_lt h
    · intro h; exact List.le_of_lt h
  · intro x y z
    cases x <;> cases y <;> cases z <;> simp [fixedLess]
    · exact customLess_weak.2 _ _ _
    · exact List.le_trans
    · exact List.le_trans

def fixedLe (ks : List (Spec.Sql.Name × Bool)) (a b : Spec.Sql.Row Fixed.Cell) : Prop := Spec.Sql.precedes fixedLess ks b a = false

instance (ks : List (Spec.Sql.Name × Bool)) : DecidableRel (fixedLe ks) := fun _ _ => inferInstanceAs (Decidable (_ = _))

def fixedOrd : Spec.Sql.Compare Fixed.Cell where
  eq
    | .base a, .base b => customOrd.eq a b
    | .text a, .text b => decide (a = b)
    | .blob a, .blob b => decide (a = b)
    | _, _ => false
  lt
    | .base a, .base b => customOrd.lt a b
    | .text a, .text b => decide (a < b)
    | .blob a, .blob b => decide (a < b)
    | _, _ => false
  like _ _ := false
  before := fixedLess
  arrange ks rows := rows.insertionSort (fixedLe ks)
  perm ks rows := List.perm_insertionSort _ _
  sorted ks rows := by
    have : Std.Total (fixedLe ks) := ⟨fun a b => (precedes_weak fixedLess_weak.1 fixedLess_weak.2 ks a b a).2⟩
    have : IsTrans _ (fixedLe ks) := ⟨fun a b c => (precedes_weak fixedLess_weak.1 fixedLess_weak.2 ks a b c).1⟩
    exact List.pairwise_insertionSort (fixedLe ks) rows

/-- There is nothing to compare but arrays. -/
def fixedOther : Spec.Store.Comp Nat (Val Bytes) where
  isNil _ _ := false
  eq f x y := fixedOrd.eq ((fixedWorld d).enc f x) ((fixedWorld d).enc f y)
  lt f x y := fixedOrd.lt ((fixedWorld d).enc f x) ((fixedWorld d).enc f y)
  like _ _ _ := false
  before f x y := fixedOrd.before ((fixedWorld d).enc f x) ((fixedWorld d).enc f y)

theorem fixedCompares : Fixed.Compares (fixedWorld d) fixedOrd true (fixedOther d) :=
  ⟨⟨customOrd, ⟨⟨docOrd, ⟨⟨richOrd, richSorts, ⟨fun _ _ _ _ _ => rfl, fun _ _ _ _ _ _ _ _ _ => ⟨rfl, rfl, rfl⟩⟩, fun _ _ => ⟨rfl, rfl, rfl, rfl⟩⟩,
    fun _ => ⟨⟨rfl, rfl, rfl⟩, rfl, rfl, rfl⟩, fun _ _ _ _ _ _ => ⟨rfl, fun _ _ => ⟨rfl, rfl, rfl⟩⟩⟩, fun _ _ => ⟨rfl, rfl, rfl, rfl⟩⟩,
    ⟨⟨rfl, rfl, rfl⟩, fun _ => ⟨⟨rfl, rfl, rfl⟩, rfl, rfl, rfl⟩⟩, fun _ _ _ _ _ => ⟨rfl, fun _ _ => ⟨rfl, rfl, rfl⟩⟩⟩,
    fun _ _ => ⟨rfl, rfl, rfl, rfl⟩⟩, fun _ _ => ⟨rfl, rfl, rfl⟩, fun _ _ => ⟨rfl, rfl, rfl⟩, fun _ _ _ _ _ _ => rfl⟩

/-! ## Records -/

def fixedRec (k : Bytes) (r : List Char) (b : Bytes) : Nat → Val Bytes :=
  fun f => if f = 10 then .bytes k else if f = 13 then .runes (r.map fun c => (c.toNat : Int)) else .bytes b

/-- Records of ASCII characters without NUL, and without a space at the end of the bytes, are stored by all databases. -/
theorem fixedGood (k r b : List Char) (hk : k.length = 4) (hr : r.length = 3) (hb : b.length = 2)
    (ha : ∀ c ∈ k ++ r ++ b, 32 < c.toNat ∧ c.toNat < 128) :
    Good (Fixed.Stores (fixedWorld d)) (storeUser "people") (fixedRec (utf8s k) r (utf8s b)) := by
  have nul : ∀ l : List Char, (∀ c ∈ l, 32 < c.toNat ∧ c.toNat < 128) → Char.ofNat 0 ∉ l := by
    intro l h h0
    have := (h _ h0).1
    revert this; decide +kernel
  have bytes : ∀ (f n : Nat) (l : List Char), Is (fixedWorld d) f .byte n → f ≠ 13 → l.length = n → n ≤ 4 →
      (∀ c ∈ l, 32 < c.toNat ∧ c.toNat < 128) → Fixed.Stores (fixedWorld d) f (.bytes (utf8s l)) := by
    intro f n l hi hf hl hn h
    obtain ⟨e, n', hi', he, hc⟩ := fixedColumn d f
    obtain ⟨rfl, rfl⟩ := is_unique hi hi'
    refine ⟨_, _, hc, ?_, ?_⟩
    · rw [utf8s_ascii_length l fun c hc => (h c hc).2, hl]
    · have ht : ∀ m nul', (∀ n, m = some n → 4 ≤ n) → Fixed.Takes m nul' (utf8s l) := fun m nul' hm =>
        ⟨l, rfl, fun n' hn' => by have := hm n' hn'; omega, fun _ => nul l h⟩
      have hsp : ∀ t, utf8s l ≠ t ++ [32] := by
        intro t e
        have hm : (32 : Byte) ∈ utf8s l := by rw [e]; simp
        clear e ht hl hc
        induction l with
        | nil => simp [utf8s] at hm
        | cons c l ih =>
          rw [utf8s_cons] at hm
          rcases List.mem_append.1 hm with hm | hm
          · have hc := h c List.mem_cons_self
            rw [utf8_ascii hc.2] at hm
            have := congrArg UInt8.toNat (List.mem_singleton.1 hm)
            rw [toNat_ofNat_lt (by omega)] at this
            have h32 : (32 : Byte).toNat = 32 := rfl
            omega
          · exact ih (fun c hc => h c (List.mem_cons_of_mem _ hc)) hm
      cases d with
      | mysql => exact ⟨ht _ _ (by simp), fun _ => hsp⟩
      | postgres => exact ⟨ht _ _ (by simp), fun h => by cases h⟩
      | sqlite => trivial
  intro c hc
  simp only [storeUser, List.mem_cons, List.not_mem_nil, or_false] at hc
  rcases hc with rfl | rfl | rfl
  · rcases fixedTy d 10 with ⟨-, hi⟩ | ⟨h, -⟩ | ⟨h, -⟩
    · exact bytes 10 4 k hi (by omega) hk (by omega) fun c hc => ha c (by simp [hc])
    · cases h
    · exact absurd rfl h
  · rcases fixedTy d 13 with ⟨h, -⟩ | ⟨-, hi⟩ | ⟨-, h, -⟩
    · cases h
    · have hcol : ∃ m nul', Fixed.Column (fixedWorld d) 13 .rune 3 (.text m nul' true) ∧ ∀ n, m = some n → n = 4 := by
        cases d
        · exact ⟨some 4, true, ⟨hi, rfl⟩, by simp⟩
        · exact ⟨some 4, false, ⟨hi, rfl⟩, by simp⟩
        · exact ⟨none, true, ⟨hi, rfl⟩, by simp⟩
      obtain ⟨m, nul', hcol, hm⟩ := hcol
      have har : ∀ c ∈ r, 32 < c.toNat ∧ c.toNat < 128 := fun c hc => ha c (by simp [hc])
      exact ⟨3, m, nul', hcol, r, rfl, hr, fun n hn => by have := hm n hn; omega, fun _ => nul r har, .inr fun c hc => (har c hc).2⟩
    · exact absurd rfl h
  · rcases fixedTy d 15 with ⟨h, -⟩ | ⟨h, -⟩ | ⟨-, -, hi⟩
    · cases h
    · cases h
    · exact bytes 15 2 b hi (by omega) hb (by omega) fun c hc => ha c (by simp [hc])

def fixedEnv : Env Nat (Val Bytes) Fixed.Cell := (fixedWorld d).env (storeCfg true) storePg (fun _ => .base Custom.null) (.int .int64)

def fixedTwo : Spec.Sql.Store Fixed.Cell :=
  (performs (fixedEnv d) (storeUser "people") [.insert (fixedRec [1, 2, 3, 4] ['a', 'b', 'c'] [66, 67]),
    .insert (fixedRec [5, 6, 7, 8] ['é', 'b', 'c'] [66, 32])]
    fun n => if n = "people".toList then some (Spec.Store.tableOf storePg (storeUser "people") []) else none).2

def fixedSee : Out (Nat → Val Bytes) → Option (List (Val Bytes))
  | .ok r => some ((genAddrs (storeUser "people")).map r)
  | _ => none

/-- The records as they were, whatever was in the record that is read into. -/
example : ∀ d ∈ [ColumnType.Dialect.mysql, .postgres, .sqlite],
    fixedSee (findByPK (fixedEnv d) (storeUser "people") (fixedRec [1, 2, 3, 4] ['x', 'y', 'z'] [9, 9]) (fixedTwo d)).1 =
      some ((genAddrs (storeUser "people")).map (fixedRec [1, 2, 3, 4] ['a', 'b', 'c'] [66, 67])) := by
  decide +kernel

/-- On MySQL, the space at the end is gone, and there is what was there before; elsewhere, the character is not read. -/
example : fixedSee (findByPK (fixedEnv .mysql) (storeUser "people") (fixedRec [5, 6, 7, 8] ['x', 'y', 'z'] [9, 9]) (fixedTwo .mysql)).1 =
      some ((genAddrs (storeUser "people")).map (fixedRec [5, 6, 7, 8] ['é', 'b', 'c'] [66, 9])) ∧
    fixedSee (findByPK (fixedEnv .postgres) (storeUser "people") (fixedRec [5, 6, 7, 8] ['x', 'y', 'z'] [9, 9]) (fixedTwo .postgres)).1 = none ∧
    fixedSee (findByPK (fixedEnv .sqlite) (storeUser "people") (fixedRec [5, 6, 7, 8] ['x', 'y', 'z'] [9, 9]) (fixedTwo .sqlite)).1 = none := by
  decide +kernel

/-- The hypotheses of C109 hold for them. -/
example : Fixed.Behaves (fixedWorld d) ∧ (∀ c ∈ keyCols (storeUser "people"), Fixed.Keyed (fixedWorld d) c.field) ∧
    Fixed.Compares (fixedWorld d) fixedOrd true (fixedOther d) ∧
    Good (Fixed.Stores (fixedWorld d)) (storeUser "people") (fixedRec (utf8s ['h', 'a', 's', 'h']) ['a', 'b', 'c'] (utf8s ['x', 'y'])) :=
  ⟨fixedBehaves d, fun _ _ => .inr rfl, fixedCompares d, fixedGood d _ _ _ rfl rfl rfl (by decide +kernel)⟩

/-- An array that ends with spaces, on MySQL. -/
example : (fixedWorld .mysql).dec 10 ((fixedWorld .mysql).enc 10 (.bytes ([65] ++ List.replicate 3 32))) (.bytes [1, 2, 3, 4]) =
    some (.bytes [65, 2, 3, 4]) := by
  obtain ⟨e, n, hi, -, hc⟩ := fixedColumn .mysql 10
  rcases fixedTy .mysql 10 with ⟨-, hi'⟩ | ⟨h, -⟩ | ⟨h, -⟩
  · obtain ⟨rfl, rfl⟩ := is_unique hi' hi
    have hs : ∀ t : Bytes, [65] ≠ t ++ [32] := by
      intro t h
      cases t with
      | nil => simp at h
      | cons a t => simp at h
    exact C109_spaces (fixedBehaves .mysql) hc hs rfl ⟨['A', ' ', ' ', ' '], by decide +kernel, by simp, by simp⟩ [1, 2, 3, 4] rfl
  · cases h
  · exact absurd rfl h

/-- A hash whose first byte is no character: MySQL does not keep it. -/
example : ¬ ∃ c, Fixed.Keeps (.text (some 4) true false) (.bytes [255, 1, 2, 3]) c := by
  obtain ⟨e, n, hi, -, hc⟩ := fixedColumn .mysql 10
  rcases fixedTy .mysql 10 with ⟨-, hi'⟩ | ⟨h, -⟩ | ⟨h, -⟩
  · obtain ⟨rfl, rfl⟩ := is_unique hi' hi
    intro hk
    obtain ⟨cs, h, -⟩ := (C109_bytes_kept_iff hc (by decide) [255, 1, 2, 3]).1 hk
    have := congrArg List.head? h
    cases cs with
    | nil => simp [utf8s] at this
    | cons c cs =>
      rw [utf8s_cons] at this
      have hb := char_bound c
      have h255 : ∀ {p : Nat}, p < 255 → (255 : Byte) ≠ UInt8.ofNat p := fun hp h => by
        have := (byte_eq (p := 255) (by omega) (by omega)).1 h
        omega
      unfold utf8 at this
      dsimp only at this
      split at this
      · simp only [List.cons_append, List.head?_cons, Option.some.injEq] at this
        exact h255 (by omega) this
      · split at this
        · simp only [List.cons_append, List.head?_cons, Option.some.injEq] at this
          exact h255 (by omega) this
        · split at this
          · simp only [List.cons_append, List.head?_cons, Option.some.injEq] at this
            exact h255 (by omega) this
          · simp only [List.cons_append, List.head?_cons, Option.some.injEq] at this
            exact h255 (by omega) this
  · cases h
  · exact absurd rfl h

end Verif.Props
