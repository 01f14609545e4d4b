import Verif.Props.Dispatch

/-!
# C80, C81: the expressions for fields, and the search for them
-/

namespace Verif.Props

open Verif Verif.Dispatch

variable {D : Decls} {tab : Table} {F : Facts} {n : Nat}

/-! ## Typing, independently of the generator -/

/-- A type without aliases. -/
def norm : Ty → Ty
  | .alias r => norm r
  | .ptr e => .ptr (norm e)
  | .slice e => .slice (norm e)
  | .array k e => .array k (norm e)
  | t => t

/-- The underlying type. -/
def underlying (D : Decls) : Ty → Ty
  | .alias r => underlying D r
  | .named id => D.under id
  | t => t

/-- Underlying types are neither defined types nor aliases. -/
def WF (D : Decls) : Prop := ∀ id, (∀ j, D.under id ≠ .named j) ∧ ∀ r, D.under id ≠ .alias r

/-- `(StringSlice[A])(x)` for `x` of type `t`, where `StringSlice` is declared by `type StringSlice[A ~b] []A`. -/
def ConvertOk (D : Decls) (t A : Ty) (b : Text) : Prop := underlying D A = .basic b ∧ norm (underlying D t) = .slice (norm A)

/-- `(*StringSlice[A])(x)` for `x` of type `*t`. -/
def ConvertPtrOk (D : Decls) (t A : Ty) (b : Text) : Prop := ConvertOk D t A b

theorem spell_name (hD : WF D) {b : Text} (hb : ∀ id, D.under id = .struct → D.name id ≠ b) {e : Ty} {last : Option Nat}
    (h : spell D n e last = some [.name b]) : underlying D e = .basic b := by
  induction n generalizing e last with
  | zero => cases h
  | succ n ih =>
    cases e with
    | basic c => simp only [spell, Option.some.injEq, List.cons.injEq, Tok.name.injEq, and_true] at h; rw [h]; rfl
    | named id =>
      simp only [spell] at h
      by_cases h1 : D.under id = .struct
      · rw [if_pos h1] at h
        simp only [Option.some.injEq, List.cons.injEq, Tok.name.injEq, and_true] at h
        exact absurd h (hb id h1)
      · rw [if_neg h1] at h
        by_cases h2 : last = some (D.obj id)
        · rw [if_pos h2] at h; cases h
        · rw [if_neg h2] at h
          have := ih h
          have hw := hD id
          show D.under id = .basic b
          cases hu : D.under id with
          | named j => exact absurd hu (hw.1 j)
          | alias r => exact absurd hu (hw.2 r)
          | _ => rw [hu] at this; exact this
    | alias r => simp only [spell] at h; show underlying D r = _; exact ih h
    | ptr x => simp only [spell] at h; cases hs : spell D n x last <;> simp [hs] at h
    | slice x => simp only [spell] at h; cases hs : spell D n x last <;> simp [hs] at h
    | array k x => simp only [spell] at h; cases hs : spell D n x last <;> simp [hs] at h
    | struct => cases h
    | other => cases h

/-- C80 for slices: the type argument that is written fits exactly if the type of the field is a slice that is written out; it never does for a
defined type or an alias. -/
theorem C80_slice_iff (ht : Sane tab) (hD : WF D) {t : Ty} {b : Text} (hb : ∀ id, D.under id = .struct → D.name id ≠ b)
    (hk : columnKey D tab n t = some (some (.toks [.slice, .name b]))) : ConvertOk D t (elemType t) b ↔ ∃ e, t = .slice e := by
  constructor
  · rintro ⟨h1, h2⟩
    cases t with
    | slice e => exact ⟨e, rfl⟩
    | basic c => exact absurd h2 (by simp [underlying, norm])
    | named id => rw [show elemType (.named id) = .named id from rfl] at h1; rw [h1] at h2; cases h2
    | alias r => rw [show elemType (.alias r) = .alias r from rfl] at h1; rw [h1] at h2; cases h2
    | ptr e => exact absurd h2 (by simp [underlying, norm])
    | array k e => exact absurd h2 (by simp [underlying, norm])
    | struct => exact absurd h2 (by simp [underlying, norm])
    | other => exact absurd h2 (by simp [underlying, norm])
  · rintro ⟨e, rfl⟩
    refine ⟨?_, rfl⟩
    unfold columnKey at hk
    cases n with
    | zero => cases hk
    | succ n =>
      simp only [walk, List.nil_append] at hk
      rw [walk_inert ht inert_slice] at hk
      cases hs : spell D n e none with
      | none => rw [hs] at hk; cases hk
      | some w =>
        rw [hs] at hk
        simp only [Option.map_some, Option.some.injEq, lookup] at hk
        split at hk
        · simp only [Option.some.injEq, Key.toks.injEq, List.cons_append, List.nil_append, List.cons.injEq, true_and] at hk
          exact spell_name hD hb (hk ▸ hs)
        · split at hk
          · next h => simp at h
          · simp [fixedName] at hk

/-- C80 fails for every pointer to a slice: the type argument is the slice. -/
theorem C80_pointer_slice (e : Ty) (b : Text) : ¬ConvertPtrOk D e (elemType (.ptr e)) b := by
  rintro ⟨h1, h2⟩
  rw [show elemType (.ptr e) = e from rfl] at h1 h2
  rw [h1] at h2
  cases h2

/-- C80 fails for every defined array type of bytes or runes: the generator panics. -/
theorem C80_named_array {id k : Nat} {b : Text} (hb1 : b = "byte".toList ∨ b = "rune".toList) (hu : D.under id = .array k (.basic b))
    (h0 : tab (.toks []) = false) (hk : tab (.fixed b) = true) (hn1 : tab (.toks [.arr k, .name b]) = false) (hb : Bare F (.named id))
    (hd : D.name id ≠ "time.Time".toList) : Dispatch.reads D tab F (n + 3) (.named id) = some .panic := by
  show scanner D tab F (n + 3) (.named id) = _
  unfold scanner
  have hd' : ¬isDirect D (.named id) = true := fun h => hd (by simpa only [isDirect, decide_eq_true_eq] using h)
  rw [if_neg hd', if_neg (by simp [hb.confS]), show pointee (.named id) = .named id from rfl, if_neg (by simp [hb.scan])]
  have hf : fixedName [.arr k, .name b] = some b := if_pos (by rcases hb1 with h | h <;> simp [h])
  have hl : needsLen (.fixed b) = true := by rcases hb1 with h | h <;> subst h <;> decide +kernel
  simp [columnKey, walk, lookup, hu, h0, hn1, hf, hk, hl, arraySize]

/-- So it does for aliases of such types. -/
theorem C80_alias_array {k : Nat} {b : Text} (hb1 : b = "byte".toList ∨ b = "rune".toList)
    (hk : tab (.fixed b) = true) (hn1 : tab (.toks [.arr k, .name b]) = false) (hb : Bare F (.alias (.array k (.basic b)))) :
    Dispatch.reads D tab F (n + 3) (.alias (.array k (.basic b))) = some .panic := by
  show scanner D tab F (n + 3) _ = _
  unfold scanner
  rw [if_neg (by simp [isDirect]), if_neg (by simp [hb.confS]), show pointee (.alias (.array k (.basic b))) = .alias (.array k (.basic b)) from rfl,
    if_neg (by simp [hb.scan])]
  have hf : fixedName [.arr k, .name b] = some b := if_pos (by rcases hb1 with h | h <;> simp [h])
  have hl : needsLen (.fixed b) = true := by rcases hb1 with h | h <;> subst h <;> decide +kernel
  simp [columnKey, walk, lookup, hn1, hf, hk, hl, arraySize]

/-- C80 for arrays that are written out: there is a panic exactly if they are empty. -/
theorem C80_array_iff {k : Nat} {b : Text} (hb1 : b = "byte".toList ∨ b = "rune".toList)
    (hk : tab (.fixed b) = true) (hn1 : tab (.toks [.arr k, .name b]) = false) (hb : Bare F (.array k (.basic b))) :
    Dispatch.reads D tab F (n + 2) (.array k (.basic b)) = some .panic ↔ k = 0 := by
  show scanner D tab F (n + 2) _ = _ ↔ _
  unfold scanner
  rw [if_neg (by simp [isDirect]), if_neg (by simp [hb.confS]), show pointee (.array k (.basic b)) = .array k (.basic b) from rfl,
    if_neg (by simp [hb.scan])]
  have hf : fixedName [.arr k, .name b] = some b := if_pos (by rcases hb1 with h | h <;> simp [h])
  have hl : needsLen (.fixed b) = true := by rcases hb1 with h | h <;> subst h <;> decide +kernel
  simp only [columnKey, walk, lookup, List.nil_append, List.cons_append, hn1, hf, hk, arraySize, Option.map_some]
  by_cases h0 : k = 0
  · subst h0; simp [hl]
  · simp [h0, ofKey]

/-- Expressions made of the field. -/
inductive Ex where
  | field
  | deref (e : Ex)
  /-- `e[:]`. -/
  | whole (e : Ex)

/-- What `[:]` after the text of an expression is: it binds stronger than the star. -/
def Ex.suffix : Ex → Ex
  | .deref e => .deref e.suffix
  | e => .whole e

/-- The type of an expression for a field of a type; types are given with their underlying types. -/
def Ex.type (t : Ty) : Ex → Option Ty
  | .field => some t
  | .deref e =>
    match e.type t with
    | some (.ptr x) => some x
    | _ => none
  | .whole e =>
    match e.type t with
    | some (.slice x) => some (.slice x)
    | some (.array _ x) => some (.slice x)
    | some (.ptr (.array _ x)) => some (.slice x)
    | _ => none

/-- C80 fails for every pointer to a byte or rune array also when it is written: `{{goPath}}[:]` with `*v.Field` for the path has no type, while
the same with parentheses has. -/
theorem C80_pointer_array_value (k : Nat) (e : Ty) :
    Ex.type (.ptr (.array k e)) (Ex.suffix (.deref .field)) = none ∧ Ex.type (.ptr (.array k e)) (.whole (.deref .field)) = some (.slice e) :=
  ⟨rfl, rfl⟩

/-! ## C81: the search ends -/

/-- The defined types a type refers to. -/
def refs : Ty → List Nat
  | .named id => [id]
  | .alias r => refs r
  | .ptr e => refs e
  | .slice e => refs e
  | .array _ e => refs e
  | _ => []

def size : Ty → Nat
  | .alias r => size r + 1
  | .ptr e => size e + 1
  | .slice e => size e + 1
  | .array _ e => size e + 1
  | _ => 1

/-- C81, as far as it holds: the search for the column type ends if no defined type refers to itself through pointers, slices and arrays, directly or
through others. -/
theorem C81_ends_partial (rank : Nat → Nat) (hr : ∀ id, ∀ j ∈ refs (D.under id), rank j < rank id) (t : Ty) :
    ∃ n, (columnKey D tab n t).isSome = true := by
  have key : ∀ (m : Nat) (t : Ty), (∀ j ∈ refs t, rank j < m) → ∀ last s, ∃ n x, walk D tab n t last s = some x := by
    intro m
    induction m with
    | zero =>
      intro t
      induction t with
      | basic b => exact fun _ last s => ⟨1, _, rfl⟩
      | named id => exact fun h => absurd (h id (List.mem_cons_self ..)) (by omega)
      | struct => exact fun _ last s => ⟨1, _, rfl⟩
      | other => exact fun _ last s => ⟨1, _, rfl⟩
      | alias r ih => intro h last s; obtain ⟨n, x, e⟩ := ih h last s; exact ⟨n + 1, x, e⟩
      | ptr r ih => intro h last s; obtain ⟨n, x, e⟩ := ih h last (s ++ [.star]); exact ⟨n + 1, x, e⟩
      | slice r ih => intro h last s; obtain ⟨n, x, e⟩ := ih h last (s ++ [.slice]); exact ⟨n + 1, x, e⟩
      | array k r ih => intro h last s; obtain ⟨n, x, e⟩ := ih h last (s ++ [.arr k]); exact ⟨n + 1, x, e⟩
    | succ m ihm =>
      intro t
      induction t with
      | basic b => exact fun _ last s => ⟨1, _, rfl⟩
      | named id =>
        intro h last s
        have hid := h id (List.mem_cons_self ..)
        obtain ⟨n, x, e⟩ := ihm (D.under id) (fun j hj => Nat.lt_of_lt_of_le (hr id j hj) (by omega)) (some (D.obj id)) s
        refine ⟨n + 1, ?_⟩
        simp only [walk]
        split
        · exact ⟨_, rfl⟩
        · split
          · exact ⟨_, rfl⟩
          · split
            · exact ⟨_, rfl⟩
            · exact ⟨x, e⟩
      | struct => exact fun _ last s => ⟨1, _, rfl⟩
      | other => exact fun _ last s => ⟨1, _, rfl⟩
      | alias r ih => intro h last s; obtain ⟨n, x, e⟩ := ih h last s; exact ⟨n + 1, x, e⟩
      | ptr r ih => intro h last s; obtain ⟨n, x, e⟩ := ih h last (s ++ [.star]); exact ⟨n + 1, x, e⟩
      | slice r ih => intro h last s; obtain ⟨n, x, e⟩ := ih h last (s ++ [.slice]); exact ⟨n + 1, x, e⟩
      | array k r ih => intro h last s; obtain ⟨n, x, e⟩ := ih h last (s ++ [.arr k]); exact ⟨n + 1, x, e⟩
  have hmax : ∀ l : List Nat, ∃ m, ∀ j ∈ l, rank j < m := by
    intro l
    induction l with
    | nil => exact ⟨0, by simp⟩
    | cons a l ih =>
      obtain ⟨m, h⟩ := ih
      refine ⟨max m (rank a + 1), fun j hj => ?_⟩
      rcases List.mem_cons.1 hj with rfl | hj
      · omega
      · have := h j hj; omega
  obtain ⟨m, hm⟩ := hmax (refs t)
  obtain ⟨n, x, e⟩ := key m t hm none []
  exact ⟨n, by rw [columnKey, e]; rfl⟩

/-- It also ends for a type that is a slice of itself. -/
theorem C81_self_ends (ht : Sane tab) {id : Nat} (hu : D.under id = .slice (.named id)) : columnKey D tab 3 (.named id) = some none := by
  have h1 : tab (.toks [.slice]) = false := inert_slice.not_key ht
  have h0 := ht.nil
  simp [columnKey, walk, hu, h0, h1, lookup, fixedName]

/-- C81 fails for two types that are slices of each other: the search never ends. -/
theorem C81_mutual_hangs (ht : Sane tab) {a b : Nat} (ha : D.under a = .slice (.named b)) (hb : D.under b = .slice (.named a))
    (ho : D.obj a ≠ D.obj b) (n : Nat) : columnKey D tab n (.named a) = none := by
  have key : ∀ n, (∀ last, last ≠ some (D.obj a) → spell D n (.named a) last = none) ∧
      (∀ last, last ≠ some (D.obj b) → spell D n (.named b) last = none) ∧
      spell D n (.slice (.named b)) (some (D.obj a)) = none ∧ spell D n (.slice (.named a)) (some (D.obj b)) = none := by
    intro n
    induction n with
    | zero => exact ⟨fun _ _ => rfl, fun _ _ => rfl, rfl, rfl⟩
    | succ n ih =>
      obtain ⟨h1, h2, h3, h4⟩ := ih
      refine ⟨fun last hl => ?_, fun last hl => ?_, ?_, ?_⟩
      · simp [spell, ha, hl, h3]
      · simp [spell, hb, hl, h4]
      · simp [spell, h2 _ (fun e => ho (Option.some.inj e))]
      · simp [spell, h1 _ (fun e => ho (Option.some.inj e).symm)]
  unfold columnKey
  cases n with
  | zero => rfl
  | succ n =>
    simp only [walk, ha, ht.nil]
    cases n with
    | zero => simp [walk]
    | succ n =>
      simp only [walk, List.nil_append]
      rw [walk_inert ht inert_slice, (key n).2.1 _ (fun e => ho (Option.some.inj e))]
      simp

/-! ## Instances -/

/-- 0: `type Status string`, 1: `type Hash [16]byte`, 2: `type Tags []string`, 3 and 4: `type A []B; type B []A`, 5: `time.Time`, 6: a struct. -/
private def exD : Decls where
  name := fun i => (["m.Status", "m.Hash", "m.Tags", "m.A", "m.B", "time.Time", "m.Point"].map String.toList)[i]?.getD []
  under := fun i => [.basic "string".toList, .array 16 (.basic "byte".toList), .slice (.basic "string".toList), .slice (.named 4), .slice (.named 3),
    .struct, .struct][i]?.getD .other
  obj := id

private def bareF : Facts := ⟨fun _ => false, fun _ => false, fun _ => false, fun _ => false, fun _ => false, fun _ => false⟩

private theorem bareF_bare (t : Ty) : Bare bareF t := ⟨rfl, rfl, rfl, rfl, rfl, rfl⟩

private def exW (t : Ty) := writes exD mysql bareF 9 t
private def exR (t : Ty) := Dispatch.reads exD mysql bareF 9 t

-- a status is written and read as a text, a pointer to one is written as a text and read as JSON
example : exW (.named 0) = some (.table (.toks [.name "string".toList])) ∧ exR (.named 0) = exW (.named 0) := by decide +kernel
example : exW (.ptr (.named 0)) = some (.table (.toks [.name "string".toList])) ∧ exR (.ptr (.named 0)) = some .json := by decide +kernel
-- pointers to texts, times, structs and slices agree
example : exW (.ptr (.basic "string".toList)) = some .direct ∧ exR (.ptr (.basic "string".toList)) = some (.table (.toks [.name "string".toList])) := by
  decide +kernel
example : exW (.ptr (.named 5)) = some .direct ∧ exR (.ptr (.named 5)) = some (.table (.toks [.name "time.Time".toList])) := by decide +kernel
example : exW (.ptr (.named 6)) = some .json ∧ exR (.ptr (.named 6)) = some .json := by decide +kernel
example : exW (.ptr (.slice (.basic "int".toList))) = some (.table (.toks [.slice, .name "int".toList])) ∧
    exR (.ptr (.slice (.basic "int".toList))) = exW (.ptr (.slice (.basic "int".toList))) := by decide +kernel
-- arrays
example : exR (.named 1) = some .panic ∧ exR (.array 16 (.basic "byte".toList)) = some (.table (.fixed "byte".toList)) ∧
    exR (.array 0 (.basic "byte".toList)) = some .panic := by decide +kernel
-- a defined slice type has the entry of the slice
example : columnKey exD mysql 9 (.named 2) = some (some (.toks [.slice, .name "string".toList])) := by decide +kernel
-- the tables meet the hypotheses on single keys
example : mysql (.fixed "byte".toList) = true ∧ mysql (.toks [.arr 16, .name "byte".toList]) = false ∧ mysql (.toks []) = false ∧
    postgres (.fixed "rune".toList) = true ∧ postgres (.toks [.arr 16, .name "rune".toList]) = false := by decide +kernel
example : columnKey exD mysql 1000 (.named 3) = none := C81_mutual_hangs sane_mysql rfl rfl (by decide) _
example : Bare bareF (.named 0) := bareF_bare _

end Verif.Props
