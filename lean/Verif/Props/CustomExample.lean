import Verif.Props.CustomLost
import Verif.Props.DocumentExample

/-!
# C104 at work: records with a key like `uuid.UUID`, a `*sql.NullString` and a struct with `MarshalText`, on PostgreSQL
-/

namespace Verif.Props

open Verif Verif.Dispatch Verif.Typed Verif.Custom Verif.ColumnType Verif.Scan Verif.Spec Verif.Spec.Custom
open Verif.Gen Verif.Store Verif.Spec.Store Verif.Spec.Gen

/-- The types: `type UUID [16]byte`, `sql.NullString` and `type Tag struct { … }`. -/
def customDecls : Decls where
  name
    | 0 => "example.com/uuid.UUID".toList
    | 1 => "database/sql.NullString".toList
    | _ => "example.com/app.Tag".toList
  under
    | 0 => .array 16 (.basic "byte".toList)
    | _ => .struct
  obj := id

def customBase : Rich.World Nat where
  dialect := .postgres
  decls := customDecls
  facts := ⟨fun t => t = .named 0 || t = .named 1, fun t => t = .named 0 || t = .named 1, fun t => t = .named 2, fun t => t = .named 2,
    fun _ => false, fun _ => false⟩
  lib := ⟨goTimes, fun _ _ => none, fun _ _ => none⟩
  ty f := if f = 10 then .named 0 else if f = 13 then .ptr (.named 1) else .named 2
  size _ := 0
  nullable _ := false
  keep _ _ := .base .null
  hand _ _ := .nil

/-- Values are byte strings; an empty one is a `NullString` that is not valid. -/
def customWorld : Custom.World Nat Bytes where
  base := ⟨customBase, id, fun _ => .str, fun _ s => s, fun _ s => .bytes s⟩
  own _ := true
  zero _ := []
  value f u := some (if f = 13 ∧ u = [] then .nil else .str u)
  scan _ _
    | .nil => .ok []
    | .str s => .ok s
    | .bytes s => .ok s
    | _ => .err
  marshal _ u := some (60 :: u)
  unmarshal _ _
    | 60 :: u => .ok u
    | _ => .err
  toJson _ u := some (34 :: (u ++ [34]))
  fromJson _ _ _ := none
  jsonNil _ _ := none
  store _ s := s
  shown _
    | .str s => .bytes s
    | s => s

theorem customHas : Has customDecls customBase.facts (.named 0) .own ∧ Has customDecls customBase.facts (.ptr (.named 1)) .own ∧
    Has customDecls customBase.facts (.named 2) .text := by
  refine ⟨.own rfl rfl (by decide +kernel) ⟨rfl, rfl⟩, .ownPtr rfl rfl (by decide +kernel) ⟨rfl, rfl⟩, .text ?_ rfl rfl rfl rfl ⟨rfl, rfl⟩⟩
  exact .named rfl ⟨by decide +kernel, by decide +kernel⟩

theorem customTy (f : Nat) : customBase.ty f = .named 0 ∨ customBase.ty f = .ptr (.named 1) ∨ customBase.ty f = .named 2 := by
  by_cases h : f = 10
  · exact .inl (by simp [customBase, h])
  · by_cases h2 : f = 13
    · exact .inr (.inl (by simp [customBase, h2]))
    · exact .inr (.inr (by simp [customBase, h, h2]))

theorem customWay (f : Nat) : ∃ w, Has customDecls customBase.facts (customBase.ty f) w := by
  rcases customTy f with h | h | h <;> rw [h]
  · exact ⟨_, customHas.1⟩
  · exact ⟨_, customHas.2.1⟩
  · exact ⟨_, customHas.2.2⟩

theorem customNone (f : Nat) (k : Rich.Form) (col : Spec.Rich.Col) : ¬ Spec.Rich.HasCol customBase f k col := by
  rintro ⟨h0, -⟩
  have hn : ∀ i, customDecls.name i ≠ "time.Time".toList := by
    intro i
    match i with
    | 0 => decide +kernel
    | 1 => decide +kernel
    | _ + 2 => show "example.com/app.Tag".toList ≠ _; decide +kernel
  have hu : ∀ i b, customDecls.under i ≠ .basic b ∧ customDecls.under i ≠ .slice (.basic b) := by
    intro i b
    match i with
    | 0 => exact ⟨nofun, nofun⟩
    | _ + 1 => exact ⟨nofun, nofun⟩
  have h : Spec.Rich.Has customDecls customBase.facts (customBase.ty f) k := h0
  clear h0
  rcases customTy f with ht | ht | ht <;> rw [ht] at h <;> cases h
  all_goals first
    | exact absurd ‹_› (hn _)
    | exact absurd ‹_› (hu _ _).2
    | (rename_i h; cases h <;> exact absurd ‹_› (hu _ _).1)

theorem customBehaves : Spec.Document.Behaves customWorld.base := by
  refine ⟨⟨fun f k col h => absurd h (customNone f k col), fun f k col h => absurd h (customNone f k col)⟩, ?_⟩
  intro f col h s j _ _
  cases h.col
  exact .bytes

theorem customKeyed : ∀ c ∈ keyCols (storeUser "people"), Spec.Custom.Keyed customWorld c.field := by
  intro c hc
  have hf : c.field = 10 := by
    simp [keyCols, storeUser, pick, keyPos] at hc
    subst hc; rfl
  rw [hf]
  refine .inr ⟨rfl, ?_, fun u => by simp [customWorld]⟩
  rintro ⟨e, h⟩
  cases h

/-! ## A database that compares -/

def srcText : Src → Bytes
  | .str s => s
  | .bytes s => s
  | _ => []

/-- NULL first; then other values, then texts by their bytes. -/
def customLess : Custom.Cell → Custom.Cell → Bool
  | .base a, .base b => docLess a b
  | .base _, .own _ => true
  | .own a, .own b => decide (srcText a < srcText b)
  | _, _ => false

theorem customLess_weak : (∀ x y, customLess x y = true → customLess y x = false) ∧
    ∀ x y z, customLess y x = false → customLess z y = false → customLess z x = false := by
  constructor
  · intro x y
    cases x <;> cases y <;> simp [customLess]
    · exact docLess_weak.1 _ _
    · intro h; exact List.le_of_lt h
  · intro x y z
    cases x <;> cases y <;> cases z <;> simp [customLess]
    · exact docLess_weak.2 _ _ _
    · exact List.le_trans

def customLe (ks : List (Spec.Sql.Name × Bool)) (a b : Spec.Sql.Row Custom.Cell) : Prop := Spec.Sql.precedes customLess ks b a = false

instance (ks : List (Spec.Sql.Name × Bool)) : DecidableRel (customLe ks) := fun _ _ => inferInstanceAs (Decidable (_ = _))

def customOrd : Spec.Sql.Compare Custom.Cell where
  eq
    | .base a, .base b => docOrd.eq a b
    | .own a, .own b => decide (a = b)
    | _, _ => false
  lt
    | .base a, .base b => docOrd.lt a b
    | .own a, .own b => customLess (.own a) (.own b)
    | _, _ => false
  like _ _ := false
  before := customLess
  arrange ks rows := rows.insertionSort (customLe ks)
  perm ks rows := List.perm_insertionSort _ _
  sorted ks rows := by
    have : Std.Total (customLe ks) := ⟨fun a b => (precedes_weak customLess_weak.1 customLess_weak.2 ks a b a).2⟩
    have : IsTrans _ (customLe ks) := ⟨fun a b c => (precedes_weak customLess_weak.1 customLess_weak.2 ks a b c).1⟩
    exact List.pairwise_insertionSort (customLe ks) rows

/-- What it does with values of types with methods. -/
def customOther : Spec.Store.Comp Nat (Val Bytes) where
  isNil _ _ := false
  eq f x y := customOrd.eq (customWorld.enc f x) (customWorld.enc f y)
  lt f x y := customOrd.lt (customWorld.enc f x) (customWorld.enc f y)
  like _ _ _ := false
  before f x y := customOrd.before (customWorld.enc f x) (customWorld.enc f y)

theorem customCompares : Spec.Custom.Compares customWorld customOrd true customOther :=
  ⟨⟨docOrd, ⟨⟨richOrd, richSorts, ⟨fun _ _ _ _ _ => rfl, fun _ _ _ _ _ _ _ _ _ => ⟨rfl, rfl, rfl⟩⟩, fun _ _ => ⟨rfl, rfl, rfl, rfl⟩⟩,
    fun _ => ⟨⟨rfl, rfl, rfl⟩, rfl, rfl, rfl⟩, fun _ _ _ _ _ _ => ⟨rfl, fun _ _ => ⟨rfl, rfl, rfl⟩⟩⟩, fun _ _ => ⟨rfl, rfl, rfl, rfl⟩⟩,
    ⟨⟨rfl, rfl, rfl⟩, fun _ => ⟨⟨rfl, rfl, rfl⟩, rfl, rfl, rfl⟩⟩, fun _ _ _ _ _ => ⟨rfl, fun _ _ => ⟨rfl, rfl, rfl⟩⟩⟩

/-- Keys like `uuid.UUID` have an order, and can be used for pages. -/
theorem customRanked : Ranked customWorld customOther 10 := by
  have enc : ∀ u : Bytes, customWorld.enc 10 (.own (some u)) = .own (.str u) := by
    intro u
    refine enc_some (s := .str u) ?_ (by simp)
    have := param_of (W := customWorld) (f := 10) customHas.1 u
    rw [this]; simp [givenBy, customWorld]
  have all : ∀ x, Spec.Custom.Stores customWorld 10 x → ∃ u, x = .own (some u) := by
    intro x hx
    cases x with
    | base v => cases hx.1
    | own p =>
      cases p with
      | some u => exact ⟨u, rfl⟩
      | none => obtain ⟨-, ⟨e, h⟩, -⟩ := hx; cases h
  have hlt : ∀ u v : Bytes, customOther.lt 10 (.own (some u)) (.own (some v)) = decide (u < v) := by
    intro u v; simp only [customOther, enc]; rfl
  refine ⟨?_, ?_, ?_, ?_, ?_⟩
  · intro x y hx hy
    obtain ⟨u, rfl⟩ := all x hx
    obtain ⟨v, rfl⟩ := all y hy
    simp [customOther, enc, customOrd]
  · intro x y hx hy
    obtain ⟨u, rfl⟩ := all x hx
    obtain ⟨v, rfl⟩ := all y hy
    simp [customOther, enc, customOrd]
  · intro x hx
    obtain ⟨u, rfl⟩ := all x hx
    rw [hlt]; simp
  · intro x y z hx hy hz
    obtain ⟨u, rfl⟩ := all x hx
    obtain ⟨v, rfl⟩ := all y hy
    obtain ⟨w, rfl⟩ := all z hz
    simp only [hlt, decide_eq_true_eq]
    exact List.lt_trans
  · intro x y hx hy
    obtain ⟨u, rfl⟩ := all x hx
    obtain ⟨v, rfl⟩ := all y hy
    simp only [hlt, decide_eq_true_eq]
    by_cases h1 : u < v
    · exact .inr (.inl h1)
    · by_cases h2 : v < u
      · exact .inr (.inr h2)
      · exact .inl (by rw [List.le_antisymm (List.not_lt.1 h2) (List.not_lt.1 h1)])

/-! ## Records -/

def customRec (k : Bytes) (x : Option Bytes) (t : Bytes) : Nat → Val Bytes :=
  fun f => if f = 10 then .own (some k) else if f = 13 then .own x else .own (some t)

/-- Records like this are stored: the pointer is nil, or what it points to is valid. -/
theorem customGood (k : Bytes) (x : Option Bytes) (t : Bytes) (hx : x ≠ some []) :
    Good (Spec.Custom.Stores customWorld) (storeUser "people") (customRec k x t) := by
  have scan : ∀ (f : Nat) (u old : Bytes) (s' : Src), Handed (.str u) s' → customWorld.scan f old s' = .ok u := by
    intro f u old s' h
    cases h <;> rfl
  intro c hc
  simp only [storeUser, List.mem_cons, List.not_mem_nil, or_false] at hc
  rcases hc with rfl | rfl | rfl
  · refine ⟨rfl, .own, customHas.1, ⟨.str k, rfl, trivial, fun _ => .bytes, scan _ k⟩, ?_⟩
    rintro ⟨⟨e, h⟩, -⟩; cases h
  · cases x with
    | none => exact ⟨rfl, ⟨_, rfl⟩, _, customHas.2.1⟩
    | some u =>
      have hu : u ≠ [] := fun h => hx (by rw [h])
      have hv : customWorld.value 13 u = some (.str u) := by simp [customWorld, hu]
      refine ⟨rfl, .own, customHas.2.1, ⟨.str u, hv, trivial, fun _ => .bytes, scan _ u⟩, ?_⟩
      rintro ⟨-, -, h⟩
      have h : customWorld.value 13 u = some .nil := h
      rw [hv] at h; cases h
  · exact ⟨rfl, .text, customHas.2.2, ⟨60 :: t, rfl, fun _ => .same, fun _ => rfl⟩, by rintro ⟨⟨e, h⟩, -⟩; cases h⟩

def customEnv : Env Nat (Val Bytes) Custom.Cell := customWorld.env (storeCfg true) storePg (fun _ => Custom.null) (.int .int64)

def customTwo : Spec.Sql.Store Custom.Cell :=
  (performs customEnv (storeUser "people") [.insert (customRec [1, 2] (some [65]) [66, 67]), .insert (customRec [3] none []),
    .insert (customRec [4] (some []) [])]
    fun n => if n = "people".toList then some (Spec.Store.tableOf storePg (storeUser "people") []) else none).2

def customSee : Out (Nat → Val Bytes) → Option (List (Val Bytes))
  | .ok r => some ((genAddrs (storeUser "people")).map r)
  | _ => none

/-- The records as they were, whatever was in the record that is read into. -/
example : customSee (findByPK customEnv (storeUser "people") (customRec [1, 2] none [9]) customTwo).1 =
      some ((genAddrs (storeUser "people")).map (customRec [1, 2] (some [65]) [66, 67])) ∧
    customSee (findByPK customEnv (storeUser "people") (customRec [3] (some [5]) [9]) customTwo).1 =
      some ((genAddrs (storeUser "people")).map (customRec [3] none [])) := by
  decide +kernel

/-- But a pointer to a string that is not valid is nil afterwards. -/
example : customSee (findByPK customEnv (storeUser "people") (customRec [4] (some [5]) [9]) customTwo).1 =
    some ((genAddrs (storeUser "people")).map (customRec [4] none [])) := by
  decide +kernel

/-! ## Methods that do not belong together -/

/-- The same types, where only the pointer to `Tag` has `MarshalText`. -/
def customOdd : Custom.World Nat Bytes :=
  { customWorld with base := { customWorld.base with base := { customBase with facts := { customBase.facts with marshals := fun _ => false } } } }

/-- A text in quotes is not what `UnmarshalText` is for. -/
example : customOdd.dec 15 (customOdd.enc 15 (.own (some [66]))) (.own (some [])) = none :=
  C104_receiver (W := customOdd) (id := 2) rfl rfl ⟨rfl, ⟨by decide +kernel, by decide +kernel⟩, ⟨rfl, rfl⟩⟩ rfl rfl rfl rfl rfl (fun _ => .same) _

/-- `Tag` with `Value`, which gives a number, and without other methods. -/
def customNumber : Custom.World Nat Bytes :=
  { customWorld with
    base := { customWorld.base with base := { customBase with
      facts := { customBase.facts with hasValue := fun _ => true, marshals := fun _ => false, unmarshals := fun _ => false } } }
    value := fun _ u => some (.int64 u.length) }

example : customNumber.dec 15 (customNumber.enc 15 (.own (some [66]))) (.own (some [])) = none :=
  C104_value_only (W := customNumber) (id := 2) rfl rfl ⟨rfl, ⟨by decide +kernel, by decide +kernel⟩, ⟨rfl, rfl⟩⟩ rfl rfl rfl rfl
    (fun _ => .same) (by simp) (by simp) _

/-- `Tag` with `Scan`, which takes what is not in quotes, and without `Value`. -/
def customScan : Custom.World Nat Bytes :=
  { customWorld with
    base := { customWorld.base with base := { customBase with
      facts := { customBase.facts with scans := fun _ => true, marshals := fun _ => false } } }
    scan := fun _ _ s => if (srcText s).head? = some 34 then .err else .ok (srcText s) }

example : customScan.dec 15 (customScan.enc 15 (.own (some [66]))) (.own (some [])) = none := by
  obtain ⟨s, hs, e⟩ := C104_scan_only (W := customScan) (f := 15) (id := 2) (u := [66]) (b := [34, 66, 34]) rfl rfl
    ⟨rfl, ⟨by decide +kernel, by decide +kernel⟩, ⟨rfl, rfl⟩⟩ rfl rfl rfl (fun _ => .same) []
  rw [e]
  cases hs <;> rfl

/-- A pointer to a `map[string]string` with `MarshalText` and `UnmarshalText`. -/
def customMap : Custom.World Nat Bytes :=
  { customWorld with
    base := { customWorld.base with base := { customBase with
      decls := { customDecls with under := fun _ => .other }
      ty := fun _ => .ptr (.named 2) } } }

example : customMap.dec 15 (customMap.enc 15 (.own (some [66]))) (.own (some [])) = none :=
  C104_text_pointer (W := customMap) (id := 2) rfl rfl rfl (by decide +kernel) rfl rfl rfl ⟨rfl, rfl⟩ rfl (fun _ => .same) _

end Verif.Props
