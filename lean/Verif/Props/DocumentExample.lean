import Verif.Props.DocumentLost
import Verif.Props.RichExample

/-!
# C101 at work: records with a struct and a pointer to one, on PostgreSQL
-/

namespace Verif.Props

open Verif Verif.Dispatch Verif.Typed Verif.Document Verif.ColumnType Verif.Scan Verif.Spec Verif.Spec.Document
open Verif.Gen Verif.Store Verif.Spec.Store Verif.Spec.Gen

/-- `type Address struct { City string; Zip *int32; Tags []string }`, with names for its fields -/
def docTy : JsonField.Ty :=
  .struct (.cons (some "city".toList) false .str (.cons (some "zip".toList) false (.ptr (.int (-2147483648) 2147483647))
    (.cons (some "tags".toList) false (.slice .str) .nil)))

/-- Records with an `int64` key, an `Address` and a `*Address`. -/
def docBase : Rich.World Nat where
  dialect := .postgres
  decls := ⟨fun _ => "example.com/app.Address".toList, fun _ => .struct, id⟩
  facts := ⟨fun _ => false, fun _ => false, fun _ => false, fun _ => false, fun _ => false, fun _ => false⟩
  lib := ⟨goTimes, fun _ _ => none, fun _ _ => none⟩
  ty f := if f = 10 then .basic "int64".toList else if f = 13 then .named 0 else .ptr (.named 0)
  size _ := 0
  nullable _ := false
  keep _
    | .int64 n => .base (.num n)
    | .uint64 n => .base (.num n)
    | _ => .base .null
  hand _
    | .base (.num n) => .bytes (intDec n)
    | _ => .nil

def docWorld : Document.World Nat where
  base := docBase
  fold := id
  doc f := if f = 13 then docTy else .ptr docTy
  store _ s := s
  shown _ s := .bytes s

theorem docBare (t : Ty) : Bare docBase.facts t := by constructor <;> rfl

theorem docOutside : Outside "example.com/app.Address".toList := by constructor <;> decide

theorem docHas : Spec.Rich.Has docBase.decls docBase.facts (docBase.ty 10) (.scalar (.int .int64)) :=
  .scalar (.basic (by decide +kernel) (docBare _))

theorem docIs : IsDoc docWorld 13 .text ∧ ∀ f, f ≠ 10 → f ≠ 13 → IsDoc docWorld f .text := by
  have ok : JsonField.Spec.Ty.Ok docTy := by
    simp [docTy, JsonField.Spec.Ty.Ok, JsonField.Spec.Fields.Ok, JsonField.Fields.keys]
  refine ⟨⟨?_, ?_, ?_, rfl⟩, fun f h1 h2 => ⟨?_, ?_, ?_, rfl⟩⟩
  · exact .plain (.named rfl docOutside) (docBare _)
  · exact .named .struct
  · exact ok
  · show Doc docBase.decls docBase.facts (docBase.ty f)
    have : docBase.ty f = .ptr (.named 0) := by simp only [docBase, if_neg h1, if_neg h2]
    rw [this]
    exact .ptr (.named rfl docOutside) (docBare _) rfl
  · show As docBase.decls (docBase.ty f) (docWorld.doc f)
    have h3 : docBase.ty f = .ptr (.named 0) := by simp only [docBase, if_neg h1, if_neg h2]
    have h4 : docWorld.doc f = .ptr docTy := by simp only [docWorld, if_neg h2]
    rw [h3, h4]
    exact .ptr (.named .struct)
  · have h4 : docWorld.doc f = .ptr docTy := by simp only [docWorld, if_neg h2]
    rw [h4]
    exact ok

theorem docBaseCol (f : Nat) (k : Rich.Form) (col : Spec.Rich.Col) (h : Spec.Rich.HasCol docBase f k col) :
    f = 10 ∧ k = .scalar (.int .int64) ∧ col = .base (.int 64) := by
  by_cases hf : f = 10
  · subst hf
    obtain rfl := form_unique h.1 docHas
    exact ⟨rfl, rfl, Option.some.inj (h.2.symm.trans rfl)⟩
  · have hd : ∃ col, IsDoc docWorld f col := by
      by_cases h2 : f = 13
      · subst h2; exact ⟨_, docIs.1⟩
      · exact ⟨_, docIs.2 f hf h2⟩
    obtain ⟨_, hd⟩ := hd
    exact absurd (doc_both docBase.dialect hd.ty).2 (has_not_json docBase.dialect h.1)

theorem docBehaves : Spec.Document.Behaves docWorld := by
  refine ⟨⟨?_, ?_⟩, ?_⟩
  · intro f k col h s c hk _
    obtain ⟨rfl, rfl, rfl⟩ := docBaseCol f k col h
    cases hk with
    | null => exact .null
    | base hb => cases hb with
      | null => exact .null
      | int h1 => exact .base (.int h1)
      | uint h1 => exact .base (.uint h1)
  · intro f k col h s c hk
    obtain ⟨rfl, rfl, rfl⟩ := docBaseCol f k col h
    cases hk with
    | null => exact .null
    | base hb => cases hb with
      | null => exact .null
      | int h1 => exact .base .intText
      | uint h1 => exact .base .intText
  · intro f col h s j _ _
    cases h.col
    exact .bytes

theorem docKeyed : ∀ c ∈ keyCols (storeUser "people"), Spec.Document.Keyed docWorld c.field := by
  intro c hc
  have hf : c.field = 10 := by
    simp [keyCols, storeUser, pick, keyPos] at hc
    subst hc; rfl
  rw [hf]
  refine ⟨fun k hk => ?_, fun h => has_not_json docBase.dialect docHas (doc_both docBase.dialect h).2⟩
  obtain rfl := form_unique hk docHas
  refine ⟨?_, by simp⟩
  rintro (h | ⟨-, ⟨e, h⟩ | h⟩)
  · revert h; decide +kernel
  · cases h
  · cases h

/-! ## A database that compares -/

/-- NULL first; documents after all others, none of them less than another. -/
def docLess : Document.Cell → Document.Cell → Bool
  | .base a, .base b => richLess a b
  | .base _, .doc _ => true
  | _, _ => false

theorem docLess_weak : (∀ x y, docLess x y = true → docLess y x = false) ∧
    ∀ x y z, docLess y x = false → docLess z y = false → docLess z x = false := by
  constructor
  · intro x y
    cases x <;> cases y <;> simp [docLess]
    exact richLess_weak.1 _ _
  · intro x y z
    cases x <;> cases y <;> cases z <;> simp [docLess]
    exact richLess_weak.2 _ _ _

def docLe (ks : List (Spec.Sql.Name × Bool)) (a b : Spec.Sql.Row Document.Cell) : Prop := Spec.Sql.precedes docLess ks b a = false

instance (ks : List (Spec.Sql.Name × Bool)) : DecidableRel (docLe ks) := fun _ _ => inferInstanceAs (Decidable (_ = _))

def docOrd : Spec.Sql.Compare Document.Cell where
  eq
    | .base a, .base b => richOrd.eq a b
    | x, y => decide (x = y)
  lt
    | .base a, .base b => richOrd.lt a b
    | _, _ => false
  like _ _ := false
  before := docLess
  arrange ks rows := rows.insertionSort (docLe ks)
  perm ks rows := List.perm_insertionSort _ _
  sorted ks rows := by
    have : Std.Total (docLe ks) := ⟨fun a b => (precedes_weak docLess_weak.1 docLess_weak.2 ks a b a).2⟩
    have : IsTrans _ (docLe ks) := ⟨fun a b c => (precedes_weak docLess_weak.1 docLess_weak.2 ks a b c).1⟩
    exact List.pairwise_insertionSort (docLe ks) rows

example : Compares docWorld docOrd true ⟨fun _ _ => false,
    fun f x y => docOrd.eq (docWorld.enc f x) (docWorld.enc f y), fun f x y => docOrd.lt (docWorld.enc f x) (docWorld.enc f y),
    fun _ _ _ => false, fun f x y => docOrd.before (docWorld.enc f x) (docWorld.enc f y)⟩ :=
  ⟨⟨richOrd, richSorts, ⟨fun _ _ _ _ _ => rfl, fun _ _ _ _ _ _ _ _ _ => ⟨rfl, rfl, rfl⟩⟩, fun _ _ => ⟨rfl, rfl, rfl, rfl⟩⟩,
    fun _ => ⟨⟨rfl, rfl, rfl⟩, rfl, rfl, rfl⟩, fun _ _ _ _ _ _ => ⟨rfl, fun _ _ => ⟨rfl, rfl, rfl⟩⟩⟩

/-! ## Records -/

def docText (s : String) : List JsonField.Rune := s.toList.map .char

def address (city : String) (zip : Option Int) (tags : Option (List String)) : docTy.Val :=
  (docText city, zip, tags.map (·.map docText), ())

def docRec (a : Int) (x : docTy.Val) (y : Option docTy.Val) : Nat → Document.Val :=
  fun f => if f = 10 then .base (.base (.int a)) else if f = 13 then .doc docTy x else .doc (.ptr docTy) y

theorem docClean (city : String) (zip : Option Int) (tags : Option (List String))
    (hz : ∀ n, zip = some n → -2147483648 ≤ n ∧ n ≤ 2147483647) :
    JsonField.Spec.Ty.Wf docTy (address city zip tags) ∧ JsonField.Spec.Ty.Clean docTy (address city zip tags) := by
  have hc : ∀ s, ∀ r ∈ docText s, ∃ c, r = .char c := by
    intro s r hr
    obtain ⟨c, -, rfl⟩ := List.mem_map.1 hr
    exact ⟨c, rfl⟩
  refine ⟨⟨trivial, hz, fun _ _ _ _ => trivial, trivial⟩, ⟨hc _, fun v _ => ⟨fun h => h, trivial⟩, ?_, trivial⟩⟩
  intro vs hvs v hv
  obtain ⟨l, -, rfl⟩ := Option.map_eq_some_iff.1 hvs
  obtain ⟨s, -, rfl⟩ := List.mem_map.1 hv
  exact hc s

theorem docSolid : Solid .text docTy ∧ Solid .text (.ptr docTy) := by
  constructor <;> constructor <;>
    simp [docTy, JsonField.Spec.Ty.Written, JsonField.Spec.Fields.Written, JsonField.Spec.Ty.NoMap, JsonField.Spec.Fields.NoMap,
      JsonText.Spec.tyDepth, JsonText.Spec.fieldsDepth]

/-- Records like this are stored. -/
theorem docGood (a : Int) (ha : -9223372036854775808 ≤ a ∧ a ≤ 9223372036854775807) (city : String) (tags : Option (List String)) :
    Good (Spec.Document.Stores docWorld) (storeUser "people") (docRec a (address city none tags) (some (address city (some 7) tags))) := by
  intro c hc
  simp only [storeUser, List.mem_cons, List.not_mem_nil, or_false] at hc
  rcases hc with rfl | rfl | rfl
  · exact (C99_stores_iff docHas _).2 (.inr (by
      simpa [Spec.Rich.KeptIn, Spec.Typed.KeptIn, Spec.Typed.typeLimits, Spec.Typed.columnBits, docBase] using
        (by omega : -9223372036854775808 ≤ a ∧ a ≤ 9223372036854775807 ∧ -9223372036854775808 ≤ a ∧ a < 9223372036854775808)))
  · obtain ⟨h1, h2⟩ := docClean city none tags (by simp)
    exact ⟨rfl, _, docIs.1, docSolid.1, h1, h2⟩
  · obtain ⟨h1, h2⟩ := docClean city (some 7) tags (by rintro n ⟨⟩; decide)
    exact ⟨rfl, _, docIs.2 15 (by decide) (by decide), docSolid.2, fun v hv => by cases hv; exact h1,
      fun v hv => by cases hv; exact ⟨fun h => h, h2⟩⟩

def docEnv : Env Nat Document.Val Document.Cell := docWorld.env (storeCfg true) storePg (fun _ => .base (.base .null)) (.int .int64)

def docTwo : Spec.Sql.Store Document.Cell :=
  (performs docEnv (storeUser "people") [.insert (docRec 7 (address "Köln \"<5>\"" (some (-1)) (some ["a", ""])) none),
    .insert (docRec 3 (address "" none none) (some (address "Oslo" none (some []))))]
    fun n => if n = "people".toList then some (Spec.Store.tableOf storePg (storeUser "people") []) else none).2

def docSee : Out (Nat → Document.Val) → Option (List Document.Val)
  | .ok r => some ((genAddrs (storeUser "people")).map r)
  | _ => none

/-- The documents as they were, whatever was in the record. -/
example : docSee (findByPK docEnv (storeUser "people") (docRec 7 (address "old" (some 5) (some ["x", "y", "z"])) (some (address "" none none)))
    docTwo).1 = some [.base (.base (.int 7)), .doc docTy (address "Köln \"<5>\"" (some (-1)) (some ["a", ""])), .doc (.ptr docTy) none] ∧
    docSee (findByPK docEnv (storeUser "people") (docRec 3 (address "old" (some 5) (some ["x", "y", "z"])) none) docTwo).1 =
      some [.base (.base (.int 3)), .doc docTy (address "" none none), .doc (.ptr docTy) (some (address "Oslo" none (some [])))] := by
  decide +kernel

/-! ## A map -/

/-- The same with a `map[string]bool` in place of the `Address`. -/
def docMaps : Document.World Nat where
  base := { docBase with ty := fun f => if f = 10 then .basic "int64".toList else .other }
  fold := id
  doc _ := .map .bool
  store _ s := s
  shown _ s := .bytes s

def mapRec (a : Int) (m : List (String × Bool)) : Nat → Document.Val :=
  fun f => if f = 10 then .base (.base (.int a)) else .doc (.map .bool) (some (m.map fun e => (e.1.toList, e.2)))

def mapEnv : Env Nat Document.Val Document.Cell := docMaps.env (storeCfg true) storePg (fun _ => .base (.base .null)) (.int .int64)

/-- Of two entries, one was never stored in the row. -/
example : docSee (findByPK mapEnv (storeUser "people") (mapRec 7 [("admin", true)])
    (performs mapEnv (storeUser "people") [.insert (mapRec 7 [("guest", true)])]
      fun n => if n = "people".toList then some (Spec.Store.tableOf storePg (storeUser "people") []) else none).2).1 =
    some ((genAddrs (storeUser "people")).map (mapRec 7 [("guest", true), ("admin", true)])) := by
  decide +kernel

example : IsDoc docMaps 13 .text := ⟨.plain .map (docBare _), .map, trivial, rfl⟩

end Verif.Props
