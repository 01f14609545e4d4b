import Verif.Props.RichLost

/-!
# C99 at work: records with a list of texts and a time, on PostgreSQL
-/

namespace Verif.Props

open Verif Verif.Dispatch Verif.Typed Verif.Rich Verif.ColumnType Verif.Scan Verif.Float Verif.Spec
open Verif.Spec.Rich Verif.Spec.Float Verif.Spec.Scan
open Verif.Gen Verif.Store Verif.Spec.Store Verif.Spec.Gen

/-- Records with an `int64` key, a `[]string` and a `time.Time`. -/
def richWorld : Rich.World Nat where
  dialect := .postgres
  decls := ⟨fun _ => "time.Time".toList, fun _ => .struct, id⟩
  facts := ⟨fun _ => false, fun _ => false, fun _ => false, fun _ => false, fun _ => false, fun _ => false⟩
  lib := ⟨goTimes, fun _ _ => none, fun _ _ => none⟩
  ty f := if f = 10 then .basic "int64".toList else if f = 13 then .slice (.basic "string".toList) else .named 0
  size _ := 0
  nullable f := decide (f = 13)
  keep _
    | .int64 n => .base (.num n)
    | .uint64 n => .base (.num n)
    | .str t =>
      match scanLinearArray .brace t with
      | .ok es => .array (es.map fun e => .text (e.getD []))
      | _ => .base .null
    | .time n => .time (instant n)
    | _ => .base .null
  hand _
    | .base (.num n) => .bytes (intDec n)
    | .array cs => .str (sliceText (fun c => match c with | .text s => 34 :: (escapeBytes s ++ [34]) | _ => []) cs)
    | .time i => .time (tag i)
    | _ => .nil

theorem richBare (t : Ty) : Bare richWorld.facts t := by constructor <;> rfl

theorem richHas : Has richWorld.decls richWorld.facts (richWorld.ty 10) (.scalar (.int .int64)) ∧
    Has richWorld.decls richWorld.facts (richWorld.ty 13) (.list .string) ∧
    ∀ f, f ≠ 10 → f ≠ 13 → Has richWorld.decls richWorld.facts (richWorld.ty f) .time := by
  refine ⟨.scalar (.basic (by decide +kernel) (richBare _)), .list (by decide +kernel) (richBare _), fun f h1 h2 => ?_⟩
  have : richWorld.ty f = .named 0 := by simp only [richWorld, if_neg h1, if_neg h2]
  rw [this]
  exact .time rfl

theorem richCols : Spec.Rich.HasCol richWorld 10 (.scalar (.int .int64)) (.base (.int 64)) ∧
    Spec.Rich.HasCol richWorld 13 (.list .string) (.array (.text none)) ∧
    ∀ f, f ≠ 10 → f ≠ 13 → Spec.Rich.HasCol richWorld f .time (.time 1000 (-62135596800000000000) 253402300799999999000) :=
  ⟨⟨richHas.1, rfl⟩, ⟨richHas.2.1, rfl⟩, fun f h1 h2 => ⟨richHas.2.2 f h1 h2, rfl⟩⟩

theorem richBehaves : Spec.Rich.Behaves richWorld := by
  have hcol : ∀ f k col, Spec.Rich.HasCol richWorld f k col → (col = .base (.int 64) ∧ ∀ n, k ≠ .list n) ∨ col = .array (.text none) ∨
      ∃ a b, col = .time 1000 a b := by
    intro f k col h
    have key : ∀ k' col', Spec.Rich.HasCol richWorld f k' col' → k = k' ∧ col = col' := fun k' col' h' => by
      obtain rfl := form_unique h.1 h'.1
      exact ⟨rfl, Option.some.inj (h.2.symm.trans h'.2)⟩
    by_cases h1 : f = 10
    · subst h1
      obtain ⟨rfl, rfl⟩ := key _ _ richCols.1
      exact .inl ⟨rfl, by simp⟩
    · by_cases h2 : f = 13
      · subst h2; exact .inr (.inl (key _ _ richCols.2.1).2)
      · exact .inr (.inr ⟨_, _, (key _ _ (richCols.2.2 f h1 h2)).2⟩)
  have hkeep : ∀ f k col, Spec.Rich.HasCol richWorld f k col → ∀ s c, Spec.Rich.Keeps col s c → richWorld.keep f s = c := by
    intro f k col h s c hk
    cases hk with
    | null => rfl
    | base hb =>
      rcases hcol f k _ h with ⟨e, -⟩ | e | ⟨a, b, e⟩ <;> cases e
      cases hb <;> rfl
    | @array cl t ts cs h1 h2 =>
      rcases hcol f k _ h with ⟨e, -⟩ | e | ⟨a, b, e⟩ <;> cases e
      have := (scanLinearArray_iff .brace t _).2 (arrayText_linear h1)
      simp only [richWorld, this]
      congr 1
      clear this h1
      induction h2 with
      | nil => rfl
      | cons h3 _ ih =>
        cases h3
        simpa using ih
    | blob hb => rcases hcol f k _ h with ⟨e, -⟩ | e | ⟨a, b, e⟩ <;> cases e
    | time h1 h2 h3 => simp only [richWorld, instant_tag]
  refine ⟨fun f k col h s c hk _ => by rw [hkeep f k col h s c hk]; exact hk, fun f k col h s c hk => ?_⟩
  cases hk with
  | null => exact .null
  | base hb =>
    rcases hcol f k _ h with ⟨e, -⟩ | e | ⟨a, b, e⟩ <;> cases e
    cases hb with
    | null => exact .null
    | int h1 => exact .base .intText
    | uint h1 => exact .base .intText
  | @array cl t ts cs h1 h2 =>
    rcases hcol f k _ h with ⟨e, -⟩ | e | ⟨a, b, e⟩ <;> cases e
    have hcs : cs = ts.map .text := by
      clear h1
      induction h2 with
      | nil => rfl
      | cons h3 _ ih => cases h3; simpa using ih
    subst hcs
    refine .array (ts := ts) ?_ ?_
    · have := sliceText_is (l := (ts.map Spec.Columns.Cell.text))
        (enc := fun c => match c with | .text s => 34 :: (escapeBytes s ++ [34]) | _ => [])
        (g := fun c => match c with | .text s => s | _ => []) (by
          intro y hy
          obtain ⟨s, -, rfl⟩ := List.mem_map.1 hy
          exact item_quoted s)
      rw [List.map_map] at this
      simpa [Function.comp_def] using this
    · clear h1 h2
      induction ts with
      | nil => exact .nil
      | cons t ts ih => exact .cons .text ih
  | blob hb => rcases hcol f k _ h with ⟨e, -⟩ | e | ⟨a, b, e⟩ <;> cases e
  | time h1 h2 h3 => exact .time

theorem richKeyed : ∀ c ∈ keyCols (storeUser "people"), Keyed richWorld c.field := by
  intro c hc k hk
  have hf : c.field = 10 := by
    simp [keyCols, storeUser, pick, keyPos] at hc
    subst hc; rfl
  rw [hf] at hk ⊢
  obtain rfl := form_unique hk richHas.1
  refine ⟨?_, by simp⟩
  rintro (h | ⟨-, ⟨e, h⟩ | h⟩)
  · revert h; decide +kernel
  · cases h
  · cases h

/-! ## A database that compares -/

/-- NULL first; of lists none is less than another. -/
def richLess : Rich.Cell → Rich.Cell → Bool
  | .base a, .base b => cellLess a b
  | .base _, _ => true
  | .array _, .array _ => false
  | .array _, .blob _ => true
  | .array _, .time _ => true
  | .blob a, .blob b => decide (a < b)
  | .blob _, .time _ => true
  | .time a, .time b => decide (a < b)
  | _, _ => false

theorem richLess_weak : (∀ x y, richLess x y = true → richLess y x = false) ∧
    ∀ x y z, richLess y x = false → richLess z y = false → richLess z x = false := by
  constructor
  · intro x y
    cases x <;> cases y <;> simp [richLess]
    · exact cellLess_weak.1 _ _
    · intro h; exact List.le_of_lt h
    · omega
  · intro x y z
    cases x <;> cases y <;> cases z <;> simp [richLess]
    · exact cellLess_weak.2 _ _ _
    · exact List.le_trans
    · omega

def richLe (ks : List (Spec.Sql.Name × Bool)) (a b : Spec.Sql.Row Rich.Cell) : Prop := Spec.Sql.precedes richLess ks b a = false

instance (ks : List (Spec.Sql.Name × Bool)) : DecidableRel (richLe ks) := fun _ _ => inferInstanceAs (Decidable (_ = _))

def richOrd : Spec.Sql.Compare Rich.Cell where
  eq
    | .base a, .base b => cellOrd.eq a b
    | x, y => decide (x = y)
  lt x y := decide (x ≠ .base .null ∧ y ≠ .base .null) && richLess x y
  like _ _ := false
  before := richLess
  arrange ks rows := rows.insertionSort (richLe ks)
  perm ks rows := List.perm_insertionSort _ _
  sorted ks rows := by
    have : Std.Total (richLe ks) := ⟨fun a b => (precedes_weak richLess_weak.1 richLess_weak.2 ks a b a).2⟩
    have : IsTrans _ (richLe ks) := ⟨fun a b c => (precedes_weak richLess_weak.1 richLess_weak.2 ks a b c).1⟩
    exact List.pairwise_insertionSort (richLe ks) rows

theorem richSorts : Spec.Rich.Sorts richOrd true := by
  have base : ∀ a b : Spec.Columns.Cell, a ≠ .null → b ≠ .null → richOrd.eq (.base a) (.base b) = cellOrd.eq a b ∧
      richOrd.lt (.base a) (.base b) = cellOrd.lt a b ∧ richOrd.before (.base a) (.base b) = cellOrd.before a b := by
    intro a b ha hb
    refine ⟨rfl, ?_, rfl⟩
    simp [richOrd, cellOrd, richLess, ha, hb]
  refine ⟨?_, ?_, ?_, ?_, ?_, ?_, ?_⟩
  · intro a b
    obtain ⟨h1, h2, h3⟩ := base (.num a) (.num b) (by simp) (by simp)
    rw [h1, h2, h3]; exact cellSorts.num a b
  · intro a b
    obtain ⟨h1, h2, h3⟩ := base (.bool a) (.bool b) (by simp) (by simp)
    rw [h1, h2, h3]; exact cellSorts.bool a b
  · intro a b
    obtain ⟨h1, h2, h3⟩ := base (.text a) (.text b) (by simp) (by simp)
    rw [h1, h2, h3]; exact cellSorts.text a b
  · intro f a b ha hb
    obtain ⟨h1, h2, h3⟩ := base (.flt a) (.flt b) (by simp) (by simp)
    rw [h1, h2, h3]; exact cellSorts.flt f a b ha hb
  · intro a b
    simp [richOrd, richLess]
  · intro a b
    simp [richOrd, richLess]
  · intro c
    cases c with
    | base c => cases c <;> simp [richOrd, cellOrd, richLess, cellLess]
    | _ => simp [richOrd, richLess]

example : Spec.Rich.Others richWorld richOrd ⟨fun _ _ => false,
    fun f x y => richOrd.eq (richWorld.keep f (Rich.write .postgres richWorld.decls richWorld.facts (richWorld.ty f) x))
      (richWorld.keep f (Rich.write .postgres richWorld.decls richWorld.facts (richWorld.ty f) y)),
    fun f x y => richOrd.lt (richWorld.keep f (Rich.write .postgres richWorld.decls richWorld.facts (richWorld.ty f) x))
      (richWorld.keep f (Rich.write .postgres richWorld.decls richWorld.facts (richWorld.ty f) y)),
    fun _ _ _ => false,
    fun f x y => richOrd.before (richWorld.keep f (Rich.write .postgres richWorld.decls richWorld.facts (richWorld.ty f) x))
      (richWorld.keep f (Rich.write .postgres richWorld.decls richWorld.facts (richWorld.ty f) y))⟩ :=
  ⟨fun _ _ _ _ _ => rfl, fun _ _ _ _ _ _ _ _ _ => ⟨rfl, rfl, rfl⟩⟩

/-! ## Records -/

def richEnv : Env Nat Rich.Val Rich.Cell := richWorld.env (storeCfg true) storePg (fun _ => .base .null) (.int .int64)

def richRec (a : Int) (l : Option (List String)) (i : Int) : Nat → Rich.Val :=
  fun f => if f = 10 then .base (.int a) else if f = 13 then (match l with
    | none => .base .nil
    | some l => .strs (l.map fun s => s.toUTF8.toList)) else .time i

/-- in the year 2026, before 1970, and on the first day of 1970 -/
def richThree : Spec.Sql.Store Rich.Cell :=
  (performs richEnv (storeUser "people") [.insert (richRec 7 (some ["a\"b\\", "", "NULL", "ö, {x}"]) 1790000000123456000),
    .insert (richRec 3 none (-5000)), .insert (richRec (-4) (some []) 0)]
    fun n => if n = "people".toList then some (Spec.Store.tableOf storePg (storeUser "people") []) else none).2

def richSee : Ret (List (Nat → Rich.Val)) → Option (List (List Rich.Val))
  | .ok rs => some (rs.map fun r => (genAddrs (storeUser "people")).map r)
  | _ => none

theorem richStores : Spec.Rich.Stores richWorld 10 (.base (.int 7)) ∧ Spec.Rich.Stores richWorld 13 (.strs ["ö".toUTF8.toList, []]) ∧
    Spec.Rich.Stores richWorld 13 (.base .nil) ∧ Spec.Rich.Stores richWorld 15 (.time 1790000000123456000) ∧
    ¬ Spec.Rich.Stores richWorld 15 (.time 1) := by
  refine ⟨(C99_stores_iff richHas.1 _).2 (.inr ?_), (C99_stores_iff richHas.2.1 _).2 (.inr ?_),
    ⟨_, _, richCols.2.1, .inl ⟨rfl, .inr ⟨rfl, .inl ⟨_, rfl⟩⟩⟩⟩,
    (C99_stores_iff (richHas.2.2 15 (by decide) (by decide)) _).2 (.inr ⟨1790000000123456, by decide, by decide, by decide⟩), fun h => ?_⟩
  · simp [Spec.Rich.KeptIn, Spec.Typed.KeptIn, Spec.Typed.typeLimits, Spec.Typed.columnBits, richWorld]
  · refine ⟨.strs fun s hs => ?_, by simp, by simp⟩
    simp only [List.mem_cons, List.not_mem_nil, or_false] at hs
    rcases hs with rfl | rfl
    · exact ⟨['ö'], by decide +kernel, by decide, by simp⟩
    · exact ⟨[], by decide +kernel, by decide, by simp⟩
  · rcases (C99_stores_iff (richHas.2.2 15 (by decide) (by decide)) _).1 h with ⟨h, -⟩ | ⟨u, h, -⟩
    · cases h
    · omega

/-- The lists and times as they were, whatever was in the record. -/
example : (match (findByPK richEnv (storeUser "people") (richRec 7 (some ["old"]) 1000) richThree).1 with
    | .ok r => some ((genAddrs (storeUser "people")).map r)
    | _ => none) = some [.base (.int 7), .strs (["a\"b\\", "", "NULL", "ö, {x}"].map fun s => s.toUTF8.toList), .time 1790000000123456000] := by
  decide +kernel

/-- those up to the first of January 1970, 00:00, the latest first; one list is nil, one is empty -/
example : richSee (queryAll richEnv .postgres richOrd (storeUser "people") (fun _ => .base .nil)
    { where_ := some (.cmp .le condGroup (.time 0)), orderBy := [(condGroup, false)] } richThree).1 =
    some [[.base (.int (-4)), .strs [], .time 0], [.base (.int 3), .base .nil, .time (-5000)]] := by
  decide +kernel

/-- MySQL, where of two tags the second is read as another one -/
example : Rich.read richWorld.lib .mysql richWorld.decls richWorld.facts (.slice (.basic "string".toList))
    (.bytes "[\"red\", \"blue\"]".toUTF8.toList) (.base .nil) = some (.strs ["red".toUTF8.toList, " \"blue\"".toUTF8.toList]) := by
  decide +kernel

/-- `[]byte` and `[]float32` fields, and `[]int` fields with a large number -/
example : Has richWorld.decls richWorld.facts (.slice (.basic "byte".toList)) .bytes ∧
    Has richWorld.decls richWorld.facts (.slice (.basic "float32".toList)) (.list (.float 32)) ∧
    Has richWorld.decls richWorld.facts (.slice (.basic "int".toList)) (.list (.int .int)) ∧
    (∀ n ∈ [(2147483648 : Int)], (Spec.Typed.typeLimits .int).1 ≤ n ∧ n ≤ (Spec.Typed.typeLimits .int).2) :=
  ⟨.bytes (richBare _), .list (by decide +kernel) (richBare _), .list (by decide +kernel) (richBare _), by decide⟩

end Verif.Props
