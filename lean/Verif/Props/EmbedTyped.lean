import Verif.Spec.EmbedTyped
import Verif.Props.Embed
import Verif.Props.EmbedParsed
import Verif.Props.TypedOrder

/-! # C102: structs with fields of given types -/

namespace Verif.Props

open Verif Verif.Addrs Verif.Gen Verif.Dispatch Verif.Typed Verif.Embed Verif.Spec Verif.Spec.Gen Verif.Spec.Store Verif.Spec.Embed
open Verif.Spec.Columns Verif.Scan
open Verif.Spec.Typed (Behaves HasCol Stores Scalar)
open Verif.Spec.EmbedTyped (zeroOf below zero Strict comesBack)

theorem strict_asIs {b : Text} : Strict (.basic b) ↔ AsIs b := by
  simp [Strict, AsIs]

theorem scalar_kindOf {D : Decls} {fs : Facts} {ty : Ty} {k : Typed.Kind} (h : Scalar D fs ty k) : kindOfTy D ty = some k := by
  cases h with
  | basic h _ => exact h
  | named hu h _ _ => simp only [kindOfTy, hu]; exact h
  | ptr h _ _ => exact h

theorem scanner_null (L : Lib) (ptr : Bool) (old : Val) {k : Typed.Kind} (hk : k ≠ .int .byte) :
    Typed.scanner L ptr old .nil k = some (if ptr then .nil else zeroOf k) := by
  cases k with
  | bool => cases ptr <;> rfl
  | string => cases ptr <;> rfl
  | float w =>
    cases ptr
    · simp only [Typed.scanner, scanFloat, dest, storeNil, result, Bool.false_eq_true, if_false]
      simp [Float.ofBits, zeroOf]
    · rfl
  | int k => cases k <;> first | exact absurd rfl hk | (cases ptr <;> rfl)

section
variable {F : Type} {W : World F}

theorem null_handed (hW : Behaves W) {f : F} {k : Typed.Kind} {col : Columns.Col} (h : HasCol W f k col) : W.hand f .null = .nil := by
  have h1 := hW.hands f k col h .nil .null .null
  generalize W.hand f .null = s at h1
  cases h1
  rfl

open Classical in
/-- What is read from a column that is NULL: fields of the types string, bool, int64 and float64 fail, pointers are nil, and all others
are zero, whatever was there. -/
theorem C102_null_read (hW : Behaves W) {f : F} {k : Typed.Kind} {col : Columns.Col} (h : HasCol W f k col) (old : Val) :
    Typed.read W.lib W.dialect W.decls W.facts (W.ty f) (W.hand f .null) old =
      if Strict (W.ty f) then none else some (if isPtr (W.ty f) then .nil else zeroOf k) := by
  rw [null_handed hW h]
  have hb := scalar_byte h.1
  have hs := h.1
  generalize W.ty f = ty at hs ⊢
  cases hs with
  | @basic b k hk hbare =>
    unfold Typed.read Dispatch.reads
    rw [scanner_basic W.dialect W.decls hk hbare]
    by_cases ha : AsIs b
    · rw [if_pos ha, if_pos (strict_asIs.2 ha)]
      simp only [kindOfTy, hk, Option.bind_some]
      rcases kinds_asIs _ (kindOf_mem hk) ha with e | e | e | e <;> dsimp only at e <;> subst e <;> rfl
    · rw [if_neg ha, if_neg (fun h => ha (strict_asIs.1 h))]
      simp only [hk, Option.bind_some, scanner_null _ _ _ hb]
  | @named id b k hu hk hbare hn =>
    rw [if_neg (by simp [Strict])]
    unfold Typed.read Dispatch.reads
    rw [(named_both W.dialect W.decls hu hk hbare hn).2]
    simp only [hk, Option.bind_some, scanner_null _ _ _ hb]
  | @ptr b k hk hbare hc =>
    rw [if_neg (by simp [Strict])]
    rcases (write_read (Scalar.ptr hk hbare hc) W.dialect W.lib).2 with h1 | ⟨h1, -⟩
    · rw [h1, scanner_null _ _ _ hb]
    · cases h1

end

variable {W : World Path} {g : Gen.Cfg} {S : Sql.Dialect} {gen : Sql.Tbl Cell → Cell} {auto : Typed.Kind} {t : Table Path}

theorem typed_lawful (hT : Spec.EmbedTyped.Typed W t) : Lawful (Spec.EmbedTyped.values W) (genAddrs t) := by
  intro c hc hl
  rw [hT.ptr c hc] at hl
  obtain ⟨k, col, hcol⟩ := hT.col c hc
  simp only [Spec.EmbedTyped.values, Spec.EmbedTyped.zero, hl, if_true, decide_true, true_and, below,
    scalar_kindOf hcol.1, Option.map_some, Option.getD_some]
  cases k <;> simp [zeroOf]

/-- A call with another key leaves the row of a key as it is. -/
theorem step_other {X V : Type} [DecidableEq V] {G : Values X} {E : Store.Env Path X V} (ha : t.auto = none) {o : Call X} {m m' : Map Path V}
    {a : End × Obj X} (h : Step G E t o m a m') {k : List V} (hk : keyOf t (cells G E (record o)) ≠ k) : m' k = m k := by
  have hac : t.autoCol = none := by simp [Table.autoCol, ha]
  have hput : ∀ s, put m (keyOf t (cells G E (record o))) s k = m k := fun s => by
    rw [put, if_neg (fun h => hk h.symm)]
  cases o with
  | insert r =>
    simp only [Step, hac] at h
    split at h
    · rw [h.1]
    · rw [h.1]; exact hput _
  | find r => rw [h.1]
  | update r =>
    rw [h.2]
    split
    · exact hput _
    · rfl
  | delete r => rw [h.2]; exact hput _

theorem steps_other {X V : Type} [DecidableEq V] {G : Values X} {E : Store.Env Path X V} (ha : t.auto = none) {os : List (Call X)}
    {m m' : Map Path V} {as : List (End × Obj X)} (h : Steps G E t os m as m') {k : List V}
    (hk : ∀ o ∈ os, keyOf t (cells G E (record o)) ≠ k) : m' k = m k := by
  induction h with
  | nil => rfl
  | cons h1 _ ih =>
    rw [ih (fun o ho => hk o (by simp [ho])), step_other ha h1 (hk _ (by simp))]

/-- What `FindByPK` does for a struct that was inserted, after calls with other keys. -/
theorem find_after {X V : Type} [DecidableEq V] {G : Values X} {E : Store.Env Path X V} (h : Spec.Typed.Shape E.g E.D t) (hw : AllWritten t)
    (ha : t.auto = none) (hs : Struct (genAddrs t)) (hG : Lawful G (genAddrs t)) (r r' : Obj X)
    (hr : ∀ c ∈ pick t (keyPos t), cells G E r c.field ≠ E.null) (hkey : keyOf t (cells G E r') = keyOf t (cells G E r))
    (os : List (Call X)) (ho : ∀ o ∈ os, Given G E t o) (hother : ∀ o ∈ os, keyOf t (cells G E (record o)) ≠ keyOf t (cells G E r))
    (m : Map Path V) (hm : m (keyOf t (cells G E r)) = none) (σ : Sql.Store V) (hk : Store.Keeps (raw E) (KeyCell E t) t m σ) :
    Loads G E (genAddrs t) (cells G E r) r' (findByPK G E t r' (performs G E t (.insert r :: os) σ).2).1 := by
  have hac : t.autoCol = none := by simp [Table.autoCol, ha]
  have hauto : ∀ c, t.autoCol = some c → pick t (insertPos t) ≠ [] ∧ Makes E t c := fun c hc => by rw [hac] at hc; cases hc
  have hr' : ∀ c ∈ pick t (keyPos t), cells G E r' c.field ≠ E.null := by
    intro d hd'
    rw [List.map_inj_left.1 hkey d hd']; exact hr d hd'
  obtain ⟨m1, h1, h2, -⟩ := C102_steps h hw hs hG hauto (.insert r :: os)
    (by simp only [List.mem_cons]
        rintro o (rfl | ho')
        · exact ⟨.inl hr, by simp⟩
        · exact ho o ho') m σ hk
  obtain ⟨m2, h3, -⟩ := C102_steps h hw hs hG hauto [.find r']
    (by simp only [List.mem_cons, List.not_mem_nil, or_false]
        rintro o rfl
        exact ⟨.inl hr', by simp⟩) m1 _ h2
  simp only [performs, perform] at h3
  have hm1 : m1 (keyOf t (cells G E r)) = some (cells G E r) := by
    cases h1 with
    | cons s1 s2 =>
      rw [steps_other ha s2 hother]
      simp only [Step, hac, hm, Option.isSome_none, Bool.false_eq_true, if_false] at s1
      rw [s1.1, put, if_pos rfl]
  cases h3 with
  | cons s3 s4 =>
    simp only [Step, hkey, hm1] at s3
    exact s3.2

/-- How the columns of a stored struct are read. -/
theorem typed_dec (hW : Behaves W) (hT : Spec.EmbedTyped.Typed W t) (r : Obj Val) (hfit : ∀ c ∈ genAddrs t, Reached r c → Stores W c (r.val c))
    {c : Path} (hc : c ∈ genAddrs t) (old : Val) :
    (Reached r c ∨ ¬ Strict (W.ty c) → (W.env g S gen auto).dec c (cells (Spec.EmbedTyped.values W) (W.env g S gen auto) r c) old =
      some (comesBack W r c)) ∧
    (¬ Reached r c → Strict (W.ty c) →
      (W.env g S gen auto).dec c (cells (Spec.EmbedTyped.values W) (W.env g S gen auto) r c) old = none) := by
  obtain ⟨k, col, hcol⟩ := hT.col c hc
  have hnull : (W.env g S gen auto).null = .null := rfl
  have hread := C102_null_read hW hcol old
  by_cases hp : Present (Spec.EmbedTyped.values W) r c
  · refine ⟨fun _ => ?_, fun h => absurd hp.1 h⟩
    unfold cells comesBack
    rw [if_pos hp, if_pos hp.1]
    exact C96_field hW (hfit c hc hp.1) old
  · unfold cells
    rw [if_neg hp, hnull]
    by_cases hre : Reached r c
    · refine ⟨fun _ => ?_, fun h => absurd hre h⟩
      have hn : lastPtr c = true ∧ (Spec.EmbedTyped.values W).isNil (r.val c) = true := by
        by_contra hn
        exact hp ⟨hre, hn⟩
      rw [hT.ptr c hc] at hn
      have hv : r.val c = .nil := by simpa [Spec.EmbedTyped.values] using hn.2
      have hns : ¬ Strict (W.ty c) := by
        rintro (e | e | e | e) <;> rw [e] at hn <;> simp [isPtr] at hn
      rw [if_neg hns, if_pos hn.1] at hread
      unfold comesBack
      rw [if_pos hre, hv]
      exact hread
    · refine ⟨fun h => ?_, fun _ h => ?_⟩
      · rw [if_neg (h.resolve_left hre)] at hread
        unfold comesBack
        rw [if_neg hre]
        refine Eq.trans hread (congrArg some ?_)
        simp only [zero, below, scalar_kindOf hcol.1, Option.map_some, Option.getD_some]
      · rw [if_pos h] at hread
        exact hread

/-- C102, for fields of predeclared types, of types defined from them and of pointers to them: a struct that was inserted, of which any
embedded pointers may be nil, is found later under its key, whatever calls with other keys there were, if and only if none of the fields
behind nil pointers has the type string, bool, int64 or float64.  The fields it had are as they were, the others are zero. -/
theorem C102_typed (hW : Behaves W) (h : Spec.Typed.Shape g S t) (hT : Spec.EmbedTyped.Typed W t) (hs : Struct (genAddrs t)) (hw : AllWritten t)
    (ha : t.auto = none) (r r' : Obj Val) (hfit : ∀ c ∈ genAddrs t, Reached r c → Stores W c (r.val c))
    (hr : ∀ c ∈ pick t (keyPos t), cells (Spec.EmbedTyped.values W) (W.env g S gen auto) r c.field ≠ .null)
    (hkey : keyOf t (cells (Spec.EmbedTyped.values W) (W.env g S gen auto) r') =
      keyOf t (cells (Spec.EmbedTyped.values W) (W.env g S gen auto) r))
    (os : List (Call Val)) (ho : ∀ o ∈ os, Given (Spec.EmbedTyped.values W) (W.env g S gen auto) t o)
    (hother : ∀ o ∈ os, keyOf t (cells (Spec.EmbedTyped.values W) (W.env g S gen auto) (record o)) ≠
      keyOf t (cells (Spec.EmbedTyped.values W) (W.env g S gen auto) r))
    (m : Map Path Cell) (hm : m (keyOf t (cells (Spec.EmbedTyped.values W) (W.env g S gen auto) r)) = none) (σ : Sql.Store Cell)
    (hk : Store.Keeps (raw (W.env g S gen auto)) (KeyCell (W.env g S gen auto) t) t m σ) :
    let a := (findByPK (Spec.EmbedTyped.values W) (W.env g S gen auto) t r'
      (performs (Spec.EmbedTyped.values W) (W.env g S gen auto) t (.insert r :: os) σ).2).1
    ((∀ c ∈ genAddrs t, Reached r c ∨ ¬ Strict (W.ty c)) →
      a.1 = .ok ∧ ∀ c ∈ genAddrs t, Reached a.2 c ∧ a.2.val c = comesBack W r c) ∧
    ((∃ c ∈ genAddrs t, ¬ Reached r c ∧ Strict (W.ty c)) → a.1 = .failed) := by
  have hl := find_after (E := W.env g S gen auto) h hw ha hs (typed_lawful hT) r r' hr hkey os ho hother m hm σ hk
  intro a
  refine ⟨fun hall => ?_, ?_⟩
  · rcases hl with ⟨h1, h2⟩ | ⟨-, c, hc, h2⟩
    · refine ⟨h1, fun c hc => ⟨(h2 c hc).1, ?_⟩⟩
      have := (h2 c hc).2
      rw [(typed_dec hW hT r hfit hc _).1 (hall c hc)] at this
      exact (Option.some.inj this).symm
    · rw [(typed_dec hW hT r hfit hc _).1 (hall c hc)] at h2
      cases h2
  · rintro ⟨c, hc, hre, hst⟩
    rcases hl with ⟨-, h2⟩ | ⟨h1, -⟩
    · have := (h2 c hc).2
      rw [(typed_dec hW hT r hfit hc _).2 hre hst] at this
      cases this
    · exact h1

/-! ## Examples -/

/-- The struct of `Props/EmbedParsed.lean`, on PostgreSQL: `ID int64`, `City string` or `City Town` with `type Town string`, and
`Nick *string`. -/
def embWorld (town : Bool) : World Path where
  dialect := .postgres
  decls := ⟨fun _ => "Town".toList, fun _ => .basic "string".toList, id⟩
  facts := ⟨fun _ => false, fun _ => false, fun _ => false, fun _ => false, fun _ => false, fun _ => false⟩
  lib := ⟨goTimes, fun _ _ => none, fun _ _ => none⟩
  ty c := if c = embId then .basic "int64".toList else if c = embCity then (if town then .named 0 else .basic "string".toList)
    else .ptr (.basic "string".toList)
  size _ := 40
  keep _
    | .bool b => .bool b
    | .int64 n => .num n
    | .uint64 n => .num n
    | .str s => .text s
    | _ => .null
  hand _
    | .null => .nil
    | .bool b => .bool b
    | .num n => .bytes (intDec n)
    | .text s => .bytes s
    | _ => .nil

theorem embBare (town : Bool) (t : Ty) : Bare (embWorld town).facts t := by constructor <;> rfl

theorem embCols (town : Bool) : HasCol (embWorld town) embId (.int .int64) (.int 64) ∧
    ∀ f, f ≠ embId → HasCol (embWorld town) f .string (.text (some 40)) := by
  refine ⟨⟨.basic (by decide +kernel) (embBare _ _), rfl⟩, fun f h1 => ⟨?_, rfl⟩⟩
  by_cases h2 : f = embCity
  · have e : (embWorld town).ty f = if town then .named 0 else .basic "string".toList := by simp only [embWorld, if_neg h1, if_pos h2]
    rw [e]
    cases town
    · exact .basic (by decide +kernel) (embBare _ _)
    · exact .named (b := "string".toList) rfl (by decide +kernel) (embBare _ _) (by decide)
  · have e : (embWorld town).ty f = .ptr (.basic "string".toList) := by simp only [embWorld, if_neg h1, if_neg h2]
    rw [e]
    exact .ptr (by decide +kernel) (embBare _ _) rfl

theorem embBehaves (town : Bool) : Behaves (embWorld town) := by
  have hcol : ∀ f k col, HasCol (embWorld town) f k col → ∀ g, col ≠ .float g := by
    intro f k col h g hg
    have key : ∀ k' col', HasCol (embWorld town) f k' col' → col = col' := fun k' col' h' => by
      obtain rfl : k = k' := Option.some.inj ((scalar_kindOf h.1).symm.trans (scalar_kindOf h'.1))
      exact Option.some.inj (h.2.symm.trans h'.2)
    subst hg
    by_cases h1 : f = embId
    · subst h1; cases key _ _ (embCols town).1
    · cases key _ _ ((embCols town).2 f h1)
  refine ⟨fun f k col h s c hk _ => ?_, fun f k col h s c hk => ?_⟩
  · cases hk with
    | null => exact .null
    | bool => exact .bool
    | int h1 => exact .int h1
    | uint h1 => exact .uint h1
    | text h1 => exact .text h1
    | @float g => exact absurd rfl (hcol f k _ h g)
  · cases hk with
    | null => exact .null
    | bool => exact .bool
    | int h1 => exact .intText
    | uint h1 => exact .intText
    | text h1 => exact .textBytes
    | @float g => exact absurd rfl (hcol f k _ h g)

theorem embTyped (town : Bool) : Spec.EmbedTyped.Typed (embWorld town) (embTable none) := by
  refine ⟨fun c _ => ?_, fun c hc => ?_⟩
  · by_cases h : c = embId
    · exact ⟨_, _, h ▸ (embCols town).1⟩
    · exact ⟨_, _, (embCols town).2 c h⟩
  · simp only [genAddrs, embTable, List.map_cons, List.map_nil, List.mem_cons, List.not_mem_nil, or_false] at hc
    rcases hc with rfl | rfl | rfl <;> cases town <;> decide

/-- A `User`, with or without an `Addr`. -/
def embPerson (id : Int) (city nick : Val) (addr : Bool) : Obj Val where
  mem _ := addr
  val c := if c = embId then .int id else if c = embCity then city else nick

theorem embPerson_reached (id : Int) (city nick : Val) (addr : Bool) :
    Reached (embPerson id city nick addr) embId ∧ Reached (embPerson id city nick addr) embNick ∧
      (Reached (embPerson id city nick addr) embCity ↔ addr = true) := by
  have one : ∀ s : Seg, Reached (embPerson id city nick addr) [s] := by
    rintro s p ⟨h, u, v, rfl, -⟩ hne
    exfalso
    have h1 := h.length_le
    simp only [List.length_append, List.length_cons, List.length_nil] at h1
    obtain rfl : u = [] := List.length_eq_zero_iff.1 (by omega)
    exact hne (h.eq_of_length (by simp))
  refine ⟨one _, one _, fun h => ?_, fun h p _ _ => h⟩
  exact h [⟨"Addr", true⟩] ⟨by decide, [], _, rfl, rfl⟩ (by decide)

def embTypedEnv (town : Bool) : Store.Env Path Val Cell := (embWorld town).env (embStore true).g storePg (fun _ => .null) .string

theorem embPerson_key (town : Bool) (id : Int) (city nick : Val) (addr : Bool) :
    cells (Spec.EmbedTyped.values (embWorld town)) (embTypedEnv town) (embPerson id city nick addr) embId = .num id := by
  unfold cells
  rw [if_pos ⟨(embPerson_reached id city nick addr).1, by simp [lastPtr, embId]⟩]
  show (match Typed.same (.int id) with | .int64 n => Cell.num n | _ => .null) = _
  rfl

theorem embPerson_fits (town : Bool) (nick : Val) (hn : nick = .nil ∨ Stores (embWorld town) embNick nick) :
    ∀ c ∈ genAddrs (embTable none), Reached (embPerson 7 .nil nick false) c → Stores (embWorld town) c ((embPerson 7 .nil nick false).val c) := by
  intro c hc hre
  simp only [genAddrs, embTable, List.map_cons, List.map_nil, List.mem_cons, List.not_mem_nil, or_false] at hc
  rcases hc with rfl | rfl | rfl
  · exact ⟨_, _, (embCols town).1, .inr (.int ⟨by norm_num, by norm_num⟩ ⟨by norm_num, by norm_num⟩)⟩
  · cases (embPerson_reached 7 .nil nick false).2.2.1 hre
  · rcases hn with rfl | h
    · exact ⟨_, _, (embCols town).2 embNick (by decide), .inl ⟨by decide, by cases town <;> decide⟩⟩
    · exact h

theorem embKeyPos (c : GCol Path) (hc : c ∈ pick (embTable none) (keyPos (embTable none))) : c.field = embId := by
  simp [embTable, pick, keyPos] at hc
  rw [hc]

def embCells : Sql.Store Cell := fun n => if n = tableName storePg (embTable none) then some (tableOf storePg (embTable none) []) else none

/-- All hypotheses of `C102_typed` are met by a `User` without an `Addr`.  It is found if `City` is a `Town`, and then empty; it is not if
`City` is a `string`. -/
example (town : Bool) :
    let a := (findByPK (Spec.EmbedTyped.values (embWorld town)) ((embWorld town).env (embStore true).g storePg (fun _ => .null) .string) (embTable none) (embPerson 7 .nil .nil true)
      (performs (Spec.EmbedTyped.values (embWorld town)) ((embWorld town).env (embStore true).g storePg (fun _ => .null) .string) (embTable none)
        [.insert (embPerson 7 .nil .nil false), .insert (embPerson 8 .nil .nil false)] embCells).2).1
    (town = true → a.1 = .ok ∧ a.2.val embCity = .str []) ∧ (town = false → a.1 = .failed) := by
  intro a
  have hk : ∀ id addr, keyOf (embTable none) (cells (Spec.EmbedTyped.values (embWorld town)) (embTypedEnv town) (embPerson id .nil .nil addr)) =
      [.num id] := fun id addr => by
    rw [← embPerson_key town id .nil .nil addr]; rfl
  have hr : ∀ id addr, ∀ c ∈ pick (embTable none) (keyPos (embTable none)),
      cells (Spec.EmbedTyped.values (embWorld town)) (embTypedEnv town) (embPerson id .nil .nil addr) c.field ≠ .null := fun id addr c hc => by
    rw [embKeyPos c hc, embPerson_key]; simp
  have h0 := C102_typed (S := storePg) (embBehaves town) (embShape true) (embTyped town) (embStruct none) (by simp [AllWritten, embTable]) rfl (embPerson 7 .nil .nil false)
    (embPerson 7 .nil .nil true) (embPerson_fits town .nil (.inl rfl)) (gen := fun _ => .null) (auto := .string) (hr 7 false)
    ((hk 7 true).trans (hk 7 false).symm) [.insert (embPerson 8 .nil .nil false)]
    (by simp only [List.mem_cons, List.not_mem_nil, or_false]
        rintro o rfl
        exact ⟨.inl (hr 8 false), by simp⟩)
    (by simp only [List.mem_cons, List.not_mem_nil, or_false]
        rintro o rfl
        show keyOf _ (cells _ (embTypedEnv town) (embPerson 8 .nil .nil false)) ≠ keyOf _ (cells _ (embTypedEnv town) (embPerson 7 .nil .nil false))
        rw [hk, hk]; decide)
    (fun _ => none) rfl embCells (C90_empty _ _ _ _ (if_pos rfl))
  extract_lets b at h0
  have hab : a = b := rfl
  rw [← hab] at h0
  clear_value b
  have h : ((∀ c ∈ genAddrs (embTable none), Reached (embPerson 7 .nil .nil false) c ∨ ¬ Strict ((embWorld town).ty c)) →
      a.1 = .ok ∧ ∀ c ∈ genAddrs (embTable none), Reached a.2 c ∧ a.2.val c = comesBack (embWorld town) (embPerson 7 .nil .nil false) c) ∧
    ((∃ c ∈ genAddrs (embTable none), ¬ Reached (embPerson 7 .nil .nil false) c ∧ Strict ((embWorld town).ty c)) → a.1 = .failed) := h0
  clear_value a
  refine And.intro (fun ht => ?_) (fun ht => ?_)
  · subst ht
    obtain ⟨h1, h2⟩ := h.1 (fun c hc => by
      simp only [genAddrs, embTable, List.map_cons, List.map_nil, List.mem_cons, List.not_mem_nil, or_false] at hc
      rcases hc with rfl | rfl | rfl
      · exact .inl (embPerson_reached ..).1
      · exact .inr (by unfold Strict; decide +kernel)
      · exact .inl (embPerson_reached ..).2.1)
    have hc : embCity ∈ genAddrs (embTable none) := by decide
    have h3 := (h2 embCity hc).2
    refine And.intro h1 ?_
    rw [h3]
    rw [comesBack, if_neg (fun h => by cases (embPerson_reached 7 .nil .nil false).2.2.1 h)]
    decide +kernel
  · subst ht
    exact h.2 ⟨embCity, by decide, fun h => (by cases (embPerson_reached 7 .nil .nil false).2.2.1 h), by unfold Strict; decide +kernel⟩

end Verif.Props
