import Verif.Spec.MadeTable
import Verif.Props.MyTable
import Verif.Props.TypedOrder

/-!
# C112: records in tables that migrations made

For models with fields of predeclared types: after the script of `Migrate` has made the table, whatever is done with the helpers, they give
what they would on a map from keys to records.
-/

namespace Verif.Props

open Verif Verif.Spec Verif.Migrate Verif.Spec.Ddl Verif.Spec.MyTable Verif.Spec.Made Verif.Spec.MadeTable Verif.Spec.Typed Verif.Spec.Columns
open Verif.PgType (Entry Field)
open Verif.Typed (World)

theorem toNat_size (n : Nat) : intDec (if (n : Int) > 0 then (n : Int) else 255) = natDec (if 0 < n then n else 255) := by
  by_cases h : 0 < n
  · rw [if_pos h, if_pos (by omega)]
    unfold intDec
    rw [if_neg (by omega)]
    rfl
  · rw [if_neg h, if_neg (by omega)]
    rfl

/-- The words of types for MySQL mean the columns that are declared. -/
theorem my_colOf_type (size : Nat) (k : Typed.Kind) (hk : k ≠ .int .byte) (hf : ∀ w, k = .float w → w = 32 ∨ w = 64)
    (hs : k = .string → size < 2 ^ 64) :
    colOf mysql .mysql (mySyms size (entryOf k)) = Columns.meaning .mysql (Typed.declared .mysql size k) := by
  have h1 : colOf mysql .mysql [Ddl.kw "BOOL"] = some .bool := by decide +kernel
  have h2 : colOf mysql .mysql [Ddl.kw "INTEGER"] = some (.int 32) := by decide +kernel
  have h3 : colOf mysql .mysql [Ddl.kw "FLOAT"] = some (.float Float.single) := by decide +kernel
  cases k with
  | bool => exact h1
  | string =>
    show colOf mysql .mysql [Ddl.kw "VARCHAR", .mark 40, .word (intDec (if (size : Int) > 0 then (size : Int) else 255)), .mark 41] = _
    rw [toNat_size]
    have : parseUint (natDec (if 0 < size then size else 255)) 10 64 = some (if 0 < size then size else 255) :=
      parseUint_natDec (by have := hs rfl; split <;> omega)
    have e : Ddl.kw "VARCHAR" = .word (lit "VARCHAR") := rfl
    rw [e, colOf, this]
    simp only [Option.bind_some, sizedNames, first]
    rw [if_pos e]
    simp [Columns.meaning, Typed.declared]
  | float w =>
    rcases hf w rfl with rfl | rfl <;> exact h3
  | int k => cases k <;> first | exact absurd rfl hk | exact h2

/-- The same for PostgreSQL. -/
theorem pg_colOf_type (size : Nat) (k : Typed.Kind) (hk : k ≠ .int .byte) (hf : ∀ w, k = .float w → w = 32 ∨ w = 64)
    (hs : k = .string → size < 2 ^ 64) {n : Bytes} {nn : Bool} {v : Option Bytes} {c : Ddl.Col}
    (h : ColOf postgres n ((entryOf k).dataType size false) nn v c) :
    colOf postgres .postgres c.type = Columns.meaning .postgres (Typed.declared .postgres size k) := by
  obtain ⟨nn', d, ⟨ss, hsy, -, h3⟩, -⟩ := h
  have key : ∀ ts col, Value postgres ((entryOf k).dataType size false) ts →
      colOf postgres .postgres ts = some col → colOf postgres .postgres c.type = some col := by
    intro ts col hv e
    obtain ⟨ss', hsy', -, h3'⟩ := typeOf_value hv
    rw [hsy] at hsy'
    cases hsy'
    rw [h3] at h3'
    have ht : c.type = ts := congrArg Ddl.Col.type (Option.some.inj h3')
    rwa [ht]
  have one : ∀ (s : String) (col : Columns.Col), (entryOf k).dataType size false = lit s →
      (lit s).all inWord = true ∧ lit s ≠ [] ∧ isAttr (Ddl.kw s) = false →
      colOf postgres .postgres [Ddl.kw s] = some col → colOf postgres .postgres c.type = some col := by
    intro s col e hs' hc
    refine key _ _ ?_ hc
    rw [e]
    exact word_value_of ⟨.inl rfl⟩ hs'
  cases k with
  | bool => exact one "bool" .bool rfl (by decide +kernel) (by decide +kernel)
  | string =>
    have e0 : (Entry.string).dataType size false = lit "varchar" ++ 40 :: (intDec (if (size : Int) > 0 then (size : Int) else 255) ++ [41]) := by
      have e1 : lit "varchar(" = lit "varchar" ++ [40] := by decide +kernel
      have e2 : lit ")" = [41] := by decide +kernel
      simp [Entry.dataType, e1, e2]
    refine key [Ddl.kw "varchar", .mark 40, .word (intDec (if (size : Int) > 0 then (size : Int) else 255)), .mark 41]
      (.text (some (if 0 < size then size else 255))) ?_ ?_
    · show Value postgres ((Entry.string).dataType size false) _
      rw [e0]
      exact sized_value_of ⟨.inl rfl⟩ (by decide +kernel) _
    · rw [toNat_size]
      have : parseUint (natDec (if 0 < size then size else 255)) 10 64 = some (if 0 < size then size else 255) :=
        parseUint_natDec (by have := hs rfl; split <;> omega)
      have e : Ddl.kw "varchar" = .word (lit "varchar") := rfl
      have e' : ¬ Ddl.kw "VARCHAR" = .word (lit "varchar") := by decide +kernel
      rw [e, colOf, this]
      simp only [Option.bind_some, sizedNames, first]
      rw [if_pos e, if_neg e']
      simp [Columns.meaning]
  | float w =>
    rcases hf w rfl with rfl | rfl
    · exact one "real" (.float Float.single) rfl (by decide +kernel) (by decide +kernel)
    · refine key [Ddl.kw "double", Ddl.kw "precision"] (.float Float.double) ?_ (by decide +kernel)
      show Value postgres (lit "double precision") _
      exact ⟨by decide +kernel, by simp, whole_kw _ (whole_kw _ .nil), by decide +kernel⟩
  | int k =>
    cases k <;> first | exact absurd rfl hk | skip
    all_goals
      first
      | exact one "int2" (.int 16) rfl (by decide +kernel) (by decide +kernel)
      | exact one "int4" (.int 32) rfl (by decide +kernel) (by decide +kernel)
      | exact one "bigint" (.int 64) rfl (by decide +kernel) (by decide +kernel)

open Verif.Typed (kindOf isPtr)

theorem kinds_float {b : Dispatch.Text} {w : Nat} (h : kindOf b = some (.float w)) : w = 32 ∨ w = 64 := by
  have hall : ∀ p ∈ Typed.kinds, ∀ w, p.2 = Typed.Kind.float w → w = 32 ∨ w = 64 := by
    simp only [Typed.kinds, List.mem_cons, List.not_mem_nil, or_false, forall_eq_or_imp, forall_eq]
    simp
  have look : ∀ (l : List (Dispatch.Text × Typed.Kind)) v, l.lookup b = some v → ∃ p ∈ l, p.2 = v := by
    intro l
    induction l with
    | nil => simp
    | cons a l ih =>
      intro v hv
      rw [List.lookup_cons] at hv
      split at hv
      · exact ⟨a, by simp, Option.some.inj hv⟩
      · obtain ⟨p, hp, e⟩ := ih v hv
        exact ⟨p, by simp [hp], e⟩
  obtain ⟨p, hp, e⟩ := look _ _ h
  exact hall p hp w e

variable {F : Type} {W : World F} {name : F → Bytes}

theorem scalar_float {f : F} {k : Typed.Kind} (h : Scalar W.decls W.facts (W.ty f) k) : ∀ w, k = .float w → w = 32 ∨ w = 64 := by
  rintro w rfl
  obtain ⟨-, b, hb⟩ := scalar_basic h
  exact kinds_float hb

/-- C112, MySQL: if the script of `Migrate` makes the table and the database obeys it, it does what records need. -/
theorem C112_mysql_behaves {fits : MyTable.Kind → List Ddl.Sym → Bool} {q md5 : Bytes → Bytes} {table : Bytes} {pks : List Bytes} {fs : List Field}
    (hne : fs ≠ []) (hn : ∀ n ∈ table :: keyName md5 pks :: (pks ++ fs.map (·.name)), NameOk mysql q n) (hd : ∀ f ∈ fs, Readable mysql f)
    (hdb : W.dialect = .mysql) (hfs : ∀ f, (∃ k, Scalar W.decls W.facts (W.ty f) k) → ∃ x ∈ fs, IsField W name f x)
    (hm : Makes fits (scriptText q md5 table pks (mysqlMigrate (fs.map MyType.col) [])) table)
    (ho : ObeysScript mysql W name (scriptText q md5 table pks (mysqlMigrate (fs.map MyType.col) []))) : Behaves W := by
  have hs := my_script (q := q) (md5 := md5) (table := table) (pks := pks) hne hn hd
  have ho : Obeys mysql W name (fs.map myCol) := ho _ _ _ _ (by rw [hs]; rfl)
  obtain ⟨cs, hcs, -⟩ := (C111_makes_iff hne hn hd).1 hm
  have key : ∀ f k col, HasCol W f k col → ∃ c ∈ fs.map myCol, c.name = name f ∧ (isPtr (W.ty f) = true → c.notNull = false) ∧
      colOf mysql (dbOf W.dialect) c.type = some col := by
    intro f k col ⟨hk, hc⟩
    obtain ⟨x, hx, h1, h2, h3, h4⟩ := hfs f ⟨k, hk⟩
    refine ⟨myCol x, List.mem_map.2 ⟨x, hx, rfl⟩, h1, fun hp => by simp [myCol, h3 hp], ?_⟩
    rw [hdb] at hc ⊢
    show colOf mysql .mysql (mySyms x.size x.entry) = _
    rw [h2, h4 k hk, my_colOf_type _ _ (scalar_byte hk) (scalar_float hk)]
    · exact hc
    · rintro rfl
      obtain ⟨c, -, hc'⟩ := (mapM_mem hcs).1 x hx
      have hm' : meant x.size x.entry ≠ none := by
        intro e
        simp [MyTable.column, e] at hc'
      rw [h2, h4 _ hk] at hm'
      by_contra hlt
      refine hm' ?_
      show (if (W.size f : Int) ≤ 0 then _ else if (W.size f : Int) ≤ 16383 then _ else none) = none
      rw [if_neg (by omega), if_neg (by omega)]
  refine ⟨fun f k col h s x hk hnil => ?_, fun f k col h s x hk => ?_⟩
  · obtain ⟨c, hc, h1, h2, h3⟩ := key f k col h
    exact ho.keeps f c hc h1 col h3 s x hk fun e => h2 (hnil e)
  · obtain ⟨c, hc, h1, h2, h3⟩ := key f k col h
    exact ho.hands f c hc h1 col h3 s x hk

/-- C112, PostgreSQL: if the columns are those that `Migrate` declares and the database obeys them, it does what records need. -/
theorem C112_pg_behaves {cols : List Ddl.Col} (hdb : W.dialect = .postgres)
    (hcs : ∀ f, (∃ k, Scalar W.decls W.facts (W.ty f) k) → ∃ c ∈ cols, IsColumn W name f c) (ho : Obeys postgres W name cols) : Behaves W := by
  have key : ∀ f k col, HasCol W f k col → ∃ c ∈ cols, c.name = name f ∧ (isPtr (W.ty f) = true → c.notNull = false) ∧
      colOf postgres (dbOf W.dialect) c.type = some col := by
    intro f k col ⟨hk, hc⟩
    obtain ⟨c, hx, h1, h2, h3⟩ := hcs f ⟨k, hk⟩
    obtain ⟨hs, nn, v, h4⟩ := h3 k hk
    refine ⟨c, hx, h1, h2, ?_⟩
    rw [hdb] at hc ⊢
    exact (pg_colOf_type _ _ (scalar_byte hk) (scalar_float hk) (fun _ => hs) h4).trans hc
  refine ⟨fun f k col h s x hk hnil => ?_, fun f k col h s x hk => ?_⟩
  · obtain ⟨c, hc, h1, h2, h3⟩ := key f k col h
    exact ho.keeps f c hc h1 col h3 s x hk fun e => h2 (hnil e)
  · obtain ⟨c, hc, h1, h2, h3⟩ := key f k col h
    exact ho.hands f c hc h1 col h3 s x hk

section Records

open Verif.Gen Verif.Store Verif.Spec.Store Verif.Spec.Gen

variable [DecidableEq F] {g : Cfg} {S : Spec.Sql.Dialect} {gen : Spec.Sql.Tbl Cell → Cell} {auto : Typed.Kind} {t : Gen.Table F}
  {q md5 : Bytes → Bytes} {table : Bytes} {pks : List Bytes} {fs : List Field} {fits : MyTable.Kind → List Ddl.Sym → Bool}

/-- C112 on MySQL, for keys that the program chooses: in a new table that the script has made, records are stored, found, replaced and
deleted as on a map that is empty at first. -/
theorem C112_mysql_store_partial (hne : fs ≠ []) (hn : ∀ n ∈ table :: keyName md5 pks :: (pks ++ fs.map (·.name)), NameOk mysql q n)
    (hd : ∀ f ∈ fs, Readable mysql f) (hdb : W.dialect = .mysql)
    (hfs : ∀ f, (∃ k, Scalar W.decls W.facts (W.ty f) k) → ∃ x ∈ fs, IsField W name f x)
    (hm : Makes fits (scriptText q md5 table pks (mysqlMigrate (fs.map MyType.col) [])) table)
    (ho : ObeysScript mysql W name (scriptText q md5 table pks (mysqlMigrate (fs.map MyType.col) [])))
    (hs : Shape g S t) (hk : ∀ c ∈ pick t (keyPos t), isPtr (W.ty c.field) = false) (hw : AllWritten t) (ha : t.auto = none)
    (ops : List (Spec.Store.Op F Columns.Val)) (hf : ∀ o ∈ ops, Fine (Stores W) t o) (σ : Spec.Sql.Store Cell)
    (he : σ (tableName S t) = some (tableOf S t [])) :
    (performs (W.env g S gen auto) t ops σ).1 = (acts t ops fun _ => none).1 ∧
      ∀ n, n ≠ tableName S t → (performs (W.env g S gen auto) t ops σ).2 n = σ n := by
  obtain ⟨h1, -, h2⟩ := C96_store_partial (gen := gen) (auto := auto) (C112_mysql_behaves hne hn hd hdb hfs hm ho) hs hk hw ha ops hf (fun _ => none) σ
    (C90_empty _ _ _ _ he)
  exact ⟨h1, h2⟩

/-- C112 on PostgreSQL, where the table has the columns that `Migrate` declares. -/
theorem C112_pg_store_partial {cols : List Ddl.Col} (hdb : W.dialect = .postgres)
    (hcs : ∀ f, (∃ k, Scalar W.decls W.facts (W.ty f) k) → ∃ c ∈ cols, IsColumn W name f c) (ho : Obeys postgres W name cols)
    (hs : Shape g S t) (hk : ∀ c ∈ pick t (keyPos t), isPtr (W.ty c.field) = false) (hw : AllWritten t) (ha : t.auto = none)
    (ops : List (Spec.Store.Op F Columns.Val)) (hf : ∀ o ∈ ops, Fine (Stores W) t o) (σ : Spec.Sql.Store Cell)
    (he : σ (tableName S t) = some (tableOf S t [])) :
    (performs (W.env g S gen auto) t ops σ).1 = (acts t ops fun _ => none).1 ∧
      ∀ n, n ≠ tableName S t → (performs (W.env g S gen auto) t ops σ).2 n = σ n := by
  obtain ⟨h1, -, h2⟩ := C96_store_partial (gen := gen) (auto := auto) (C112_pg_behaves hdb hcs ho) hs hk hw ha ops hf (fun _ => none) σ
    (C90_empty _ _ _ _ he)
  exact ⟨h1, h2⟩

end Records

/-! ### Cases -/

namespace MadeTableCase

private instance (S : Ddl.Server) (q : Bytes → Bytes) (n : Bytes) : Decidable (NameOk S q n) := by unfold NameOk; infer_instance
private def mq (n : Bytes) : Bytes := 96 :: (n ++ [96])
private def sum : Bytes → Bytes := fun _ => lit "0"
private def all : MyTable.Kind → List Ddl.Sym → Bool := fun _ _ => true

/-- The records of `typedWorld` on MySQL. -/
private def world : World Nat := { typedWorld with dialect := .mysql }
private def nm (f : Nat) : Bytes := if f = 10 then lit "id" else if f = 13 then lit "name" else lit "group"
private def fs : List Field :=
  [⟨lit "id", .int .int64, 40, false, false, none⟩, ⟨lit "name", .float32, 40, false, false, none⟩, ⟨lit "group", .string, 40, false, true, none⟩]

private theorem kind_of {f : Nat} {k : Typed.Kind} (h : Scalar world.decls world.facts (world.ty f) k) :
    k = if f = 10 then .int .int64 else if f = 13 then .float 32 else .string := by
  have h := (scalar_basic h).1
  simp only [world, typedWorld] at h
  by_cases h1 : f = 10
  · rw [if_pos h1] at h ⊢
    exact (Option.some.inj h).symm
  · rw [if_neg h1] at h ⊢
    by_cases h2 : f = 13
    · rw [if_pos h2] at h ⊢
      exact (Option.some.inj h).symm
    · rw [if_neg h2] at h ⊢
      exact (Option.some.inj h).symm

private theorem fields (f : Nat) : ∃ x ∈ fs, IsField world nm f x := by
  by_cases h1 : f = 10
  · refine ⟨⟨lit "id", .int .int64, 40, false, false, none⟩, by simp [fs], by simp [nm, h1], rfl, by subst h1; decide +kernel, fun k hk => ?_⟩
    rw [kind_of hk, if_pos h1]; rfl
  · by_cases h2 : f = 13
    · refine ⟨⟨lit "name", .float32, 40, false, false, none⟩, by simp [fs], by simp [nm, h2], rfl, by subst h2; decide +kernel, fun k hk => ?_⟩
      rw [kind_of hk, if_neg h1, if_pos h2]; rfl
    · refine ⟨⟨lit "group", .string, 40, false, true, none⟩, by simp [fs], by simp [nm, h1, h2], rfl, fun _ => rfl, fun k hk => ?_⟩
      rw [kind_of hk, if_neg h1, if_neg h2]; rfl

private theorem names : ∀ n ∈ lit "people" :: keyName sum [lit "id"] :: ([lit "id"] ++ fs.map (·.name)), NameOk mysql mq n := by decide +kernel

private theorem readable : ∀ f ∈ fs, Readable mysql f := by
  intro f hf v hv
  simp only [fs, List.mem_cons, List.not_mem_nil, or_false] at hf
  rcases hf with rfl | rfl | rfl <;> cases hv

private def text : Bytes := scriptText mq sum (lit "people") [lit "id"] (mysqlMigrate (fs.map MyType.col) [])

private theorem obeys : ObeysScript mysql world nm text := by
  intro table cols key rest h
  rw [text, my_script (by simp [fs]) names readable] at h
  simp only [Option.bind_some, Option.some.injEq, List.cons.injEq, Stmt.create.injEq] at h
  obtain ⟨⟨-, rfl, -⟩, -⟩ := h
  have hcol : ∀ c ∈ fs.map myCol, ∀ col, colOf mysql (dbOf world.dialect) c.type = some col → ∀ g, col = .float g → g = Float.single := by
    intro c hc col h g hg
    subst hg
    simp only [fs, List.map_cons, List.map_nil, List.mem_cons, List.not_mem_nil, or_false] at hc
    rcases hc with rfl | rfl | rfl
    · have e : colOf mysql .mysql (myCol ⟨lit "id", .int .int64, 40, false, false, none⟩).type = some (.int 32) := by decide +kernel
      cases h.symm.trans e
    · have e : colOf mysql .mysql (myCol ⟨lit "name", .float32, 40, false, false, none⟩).type = some (.float Float.single) := by decide +kernel
      cases h.symm.trans e
      rfl
    · have e : colOf mysql .mysql (myCol ⟨lit "group", .string, 40, false, true, none⟩).type = some (.text (some 40)) := by decide +kernel
      cases h.symm.trans e
  exact ⟨fun f c hc _ col e s x hk _ => (typedKeeps (hcol c hc col e) f hk).1, fun f c hc _ col e s x hk => (typedKeeps (hcol c hc col e) f hk).2⟩

private theorem makes : Makes all text (lit "people") :=
  C111_plain_partial ⟨rfl, rfl, rfl, rfl⟩ (by simp [fs]) names (by simp [fs, MyTable.Plain]) (by decide) (by decide +kernel) (by decide +kernel)
    (by decide +kernel) (by decide)

private theorem behaves : Behaves world := C112_mysql_behaves (by simp [fs]) names readable rfl (fun f _ => fields f) makes obeys

/-- a new table on MySQL: records with an `int64` key, a `float32` and a `*string` -/
example (gen : Spec.Sql.Tbl Cell → Cell) (auto : Typed.Kind) (ops : List (Spec.Store.Op Nat Columns.Val))
    (hf : ∀ o ∈ ops, Store.Fine (Stores world) (storeUser "people") o) (σ : Spec.Sql.Store Cell)
    (he : σ (Store.tableName storeMy (storeUser "people")) = some (Spec.Store.tableOf storeMy (storeUser "people") [])) :
    (Store.performs (world.env storeEnvMy.g storeMy gen auto) (storeUser "people") ops σ).1 =
      (Spec.Store.acts (storeUser "people") ops fun _ => none).1 :=
  (C112_mysql_store_partial (by simp [fs]) names readable rfl (fun f _ => fields f) makes obeys
    ⟨storeSetupMy.wf, storeSetupMy.key, storeSetupMy.named, storeSetupMy.bare, storeSetupMy.plain, storeSetupMy.names, storeSetupMy.single⟩
    (by decide +kernel) (by unfold Spec.Store.AllWritten; decide) rfl ops hf σ he).1

/-- the same records on PostgreSQL, and the columns for them -/
private def cols : List Ddl.Col :=
  [⟨lit "id", [Ddl.kw "bigint"], true, none⟩, ⟨lit "name", [Ddl.kw "real"], true, none⟩,
    ⟨lit "group", [Ddl.kw "varchar", .mark 40, Ddl.kw "40", .mark 41], false, none⟩]

private theorem columns (f : Nat) : ∃ c ∈ cols, IsColumn typedWorld nm f c := by
  have hS : Sound postgres := ⟨.inl rfl⟩
  have col : ∀ (n t : Bytes) (ty : List Ddl.Sym) (nn : Bool), Value postgres t ty → ColOf postgres n t nn none ⟨n, ty, nn, none⟩ :=
    fun n t ty nn h => ⟨false, none, typeOf_value h, rfl, rfl, rfl⟩
  by_cases h1 : f = 10
  · refine ⟨_, .head _, by simp [nm, h1], by subst h1; decide +kernel, fun k hk => ⟨show 40 < 2 ^ 64 by decide, true, none, ?_⟩⟩
    rw [kind_of (f := f) hk, if_pos h1]
    have e : nm f = lit "id" := by simp [nm, h1]
    rw [e]
    exact col _ _ _ _ (word_value_of hS (s := "bigint") (by decide +kernel))
  · by_cases h2 : f = 13
    · refine ⟨_, .tail _ (.head _), by simp [nm, h2], by subst h2; decide +kernel, fun k hk => ⟨show 40 < 2 ^ 64 by decide, true, none, ?_⟩⟩
      rw [kind_of (f := f) hk, if_neg h1, if_pos h2]
      have e : nm f = lit "name" := by simp [nm, h2]
      rw [e]
      exact col _ _ _ _ (word_value_of hS (s := "real") (by decide +kernel))
    · refine ⟨_, .tail _ (.tail _ (.head _)), by simp [nm, h1, h2], fun _ => rfl, fun k hk => ⟨show 40 < 2 ^ 64 by decide, false, none, ?_⟩⟩
      rw [kind_of (f := f) hk, if_neg h1, if_neg h2]
      have e : nm f = lit "group" := by simp [nm, h1, h2]
      rw [e]
      exact col _ _ _ _ (by
        have := sized_value_of hS (s := "varchar") (by decide +kernel) 40
        have e1 : (entryOf .string).dataType (40 : Nat) false = lit "varchar" ++ 40 :: (intDec 40 ++ [41]) := by decide +kernel
        have e2 : (Sym.word (intDec 40) : Ddl.Sym) = Ddl.kw "40" := by decide +kernel
        show Value postgres ((entryOf .string).dataType (40 : Nat) false) _
        rw [e1, ← e2]
        exact this)

example : Behaves typedWorld := by
  refine C112_pg_behaves (name := nm) rfl (fun f _ => columns f) ?_
  have hcol : ∀ c ∈ cols, ∀ col, colOf postgres (dbOf typedWorld.dialect) c.type = some col → ∀ g, col = .float g → g = Float.single := by
    intro c hc col h g hg
    subst hg
    simp only [cols, List.mem_cons, List.not_mem_nil, or_false] at hc
    rcases hc with rfl | rfl | rfl
    · have e : colOf postgres .postgres [Ddl.kw "bigint"] = some (.int 64) := by decide +kernel
      cases h.symm.trans e
    · have e : colOf postgres .postgres [Ddl.kw "real"] = some (.float Float.single) := by decide +kernel
      cases h.symm.trans e
      rfl
    · have e : colOf postgres .postgres [Ddl.kw "varchar", .mark 40, Ddl.kw "40", .mark 41] = some (.text (some 40)) := by decide +kernel
      cases h.symm.trans e
  exact ⟨fun f c hc _ col e s x hk _ => (typedKeeps (hcol c hc col e) f hk).1, fun f c hc _ col e s x hk => (typedKeeps (hcol c hc col e) f hk).2⟩

/-- numbers that fit are stored, and no others -/
example : Stores world 10 (.int 7) ∧ ¬ Stores world 10 (.int (2 ^ 40)) := by
  have h : Scalar world.decls world.facts (world.ty 10) (.int .int64) := .basic (by decide +kernel) (typedBare _)
  rw [C96_stores_iff h, C96_stores_iff h]
  simp [KeptIn, typeLimits, columnBits, world]

/-- what the types of columns mean -/
example : colOf mysql .mysql [Ddl.kw "VARCHAR", .mark 40, Ddl.kw "20", .mark 41] = some (.text (some 20)) ∧
    colOf postgres .postgres [Ddl.kw "double", Ddl.kw "precision"] = some (.float Float.double) ∧ colOf mysql .mysql [Ddl.kw "JSON"] = none := by
  decide +kernel

end MadeTableCase

end Verif.Props
