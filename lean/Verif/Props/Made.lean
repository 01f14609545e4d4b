import Verif.Spec.Made
import Verif.Spec.MyTable
import Verif.Props.MigrateDefault
import Verif.Props.Store

/-!
# C110: tables made by migrations make up keys

For models whose key the database is to make up: after the script of `Migrate` has made the table, whatever is inserted with `InsertOne`
is stored, every record under a key of its own.

True for PostgreSQL with the types that become `serial`.  False for MySQL: no column counts up, so that all records get the same key; only
the first is stored.  False for `int64` on PostgreSQL: no record is stored.
-/

namespace Verif.Props

open Verif Verif.Store Verif.Spec.Store Verif.Gen Verif.Spec.Gen Verif.Spec Verif.Spec.Made Verif.Migrate Verif.Spec.Ddl
open Verif.PgType (Entry Field)
open Verif.ColumnType (GoInt)

/-! ## Inserting where the key is a constant -/

section Insert

variable {F X V : Type} [DecidableEq F] [DecidableEq X] [DecidableEq V] {E : Env F X V} {t : Table F} {Ok : F → X → Prop} {c : GCol F}

/-- One `InsertOne`, where the key that is made up is `x`. -/
theorem insert_key (h : Setup E t Ok) (hw : AllWritten t) (ha : t.autoCol = some c) (hf : (t.columns.map (·.field)).Nodup)
    (hi : pick t (insertPos t) ≠ []) {x : X} (hok : Ok c.field x) {m : Map F X} {σ : Sql.Store V} (hk : Keeps E Ok t m σ)
    (henc : ∀ T, E.gen T = E.enc c.field x) (hid : E.toId (E.enc c.field x) = some x) {r : F → X} (hr : Good Ok t r) :
    ((m [x]).isSome → insertOne E t r σ = (.duplicate, σ)) ∧
    (m [x] = none → ∃ σ', insertOne E t r σ = (.ok (withKey c x r), σ') ∧ After E Ok t (put m [x] (some (withKey c x r))) σ σ') := by
  obtain ⟨rows, hσ, hh⟩ := hk
  have hcm := autoCol_mem ha
  have hother : ∀ d ∈ t.columns, d.field = c.field → d = c := fun d hd e => List.inj_on_of_nodup_map hf hd hcm e
  have hsg : Good Ok t (withKey c x r) := by
    intro d hd
    by_cases e : d.field = c.field
    · simpa [withKey, e] using hok
    · simpa [withKey, e] using hr d hd
  have hrep : Rep E.enc E.D t (withKey c x r) (newRow E t rows r) := by
    intro d hd
    by_cases e : d.field = c.field
    · have := hother d hd e
      subst this
      rw [newRow_auto h ha]
      simpa [withKey] using henc _
    · rw [newRow_in h hw hd (fun e' => e (by rw [ha] at e'; cases e'; rfl))]
      simp [withKey, e]
  have hkp : pick t (keyPos t) = [c] := by
    cases hau : t.auto with
    | none => simp [Table.autoCol, hau] at ha
    | some i =>
      have hic : t.columns[i]? = some c := by simpa [Table.autoCol, hau] using ha
      simp [pick, keyPos, hau, hic]
  have hks : keyOf t (withKey c x r) = [x] := by simp [keyOf, hkp, withKey]
  obtain ⟨text, fs, e, hs⟩ := send_insert h hi r σ
  rw [insert_exec h hh hσ hsg hrep, hks] at hs
  simp only [send] at hs
  refine ⟨fun hm => ?_, fun hm => ⟨σ.put (tableName E.D t) (tableOf E.D t (rows ++ [newRow E t rows r])), ?_, ?_⟩⟩
  · simp only [insertOne, insertVia, e, hs, hm, if_true, queryRow, execAuto, ha]
    cases E.g.postgres <;> rfl
  · have hsc := scan_row h hsg hrep r
    have hl : load t (withKey c x r) r = withKey c x r := by
      funext f
      by_cases hfm : f ∈ t.columns.map (·.field)
      · simp [load, hfm]
      · have : f ≠ c.field := fun e => hfm (e ▸ List.mem_map_of_mem hcm)
        simp [load, hfm, withKey, this]
    simp only [insertOne, insertVia, e, hs, hm, Option.isSome_none, Bool.false_eq_true, if_false, ha]
    cases E.g.postgres with
    | true => simp only [if_true, queryRow, hsc, hl]
    | false =>
      simp only [Bool.false_eq_true, if_false, Option.map_some, execAuto, newRow_auto h ha, henc, hid]
      rfl
  · rw [← hks]
    exact after_put (insert_holds h hh hsg hrep (by rw [hks]; exact hm))

/-- Any number of them. -/
theorem insert_keys (h : Setup E t Ok) (hw : AllWritten t) (ha : t.autoCol = some c) (hf : (t.columns.map (·.field)).Nodup)
    (hi : pick t (insertPos t) ≠ []) {x : X} (hok : Ok c.field x) {m : Map F X} {σ : Sql.Store V} (hk : Keeps E Ok t m σ)
    (henc : ∀ T, E.gen T = E.enc c.field x) (hid : E.toId (E.enc c.field x) = some x) {rs : List (F → X)} (hr : ∀ r ∈ rs, Good Ok t r)
    (hm : (m [x]).isSome) : performs E t (rs.map .insert) σ = (rs.map fun _ => .duplicate, σ) := by
  induction rs with
  | nil => rfl
  | cons r rs ih =>
    have h1 := (insert_key h hw ha hf hi hok hk henc hid (hr r (by simp))).1 hm
    have h2 := ih fun r hr' => hr r (by simp [hr'])
    simp only [List.map_cons, performs, perform, h1, h2]

/-- Where the key that is made up is NULL. -/
theorem insert_null (h : Setup E t Ok) (ha : t.autoCol = some c) (hi : pick t (insertPos t) ≠ []) {m : Map F X} {σ : Sql.Store V}
    (hk : Keeps E Ok t m σ) (hn : ∀ T, E.gen T = E.null) (r : F → X) : insertOne E t r σ = (.failed, σ) := by
  obtain ⟨rows, hσ, -⟩ := hk
  obtain ⟨text, fs, e, hs⟩ := send_insert h hi r σ
  have hkp : pick t (keyPos t) = [c] := by
    cases hau : t.auto with
    | none => simp [Table.autoCol, hau] at ha
    | some i =>
      have hic : t.columns[i]? = some c := by simpa [Table.autoCol, hau] using ha
      simp [pick, keyPos, hau, hic]
  have hz : ∀ l : List (GCol F), ((l.map (colName E.D)).zip (l.map fun c => E.enc c.field (r c.field))) =
      l.map fun c => (colName E.D c, E.enc c.field (r c.field)) := fun l => by simp [List.zip_map']
  have hrow := newRow_auto h ha (rows := rows) (r := r)
  rw [hn] at hrow
  unfold newRow at hrow
  rw [Sql.exec, hσ] at hs
  simp only [hz] at hs
  rw [if_pos (.inr (.inr (.inr (List.any_eq_true.2 ⟨colName E.D c, by simp [tableOf, hkp], decide_eq_true hrow⟩))))] at hs
  simp only [send] at hs
  simp only [insertOne, insertVia, e, hs, ha, queryRow, execAuto]
  cases E.g.postgres <;> rfl

end Insert

/-! ## How MySQL reads the types -/

theorem mysql_sound : Sound mysql := ⟨.inr rfl⟩

/-- A type and what `columnDataType` puts behind it. -/
theorem typeOf_columnDataType {ty : Bytes} {tys : List Ddl.Sym} (h : Value mysql ty tys) {d : Option String}
    (hd : ∀ x, d = some x → (lit x).all inWord = true ∧ lit x ≠ [] ∧ isAttr (Ddl.kw x) = false) (nullable : Bool) :
    TypeOf mysql (MyType.columnDataType ty d nullable) tys (!nullable) (d.map fun x => [Ddl.kw x]) := by
  obtain ⟨h1, h2, h3, h4⟩ := h
  have ht : Toks mysql ty tys := toks_symbols h1 (whole_comment h3)
  have hx : ∀ x, (d.map fun x => [Ddl.kw x]) = some x → x ≠ [] ∧ ∀ s ∈ x, isAttr s = false := by
    intro x hx
    obtain ⟨y, hy, rfl⟩ := Option.map_eq_some_iff.1 hx
    exact ⟨by simp, by simpa using (hd y hy).2.2⟩
  refine ⟨tys ++ ext (!nullable) (d.map fun x => [Ddl.kw x]), ?_, ?_, ?_⟩
  · have := toks_ext mysql_sound ht (notNull := !nullable) (v := d.map lit) (v' := d.map fun x => [Ddl.kw x]) (by
      cases d with
      | none => exact .inl ⟨rfl, rfl⟩
      | some x => exact .inr ⟨_, _, rfl, rfl, toks_kw mysql_sound x ⟨(hd x rfl).1, (hd x rfl).2.1⟩⟩)
    have e := symbols_toks this
    rw [← e]
    cases d <;> cases nullable <;> rfl
  · refine whole_append h3 (whole_ext ?_)
    intro x hx'
    obtain ⟨y, hy, rfl⟩ := Option.map_eq_some_iff.1 hx'
    exact whole_kw _ .nil
  · have h0 : column mysql [] tys = some ⟨[], tys, false, none⟩ := by
      unfold column
      rw [(takeWhile_all h4).1, (takeWhile_all h4).2]
      simp [h2, attrs]
    rw [column_ext h0 hx (fun _ => .inr rfl)]
    simp

theorem word_value_of {S : Ddl.Server} (hS : Sound S) {s : String} (h : (lit s).all inWord = true ∧ lit s ≠ [] ∧ isAttr (Ddl.kw s) = false) : Value S (lit s) [Ddl.kw s] :=
  ⟨symbols_toks (toks_kw hS s ⟨h.1, h.2.1⟩), by simp, whole_kw _ .nil, by simpa using h.2.2⟩

/-- A type with a length. -/
theorem sized_value_of {S : Ddl.Server} (hS : Sound S) {s : String} (h : (lit s).all inWord = true ∧ lit s ≠ [] ∧ isAttr (Ddl.kw s) = false) (n : Int) :
    Value S (lit s ++ 40 :: (intDec n ++ [41])) [Ddl.kw s, .mark 40, .word (intDec n), .mark 41] := by
  obtain ⟨t, ht, hs⟩ := (C106_plain_default hS).1 n
  cases ht
  have hn : Toks S (intDec n) [.word (intDec n)] := toks_symbols hs (by simp [isComment])
  have h1 := toks_mark hS hn toks_nil (b := 41) (by decide)
  have h2 := toks_mark hS (toks_kw hS s ⟨h.1, h.2.1⟩) h1 (b := 40) (by decide)
  have hd : isAttr (.word (intDec n)) = false := by
    have : ∀ b w, intDec n = b :: w → b = 45 ∨ Verif.Float.isDigit b = true := by
      intro b w e
      unfold intDec at e
      split at e
      · left; exact (List.cons.inj e).1.symm
      · right
        have := Verif.Float.natDec_all n.natAbs
        rw [e, List.all_cons, Bool.and_eq_true] at this
        exact this.1
    have hk : ∀ x : String, (lit x).head?.all (fun b => b ≠ 45 && !Verif.Float.isDigit b) = true → (lit x) ≠ [] →
        Ddl.Sym.word (intDec n) ≠ Ddl.kw x := by
      intro x hx hne e
      have e : intDec n = lit x := by injection e
      cases hl : lit x with
      | nil => exact hne hl
      | cons b w =>
        rw [hl] at e hx
        rcases this b w e with h | h <;> simp [h] at hx
    simp [isAttr, hk "NOT" (by decide +kernel) (by decide +kernel), hk "DEFAULT" (by decide +kernel) (by decide +kernel)]
  refine ⟨symbols_toks h2, by simp, whole_kw _ (.paren (.sym (by simp) rfl .nil) .nil), ?_⟩
  intro x hx
  simp only [List.mem_cons, List.not_mem_nil, or_false] at hx
  rcases hx with rfl | rfl | rfl | rfl
  · exact h.2.2
  · decide +kernel
  · exact hd
  · decide +kernel

theorem word_value {s : String} (h : (lit s).all inWord = true ∧ lit s ≠ [] ∧ isAttr (Ddl.kw s) = false) : Value mysql (lit s) [Ddl.kw s] :=
  word_value_of mysql_sound h

theorem sized_value {s : String} (h : (lit s).all inWord = true ∧ lit s ≠ [] ∧ isAttr (Ddl.kw s) = false) (n : Int) :
    Value mysql (lit s ++ 40 :: (intDec n ++ [41])) [Ddl.kw s, .mark 40, .word (intDec n), .mark 41] := sized_value_of mysql_sound h n

/-- The words of a type. -/
def mySyms (size : Int) : Entry → List Ddl.Sym
  | .rune | .int .byte => [Ddl.kw "CHAR", .mark 40, .word (intDec 1), .mark 41]
  | .string => [Ddl.kw "VARCHAR", .mark 40, .word (intDec (if size > 0 then size else 255)), .mark 41]
  | .bool => [Ddl.kw "BOOL"]
  | .int _ => [Ddl.kw "INTEGER"]
  | .float32 | .float64 => [Ddl.kw "FLOAT"]
  | .time => [Ddl.kw "TIMESTAMP"]
  | .rawBytes => [Ddl.kw "TEXT"]
  | .arrayRune => [Ddl.kw "VARCHAR", .mark 40, .word (intDec size), .mark 41]
  | .arrayByte => [Ddl.kw "CHAR", .mark 40, .word (intDec size), .mark 41]
  | .sliceInt .byte => [Ddl.kw "BLOB"]
  | _ => [Ddl.kw "JSON"]

/-- Every type of the table for MySQL can be read. -/
theorem my_typeOf (size : Int) (nullable : Bool) (e : Entry) :
    ∃ nn, TypeOf mysql (MyType.dataType size nullable e) (mySyms size e) nn (MyTable.usual e) ∧ (nn = true → nullable = false) := by
  have fin : ∀ {t : Bytes} {tys : List Ddl.Sym} {d : Option String}, Value mysql t tys →
      (∀ x, d = some x → (lit x).all inWord = true ∧ lit x ≠ [] ∧ isAttr (Ddl.kw x) = false) →
      ∃ nn, TypeOf mysql (MyType.columnDataType t d nullable) tys nn (d.map fun x => [Ddl.kw x]) ∧ (nn = true → nullable = false) :=
    fun h1 h2 => ⟨_, typeOf_columnDataType h1 h2 nullable, by cases nullable <;> simp⟩
  have no : ∀ x : String, (none : Option String) = some x → (lit x).all inWord = true ∧ lit x ≠ [] ∧ isAttr (Ddl.kw x) = false := by simp
  have json := fin (d := none) (word_value (s := "JSON") (by decide +kernel)) no
  have sz : ∀ (s : String) (n : Int), (lit s).all inWord = true ∧ lit s ≠ [] ∧ isAttr (Ddl.kw s) = false → lit (s ++ "(") = lit s ++ [40] →
      Value mysql (lit (s ++ "(") ++ intDec n ++ lit ")") [Ddl.kw s, .mark 40, .word (intDec n), .mark 41] := by
    intro s n h e
    have := sized_value h n
    have e2 : lit ")" = [41] := by decide +kernel
    rw [e, e2]
    simpa using this
  have ch : Value mysql (lit "CHAR(1)") [Ddl.kw "CHAR", .mark 40, .word (intDec 1), .mark 41] := by
    have h := sz "CHAR" 1 (by decide +kernel) (by decide +kernel)
    have e : lit ("CHAR" ++ "(") ++ intDec 1 ++ lit ")" = lit "CHAR(1)" := by decide +kernel
    rwa [e] at h
  cases e with
  | rune => exact fin ch no
  | string =>
    exact ⟨_, typeOf_value (sz "VARCHAR" (if size > 0 then size else 255) (by decide +kernel) (by decide +kernel)), by simp⟩
  | bool => exact fin (d := some "false") (word_value (s := "BOOL") (by decide +kernel)) (by intro x h; cases h; decide +kernel)
  | float32 => exact fin (d := some "0") (word_value (s := "FLOAT") (by decide +kernel)) (by intro x h; cases h; decide +kernel)
  | float64 => exact fin (d := some "0") (word_value (s := "FLOAT") (by decide +kernel)) (by intro x h; cases h; decide +kernel)
  | time => exact fin (d := some "CURRENT_TIMESTAMP") (word_value (s := "TIMESTAMP") (by decide +kernel)) (by intro x h; cases h; decide +kernel)
  | rawBytes => exact fin (word_value (s := "TEXT") (by decide +kernel)) no
  | arrayRune => exact fin (sz "VARCHAR" size (by decide +kernel) (by decide +kernel)) no
  | arrayByte => exact fin (sz "CHAR" size (by decide +kernel) (by decide +kernel)) no
  | int k =>
    cases k with
    | byte => exact fin ch no
    | _ => exact fin (d := some "false") (word_value (s := "INTEGER") (by decide +kernel)) (by intro x h; cases h; decide +kernel)
  | sliceInt k =>
    cases k with
    | byte => exact fin (word_value (s := "BLOB") (by decide +kernel)) no
    | _ => exact json
  | _ => exact json

/-- The column that is read. -/
def myCol (f : Field) : Ddl.Col := ⟨f.name, mySyms f.size f.entry, !f.nullable, (f.dflt.bind (symbols mysql)).or (MyTable.usual f.entry)⟩

theorem my_colOf (f : Field) (h : Readable mysql f) :
    ColOf mysql (MyType.col f).name (MyType.col f).type (!(MyType.col f).nullable) (MyType.col f).dflt (myCol f) := by
  obtain ⟨nn, ht, hn⟩ := my_typeOf f.size f.nullable f.entry
  have hnn : (nn || !f.nullable) = !f.nullable := by
    cases nn with
    | false => rfl
    | true => simp [hn rfl]
  refine ⟨nn, _, ht, rfl, hnn.symm, ?_⟩
  unfold myCol MyType.col
  cases hd : f.dflt with
  | none => simp [DefaultOf]
  | some v =>
    obtain ⟨ss, hv⟩ := h v hd
    exact ⟨ss, hv, by simp [hv.1], .inl rfl⟩

/-- The script of a new table, read. -/
theorem my_script {q md5 : Bytes → Bytes} {table : Bytes} {pks : List Bytes} {fs : List Field} (hne : fs ≠ [])
    (hn : ∀ n ∈ table :: keyName md5 pks :: (pks ++ fs.map (·.name)), NameOk mysql q n) (hd : ∀ f ∈ fs, Readable mysql f) :
    script mysql (scriptText q md5 table pks (mysqlMigrate (fs.map MyType.col) [])) =
      some (some [.create table (fs.map myCol) (if pks = [] then none else some (keyName md5 pks, pks)), .alter table []],
        some [.alter table []]) := by
  refine C106_mysql_new_partial mysql_sound rfl (by simpa using hne) ?_ ?_
  · intro n hn'
    refine hn n ?_
    simpa [MyType.col, Function.comp_def] using hn'
  · rw [List.forall₂_map_left_iff, List.forall₂_map_right_iff, List.forall₂_same]
    exact fun f hf => my_colOf f (hd f hf)

/-! ## C110 -/

/-- C110, the script: whatever the types of the fields are, MySQL reads the script for a new table, with the columns of the model and their
nullability, in their order; `NOT NULL` is written twice for most. -/
theorem C110_mysql_reads {q md5 : Bytes → Bytes} {table : Bytes} {pks : List Bytes} {fs : List Field} (hne : fs ≠ [])
    (hn : ∀ n ∈ table :: keyName md5 pks :: (pks ++ fs.map (·.name)), NameOk mysql q n) (hd : ∀ f ∈ fs, Readable mysql f) :
    ∃ cols, script mysql (scriptText q md5 table pks (mysqlMigrate (fs.map MyType.col) [])) =
        some (some [.create table cols (if pks = [] then none else some (keyName md5 pks, pks)), .alter table []], some [.alter table []]) ∧
      List.Forall₂ (fun f c => ColOf mysql f.name (MyType.col f).type (!f.nullable) f.dflt c ∧ c.name = f.name ∧ c.notNull = !f.nullable)
        fs cols := by
  refine ⟨fs.map myCol, my_script hne hn hd, ?_⟩
  rw [List.forall₂_map_right_iff, List.forall₂_same]
  exact fun f hf => ⟨my_colOf f (hd f hf), rfl, rfl⟩

/-- C110, MySQL: columns for numbers that are to count up have the default `false`, which is 0, and do not count. -/
theorem C110_mysql_made {n : Bytes} {nn : Bool} {size : Int} {nullable : Bool} {k : GoInt} (hk : k ≠ .byte) {c : Ddl.Col}
    (h : ColOf mysql n (MyType.dataType size nullable (.int k)) nn none c) : mysqlMade c = .value [Ddl.kw "false"] := by
  obtain ⟨nn', d, ⟨ss, h1, -, h3⟩, -, -, h4⟩ := h
  have e : MyType.dataType size nullable (.int k) = MyType.columnDataType (lit "INTEGER") (some "false") nullable := by
    cases k <;> first | exact absurd rfl hk | rfl
  rw [e] at h1
  obtain ⟨ss', h1', -, h3'⟩ := typeOf_columnDataType (word_value (s := "INTEGER") (by decide +kernel)) (d := some "false")
    (by intro x h; cases h; decide +kernel) nullable
  have hs := Option.some.inj (h1.symm.trans h1')
  subst hs
  have hc := Option.some.inj (h3.symm.trans h3')
  simp only [Option.map_some] at hc
  have ht : c.type = [Ddl.kw "INTEGER"] := congrArg Ddl.Col.type hc
  have hd : d = some [Ddl.kw "false"] := congrArg Ddl.Col.dflt hc
  have hdf : c.dflt = d := h4
  unfold mysqlMade
  rw [ht, hdf, hd]
  decide +kernel

/-- C110, PostgreSQL: columns for numbers that are to count up do so, except for `int64`. -/
theorem C110_pg_made {n : Bytes} {nn : Bool} {size : Int} {k : GoInt} (hk : k ≠ .byte) {c : Ddl.Col}
    (h : ColOf postgres n ((Entry.int k).dataType size true) nn none c) : pgMade c = if k = .int64 then .nothing else .counts := by
  obtain ⟨nn', d, ⟨ss, h1, -, h3⟩, -, -, h4⟩ := h
  have hdf : c.dflt = d := h4
  have e0 : (Entry.int k).dataType size true = (Entry.int k).dataType 0 true := by cases k <;> rfl
  rw [e0] at h1
  have key : ∀ (t : Bytes), (Entry.int k).dataType 0 true = t → symbols postgres t = some [.word t] →
      column postgres [] [.word t] = some ⟨[], [.word t], false, none⟩ → c.type = [.word t] ∧ c.dflt = none := by
    intro t e h1' h3'
    rw [e, h1'] at h1
    cases h1
    rw [h3'] at h3
    have hc := Option.some.inj h3
    exact ⟨(congrArg Ddl.Col.type hc).symm, hdf.trans (congrArg Ddl.Col.dflt hc).symm⟩
  unfold pgMade
  cases k with
  | byte => exact absurd rfl hk
  | _ =>
    obtain ⟨ht, hd⟩ := key _ rfl (by simp only [Entry.dataType]; decide +kernel) (by simp only [Entry.dataType]; decide +kernel)
    rw [ht, hd]
    clear ht hd key h4 hdf h3 h1 e0
    decide +kernel

section Keys

variable {F X V : Type} [DecidableEq F] [DecidableEq X] [DecidableEq V] {E : Env F X V} {t : Table F} {Ok : F → X → Prop} {c : GCol F}

/-- C110, refuted for MySQL: in the table that the migration made for a model with a key of an integer type that is to count up, only one
record is ever stored by `InsertOne`, under the key 0; whatever the records are, all others are rejected as duplicates of it. -/
theorem C110_mysql_once (h : Setup E t Ok) (hw : AllWritten t) (ha : t.autoCol = some c) (hf : (t.columns.map (·.field)).Nodup)
    (hi : pick t (insertPos t) ≠ []) {n : Bytes} {nn : Bool} {size : Int} {nullable : Bool} {k : GoInt} (hk : k ≠ .byte) {col : Ddl.Col}
    (hcol : ColOf mysql n (MyType.dataType size nullable (.int k)) nn none col) {value : List Ddl.Sym → V}
    (hE : Follows E t Ok c value (mysqlMade col)) {zero : X} (hok : Ok c.field zero) (hz : value [Ddl.kw "false"] = E.enc c.field zero)
    (hid : E.toId (E.enc c.field zero) = some zero) {m : Map F X} {σ : Sql.Store V} (hm : Keeps E Ok t m σ) (h0 : m [zero] = none)
    (r : F → X) (rs : List (F → X)) (hr : ∀ s ∈ r :: rs, Good Ok t s) :
    (performs E t ((r :: rs).map .insert) σ).1 = .ok (withKey c zero r) :: rs.map (fun _ => .duplicate) ∧
      Keeps E Ok t (put m [zero] (some (withKey c zero r))) (performs E t ((r :: rs).map .insert) σ).2 := by
  rw [C110_mysql_made hk hcol] at hE
  have hg : ∀ T, E.gen T = E.enc c.field zero := fun T => (hE T).trans hz
  obtain ⟨σ', e, hk', -⟩ := (insert_key h hw ha hf hi hok hm hg hid (hr r (by simp))).2 h0
  have h2 := insert_keys h hw ha hf hi hok hk' hg hid (rs := rs) (fun s hs => hr s (by simp [hs])) (by simp [put])
  simp only [List.map_cons, performs, perform, e, h2]
  exact ⟨trivial, hk'⟩

/-- C110, refuted for `int64` on PostgreSQL: in a table with the column of the migration, no record is ever stored. -/
theorem C110_pg_int64_never (h : Setup E t Ok) (ha : t.autoCol = some c) (hi : pick t (insertPos t) ≠ []) {n : Bytes} {nn : Bool} {size : Int}
    {col : Ddl.Col} (hcol : ColOf postgres n ((Entry.int .int64).dataType size true) nn none col) {value : List Ddl.Sym → V}
    (hE : Follows E t Ok c value (pgMade col)) {m : Map F X} {σ : Sql.Store V} (hm : Keeps E Ok t m σ) (rs : List (F → X)) :
    performs E t (rs.map .insert) σ = (rs.map fun _ => .failed, σ) := by
  rw [C110_pg_made (by decide) hcol] at hE
  have hg : ∀ T, E.gen T = E.null := hE
  induction rs with
  | nil => rfl
  | cons r rs ih => simp only [List.map_cons, performs, perform, insert_null h ha hi hm hg r, ih]

/-- C110, for the other integer types on PostgreSQL: calls are operations on a map from keys to records, and every `InsertOne` stores its
record under a new key. -/
theorem C110_pg_counts_partial (h : Setup E t Ok) (hw : AllWritten t) (ha : t.autoCol = some c) (hf : (t.columns.map (·.field)).Nodup)
    (hi : pick t (insertPos t) ≠ []) {n : Bytes} {nn : Bool} {size : Int} {k : GoInt} (hk : k ≠ .byte) (hk' : k ≠ .int64) {col : Ddl.Col}
    (hcol : ColOf postgres n ((Entry.int k).dataType size true) nn none col) {value : List Ddl.Sym → V}
    (hE : Follows E t Ok c value (pgMade col)) (ops : List (Spec.Store.Op F X)) (ho : ∀ o ∈ ops, Fine Ok t o) (m : Map F X) (σ : Sql.Store V)
    (hm : Keeps E Ok t m σ) :
    ∃ m', Acts t ops m (performs E t ops σ).1 m' ∧ Keeps E Ok t m' (performs E t ops σ).2 ∧
      ∀ n, n ≠ tableName E.D t → (performs E t ops σ).2 n = σ n := by
  rw [C110_pg_made hk hcol, if_neg hk'] at hE
  exact C90_made_up_keys h hw ha hf hi hE ops ho m σ hm

end Keys

/-! ### Cases -/

namespace MadeCase

private abbrev people : Table Nat := { storeUser "people" with auto := some 0 }
private abbrev key : GCol Nat := ⟨"id", 10, 0, false, none, none⟩
/-- A database that gives every new row this key. -/
private abbrev env (v : Option Nat) : Env Nat Nat (Option Nat) := { storeEnv false with gen := fun _ => v }

private theorem setup (v : Option Nat) : Setup (env v) people (fun _ _ => True) := by
  have h := storeSetup false people (.inr rfl)
  exact ⟨h.1, h.2, h.3, h.4, h.5, h.6, h.7, h.8, h.9⟩

private theorem whole_word (b : Bool) (w : Bytes) {ss : List Ddl.Sym} (h : Whole b ss) : Whole b (.word w :: ss) := .sym (by simp) rfl h

/-- the column of the migration, as MySQL reads it -/
private theorem my_col : ColOf mysql (lit "id") (MyType.dataType 0 false (.int .uint64)) true none
    ⟨lit "id", [Ddl.kw "INTEGER"], true, some [Ddl.kw "false"]⟩ :=
  ⟨true, some [Ddl.kw "false"], ⟨[Ddl.kw "INTEGER", Ddl.kw "NOT", Ddl.kw "NULL", Ddl.kw "DEFAULT", Ddl.kw "false"], by decide +kernel,
    whole_word _ _ (whole_word _ _ (whole_word _ _ (whole_word _ _ (whole_word _ _ .nil)))), by decide +kernel⟩, rfl, rfl, rfl⟩
/-- and as PostgreSQL does -/
private theorem pg_col : ColOf postgres (lit "id") ((Entry.int .int64).dataType 0 true) true none ⟨lit "id", [Ddl.kw "bigint"], true, none⟩ :=
  ⟨false, none, ⟨[Ddl.kw "bigint"], by decide +kernel, whole_word _ _ .nil, by decide +kernel⟩, rfl, rfl, rfl⟩
private theorem pg_serial : ColOf postgres (lit "id") ((Entry.int .uint64).dataType 0 true) true none ⟨lit "id", [Ddl.kw "bigserial"], true, none⟩ :=
  ⟨false, none, ⟨[Ddl.kw "bigserial"], by decide +kernel, whole_word _ _ .nil, by decide +kernel⟩, rfl, rfl, rfl⟩

/-- for which what PostgreSQL does is what `C90_made_up_keys` needs -/
example : pgMade ⟨lit "id", [Ddl.kw "bigserial"], true, none⟩ = .counts := C110_pg_made (by decide) pg_serial

private instance (S : Server) (q : Bytes → Bytes) (n : Bytes) : Decidable (NameOk S q n) := by unfold NameOk; infer_instance
private def mq (n : Bytes) : Bytes := 96 :: (n ++ [96])

/-- the script for a model with a key that is to count up, and a text with a default -/
example : ∃ cols, script mysql (scriptText mq (fun _ => lit "0") (lit "people") [lit "id"]
    (mysqlMigrate ([⟨lit "id", .int .uint64, 0, true, false, none⟩, ⟨lit "name", .string, 20, false, true, some (lit "'x'")⟩].map MyType.col) [])) =
      some (some [.create (lit "people") cols (some (keyName (fun _ => lit "0") [lit "id"], [lit "id"])), .alter (lit "people") []],
        some [.alter (lit "people") []]) := by
  obtain ⟨cols, h, -⟩ := C110_mysql_reads (q := mq) (md5 := fun _ => lit "0") (table := lit "people") (pks := [lit "id"])
    (fs := [⟨lit "id", .int .uint64, 0, true, false, none⟩, ⟨lit "name", .string, 20, false, true, some (lit "'x'")⟩]) (by simp) (by decide +kernel)
    (by
      intro f hf v hv
      simp only [List.mem_cons, List.not_mem_nil, or_false] at hf
      rcases hf with rfl | rfl <;> cases hv
      exact ⟨[.text (lit "x")], by decide +kernel, by decide, .sym (by simp) rfl .nil, by decide +kernel⟩)
  exact ⟨cols, h⟩

/-- three records are inserted on MySQL; one is stored -/
example : (performs (env (some 0)) people ([storeRec 0 1 2, storeRec 0 3 4, storeRec 9 5 6].map .insert) (storeOnly people)).1 =
    [.ok (withKey key 0 (storeRec 0 1 2)), .duplicate, .duplicate] := by
  have hE : Follows (env (some 0)) people (fun _ _ => True) key (fun _ => some 0)
      (mysqlMade ⟨lit "id", [Ddl.kw "INTEGER"], true, some [Ddl.kw "false"]⟩) := by
    rw [C110_mysql_made (by decide) my_col]
    exact fun _ => rfl
  exact (C110_mysql_once (setup (some 0)) (storeWritten "people" _) (c := key) rfl (by decide) (by decide) (k := .uint64) (by decide) my_col hE
    trivial (zero := 0) rfl rfl (C90_empty _ _ _ _ (if_pos rfl)) rfl _ _ (fun _ _ _ _ => trivial)).1

/-- they are inserted on PostgreSQL, with a key of type `int64` -/
example : performs (env none) people ([storeRec 0 1 2, storeRec 0 3 4].map .insert) (storeOnly people) =
    ([.failed, .failed], storeOnly people) := by
  have hE : Follows (env none) people (fun _ _ => True) key (fun _ => some 0) (pgMade ⟨lit "id", [Ddl.kw "bigint"], true, none⟩) := by
    rw [C110_pg_made (by decide) pg_col]
    exact fun _ => rfl
  exact C110_pg_int64_never (setup none) (c := key) rfl (by decide) pg_col hE (C90_empty _ _ _ _ (if_pos rfl)) _

end MadeCase

end Verif.Props
