import Verif.Props.MigrateDefault

/-!
# C106: cases

A table with a key and a text, of which a column is new; scripts for PostgreSQL and MySQL, read as a whole.
-/

namespace Verif.Props

open Verif Verif.Migrate Verif.Spec.Ddl

private def pq (n : Bytes) : Bytes := 34 :: (n ++ [34])
private def mq (n : Bytes) : Bytes := 96 :: (n ++ [96])
private def sum (b : Bytes) : Bytes := b

private def colId : GoCol := ⟨lit "id", lit "bigint", false, none⟩
private def colName : GoCol := ⟨lit "name", lit "varchar(255)", false, some (lit "'a, b'")⟩
private def oldId : DbCol := ⟨lit "id", lit "integer", false, some (lit "7")⟩
private def oldNote : DbCol := ⟨lit "note", lit "text", true, none⟩

private def symBig : List Sym := [kw "bigint"]
private def symChar : List Sym := [kw "varchar", .mark 40, kw "255", .mark 41]

/-- What a script with a new and a changed column is read as, both ways. -/
example : (pgMigrate [colId, colName] [oldId]).map (fun s => script postgres (scriptText pq sum (lit "t") [lit "id"] s)) =
    some (some (some [.create (lit "t") [⟨lit "id", symBig, true, none⟩, ⟨lit "name", symChar, true, some [.text (lit "a, b")]⟩]
        (some (lit "PK_6964", [lit "id"])),
      .alter (lit "t") [.setType (lit "id") symBig, .add ⟨lit "name", symChar, true, some [.text (lit "a, b")]⟩]],
      some [.alter (lit "t") [.setType (lit "id") [kw "integer"], .setNotNull (lit "id"), .setDefault (lit "id") [kw "7"], .drop (lit "name")]])) := by
  decide +kernel

/-- With a column that is dropped there is no way back. -/
example : (pgMigrate [colId] [oldId, oldNote]).map (fun s => script postgres (scriptText pq sum (lit "t") [lit "id"] s)) =
    some (some (some [.create (lit "t") [⟨lit "id", symBig, true, none⟩] (some (lit "PK_6964", [lit "id"])),
      .alter (lit "t") [.setType (lit "id") symBig, .drop (lit "note")]], none)) := by
  decide +kernel

theorem sound_postgres : Sound postgres := ⟨.inl rfl⟩
theorem sound_mysql : Sound mysql := ⟨.inr rfl⟩

private theorem typed_id : Typed postgres colId.type colId.dflt :=
  ⟨⟨symBig, by decide +kernel, by decide, whole_kw _ .nil, by decide +kernel⟩, by intro x h; cases h⟩

private theorem typed_name : Typed postgres colName.type colName.dflt :=
  ⟨⟨symChar, by decide +kernel, by decide, whole_kw _ (.paren (whole_kw "255" .nil) .nil), by decide +kernel⟩, by
    intro x h
    cases h
    exact ⟨[.text (lit "a, b")], by decide +kernel, by decide, .sym (by simp) rfl .nil, by decide +kernel⟩⟩

private theorem typed_old : Typed postgres oldId.type oldId.dflt :=
  ⟨⟨[kw "integer"], by decide +kernel, by decide, whole_kw _ .nil, by decide +kernel⟩, by
    intro x h
    cases h
    exact ⟨[kw "7"], by decide +kernel, by decide, whole_kw _ .nil, by decide +kernel⟩⟩

private theorem typed_note : Typed postgres oldNote.type oldNote.dflt :=
  ⟨⟨[kw "text"], by decide +kernel, by decide, whole_kw _ .nil, by decide +kernel⟩, by intro x h; cases h⟩

private instance (S : Server) (q : Bytes → Bytes) (n : Bytes) : Decidable (NameOk S q n) := by unfold NameOk; infer_instance

/-- The hypotheses of `C106_way_back_iff` are met, with a way back and without. -/
example : ∃ cols us d, (pgMigrate [colId, colName] [oldId]).map (fun s => script postgres (scriptText pq sum (lit "t") [lit "id"] s)) =
    some (some (some [.create (lit "t") cols (some (keyName sum [lit "id"], [lit "id"])), .alter (lit "t") us], some d)) := by
  obtain ⟨s, hs⟩ : ∃ s, pgMigrate [colId, colName] [oldId] = some s := Option.isSome_iff_exists.1 (by decide +kernel)
  obtain ⟨cols, us, d, h1, -, -, h4⟩ := C106_way_back_iff (q := pq) (md5 := sum) (table := lit "t") (pks := [lit "id"]) sound_postgres hs
    (by decide +kernel) (by decide +kernel) (by simpa using ⟨typed_id, typed_name⟩) (by simpa using typed_old) (by decide +kernel)
  obtain ⟨d', rfl⟩ := Option.isSome_iff_exists.1 (h4.2 (by decide +kernel))
  exact ⟨cols, us, d', by rw [hs]; simpa using h1⟩

example : ∃ cols us, (pgMigrate [colId] [oldId, oldNote]).map (fun s => script postgres (scriptText pq sum (lit "t") [lit "id"] s)) =
    some (some (some [.create (lit "t") cols (some (keyName sum [lit "id"], [lit "id"])), .alter (lit "t") us], none)) := by
  obtain ⟨s, hs⟩ : ∃ s, pgMigrate [colId] [oldId, oldNote] = some s := Option.isSome_iff_exists.1 (by decide +kernel)
  obtain ⟨cols, us, d, h1, -, -, h4⟩ := C106_way_back_iff (q := pq) (md5 := sum) (table := lit "t") (pks := [lit "id"]) sound_postgres hs
    (by decide +kernel) (by decide +kernel) (by simpa using typed_id) (by simpa using ⟨typed_old, typed_note⟩) (by decide +kernel)
  cases d with
  | none => exact ⟨cols, us, by rw [hs]; simpa using h1⟩
  | some d => exact absurd (h4.1 rfl) (by decide +kernel)

/-- MySQL: types have attributes already, the last default counts. -/
private def colText : GoCol := ⟨lit "s", lit "VARCHAR(255) NOT NULL DEFAULT ''", false, some (lit "'x'")⟩
private def symText : List Sym := [kw "VARCHAR", .mark 40, kw "255", .mark 41]

private theorem colText_of : ColOf mysql colText.name colText.type (!colText.nullable) colText.dflt ⟨lit "s", symText, true, some [.text (lit "x")]⟩ :=
  ⟨true, some [.text []], ⟨symText ++ [kw "NOT", kw "NULL", kw "DEFAULT", .text []], by decide +kernel,
    whole_kw _ (.paren (whole_kw "255" .nil) (whole_kw _ (whole_kw _ (whole_kw _ (.sym (by simp) rfl .nil))))), by decide +kernel⟩, rfl, rfl,
    [.text (lit "x")], ⟨by decide +kernel, by decide, .sym (by simp) rfl .nil, by decide +kernel⟩, rfl, .inl rfl⟩

example : script mysql (scriptText mq sum (lit "t") [] (mysqlMigrate [colText] [])) =
    some (some [.create (lit "t") [⟨lit "s", symText, true, some [.text (lit "x")]⟩] none, .alter (lit "t") []], some [.alter (lit "t") []]) :=
  C106_mysql_new_partial sound_mysql rfl (by simp) (by decide +kernel) (.cons colText_of .nil)

example : script mysql (scriptText mq sum (lit "t") [lit "s"] (mysqlMigrate [colText] [oldNote])) =
    some (some [.create (lit "t") [⟨lit "s", symText, true, some [.text (lit "x")]⟩] (some (keyName sum [lit "s"], [lit "s"])),
      .alter (lit "t") [.drop (lit "note")]], none) :=
  C106_mysql_no_way_back sound_mysql (by simp) (by simp) (by decide +kernel) (.cons colText_of .nil) (by simp [oldNote])

/-- The same with PostgreSQL's rules would be refused: two defaults, and no clauses. -/
example : (script ⟨96, true, false⟩ (scriptText mq sum (lit "t") [] (mysqlMigrate [colText] []))) = some (none, none) := by decide +kernel

/-- Texts with a quote. -/
example : format (.str (lit "it's")) = .ok (lit "'it's'") ∧ symbols postgres (lit "'it's'") = none ∧
    symbols postgres (lit "'it''s'") = some [.text (lit "it's")] ∧ symbols mysql (lit "'a\\b'") = some [.text (lit "ab")] ∧
    symbols postgres (lit "'a\\b'") = some [.text (lit "a\\b")] := by decide +kernel

/-- A default that ends the statement and begins another one. -/
example : symbols postgres (lit "'x'; DROP TABLE t; --'") =
    some [.text (lit "x"), .mark 59, kw "DROP", kw "TABLE", kw "t", .mark 59, .comment (lit "'")] := by decide +kernel

/-- Two tables with a key of the same name. -/
example : createIn [] (.create (lit "users") [] (some (keyName sum [lit "id"], [lit "id"]))) = some [lit "users", keyName sum [lit "id"]] ∧
    createIn [lit "users", keyName sum [lit "id"]] (.create (lit "books") [] (some (keyName sum [lit "id"], [lit "id"]))) = none ∧
    createIn [lit "users", keyName sum [lit "id"]] (.create (lit "books") [] (some (keyName sum [lit "isbn"], [lit "isbn"]))) ≠ none := by
  decide +kernel

/-- Scripts for them. -/
example : ∃ x₁ x₂ r₁ r₂ b₁ b₂,
    script postgres (scriptText pq sum (lit "users") [lit "id"] ⟨[colId], [.drop (lit "a")], [.drop (lit "b")]⟩) = some (some (x₁ :: r₁), b₁) ∧
      script postgres (scriptText pq sum (lit "books") [lit "id"] ⟨[colId], [.drop (lit "c")], [.drop (lit "d")]⟩) = some (some (x₂ :: r₂), b₂) ∧
      ∀ rels rels', lit "users" ∉ rels → createIn rels x₁ = some rels' → lit "books" ∉ rels' → createIn rels' x₂ = none :=
  have h : ColOf postgres colId.name colId.type (!colId.nullable) colId.dflt ⟨lit "id", symBig, true, none⟩ :=
    ⟨false, none, typeOf_value ⟨by decide +kernel, by decide, whole_kw _ .nil, by decide +kernel⟩, rfl, rfl, rfl⟩
  C106_second_script_refused sound_postgres (by simp) (by decide +kernel) (by decide +kernel) (by simp) (by simp) (.cons h .nil) (.cons h .nil)
    (u₁ := [.drop (lit "a")]) (d₁ := [.drop (lit "b")]) (u₂ := [.drop (lit "c")]) (d₂ := [.drop (lit "d")])
    (.cons rfl .nil) (.cons rfl .nil) (.cons rfl .nil) (.cons rfl .nil) (.inr (by simp)) (.inr (by simp))

end Verif.Props
