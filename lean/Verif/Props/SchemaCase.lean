import Verif.Props.Schema

/-!
# C116: cases

Three tables, two of them with a key.
-/

namespace Verif.Props

open Verif Verif.Migrate Verif.Spec.Ddl

private def pq (n : Bytes) : Bytes := 34 :: (n ++ [34])
private def sum (b : Bytes) : Bytes := b

private def colId : GoCol := ⟨lit "id", lit "bigint", false, none⟩
private def col : Spec.Ddl.Col := ⟨lit "id", [kw "bigint"], true, none⟩
private def mig (t : String) (p : List Bytes) : Mig := ⟨lit t, p, [colId], [.drop (lit "a")], [.drop (lit "b")]⟩

private instance (S : Server) (q : Bytes → Bytes) (n : Bytes) : Decidable (NameOk S q n) := by unfold NameOk; infer_instance

private theorem colId_of : ColOf postgres colId.name colId.type (!colId.nullable) colId.dflt col :=
  ⟨false, none, typeOf_value ⟨by decide +kernel, by decide, whole_kw _ .nil, by decide +kernel⟩, rfl, rfl, rfl⟩

private theorem reads {t : String} {p : List Bytes} (h : ∀ n ∈ scriptNames sum (lit t) p (mig t p).script, NameOk postgres pq n) :
    (mig t p).Reads postgres pq sum :=
  ⟨h, by simp [mig], ⟨[col], .cons colId_of .nil⟩, ⟨[.drop (lit "a")], .cons rfl .nil⟩, ⟨[.drop (lit "b")], .cons rfl .nil⟩, .inr (by simp [mig])⟩

private def models : List Mig := [mig "users" [lit "id"], mig "books" [lit "id", lit "year"], mig "notes" []]

private def stmts : List Stmt := [.create (lit "users") [col] (some (keyName sum [lit "id"], [lit "id"])),
  .create (lit "books") [col] (some (keyName sum [lit "id", lit "year"], [lit "id", lit "year"])), .create (lit "notes") [col] none]

private theorem models_read : ∀ m ∈ models, m.Reads postgres pq sum := by
  simp only [models, List.mem_cons, List.not_mem_nil, or_false, forall_eq_or_imp, forall_eq]
  exact ⟨reads (by decide +kernel), reads (by decide +kernel), reads (by decide +kernel)⟩

private theorem first_of {m : Mig} {x : Stmt}
    (h : ((Spec.Ddl.script postgres (scriptText pq sum m.table m.pks m.script)).bind (·.1)).bind List.head? = some x) : First postgres pq sum m x := by
  obtain ⟨l, h1, h2⟩ := Option.bind_eq_some_iff.1 h
  obtain ⟨⟨l', b⟩, h3, h4⟩ := Option.bind_eq_some_iff.1 h1
  dsimp only at h4
  subst h4
  cases l with
  | nil => cases h2
  | cons y r =>
    cases h2
    exact ⟨r, b, h3⟩

private theorem models_first : List.Forall₂ (First postgres pq sum) models stmts :=
  .cons (first_of (by decide +kernel)) (.cons (first_of (by decide +kernel)) (.cons (first_of (by decide +kernel)) .nil))

private theorem key_head {n : Bytes} (h : n.head? ≠ some 80) (p : List Bytes) : n ≠ keyName sum p := by
  rintro rfl
  have e : (lit "PK_").head? = some 80 := by decide +kernel
  exact h (by unfold keyName; rw [List.head?_append, e]; rfl)

/-- All three are made in a schema with a table and a key of other columns. -/
example : ∃ rels', createAll [lit "tags", keyName sum [lit "name"]] stmts = some rels' ∧ ∀ m ∈ models, m.table ∈ rels' :=
  (C116_made_iff_partial models_read models_first (by decide +kernel) (by decide +kernel)
    (by
      intro m hm
      exact key_head (by revert m; decide +kernel))
    (by unfold Named; decide +kernel) (fun _ _ _ _ h => h)).2 ⟨by decide +kernel, by decide +kernel⟩

private def alike : List Mig := [mig "users" [lit "id"], mig "pages" [lit "id"]]

/-- Two tables with the same key, in a schema with nothing in it. -/
example : createAll [] [.create (lit "users") [col] (some (keyName sum [lit "id"], [lit "id"])),
    .create (lit "pages") [col] (some (keyName sum [lit "id"], [lit "id"]))] = none :=
  C116_same_key_never (ms := alike) (q := pq) (md5 := sum)
    (by
      simp only [alike, List.mem_cons, List.not_mem_nil, or_false, forall_eq_or_imp, forall_eq]
      exact ⟨reads (by decide +kernel), reads (by decide +kernel)⟩)
    (.cons (first_of (by decide +kernel)) (.cons (first_of (by decide +kernel)) .nil)) (by decide +kernel) (by decide +kernel)
    (by
      intro m hm
      exact key_head (by revert m; decide +kernel))
    (by decide +kernel)

end Verif.Props
