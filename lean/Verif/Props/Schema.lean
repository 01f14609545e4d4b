import Mathlib.Data.List.Nodup
import Mathlib.Data.List.Forall2
import Verif.Spec.Schema
import Verif.Lemmas.Bytea
import Verif.Props.MigrateText

/-!
# C116: the tables of all models are made in one schema

The statements `CREATE TABLE` of the scripts of several models, on PostgreSQL.
-/

namespace Verif.Props

open Verif Verif.Migrate Verif.Spec.Ddl

/-- The migration of a model: its table, the columns of its key, and the script that `Migrate` writes. -/
structure Mig where
  table : Bytes
  pks : List Bytes
  script : Script

/-- A script that is read by the database (see C106). -/
structure Mig.Reads (S : Server) (q md5 : Bytes → Bytes) (m : Mig) : Prop where
  names : ∀ n ∈ scriptNames md5 m.table m.pks m.script, NameOk S q n
  columns : m.script.create ≠ []
  types : ∃ cols, List.Forall₂ (fun c d => ColOf S c.name c.type (!c.nullable) c.dflt d) m.script.create cols
  up : ∃ us, List.Forall₂ (Says S) m.script.up us
  down : ∃ ds, List.Forall₂ (Says S) m.script.down ds
  clauses : S.lax = true ∨ (m.script.up ≠ [] ∧ m.script.down ≠ [])

/-- The first statement of a script. -/
def First (S : Server) (q md5 : Bytes → Bytes) (m : Mig) (x : Stmt) : Prop :=
  ∃ r b, Spec.Ddl.script S (scriptText q md5 m.table m.pks m.script) = some (some (x :: r), b)

/-- The keys of the models that have one. -/
def keysOf (ms : List Mig) : List (List Bytes) := (ms.map (·.pks)).filter (· ≠ [])

/-! ## Names of keys -/

private theorem hexDigit_inj : ∀ a < 16, ∀ b < 16, hexDigit a = hexDigit b → a = b := by decide

theorem hexEncode_inj : ∀ {a b : Bytes}, hexEncode a = hexEncode b → a = b
  | [], [], _ => rfl
  | [], _ :: _, h => by simp [hexEncode] at h
  | _ :: _, [], h => by simp [hexEncode] at h
  | x :: a, y :: b, h => by
    simp only [hexEncode, List.cons.injEq] at h
    have hx := x.toNat_lt
    have hy := y.toNat_lt
    have h1 := hexDigit_inj _ (by omega) _ (by omega) h.1
    have h2 := hexDigit_inj _ (by omega) _ (by omega) h.2.1
    rw [UInt8.toNat_inj.1 (show x.toNat = y.toNat by omega), hexEncode_inj h.2.2]

/-- Names of columns have characters, and no commas. -/
def Named (p : List Bytes) : Prop := ∀ n ∈ p, n ≠ [] ∧ (44 : Byte) ∉ n

private theorem cut {a b r s : Bytes} (ha : (44 : Byte) ∉ a) (hb : (44 : Byte) ∉ b) (h : a ++ 44 :: r = b ++ 44 :: s) : a = b ∧ r = s := by
  induction a generalizing b with
  | nil =>
    cases b with
    | nil => simpa using h
    | cons y b => simp only [List.nil_append, List.cons_append, List.cons.injEq] at h; exact absurd h.1 (by rintro rfl; simp at hb)
  | cons x a ih =>
    cases b with
    | nil => simp only [List.nil_append, List.cons_append, List.cons.injEq] at h; exact absurd h.1 (by rintro rfl; simp at ha)
    | cons y b =>
      simp only [List.cons_append, List.cons.injEq] at h
      obtain ⟨e1, e2⟩ := ih (fun h' => ha (by simp [h'])) (fun h' => hb (by simp [h'])) h.2
      exact ⟨by rw [h.1, e1], e2⟩

theorem joined_inj : ∀ {p r : List Bytes}, Named p → Named r → joined p = joined r → p = r
  | [], [], _, _, _ => rfl
  | [], [n], _, hr, h => absurd h.symm (hr n (by simp)).1
  | [], n :: _ :: _, _, _, h => by simp [joined] at h
  | [n], [], hp, _, h => absurd h (hp n (by simp)).1
  | n :: _ :: _, [], _, _, h => by simp [joined] at h
  | [n], [m], _, _, h => by simp only [joined] at h; rw [h]
  | [n], m :: k :: r, hp, _, h => by
    simp only [joined] at h
    exact absurd (show (44 : Byte) ∈ n by rw [h]; simp) (hp n (by simp)).2
  | n :: k :: p, [m], _, hr, h => by
    simp only [joined] at h
    exact absurd (show (44 : Byte) ∈ m by rw [← h]; simp) (hr m (by simp)).2
  | n :: k :: p, m :: l :: r, hp, hr, h => by
    simp only [joined] at h
    obtain ⟨e1, e2⟩ := cut (hp n (by simp)).2 (hr m (by simp)).2 h
    rw [e1, joined_inj (fun x hx => hp x (by simp [hx])) (fun x hx => hr x (by simp [hx])) e2]

/-- Keys of different columns have different names, unless their sums are equal. -/
theorem keyName_inj {md5 : Bytes → Bytes} {p r : List Bytes} (hp : Named p) (hr : Named r)
    (h5 : md5 (joined p) = md5 (joined r) → joined p = joined r) (h : keyName md5 p = keyName md5 r) : p = r :=
  joined_inj hp hr (h5 (hexEncode_inj (List.append_cancel_left h)))

/-! ## The schema -/

private theorem made {md5 : Bytes → Bytes} : ∀ (ms : List Mig) (xs : List Stmt) (rels : List Bytes),
    List.Forall₂ (fun m x => ∃ cols, x = Stmt.create m.table cols (if m.pks = [] then none else some (keyName md5 m.pks, m.pks))) ms xs →
    (ms.map (·.table)).Nodup → (∀ m ∈ ms, m.table ∉ rels) → (∀ m ∈ ms, ∀ p, m.table ≠ keyName md5 p) →
    ((createAll rels xs).isSome = true ↔ ((keysOf ms).map (keyName md5)).Nodup ∧ ∀ p ∈ keysOf ms, keyName md5 p ∉ rels) ∧
      ∀ rels', createAll rels xs = some rels' → rels ⊆ rels' ∧ ∀ m ∈ ms, m.table ∈ rels'
  | [], [], rels, _, _, _, _ => by simp [createAll, keysOf]
  | m :: ms, x :: xs, rels, hx, hn, hr, hk => by
    obtain ⟨⟨cols, rfl⟩, hxs⟩ := List.forall₂_cons.1 hx
    rw [List.map_cons, List.nodup_cons] at hn
    have ht : m.table ∉ rels := hr m (by simp)
    have hne : ∀ b ∈ ms, b.table ≠ m.table := fun b hb e => hn.1 (e ▸ List.mem_map_of_mem hb)
    by_cases hp : m.pks = []
    · have ek : keysOf (m :: ms) = keysOf ms := by simp [keysOf, hp]
      obtain ⟨i1, i2⟩ := made ms xs (m.table :: rels) hxs hn.2 (fun b hb h => (List.mem_cons.1 h).elim (hne b hb) (hr b (by simp [hb])))
        fun b hb => hk b (by simp [hb])
      have ec : createAll rels (Stmt.create m.table cols (if m.pks = [] then none else some (keyName md5 m.pks, m.pks)) :: xs) =
          createAll (m.table :: rels) xs := by simp [createAll, createIn, ht, hp]
      rw [ec, ek, i1]
      refine ⟨and_congr_right fun _ => forall₂_congr fun p _ => ?_, fun rels' h => ?_⟩
      · have := hk m (by simp) p
        simp [Ne.symm this]
      · obtain ⟨j1, j2⟩ := i2 rels' h
        exact ⟨fun a ha => j1 (by simp [ha]), by simpa using ⟨j1 (by simp), j2⟩⟩
    · have ek : keysOf (m :: ms) = m.pks :: keysOf ms := by simp [keysOf, hp]
      have hkt : keyName md5 m.pks ≠ m.table := Ne.symm (hk m (by simp) m.pks)
      by_cases hin : keyName md5 m.pks ∈ rels
      · have ec : createAll rels (Stmt.create m.table cols (if m.pks = [] then none else some (keyName md5 m.pks, m.pks)) :: xs) = none := by
          simp [createAll, createIn, ht, hp, hin]
        rw [ec, ek]
        exact ⟨by simp [hin], by simp⟩
      · obtain ⟨i1, i2⟩ := made ms xs (m.table :: keyName md5 m.pks :: rels) hxs hn.2
          (fun b hb h => by
            simp only [List.mem_cons] at h
            exact h.elim (hne b hb) fun h => h.elim (hk b (by simp [hb]) _) (hr b (by simp [hb])))
          fun b hb => hk b (by simp [hb])
        have ec : createAll rels (Stmt.create m.table cols (if m.pks = [] then none else some (keyName md5 m.pks, m.pks)) :: xs) =
            createAll (m.table :: keyName md5 m.pks :: rels) xs := by simp [createAll, createIn, ht, hp, hin, hkt]
        rw [ec, ek, i1]
        refine ⟨?_, fun rels' h => ?_⟩
        · have hm : ∀ p, keyName md5 p ≠ m.table := fun p => Ne.symm (hk m (by simp) p)
          simp only [List.map_cons, List.nodup_cons, List.mem_map, List.mem_cons, forall_eq_or_imp, hm, false_or, not_or]
          constructor
          · rintro ⟨a, b⟩
            exact ⟨⟨fun ⟨p, h1, h2⟩ => (b p h1).1 h2, a⟩, hin, fun p h => (b p h).2⟩
          · rintro ⟨⟨a, b⟩, _, c⟩
            exact ⟨b, fun p h => ⟨fun e => a ⟨p, h, e⟩, c p h⟩⟩
        · obtain ⟨j1, j2⟩ := i2 rels' h
          exact ⟨fun a ha => j1 (by simp [ha]), by simpa using ⟨j1 (by simp), j2⟩⟩

private theorem firsts {S : Server} {q md5 : Bytes → Bytes} (hS : Sound S) {ms : List Mig} (hm : ∀ m ∈ ms, m.Reads S q md5) {xs : List Stmt}
    (hx : List.Forall₂ (First S q md5) ms xs) :
    List.Forall₂ (fun m x => ∃ cols, x = Stmt.create m.table cols (if m.pks = [] then none else some (keyName md5 m.pks, m.pks))) ms xs := by
  induction hx with
  | nil => exact .nil
  | @cons m x ms xs h _ ih =>
    refine .cons ?_ (ih fun b hb => hm b (by simp [hb]))
    obtain ⟨r, b, h⟩ := h
    obtain ⟨n, c, ⟨cols, t⟩, ⟨us, u⟩, ⟨ds, d⟩, l⟩ := hm m (by simp)
    rw [C106_reads_partial hS n c t u d l] at h
    simp only [Option.some.injEq, Prod.mk.injEq, List.cons.injEq] at h
    exact ⟨cols, h.1.1.symm⟩

variable {q md5 : Bytes → Bytes} {ms : List Mig} {xs : List Stmt} {rels : List Bytes}

/-- C116: in a schema of PostgreSQL that has none of the tables, the statements that make the tables of several models are all accepted
exactly if no two models have keys of the same columns, nor has a key that is there already; and then all tables are there. -/
theorem C116_made_iff_partial (hm : ∀ m ∈ ms, m.Reads postgres q md5) (hx : List.Forall₂ (First postgres q md5) ms xs)
    (ht : (ms.map (·.table)).Nodup) (hr : ∀ m ∈ ms, m.table ∉ rels) (hk : ∀ m ∈ ms, ∀ p, m.table ≠ keyName md5 p)
    (hn : ∀ p ∈ keysOf ms, Named p)
    (h5 : ∀ p ∈ keysOf ms, ∀ r ∈ keysOf ms, md5 (joined p) = md5 (joined r) → joined p = joined r) :
    (∃ rels', createAll rels xs = some rels' ∧ ∀ m ∈ ms, m.table ∈ rels') ↔ (keysOf ms).Nodup ∧ ∀ p ∈ keysOf ms, keyName md5 p ∉ rels := by
  obtain ⟨h1, h2⟩ := made ms xs rels (firsts ⟨.inl rfl⟩ hm hx) ht hr hk
  have e : ((keysOf ms).map (keyName md5)).Nodup ↔ (keysOf ms).Nodup :=
    ⟨List.Nodup.of_map _, fun h => h.map_on fun p hp r hr => keyName_inj (hn p hp) (hn r hr) (h5 p hp r hr)⟩
  rw [← e, ← h1]
  constructor
  · rintro ⟨rels', h, _⟩
    simp [h]
  · intro h
    obtain ⟨rels', h⟩ := Option.isSome_iff_exists.1 h
    exact ⟨rels', h, (h2 rels' h).2⟩

/-- C116: two models whose keys have the same columns never get both of their tables, whatever the schema and the sums. -/
theorem C116_same_key_never (hm : ∀ m ∈ ms, m.Reads postgres q md5) (hx : List.Forall₂ (First postgres q md5) ms xs)
    (ht : (ms.map (·.table)).Nodup) (hr : ∀ m ∈ ms, m.table ∉ rels) (hk : ∀ m ∈ ms, ∀ p, m.table ≠ keyName md5 p)
    (hd : ¬ (keysOf ms).Nodup) : createAll rels xs = none := by
  obtain ⟨h1, _⟩ := made ms xs rels (firsts ⟨.inl rfl⟩ hm hx) ht hr hk
  by_contra hc
  exact hd (h1.1 (Option.isSome_iff_ne_none.2 hc)).1.of_map

end Verif.Props
