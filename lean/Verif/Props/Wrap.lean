import Verif.Lemmas.WrapStore
import Verif.Props.Store

/-!
# Property C100: columns wrapped in functions of the database
-/

namespace Verif.Props

open Verif Verif.Gen Verif.Spec Verif.Spec.Gen Verif.Spec.Sql Verif.Spec.Store Verif.Spec.Wrap Verif.Store Verif.Wrap

variable {F X V : Type} [DecidableEq F] [DecidableEq X] [DecidableEq V] {E : Env F X V} {B : Funs V} {val scan : F → Ex Unit} {t : Table F}
  {Ok : F → X → Prop}

omit [DecidableEq F] [DecidableEq X] [DecidableEq V] in
/-- C100. Each value of an INSERT goes through the function of its column, and for PostgreSQL each column is returned through its own. -/
theorem C100_insert_read (h : Texts E val scan t) (hi : pick t (insertPos t) ≠ []) (r : F → X) :
    ∃ text fs, E.g.genInsertOne t = .ok (text, fs) ∧
      (Spec.bind E.g.style text (fs.map fun f => E.enc f (r f))).bind (Spec.Wrap.read E.D) =
        some (.insert (tableName E.D t) ((pick t (insertPos t)).map (colName E.D))
          ((pick t (insertPos t)).map fun c => Ex.subst (.val (E.enc c.field (r c.field))) (val c.field))
          (if E.g.postgres then t.columns.map fun c => Ex.subst (.name (colName E.D c)) (scan c.field) else [])) :=
  insert_says h hi r

/-- C100, for keys given by the program: whatever the sequence of inserts, finds, updates and deletes, every call gives what it would on
a map from keys to records; the table has what the functions make of the values, and no other table has changed. -/
theorem C100_keyed_store (h : Wrapped E B val scan t Ok) (hw : AllWritten t) (ha : t.auto = none) (ops : List (Store.Op F X))
    (hf : ∀ o ∈ ops, Fine Ok t o) (m : Map F X) (σ : Sql.Store V) (hk : Keeps (through E B val scan) Ok t m σ) :
    (Wrap.performs E B t ops σ).1 = (acts t ops m).1 ∧ Keeps (through E B val scan) Ok t (acts t ops m).2 (Wrap.performs E B t ops σ).2 ∧
      ∀ n, n ≠ tableName E.D t → (Wrap.performs E B t ops σ).2 n = σ n := by
  induction ops generalizing m σ with
  | nil => exact ⟨rfl, hk, fun _ _ => rfl⟩
  | cons o os ih =>
    obtain ⟨σ', e, hk', hn⟩ := perform_ok (setup h) (strip_written hw) (o := o) (.inl ha) ((strip_fine t Ok o).2 (hf o (by simp)))
      ((strip_keeps t _ _ _ _).2 hk)
    rw [← perform_same h hw (.inl ha) (hf o (by simp)) hk, strip_act] at e
    rw [strip_act, strip_keeps] at hk'
    obtain ⟨h1, h2, h3⟩ := ih (fun o ho => hf o (by simp [ho])) _ σ' hk'
    simp only [Wrap.performs, acts, e]
    exact ⟨by rw [h1], h2, fun n hne => by rw [h3 n hne, hn n hne]⟩

/-- C100, for keys made up by the database. -/
theorem C100_made_up_keys (h : Wrapped E B val scan t Ok) (hw : AllWritten t) {c : GCol F} (ha : t.autoCol = some c)
    (hfs : (t.columns.map (·.field)).Nodup) (hi : pick t (insertPos t) ≠ []) (hx : MadeUp E t Ok c) (ops : List (Store.Op F X))
    (hf : ∀ o ∈ ops, Fine Ok t o) (m : Map F X) (σ : Sql.Store V) (hk : Keeps (through E B val scan) Ok t m σ) :
    ∃ m', Acts t ops m (Wrap.performs E B t ops σ).1 m' ∧ Keeps (through E B val scan) Ok t m' (Wrap.performs E B t ops σ).2 ∧
      ∀ n, n ≠ tableName E.D t → (Wrap.performs E B t ops σ).2 n = σ n := by
  have hck : c ∈ pick t (keyPos t) := by
    cases hau : t.auto with
    | none => simp [Table.autoCol, hau] at ha
    | some i =>
      have hic : t.columns[i]? = some c := by simpa [Table.autoCol, hau] using ha
      simp [pick, keyPos, hau, hic]
  have ha' : (strip t).autoCol = some (bareCol c) := by rw [strip_autoCol, ha]; rfl
  have hx' : MadeUp (through E B val scan) (strip t) Ok (bareCol c) := by
    intro rows
    obtain ⟨x, h1, h2, h3, h4⟩ := hx rows
    refine ⟨x, h1, ?_, ?_, ?_⟩
    · rw [strip_tableOf]
      exact (key_enc h hck x).trans h2
    · rw [strip_tableOf]; exact h3
    · rw [strip_tableOf]; exact h4
  have hfs' : ((strip t).columns.map (·.field)).Nodup := by
    rw [strip_columns, List.map_map]; exact hfs
  have hi' : pick (strip t) (insertPos (strip t)) ≠ [] := by
    rw [strip_insertPos, strip_pick]
    simpa using hi
  induction ops generalizing m σ with
  | nil => exact ⟨m, .nil, hk, fun _ _ => rfl⟩
  | cons o os ih =>
    have hstep : ∃ out m' σ', Wrap.perform E B t o σ = (out, σ') ∧ Act t o m out m' ∧ Keeps (through E B val scan) Ok t m' σ' ∧
        ∀ n, n ≠ tableName E.D t → σ' n = σ n := by
      have other : (∀ r, o ≠ .insert r) → ∃ out m' σ', Wrap.perform E B t o σ = (out, σ') ∧ Act t o m out m' ∧
          Keeps (through E B val scan) Ok t m' σ' ∧ ∀ n, n ≠ tableName E.D t → σ' n = σ n := by
        intro hno
        obtain ⟨σ', e, hk', hn⟩ := perform_ok (setup h) (strip_written hw) (o := o) (.inr hno) ((strip_fine t Ok o).2 (hf o (by simp)))
          ((strip_keeps t _ _ _ _).2 hk)
        rw [← perform_same h hw (.inr hno) (hf o (by simp)) hk, strip_act] at e
        rw [strip_act, strip_keeps] at hk'
        refine ⟨_, _, σ', e, ?_, hk', hn⟩
        cases o with
        | insert r => exact absurd rfl (hno r)
        | find r => simp [Act]
        | update r => simp [Act]
        | delete r => simp [Act]
      cases o with
      | insert r =>
        obtain ⟨rows, hσ, hh⟩ := hk
        have hr : Good Ok t r := (hf (.insert r) (by simp)).1
        obtain ⟨out, m', σ', e, hact, hk', hn⟩ := insert_auto (setup h) (strip_written hw) ha' hfs' hi' hx'
          ((strip_holds t _ _ _ _ _).2 hh) (by rw [strip_tableName, strip_tableOf]; exact hσ) ((strip_good t Ok r).2 hr)
        rw [← insert_made_up_same h hw ha hfs hi hx hσ hr] at e
        rw [strip_keeps] at hk'
        refine ⟨out, m', σ', e, ?_, hk', hn⟩
        simp only [Act, ha'] at hact
        simp only [Act, ha]
        exact hact
      | find r => exact other fun r => by simp
      | update r => exact other fun r => by simp
      | delete r => exact other fun r => by simp
    obtain ⟨out, m', σ', e, hact, hk', hn⟩ := hstep
    obtain ⟨m'', h1, h2, h3⟩ := ih (fun o ho => hf o (by simp [ho])) m' σ' hk'
    simp only [Wrap.performs, e]
    exact ⟨m'', .cons hact h1, h2, fun n hne => by rw [h3 n hne, hn n hne]⟩

end Verif.Props
