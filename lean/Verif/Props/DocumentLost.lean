import Verif.Props.DocumentMore

/-!
# Property C101: which columns documents have, and where documents are lost
-/

namespace Verif.Props

open Verif Verif.Dispatch Verif.Typed Verif.Document Verif.ColumnType Verif.Spec Verif.Spec.Document
open Verif.JsonText.Spec (Means depth tyDepth)

variable {F : Type}

/-- C101: every database has a column for documents; MySQL keeps JSON values in it, PostgreSQL and SQLite texts. -/
theorem C101_column (d : ColumnType.Dialect) :
    Spec.Document.meaning (Spec.Typed.dbOf d) (Document.declared d) = some (if d = .mysql then .value else .text) := by
  cases d <;> rfl

/-- C101: fields of these types are written and read as JSON, whatever the database. -/
theorem C101_types {D : Decls} {fs : Facts} {ty : Ty} (d : ColumnType.Dialect) (h : Doc D fs ty) :
    writes D (tableOf d) fs fuel ty = some .json ∧ reads D (tableOf d) fs fuel ty = some .json := doc_both d h

/-- C101: the column is NULL exactly for nil pointers.  Lists and maps that are nil are JSON's `null` there. -/
theorem C101_null_iff {W : Document.World F} {f : F} {col : Spec.Document.Col} (hd : IsDoc W f col) (v : (W.doc f).Val) :
    W.enc f (.doc (W.doc f) v) = .base (.base .null) ↔ isNull (.doc (W.doc f) v) = true := by
  rw [isNull_doc]
  cases hv : nilPtr _ v with
  | true => simp [doc_null hd v hv]
  | false =>
    obtain ⟨s, hs, -⟩ := doc_written hd v hv
    simp [hs]

/-- C101, refuted for maps: if the field that is read into has an entry that the stored map does not have, it is not the stored map
afterwards. -/
theorem C101_map_leftover {W : Document.World F} (hW : Spec.Document.Behaves W) {f : F} {col : Spec.Document.Col} (hd : IsDoc W f col)
    {t : JsonField.Ty} (ht : W.doc f = .map t) (hdep : tyDepth t < 10000) (os es : List (JsonField.Name × t.Val))
    (ho : JsonField.Spec.Ty.Wf (.map t) (some os)) (he : JsonField.Spec.Ty.Wf (.map t) (some es))
    (hs : Takes col ((JsonField.Ty.map t).encode (some es))) (k : JsonField.Name) (hk : k ∈ os.map Prod.fst) (hn : k ∉ es.map Prod.fst) :
    ∃ w, W.dec f (W.enc f (.doc (.map t) (some es))) (.doc (.map t) (some os)) = some (.doc (.map t) w) ∧
      ¬ JsonField.Spec.Ty.Same (.map t) w (some es) := by
  have key : ∀ T, W.doc f = T → tyDepth T ≤ 10000 → ∀ old v : T.Val, Takes col (T.encode v) → JsonField.Spec.Ty.Wf T old →
      JsonField.Spec.Ty.Wf T v → ∃ w, W.dec f (W.enc f (.doc T v)) (.doc T old) = some (.doc T w) ∧
        (JsonField.Spec.Ty.Same T w v ↔ JsonField.Spec.Ty.Back T old v) := by
    rintro _ rfl hT old v h1 h2 h3
    exact C101_field_iff_partial hW hd hT old v h1 h2 h3
  obtain ⟨w, hw, hi⟩ := key _ ht (by simp only [tyDepth]; omega) (some os) (some es) hs ho he
  exact ⟨w, hw, fun h => hn ((hi.1 h es rfl).1 os rfl k hk)⟩

/-- C101, refuted for fields of structs that are not exported, have the tag `json:"-"`, or are empty and have `omitempty`: what is read
is what was stored only if these fields already are. -/
theorem C101_unwritten {W : Document.World F} (hW : Spec.Document.Behaves W) {f : F} {col : Spec.Document.Col} (hd : IsDoc W f col)
    {key : Option JsonField.Name} {om : Bool} {t : JsonField.Ty} {rest : JsonField.Fields} (ht : W.doc f = .struct (.cons key om t rest))
    (hdep : tyDepth (W.doc f) ≤ 10000) (old v : (JsonField.Ty.struct (.cons key om t rest)).Val)
    (ho : JsonField.Spec.Ty.Wf (.struct (.cons key om t rest)) old) (he : JsonField.Spec.Ty.Wf (.struct (.cons key om t rest)) v)
    (hs : Takes col ((JsonField.Ty.struct (.cons key om t rest)).encode v)) (hkey : key = none ∨ (om && t.isEmpty v.1) = true)
    (hn : ¬ JsonField.Spec.Ty.Same t old.1 v.1) :
    ∃ w, W.dec f (W.enc f (.doc (.struct (.cons key om t rest)) v)) (.doc (.struct (.cons key om t rest)) old) =
        some (.doc (.struct (.cons key om t rest)) w) ∧
      ¬ JsonField.Spec.Ty.Same (.struct (.cons key om t rest)) w v := by
  have main : ∀ T, W.doc f = T → tyDepth T ≤ 10000 → ∀ old v : T.Val, Takes col (T.encode v) → JsonField.Spec.Ty.Wf T old →
      JsonField.Spec.Ty.Wf T v → ∃ w, W.dec f (W.enc f (.doc T v)) (.doc T old) = some (.doc T w) ∧
        (JsonField.Spec.Ty.Same T w v ↔ JsonField.Spec.Ty.Back T old v) := by
    rintro _ rfl hT old v h1 h2 h3
    exact C101_field_iff_partial hW hd hT old v h1 h2 h3
  obtain ⟨w, hw, hi⟩ := main _ ht (ht ▸ hdep) old v hs ho he
  refine ⟨w, hw, fun h => hn ?_⟩
  have hb : JsonField.Spec.Fields.Back (.cons key om t rest) old v := hi.1 h
  have := hb.1
  rwa [if_pos hkey] at this

/-- C101, refuted for documents that are nested deeper than 10000, where texts are kept: they are stored, and cannot be read. -/
theorem C101_deep_lost {W : Document.World F} (hW : Spec.Document.Behaves W) {f : F} (hd : IsDoc W f .text) (v : (W.doc f).Val)
    (hdep : 10000 < depth ((W.doc f).encode v)) (old : Document.Val) :
    W.enc f (.doc (W.doc f) v) ≠ .base (.base .null) ∧ W.dec f (W.enc f (.doc (W.doc f) v)) old = none := by
  have hn : nilPtr (W.doc f) v = false := by
    cases hn : nilPtr (W.doc f) v with
    | false => rfl
    | true =>
      have : ∀ (t : JsonField.Ty) (v : t.Val), nilPtr t v = true → depth (t.encode v) = 0 := by
        intro t v h
        cases t with
        | ptr t =>
          cases v with
          | none => rfl
          | some v => cases h
        | _ => cases h
      rw [this _ _ hn] at hdep
      omega
  obtain ⟨s, h1, h2⟩ := doc_written hd v hn
  refine ⟨by simp [h1], ?_⟩
  have hg := hW.docs f .text hd s _ h2 trivial
  obtain ⟨w, u, r, hs, hw, hu, hr⟩ := h2
  have hb := C87_too_deep W.fold hw hu hdep (ws_stop hr) (W.doc f) (current (W.doc f) old)
  rw [← hs] at hb
  have hb' : JsonField.scan (JsonText.goLib W.fold) (W.doc f) (current (W.doc f) old) (.str s) = none := hb
  rw [h1]
  simp only [Document.World.dec, (doc_both W.base.dialect hd.ty).2, Document.World.hand]
  generalize W.shown f (W.store f s) = x at hg
  cases hg with
  | bytes => rw [hb]; rfl
  | str => rw [hb']; rfl

end Verif.Props
