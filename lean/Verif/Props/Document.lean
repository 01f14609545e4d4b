import Verif.Lemmas.Document
import Verif.Props.RichOrder

/-!
# Property C101: records with JSON documents stay records on a database
-/

namespace Verif.Props

open Verif Verif.Dispatch Verif.Typed Verif.Document Verif.ColumnType Verif.Spec Verif.Spec.Document
open Verif.JsonField (Json)
open Verif.JsonField.Spec (Alike)
open Verif.JsonText.Spec (Means depth tyDepth)

variable {F : Type}

/-! ## One field -/

theorem nil_zero : (t : JsonField.Ty) → (v : t.Val) → nilPtr t v = true →
    JsonField.Spec.Ty.Same t t.zero v ∧ ∀ old, JsonField.Spec.Ty.Back t old v
  | .ptr t, p, h => by
    cases p with
    | none => exact ⟨.none, fun old v hv => by cases hv⟩
    | some v => cases h

theorem isNull_doc (t : JsonField.Ty) (v : t.Val) : isNull (.doc t v) = nilPtr t v := by cases t <;> rfl

theorem not_ptr {t : JsonField.Ty} {v : t.Val} (h : nilPtr t v = true) : ∃ t', t = .ptr t' := by
  cases t with
  | ptr t => exact ⟨t, rfl⟩
  | _ => cases h

theorem ws_stop {r : Bytes} (h : IsWs r) : JsonText.Spec.Stop r := by
  rintro b t rfl
  rcases h b (by simp) with rfl | rfl | rfl | rfl <;> simp [IsDigit]

/-- What is in the column of a document that is not nil. -/
theorem doc_written {W : Document.World F} {f : F} {col : Spec.Document.Col} (hd : IsDoc W f col) (v : (W.doc f).Val)
    (hn : nilPtr (W.doc f) v = false) :
    ∃ s, W.enc f (.doc (W.doc f) v) = .doc (W.store f s) ∧ TextOf s ((W.doc f).encode v) := by
  obtain ⟨s, hs, -, u, rfl, hu⟩ := C87_written W.fold (W.doc f) v
  refine ⟨u ++ [10], ?_, [], u, [10], rfl, isWs_nil, hu, by simp [IsWs]⟩
  simp [Document.World.enc, Document.World.write, (doc_both W.base.dialect hd.ty).1, hn, hs]

theorem doc_null {W : Document.World F} {f : F} {col : Spec.Document.Col} (hd : IsDoc W f col) (v : (W.doc f).Val)
    (hn : nilPtr (W.doc f) v = true) : W.enc f (.doc (W.doc f) v) = .base (.base .null) := by
  simp [Document.World.enc, Document.World.write, (doc_both W.base.dialect hd.ty).1, hn, (as_ptr hd.ty hd.sees).2 (not_ptr hn)]

theorem doc_back {W : Document.World F} (hW : Spec.Document.Behaves W) {f : F} {col : Spec.Document.Col} (hd : IsDoc W f col)
    (ht : tyDepth (W.doc f) ≤ 10000) (v : (W.doc f).Val) (hs : Takes col ((W.doc f).encode v))
    (hv : JsonField.Spec.Ty.Wf (W.doc f) v) (old : Document.Val) :
    ∃ w, W.dec f (W.enc f (.doc (W.doc f) v)) old = some (.doc (W.doc f) w) ∧
      (JsonField.Spec.Ty.Same (W.doc f) w v ↔ JsonField.Spec.Ty.Back (W.doc f) (current (W.doc f) old) v) := by
  have hr := (doc_both W.base.dialect hd.ty).2
  cases hn : nilPtr (W.doc f) v with
  | true =>
    obtain ⟨h1, h2⟩ := nil_zero _ v hn
    refine ⟨(W.doc f).zero, ?_, fun _ => h2 _, fun _ => h1⟩
    rw [doc_null hd v hn]
    simp [Document.World.dec, hr, Document.World.hand, JsonField.scan]
  | false =>
    obtain ⟨s, h1, h2⟩ := doc_written hd v hn
    have ho := current_wf hd.ok old
    have hg := hW.docs f col hd s _ h2 hs
    have key : ∀ s' j', TextOf s' j' → Alike j' ((W.doc f).encode v) →
        ∃ w, JsonField.scan (JsonText.goLib W.fold) (W.doc f) (current (W.doc f) old) (.bytes s') = some w ∧
          (JsonField.Spec.Ty.Same (W.doc f) w v ↔ JsonField.Spec.Ty.Back (W.doc f) (current (W.doc f) old) v) := by
      rintro s' j' ⟨w, u, r, rfl, hw, hu, hr⟩ ha
      exact C87_database_iff_partial W.fold _ hd.ok ht _ v ho hv hw hu (ws_stop hr) ha
    have fin : ∀ s' j', TextOf s' j' → Alike j' ((W.doc f).encode v) →
        W.shown f (W.store f s) = .bytes s' ∨ W.shown f (W.store f s) = .str s' →
        ∃ w, W.dec f (W.enc f (.doc (W.doc f) v)) old = some (.doc (W.doc f) w) ∧
          (JsonField.Spec.Ty.Same (W.doc f) w v ↔ JsonField.Spec.Ty.Back (W.doc f) (current (W.doc f) old) v) := by
      intro s' j' ht' ha hsh
      obtain ⟨w, hw, hi⟩ := key s' j' ht' ha
      refine ⟨w, ?_, hi⟩
      rw [h1]
      rcases hsh with h | h
      · simp [Document.World.dec, hr, Document.World.hand, h, hw]
      · have e : JsonField.scan (JsonText.goLib W.fold) (W.doc f) (current (W.doc f) old) (.str s') = some w := hw
        simp [Document.World.dec, hr, Document.World.hand, h, e]
    generalize hx : W.shown f (W.store f s) = x at hg fin
    cases hg with
    | bytes => exact fin s _ h2 (alike_refl _) (.inl rfl)
    | str => exact fin s _ h2 (alike_refl _) (.inr rfl)
    | valueBytes h3 h4 => exact fin _ _ h3 h4 (.inl rfl)
    | valueStr h3 h4 => exact fin _ _ h3 h4 (.inr rfl)

/-- C101, for one field: a document that is stored is read without an error, and it is the same as before exactly under the conditions of
C85, which depend on what the field had before.  In MySQL this is for documents of at most 100 levels. -/
theorem C101_field_iff_partial {W : Document.World F} (hW : Spec.Document.Behaves W) {f : F} {col : Spec.Document.Col} (hd : IsDoc W f col)
    (ht : tyDepth (W.doc f) ≤ 10000) (old v : (W.doc f).Val) (hs : Takes col ((W.doc f).encode v))
    (ho : JsonField.Spec.Ty.Wf (W.doc f) old) (hv : JsonField.Spec.Ty.Wf (W.doc f) v) :
    ∃ w, W.dec f (W.enc f (.doc (W.doc f) v)) (.doc (W.doc f) old) = some (.doc (W.doc f) w) ∧
      (JsonField.Spec.Ty.Same (W.doc f) w v ↔ JsonField.Spec.Ty.Back (W.doc f) old v) := by
  have h := doc_back hW hd ht v hs hv (.doc (W.doc f) old)
  rwa [current_of ho] at h

/-- C101, for one field: whatever it had before, a value that its column is for is there after it was read. -/
theorem C101_field {W : Document.World F} (hW : Spec.Document.Behaves W) {f : F} {x : Document.Val} (hx : Spec.Document.Stores W f x)
    (old : Document.Val) : W.dec f (W.enc f x) old = some x := by
  cases x with
  | base v =>
    have h := C99_field hW.base hx (toRich old)
    obtain ⟨k, col, hc, -⟩ := hx
    have hr := has_not_json W.base.dialect hc.1
    simp only [Document.World.dec, Document.World.enc]
    rw [h]; rfl
  | doc t v =>
    obtain ⟨rfl, col, hd, hs, hv, hcl⟩ := hx
    obtain ⟨w, hw, hi⟩ := doc_back hW hd hs.depth v (by
      cases col with
      | text => trivial
      | value => exact ⟨Nat.le_trans (encode_ok _ v).2 (hs.small rfl).1, small_encode _ (hs.small rfl).2 v hv⟩) hv old
    have := same_eq _ hs.noMap _ _ (hi.2 (any_back _ hs.written hs.noMap _ v hcl))
    rw [hw, this]

/-! ## Comparisons -/

section

variable {W : Document.World F} {K : Spec.Sql.Compare Document.Cell} {low : Bool}
  {g : Gen.Cfg} {S : Spec.Sql.Dialect} {gen : Spec.Sql.Tbl Document.Cell → Document.Cell} {auto : Typed.Kind} {t : Gen.Table F}
  {other : Spec.Store.Comp F Document.Val}

open Verif.Gen Verif.Store Verif.Spec.Store Verif.Spec.Gen

/-- A field has values that are documents, or none. -/
theorem doc_pair {f : F} {x y : Document.Val} (hx : Spec.Document.Stores W f x) (hy : Spec.Document.Stores W f y) :
    (∃ v w, x = .base v ∧ y = .base w ∧ Spec.Rich.Stores W.base f v ∧ Spec.Rich.Stores W.base f w) ∨
      ∃ v w, x = .doc (W.doc f) v ∧ y = .doc (W.doc f) w ∧ ∃ col, IsDoc W f col := by
  have clash : ∀ {v}, Spec.Rich.Stores W.base f v → ∀ col, ¬ IsDoc W f col := by
    rintro v ⟨k, col, hc, -⟩ col' hd
    exact has_not_json W.base.dialect hc.1 (doc_both W.base.dialect hd.ty).2
  cases x with
  | base v =>
    cases y with
    | base w => exact .inl ⟨v, w, rfl, rfl, hx, hy⟩
    | doc t w => obtain ⟨-, col, hd, -⟩ := hy; exact absurd hd (clash hx col)
  | doc t v =>
    obtain ⟨rfl, col, hd, -⟩ := hx
    cases y with
    | base w => exact absurd hd (clash hy col)
    | doc t w =>
      obtain ⟨rfl, -⟩ := hy
      exact .inr ⟨v, w, rfl, rfl, col, hd⟩

theorem doc_compares (hK : Compares W K low other) {f : F} {v w : (W.doc f).Val} {col : Spec.Document.Col} (hd : IsDoc W f col)
    (hx : Spec.Document.Stores W f (.doc _ v)) (hy : Spec.Document.Stores W f (.doc _ w)) :
    K.eq (W.enc f (.doc _ v)) (W.enc f (.doc _ w)) = (Spec.Document.order W low other).eq f (.doc _ v) (.doc _ w) ∧
    K.lt (W.enc f (.doc _ v)) (W.enc f (.doc _ w)) = (Spec.Document.order W low other).lt f (.doc _ v) (.doc _ w) ∧
    K.before (W.enc f (.doc _ v)) (W.enc f (.doc _ w)) = (Spec.Document.order W low other).before f (.doc _ v) (.doc _ w) := by
  obtain ⟨K', hs, -, he⟩ := hK.base
  have h0 := he (.base .null) (.base .null)
  have h1 := hs.null (.base .null)
  simp only [Spec.Document.order, isNull_doc]
  cases hv : nilPtr _ v with
  | true =>
    rw [doc_null hd v hv]
    cases hw : nilPtr _ w with
    | true =>
      rw [doc_null hd w hw]
      exact ⟨h0.1.trans h1.1.1, h0.2.1.trans h1.1.2.1, (h0.2.2.2.trans h1.1.2.2).trans (by simp)⟩
    | false =>
      obtain ⟨s, hs, -⟩ := doc_written hd w hw
      rw [hs]
      have := (hK.null (W.store f s)).1
      exact ⟨this.1, this.2.1, this.2.2.trans (by simp)⟩
  | false =>
    cases hw : nilPtr _ w with
    | true =>
      rw [doc_null hd w hw]
      obtain ⟨s, hs, -⟩ := doc_written hd v hv
      rw [hs]
      have := (hK.null (W.store f s)).2
      exact ⟨this.1, this.2.1, this.2.2.trans (by simp)⟩
    | false =>
      have := (hK.docs f _ v w hx hy).2 (by rw [isNull_doc, hv]) (by rw [isNull_doc, hw])
      exact ⟨this.1.trans (by simp), this.2.1.trans (by simp), this.2.2.trans (by simp)⟩

theorem doc_agrees (hW : Spec.Document.Behaves W) (hK : Compares W K low other) :
    Agrees K (W.env g S gen auto).null (W.env g S gen auto).enc (Spec.Document.Stores W) t (Spec.Document.order W low other) := by
  obtain ⟨K', hs, ho, he⟩ := hK.base
  have hag : Agrees K' (W.base.env g S (fun _ => .base .null) auto).null (W.base.env g S (fun _ => .base .null) auto).enc
      (Spec.Rich.Stores W.base) t (Spec.Rich.order W.base low (onBase other)) := rich_agrees hW.base hs ho
  refine ⟨?_, ?_, ?_, ?_, ?_⟩
  · intro c hc x hx
    cases x with
    | base v =>
      have := hag.isNil c hc v hx
      constructor
      · intro h; exact this.1 (by injection h)
      · intro h; exact congrArg Document.Cell.base (this.2 h)
    | doc t v =>
      obtain ⟨rfl, col, hd, -⟩ := hx
      show W.enc c.field (.doc _ v) = .base (.base .null) ↔ isNull (.doc (W.doc c.field) v) = true
      rw [isNull_doc]
      cases hv : nilPtr _ v with
      | true => simp [doc_null hd v hv]
      | false =>
        obtain ⟨s, hs, -⟩ := doc_written hd v hv
        simp [hs]
  · intro c hc x y hx hy
    rcases doc_pair hx hy with ⟨v, w, rfl, rfl, h1, h2⟩ | ⟨v, w, rfl, rfl, col, hd⟩
    · exact (he _ _).1.trans (hag.eq c hc v w h1 h2)
    · exact (doc_compares hK hd hx hy).1
  · intro c hc x y hx hy
    rcases doc_pair hx hy with ⟨v, w, rfl, rfl, h1, h2⟩ | ⟨v, w, rfl, rfl, col, hd⟩
    · exact (he _ _).2.1.trans (hag.lt c hc v w h1 h2)
    · exact (doc_compares hK hd hx hy).2.1
  · intro c hc x y hx hy
    rcases doc_pair hx hy with ⟨v, w, rfl, rfl, h1, h2⟩ | ⟨v, w, rfl, rfl, col, hd⟩
    · exact (he _ _).2.2.1.trans (hag.like c hc v w h1 h2)
    · exact (hK.docs _ _ v w hx hy).1
  · intro c hc x y hx hy
    rcases doc_pair hx hy with ⟨v, w, rfl, rfl, h1, h2⟩ | ⟨v, w, rfl, rfl, col, hd⟩
    · exact (he _ _).2.2.2.trans (hag.before c hc v w h1 h2)
    · exact (doc_compares hK hd hx hy).2.2

/-- Values of keys are not documents. -/
theorem key_base {f : F} (hk : Spec.Document.Keyed W f) {x : Document.Val} (hx : Spec.Document.Stores W f x) :
    ∃ v, x = .base v ∧ Spec.Rich.Stores W.base f v := by
  cases x with
  | base v => exact ⟨v, rfl, hx⟩
  | doc t v => obtain ⟨-, col, hd, -⟩ := hx; exact absurd hd.ty hk.2

theorem doc_ordered (hk : ∀ c ∈ keyCols t, Spec.Document.Keyed W c.field) :
    Ordered (Spec.Document.order W low other) (Spec.Document.Stores W) t := by
  have ho : Ordered (Spec.Rich.order W.base low (onBase other)) (Spec.Rich.Stores W.base) t := rich_ordered fun c hc => (hk c hc).1
  refine ⟨?_, ?_, ?_, ?_, ?_⟩
  · intro c hc x y hx hy
    obtain ⟨v, rfl, h1⟩ := key_base (hk c hc) hx
    obtain ⟨w, rfl, h2⟩ := key_base (hk c hc) hy
    exact (ho.eq c hc v w h1 h2).trans (by simp)
  · intro c hc x y hx hy
    obtain ⟨v, rfl, h1⟩ := key_base (hk c hc) hx
    obtain ⟨w, rfl, h2⟩ := key_base (hk c hc) hy
    exact ho.before c hc v w h1 h2
  · intro c hc x hx
    obtain ⟨v, rfl, h1⟩ := key_base (hk c hc) hx
    exact ho.irrefl c hc v h1
  · intro c hc x y z hx hy hz
    obtain ⟨v, rfl, h1⟩ := key_base (hk c hc) hx
    obtain ⟨w, rfl, h2⟩ := key_base (hk c hc) hy
    obtain ⟨u, rfl, h3⟩ := key_base (hk c hc) hz
    exact ho.trans c hc v w u h1 h2 h3
  · intro c hc x y hx hy
    obtain ⟨v, rfl, h1⟩ := key_base (hk c hc) hx
    obtain ⟨w, rfl, h2⟩ := key_base (hk c hc) hy
    rcases ho.total c hc v w h1 h2 with h | h | h
    · exact .inl (by rw [h])
    · exact .inr (.inl h)
    · exact .inr (.inr h)

/-- Keys are not NULL. -/
theorem doc_key {f : F} (hk : Spec.Document.Keyed W f) (hW : Spec.Document.Behaves W) {x : Document.Val} (hx : Spec.Document.Stores W f x) :
    W.enc f x ≠ .base (.base .null) := by
  obtain ⟨v, rfl, hv⟩ := key_base hk hx
  intro he
  exact rich_key hk.1 hW.base hv (by injection he)

theorem doc_setup (hk : ∀ c ∈ keyCols t, Spec.Document.Keyed W c.field) (hW : Spec.Document.Behaves W) (hs : Spec.Typed.Shape g S t) :
    Setup (W.env g S gen auto) t (Spec.Document.Stores W) where
  wf := hs.wf
  key := hs.key
  named := hs.named
  bare := hs.bare
  plain := hs.plain
  names := hs.names
  single := hs.single
  back := fun _ _ _ old h => C101_field hW h old
  keyed := fun c hc _ hx => doc_key (hk c hc) hW hx

end

end Verif.Props
