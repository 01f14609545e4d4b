import Verif.Spec.Custom
import Verif.Props.Document

/-!
# Property C104: records with types that have methods of their own stay records on a database
-/

namespace Verif.Props

open Verif Verif.Dispatch Verif.Typed Verif.Custom Verif.ColumnType Verif.Scan Verif.Spec Verif.Spec.Custom

variable {F U : Type}

/-! ## Which methods are used -/

/-- What is generated for a type with methods. -/
def howOf : Way → How
  | .own => .own
  | .text => .text
  | .json => .json

/-- C104: the methods that belong together are both used. -/
theorem C104_methods {D : Decls} {fs : Facts} {ty : Ty} {w : Way} (d : ColumnType.Dialect) (h : Has D fs ty w) :
    writes D (tableOf d) fs fuel ty = some (howOf w) ∧ reads D (tableOf d) fs fuel ty = some (howOf w) := by
  cases h with
  | @own id hv hs hn hu =>
    have hd : isDirect D (.named id) = false := decide_eq_false hn
    have h1 : fs.confValue (.named id) = false := hu.value
    constructor
    · show valuer D (tableOf d) fs fuel (.named id) = _
      simp [valuer, hd, h1, deref, hv, howOf]
    · show scanner D (tableOf d) fs fuel (.named id) = _
      simp [Dispatch.scanner, hd, hu.scan, pointee, hs, howOf]
  | @ownPtr id hv hs hn hu =>
    have hd : isDirect D (.named id) = false := decide_eq_false hn
    have h1 : fs.confValue (.named id) = false := hu.value
    constructor
    · show valuer D (tableOf d) fs fuel (.named id) = _
      simp [valuer, hd, h1, deref, hv, howOf]
    · show scanner D (tableOf d) fs fuel (.ptr (.named id)) = _
      simp [Dispatch.scanner, isDirect, hu.scan, pointee, hs, howOf]
  | @text id hsi hv hs hm hun hu =>
    have hd := (simple_cases hsi).2
    have hk := (simple_key d hsi).1
    have h1 : fs.confValue (.named id) = false := hu.value
    constructor
    · show valuer D (tableOf d) fs fuel (.named id) = _
      simp [valuer, hd, h1, deref, hv, hk, hm, howOf]
    · show scanner D (tableOf d) fs fuel (.named id) = _
      simp [Dispatch.scanner, hd, hu.scan, pointee, hs, hk, hun, howOf]
  | @textPtr id hst ho hv hs hm hun hu =>
    have hsi : Document.Simple D (.named id) := .named hst ho
    have hd := (simple_cases hsi).2
    have hk := (simple_key d hsi).1
    have hk' := named_ptr_key d hst ho
    have h1 : fs.confValue (.named id) = false := hu.value
    constructor
    · show valuer D (tableOf d) fs fuel (.named id) = _
      simp [valuer, hd, h1, deref, hv, hk, hm, howOf]
    · show scanner D (tableOf d) fs fuel (.ptr (.named id)) = _
      simp [Dispatch.scanner, isDirect, hu.scan, pointee, hs, hk', hun, howOf]
  | json hd => exact doc_both d hd

/-! ## One field -/

theorem pointer_iff (W : Custom.World F U) (f : F) : isPtr (W.base.base.ty f) = true ↔ Pointer W f := by
  unfold Pointer
  cases W.base.base.ty f <;> simp [isPtr]

/-- What the methods give. -/
def givenBy (W : Custom.World F U) (f : F) (u : U) : Way → Src
  | .own => (W.value f u).getD .nil
  | .text => ((W.marshal f u).map .bytes).getD .nil
  | .json => ((W.toJson f u).map .bytes).getD .nil

theorem param_of {W : Custom.World F U} {f : F} {w : Way} (h : Has W.base.base.decls W.base.base.facts (W.base.base.ty f) w) (u : U) :
    W.param f (some u) = givenBy W f u w := by
  have := (C104_methods W.base.base.dialect h).1
  cases w <;> simp [Custom.World.param, this, howOf, givenBy]

theorem enc_some {W : Custom.World F U} {f : F} {u : U} {s : Src} (h : W.param f (some u) = s) (hs : s ≠ .nil) :
    W.enc f (.own (some u)) = .own (W.store f s) := by
  simp [Custom.World.enc, h, hs]

/-- C104, for one field: a value of which the methods belong together is read as it was written, whatever the field had before, unless
the field is a pointer and `Value` gives nil. -/
theorem C104_field_iff_partial {W : Custom.World F U} {f : F} (ho : W.own f = true) {w : Way}
    (h : Has W.base.base.decls W.base.base.facts (W.base.base.ty f) w) {u : U} (hr : Returns W f w u) (old : Val U) :
    W.dec f (W.enc f (.own (some u))) old = some (.own (some u)) ↔ ¬ (Pointer W f ∧ GivesNil W f w u) := by
  have hd := (C104_methods W.base.base.dialect h).2
  have hp := param_of h u
  cases w with
  | own =>
    obtain ⟨s, hv, hpr, hk, hsc⟩ := hr
    simp only [givenBy, hv, Option.getD_some] at hp
    by_cases hn : s = .nil
    · subst hn
      have he : W.enc f (.own (some u)) = null := by simp [Custom.World.enc, hp]
      rw [he, ← pointer_iff]
      cases hpt : isPtr (W.base.base.ty f) with
      | true => simp [Custom.World.dec, ho, Custom.World.read, hd, howOf, hpt, null, Custom.World.hand, scanPtr, done, GivesNil, hv]
      | false =>
        simp [Custom.World.dec, ho, Custom.World.read, hd, howOf, hpt, null, Custom.World.hand, hsc _ _ .same, done]
    · have he := enc_some hp hn
      have hg := hk hn
      have h1 := hsc (W.current f old) _ hg
      have hng : ¬ (Pointer W f ∧ GivesNil W f .own u) := by
        rintro ⟨-, -, e⟩
        rw [hv] at e; exact hn (by injection e)
      refine ⟨fun _ => hng, fun _ => ?_⟩
      rw [he]
      cases hpt : isPtr (W.base.base.ty f) with
      | false => simp [Custom.World.dec, ho, Custom.World.read, hd, howOf, hpt, Custom.World.hand, h1, done]
      | true =>
        have : scanPtr (W.scan f) unreached (some (W.current f old)) (W.shown f (W.store f s)) = .ok (some u) := by
          generalize W.shown f (W.store f s) = s' at hg h1
          cases hg with
          | same => cases s <;> first | exact absurd rfl hn | exact absurd hpr id | simp [scanPtr, h1, Res.map]
          | str => simp [scanPtr, h1, Res.map]
          | bytes => simp [scanPtr, h1, Res.map]
        simp [Custom.World.dec, ho, Custom.World.read, hd, howOf, hpt, Custom.World.hand, this, done]
  | text =>
    obtain ⟨b, hv, hk, hsc⟩ := hr
    simp only [givenBy, hv, Option.map_some, Option.getD_some] at hp
    have he := enc_some hp (by simp)
    have hg := hk (by simp)
    refine ⟨fun _ => (by rintro ⟨-, e, -⟩; cases e), fun _ => ?_⟩
    rw [he]
    generalize hx : W.shown f (W.store f (.bytes b)) = s' at hg
    cases hpt : isPtr (W.base.base.ty f) <;> cases hg <;>
      simp [Custom.World.dec, ho, Custom.World.read, hd, howOf, hpt, Custom.World.hand, hx, scanText, callMethod, hsc, Res.map, done, content]
  | json =>
    obtain ⟨b, hv, hk, hsc⟩ := hr
    simp only [givenBy, hv, Option.map_some, Option.getD_some] at hp
    have he := enc_some hp (by simp)
    have hg := hk (by simp)
    refine ⟨fun _ => (by rintro ⟨-, e, -⟩; cases e), fun _ => ?_⟩
    rw [he]
    generalize hx : W.shown f (W.store f (.bytes b)) = s' at hg
    cases hg <;> simp [Custom.World.dec, ho, Custom.World.read, hd, howOf, Custom.World.hand, hx, Custom.World.scanJson, hsc]

/-- C104, for one field: nil pointers are nil again. -/
theorem C104_nil {W : Custom.World F U} {f : F} (ho : W.own f = true) {w : Way}
    (h : Has W.base.base.decls W.base.base.facts (W.base.base.ty f) w) (hp : Pointer W f) (old : Val U) :
    W.dec f (W.enc f (.own none)) old = some (.own none) := by
  have hd := (C104_methods W.base.base.dialect h).2
  rw [← pointer_iff] at hp
  have he : W.enc f (.own none) = null := by simp [Custom.World.enc, Custom.World.param]
  rw [he]
  cases w <;> simp [Custom.World.dec, ho, Custom.World.read, hd, howOf, hp, null, Custom.World.hand, scanPtr, scanText, storeNil, done, content,
    Custom.World.scanJson]

/-- Where it is not so: a pointer to a value for which `Value` gives nil, as it does for `sql.NullString` that is not valid, is read as a
nil pointer. -/
theorem C104_nil_value {W : Custom.World F U} {f : F} (ho : W.own f = true)
    (h : Has W.base.base.decls W.base.base.facts (W.base.base.ty f) .own) (hp : Pointer W f) {u : U} (hv : W.value f u = some .nil)
    (old : Val U) : W.dec f (W.enc f (.own (some u))) old = some (.own none) := by
  have he : W.enc f (.own (some u)) = W.enc f (.own none) := by
    have := param_of h u
    simp only [givenBy, hv, Option.getD_some] at this
    have h0 : W.param f none = .nil := rfl
    simp only [Custom.World.enc, this, h0]
  rw [he]
  exact C104_nil ho h hp old

/-- C104, for one field: whatever it had before, a value that its column is for is there after it was read. -/
theorem C104_field {W : Custom.World F U} (hW : Spec.Document.Behaves W.base) {f : F} {x : Val U} (hx : Spec.Custom.Stores W f x)
    (old : Val U) : W.dec f (W.enc f x) old = some x := by
  cases x with
  | base v =>
    obtain ⟨ho, hx⟩ := hx
    simp [Custom.World.dec, ho, Custom.World.enc, C101_field hW hx]
  | own p =>
    cases p with
    | none => obtain ⟨ho, hp, w, h⟩ := hx; exact C104_nil ho h hp old
    | some u => obtain ⟨ho, w, h, hr, hn⟩ := hx; exact (C104_field_iff_partial ho h hr old).2 hn

/-! ## Comparisons -/

theorem custom_null {W : Custom.World F U} {f : F} {p : Option U} (hx : Spec.Custom.Stores W f (.own p)) :
    if Spec.Custom.isNull W f (.own p) then W.enc f (.own p) = null else ∃ s, W.enc f (.own p) = .own s := by
  cases p with
  | none => simp [Spec.Custom.isNull, Custom.World.enc, Custom.World.param]
  | some u =>
    obtain ⟨-, w, h, hr, -⟩ := hx
    have hv : w = .own ↔ W.base.base.facts.hasValue (deref (W.base.base.ty f)) = true := by
      generalize W.base.base.ty f = ty at h ⊢
      cases h with
      | own hv => simp [deref, hv]
      | ownPtr hv => simp [deref, hv]
      | text _ hv => simp [deref, hv]
      | textPtr _ _ hv => simp [deref, hv]
      | json hd => simp [doc_value hd]
    have hp := param_of h u
    cases w with
    | own =>
      obtain ⟨s, hs, -⟩ := hr
      simp only [givenBy, hs, Option.getD_some] at hp
      by_cases hn : s = .nil
      · subst hn
        simp [Spec.Custom.isNull, hv.1 rfl, hs, Custom.World.enc, hp]
      · simp [Spec.Custom.isNull, hs, Custom.World.enc, hp, hn]
    | text =>
      obtain ⟨b, hs, -⟩ := hr
      simp only [givenBy, hs, Option.map_some, Option.getD_some] at hp
      have : W.base.base.facts.hasValue (deref (W.base.base.ty f)) = false := by simpa using hv
      simp [Spec.Custom.isNull, this, Custom.World.enc, hp]
    | json =>
      obtain ⟨b, hs, -⟩ := hr
      simp only [givenBy, hs, Option.map_some, Option.getD_some] at hp
      have : W.base.base.facts.hasValue (deref (W.base.base.ty f)) = false := by simpa using hv
      simp [Spec.Custom.isNull, this, Custom.World.enc, hp]

section

variable {W : Custom.World F U} {K : Spec.Sql.Compare Custom.Cell} {low : Bool}
  {g : Gen.Cfg} {S : Spec.Sql.Dialect} {gen : Spec.Sql.Tbl Custom.Cell → Custom.Cell} {auto : Typed.Kind} {t : Gen.Table F}
  {other : Spec.Store.Comp F (Val U)}

open Verif.Gen Verif.Store Verif.Spec.Store Verif.Spec.Gen

/-- A field has values with methods, or none. -/
theorem custom_pair {f : F} {x y : Val U} (hx : Spec.Custom.Stores W f x) (hy : Spec.Custom.Stores W f y) :
    (∃ v w, x = .base v ∧ y = .base w ∧ Spec.Document.Stores W.base f v ∧ Spec.Document.Stores W.base f w) ∨
      ∃ p q, x = .own p ∧ y = .own q := by
  have mine : ∀ {p}, Spec.Custom.Stores W f (.own p) → W.own f = true := by
    intro p h; cases p <;> exact h.1
  cases x with
  | base v =>
    cases y with
    | base w => exact .inl ⟨v, w, rfl, rfl, hx.2, hy.2⟩
    | own q => have h1 := hx.1; rw [mine hy] at h1; cases h1
  | own p =>
    cases y with
    | base w => have h1 := hy.1; rw [mine hx] at h1; cases h1
    | own q => exact .inr ⟨p, q, rfl, rfl⟩

theorem custom_compares (hK : Spec.Custom.Compares W K low other) {f : F} {p q : Option U}
    (hx : Spec.Custom.Stores W f (.own p)) (hy : Spec.Custom.Stores W f (.own q)) :
    K.eq (W.enc f (.own p)) (W.enc f (.own q)) = (Spec.Custom.order W low other).eq f (.own p) (.own q) ∧
    K.lt (W.enc f (.own p)) (W.enc f (.own q)) = (Spec.Custom.order W low other).lt f (.own p) (.own q) ∧
    K.before (W.enc f (.own p)) (W.enc f (.own q)) = (Spec.Custom.order W low other).before f (.own p) (.own q) := by
  have h1 := custom_null hx
  have h2 := custom_null hy
  have ho := (hK.own f p q hx hy).2
  simp only [Spec.Custom.order]
  cases hp : Spec.Custom.isNull W f (.own p) <;> cases hq : Spec.Custom.isNull W f (.own q) <;> simp only [hp, hq] at h1 h2 ho ⊢
  · have := ho trivial trivial
    exact ⟨this.1.trans (by simp), this.2.1.trans (by simp), this.2.2.trans (by simp)⟩
  · obtain ⟨s, hs⟩ := h1
    have := (hK.null.2 s).2
    rw [hs, h2]
    exact ⟨this.1.trans (by simp), this.2.1.trans (by simp), this.2.2.trans (by simp)⟩
  · obtain ⟨s, hs⟩ := h2
    have := (hK.null.2 s).1
    rw [hs, h1]
    exact ⟨this.1.trans (by simp), this.2.1.trans (by simp), this.2.2.trans (by simp)⟩
  · rw [h1, h2]
    have := hK.null.1
    exact ⟨this.1.trans (by simp), this.2.1.trans (by simp), this.2.2.trans (by simp)⟩

theorem custom_agrees (hW : Spec.Document.Behaves W.base) (hK : Spec.Custom.Compares W K low other) :
    Agrees K (W.env g S gen auto).null (W.env g S gen auto).enc (Spec.Custom.Stores W) t (Spec.Custom.order W low other) := by
  obtain ⟨K', hs, he⟩ := hK.base
  have hag : Agrees K' (W.base.env g S (fun _ => .base (.base .null)) auto).null (W.base.env g S (fun _ => .base (.base .null)) auto).enc
      (Spec.Document.Stores W.base) t (Spec.Document.order W.base low (onBase other)) := doc_agrees hW hs
  refine ⟨?_, ?_, ?_, ?_, ?_⟩
  · intro c hc x hx
    cases x with
    | base v =>
      have := hag.isNil c hc v hx.2
      constructor
      · intro h; exact this.1 (by injection h)
      · intro h; exact congrArg Custom.Cell.base (this.2 h)
    | own p =>
      have h := custom_null hx
      show W.enc c.field (.own p) = null ↔ Spec.Custom.isNull W c.field (.own p) = true
      cases hn : Spec.Custom.isNull W c.field (.own p) with
      | true => rw [hn, if_pos rfl] at h; simp [h]
      | false =>
        rw [hn, if_neg (by simp)] at h
        obtain ⟨s, hs⟩ := h
        simp [hs, null]
  · intro c hc x y hx hy
    rcases custom_pair hx hy with ⟨v, w, rfl, rfl, h1, h2⟩ | ⟨p, q, rfl, rfl⟩
    · exact (he _ _).1.trans (hag.eq c hc v w h1 h2)
    · exact (custom_compares hK hx hy).1
  · intro c hc x y hx hy
    rcases custom_pair hx hy with ⟨v, w, rfl, rfl, h1, h2⟩ | ⟨p, q, rfl, rfl⟩
    · exact (he _ _).2.1.trans (hag.lt c hc v w h1 h2)
    · exact (custom_compares hK hx hy).2.1
  · intro c hc x y hx hy
    rcases custom_pair hx hy with ⟨v, w, rfl, rfl, h1, h2⟩ | ⟨p, q, rfl, rfl⟩
    · exact (he _ _).2.2.1.trans (hag.like c hc v w h1 h2)
    · exact (hK.own _ p q hx hy).1
  · intro c hc x y hx hy
    rcases custom_pair hx hy with ⟨v, w, rfl, rfl, h1, h2⟩ | ⟨p, q, rfl, rfl⟩
    · exact (he _ _).2.2.2.trans (hag.before c hc v w h1 h2)
    · exact (custom_compares hK hx hy).2.2

/-- Keys are not NULL. -/
theorem custom_key {f : F} (hk : Spec.Custom.Keyed W f) {p : Option U} (hx : Spec.Custom.Stores W f (.own p)) :
    Spec.Custom.isNull W f (.own p) = false := by
  cases p with
  | none =>
    rcases hk with ⟨h, -⟩ | ⟨-, h, -⟩
    · have h1 := hx.1; rw [h] at h1; cases h1
    · exact absurd hx.2.1 h
  | some u =>
    rcases hk with ⟨h, -⟩ | ⟨-, -, h⟩
    · have h1 := hx.1; rw [h] at h1; cases h1
    · simp [Spec.Custom.isNull, h u]

theorem custom_ordered (hk : ∀ c ∈ keyCols t, Spec.Custom.Keyed W c.field)
    (hr : ∀ c ∈ keyCols t, W.own c.field = true → Ranked W other c.field) :
    Ordered (Spec.Custom.order W low other) (Spec.Custom.Stores W) t := by
  have side : ∀ c ∈ keyCols t, (W.own c.field = false ∧ Spec.Document.Keyed W.base c.field ∧
      ∀ x, Spec.Custom.Stores W c.field x → ∃ v, x = .base v ∧ Spec.Document.Stores W.base c.field v) ∨
      (Ranked W other c.field ∧ ∀ x, Spec.Custom.Stores W c.field x → ∃ p, x = .own p ∧ Spec.Custom.isNull W c.field (.own p) = false) := by
    intro c hc
    rcases hk c hc with ⟨ho, hb⟩ | ⟨ho, -⟩
    · left
      refine ⟨ho, hb, fun x hx => ?_⟩
      cases x with
      | base v => exact ⟨v, rfl, hx.2⟩
      | own p =>
        have h1 : W.own c.field = true := by cases p <;> exact hx.1
        rw [ho] at h1; cases h1
    · right
      refine ⟨hr c hc ho, fun x hx => ?_⟩
      cases x with
      | base v => have h1 := hx.1; rw [ho] at h1; cases h1
      | own p => exact ⟨p, rfl, custom_key (hk c hc) hx⟩
  have ord : ∀ c : GCol F, Spec.Document.Keyed W.base c.field →
      Ordered (Spec.Document.order W.base low (onBase other)) (Spec.Document.Stores W.base) { name := "", columns := [c], keys := [0] } :=
    fun c hb => doc_ordered (by
      intro c' hc'
      simp only [keyCols, keyPos, pick, List.filterMap_cons, List.filterMap_nil, List.getElem?_cons_zero, List.mem_singleton] at hc'
      rw [hc']; exact hb)
  have only : ∀ c : GCol F, c ∈ keyCols ({ name := "", columns := [c], keys := [0] } : Gen.Table F) := by
    intro c; simp [keyCols, keyPos, pick]
  refine ⟨?_, ?_, ?_, ?_, ?_⟩
  · intro c hc x y hx hy
    rcases side c hc with ⟨-, hb, hv⟩ | ⟨hr, hv⟩
    · obtain ⟨v, rfl, h1⟩ := hv x hx
      obtain ⟨w, rfl, h2⟩ := hv y hy
      exact ((ord c hb).eq c (only c) v w h1 h2).trans (by simp)
    · have := hr.eq x y hx hy
      obtain ⟨p, rfl, h1⟩ := hv x hx
      obtain ⟨q, rfl, h2⟩ := hv y hy
      simpa [Spec.Custom.order, h1, h2] using this
  · intro c hc x y hx hy
    rcases side c hc with ⟨-, hb, hv⟩ | ⟨hr, hv⟩
    · obtain ⟨v, rfl, h1⟩ := hv x hx
      obtain ⟨w, rfl, h2⟩ := hv y hy
      exact (ord c hb).before c (only c) v w h1 h2
    · have := hr.before x y hx hy
      obtain ⟨p, rfl, h1⟩ := hv x hx
      obtain ⟨q, rfl, h2⟩ := hv y hy
      simpa [Spec.Custom.order, h1, h2] using this
  · intro c hc x hx
    rcases side c hc with ⟨-, hb, hv⟩ | ⟨hr, hv⟩
    · obtain ⟨v, rfl, h1⟩ := hv x hx
      exact (ord c hb).irrefl c (only c) v h1
    · have := hr.irrefl x hx
      obtain ⟨p, rfl, h1⟩ := hv x hx
      simpa [Spec.Custom.order, h1] using this
  · intro c hc x y z hx hy hz
    rcases side c hc with ⟨-, hb, hv⟩ | ⟨hr, hv⟩
    · obtain ⟨v, rfl, h1⟩ := hv x hx
      obtain ⟨w, rfl, h2⟩ := hv y hy
      obtain ⟨u, rfl, h3⟩ := hv z hz
      exact (ord c hb).trans c (only c) v w u h1 h2 h3
    · have := hr.trans x y z hx hy hz
      obtain ⟨p, rfl, h1⟩ := hv x hx
      obtain ⟨q, rfl, h2⟩ := hv y hy
      obtain ⟨r, rfl, h3⟩ := hv z hz
      simpa [Spec.Custom.order, h1, h2, h3] using this
  · intro c hc x y hx hy
    rcases side c hc with ⟨-, hb, hv⟩ | ⟨hr, hv⟩
    · obtain ⟨v, rfl, h1⟩ := hv x hx
      obtain ⟨w, rfl, h2⟩ := hv y hy
      rcases (ord c hb).total c (only c) v w h1 h2 with h | h | h
      · exact .inl (by rw [h])
      · exact .inr (.inl h)
      · exact .inr (.inr h)
    · have := hr.total x y hx hy
      obtain ⟨p, rfl, h1⟩ := hv x hx
      obtain ⟨q, rfl, h2⟩ := hv y hy
      simpa [Spec.Custom.order, h1, h2] using this

theorem custom_setup (hk : ∀ c ∈ keyCols t, Spec.Custom.Keyed W c.field) (hW : Spec.Document.Behaves W.base) (hs : Spec.Typed.Shape g S t) :
    Setup (W.env g S gen auto) t (Spec.Custom.Stores W) where
  wf := hs.wf
  key := hs.key
  named := hs.named
  bare := hs.bare
  plain := hs.plain
  names := hs.names
  single := hs.single
  back := fun _ _ _ old h => C104_field hW h old
  keyed := by
    intro c hc x hx he
    cases x with
    | base v =>
      rcases hk c hc with ⟨-, hb⟩ | ⟨ho, -⟩
      · have he : Custom.Cell.base (W.base.enc c.field v) = .base (.base (.base .null)) := he
        exact doc_key hb hW hx.2 (by injection he)
      · have h1 := hx.1; rw [ho] at h1; cases h1
    | own p =>
      have h := custom_null hx
      rw [custom_key (hk c hc) hx, if_neg (by simp)] at h
      obtain ⟨s, hs⟩ := h
      have he : W.enc c.field (.own p) = null := he
      rw [hs] at he
      cases he

end

end Verif.Props
