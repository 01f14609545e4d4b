import Verif.Spec.Embed
import Verif.Props.Emit

/-! # The columns of declared structs -/

namespace Verif.Embed

open Verif Verif.Addrs Verif.Parser Verif.Props Verif.Spec.Parser Verif.Spec.Embed

variable {env : Env}

/-- The way to a field, from the declarations of a struct. -/
inductive Way (env : Env) : List Decl → Path → Prop
  | field {ds : List Decl} {ns : List (Str × Bool)} {ty : FType} {tag n : Str} (h : Decl.named ns ty tag ∈ ds) (hn : (n, true) ∈ ns) :
      Way env ds [⟨String.ofList n, decide (0 < ty.ptrs)⟩]
  | emb {ds : List Decl} {n : Str} {e : Bool} {ty : FType} {tag : Str} {id : Nat} {q : Path} (h : Decl.embed n e ty tag (some id) ∈ ds)
      (hq : Way env (env id) q) : Way env ds (⟨String.ofList n, decide (0 < ty.ptrs)⟩ :: q)

/-- The rule, for one struct. -/
def Distinct (ds : List Decl) : Prop := (ds.flatMap declNames).Nodup ∧ ∀ d ∈ ds, BlankHidden d

theorem Distinct.same {ds : List Decl} (h : Distinct ds) {d d' : Decl} (hd : d ∈ ds) (hd' : d' ∈ ds) {x : String} (hx : x ∈ declNames d)
    (hx' : x ∈ declNames d') : d = d' := by
  by_contra hne
  have := (List.nodup_flatMap.1 h.1).2
  obtain ⟨i, hi, rfl⟩ := List.getElem_of_mem hd
  obtain ⟨j, hj, rfl⟩ := List.getElem_of_mem hd'
  rcases Nat.lt_trichotomy i j with hij | rfl | hij
  · exact List.pairwise_iff_getElem.1 this i j hi hj hij hx hx'
  · exact hne rfl
  · exact List.pairwise_iff_getElem.1 this j i hj hi hij hx' hx

theorem Distinct.field {ds : List Decl} (h : Distinct ds) {ns : List (Str × Bool)} {ty : FType} {tag n : Str} (hd : Decl.named ns ty tag ∈ ds)
    (hn : (n, true) ∈ ns) : String.ofList n ∈ declNames (.named ns ty tag) := by
  simp only [declNames, List.mem_filter, List.mem_map, decide_eq_true_eq]
  refine ⟨⟨_, hn, rfl⟩, fun e => ?_⟩
  have := h.2 _ hd (n, true) hn e
  cases this

theorem Way.ne_nil {ds : List Decl} {c : Path} (h : Way env ds c) : c ≠ [] := by cases h <;> simp

/-- The first name belongs to the struct. -/
theorem Way.head {ds : List Decl} (hD : Distinct ds) {c : Path} (h : Way env ds c) :
    ∃ s q, c = s :: q ∧ s.name ∈ ds.flatMap declNames := by
  cases h with
  | field h hn => exact ⟨_, _, rfl, List.mem_flatMap.2 ⟨_, h, hD.field h hn⟩⟩
  | emb h hq => exact ⟨_, _, rfl, List.mem_flatMap.2 ⟨_, h, by simp [declNames]⟩⟩

/-- Equal names lead to the same place. -/
theorem Way.same (hD : Declared env) {ds : List Decl} {c : Path} (h : Way env ds c) : Distinct ds → ∀ {d : Path}, Way env ds d →
    ∀ {p q : Path}, p <+: c → q <+: d → names p = names q → p = q := by
  induction h with
  | @field ds ns ty tag n h hn =>
    intro hds d hd p q hp hq e
    cases p with
    | nil => cases q with
      | nil => rfl
      | cons => simp [names] at e
    | cons a p =>
      obtain ⟨rfl, hp'⟩ := List.cons_prefix_cons.1 hp
      obtain rfl := List.prefix_nil.1 hp'
      cases q with
      | nil => simp [names] at e
      | cons b q =>
        simp only [names, List.map_cons, List.cons.injEq, List.map_nil] at e
        have hq0 : q = [] := List.map_eq_nil_iff.1 e.2.symm
        subst hq0
        cases hd with
        | @field _ ns' ty' tag' n' h' hn' =>
          obtain ⟨rfl, -⟩ := List.cons_prefix_cons.1 hq
          have := hds.same h h' (hds.field h hn) (by rw [show String.ofList n = String.ofList n' from e.1]; exact hds.field h' hn')
          cases this
          rw [show String.ofList n = String.ofList n' from e.1]
        | @emb _ n' e' ty' tag' id q' h' hq' =>
          obtain ⟨rfl, -⟩ := List.cons_prefix_cons.1 hq
          have := hds.same h h' (hds.field h hn) (by rw [show String.ofList n = String.ofList n' from e.1]; simp [declNames])
          cases this
  | @emb ds n b ty tag id c' h hc ih =>
    intro hds d hd p q hp hq e
    cases p with
    | nil => cases q with
      | nil => rfl
      | cons => simp [names] at e
    | cons a p =>
      obtain ⟨rfl, hp'⟩ := List.cons_prefix_cons.1 hp
      cases q with
      | nil => simp [names] at e
      | cons b q =>
        simp only [names, List.map_cons, List.cons.injEq] at e
        cases hd with
        | @field _ ns' ty' tag' n' h' hn' =>
          obtain ⟨rfl, -⟩ := List.cons_prefix_cons.1 hq
          have := hds.same h h' (x := String.ofList n) (by simp [declNames]) (by rw [show String.ofList n = String.ofList n' from e.1]; exact hds.field h' hn')
          cases this
        | @emb _ n' e' ty' tag' id' q' h' hq' =>
          obtain ⟨rfl, hq''⟩ := List.cons_prefix_cons.1 hq
          have := hds.same h h' (x := String.ofList n) (by simp [declNames]) (by rw [show String.ofList n = String.ofList n' from e.1]; simp [declNames])
          cases this
          rw [ih (hD id) hq' hp' hq'' e.2]

/-- Fields do not contain others. -/
theorem Way.leaf (hD : Declared env) {ds : List Decl} {c : Path} (h : Way env ds c) : Distinct ds → ∀ {d : Path}, Way env ds d →
    c <+: d → c = d := by
  induction h with
  | @field ds ns ty tag n h hn =>
    intro hds d hd hp
    cases hd with
    | @field _ ns' ty' tag' n' h' hn' =>
      obtain ⟨e, -⟩ := List.cons_prefix_cons.1 hp
      rw [e]
    | @emb _ n' e' ty' tag' id q' h' hq' =>
      obtain ⟨e, -⟩ := List.cons_prefix_cons.1 hp
      have e1 : String.ofList n = String.ofList n' := congrArg Seg.name e
      have := hds.same h h' (hds.field h hn) (by rw [e1]; simp [declNames])
      cases this
  | @emb ds n b ty tag id c' h hc ih =>
    intro hds d hd hp
    cases hd with
    | @field _ ns' ty' tag' n' h' hn' =>
      obtain ⟨e, -⟩ := List.cons_prefix_cons.1 hp
      have e1 : String.ofList n = String.ofList n' := congrArg Seg.name e
      have := hds.same h h' (x := String.ofList n) (by simp [declNames]) (by rw [e1]; exact hds.field h' hn')
      cases this
    | @emb _ n' e' ty' tag' id' q' h' hq' =>
      obtain ⟨e, hp'⟩ := List.cons_prefix_cons.1 hp
      have e1 : String.ofList n = String.ofList n' := congrArg Seg.name e
      have := hds.same h h' (x := String.ofList n) (by simp [declNames]) (by rw [e1]; simp [declNames])
      cases this
      rw [e, ih (hD id) hq' hp']

/-- The columns among the fields of a struct. -/
def colFields (out : List Leaf) : List SField := (structLeaves out).filter isCol

theorem Way.mono {ds ds' : List Decl} (h : ∀ d ∈ ds, d ∈ ds') {c : Path} (hc : Way env ds c) : Way env ds' c := by
  cases hc with
  | field h1 h2 => exact .field (h _ h1) h2
  | emb h1 h2 => exact .emb (h _ h1) h2

theorem colFields_append (a b : List Leaf) : colFields (a ++ b) = colFields a ++ colFields b := by simp [colFields, structLeaves]

theorem colFields_named {anc : List Seg} {ty : FType} {tag : Str} (ns : List (Str × Bool)) {f : SField}
    (hf : f ∈ colFields (ns.map fun p => ⟨⟨p.1, ty, p.2, false, anc, tag⟩, false⟩)) :
    ∃ n, (n, true) ∈ ns ∧ f = ⟨n, ty, true, false, anc, tag⟩ := by
  simp only [colFields, structLeaves, List.mem_filter, List.mem_map] at hf
  obtain ⟨⟨l, ⟨⟨p, hp, rfl⟩, -⟩, rfl⟩, hc⟩ := hf
  simp only [isCol, Bool.and_eq_true] at hc
  have : p.2 = true := hc.1.1.1
  exact ⟨p.1, by rw [← this]; exact hp, by rw [this]⟩

theorem colFields_way {anc : List Seg} {ds : List Decl} {out : List Leaf} (h : Fields env anc ds out) : ∀ f ∈ colFields out,
    ∃ q, f.path = anc.reverse ++ q ∧ Way env ds q := by
  induction h with
  | nil => simp [colFields, structLeaves]
  | @named anc ds out ns ty tag h ih =>
    intro f hf
    rw [colFields_append, List.mem_append] at hf
    rcases hf with hf | hf
    · obtain ⟨n, hn, rfl⟩ := colFields_named ns hf
      exact ⟨[⟨String.ofList n, decide (0 < ty.ptrs)⟩], by simp [SField.path, SField.seg], .field (tag := tag) (by simp) hn⟩
    · obtain ⟨q, h1, h2⟩ := ih f hf
      exact ⟨q, h1, h2.mono (by simp +contextual)⟩
  | @other anc ds out n e ty tag h ih =>
    intro f hf
    have : f ∈ colFields out := by simpa [colFields, structLeaves] using hf
    obtain ⟨q, h1, h2⟩ := ih f this
    exact ⟨q, h1, h2.mono (by simp +contextual)⟩
  | @emb anc ds out sub n e ty tag id hs h ihs ih =>
    intro f hf
    have : f ∈ colFields sub ++ colFields out := by
      rw [← colFields_append]
      simpa [colFields, structLeaves, isCol] using hf
    rcases List.mem_append.1 this with hf | hf
    · obtain ⟨q, h1, h2⟩ := ihs f hf
      exact ⟨⟨String.ofList n, decide (0 < ty.ptrs)⟩ :: q, by rw [h1]; simp, .emb (e := e) (tag := tag) (id := id) (by simp) h2⟩
    · obtain ⟨q, h1, h2⟩ := ih f hf
      exact ⟨q, h1, h2.mono (by simp +contextual)⟩

theorem Distinct.tail {d : Decl} {ds : List Decl} (h : Distinct (d :: ds)) : Distinct ds :=
  ⟨(List.nodup_append.1 (by simpa using h.1)).2.1, fun x hx => h.2 x (by simp [hx])⟩

theorem Distinct.apart {d : Decl} {ds : List Decl} (h : Distinct (d :: ds)) {x : String} (hx : x ∈ declNames d) : x ∉ ds.flatMap declNames := by
  have := (List.nodup_append.1 (by simpa using h.1)).2.2
  intro hx'
  exact this x hx x (by simpa using hx') rfl

theorem colFields_nodup (hD : Declared env) {anc : List Seg} {ds : List Decl} {out : List Leaf} (h : Fields env anc ds out) : Distinct ds →
    ((colFields out).map SField.path).Nodup := by
  induction h with
  | nil => intro _; simp [colFields, structLeaves]
  | @named anc ds out ns ty tag h ih =>
    intro hds
    rw [colFields_append, List.map_append, List.nodup_append]
    refine ⟨?_, ih hds.tail, ?_⟩
    · have hn : ((ns.map fun n => String.ofList n.1).filter (· ≠ "_")).Nodup := (List.nodup_flatMap.1 hds.1).1 (.named ns ty tag) (by simp)
      have hb := hds.2 (.named ns ty tag) (by simp)
      have key : ∀ l : List (Str × Bool), (∀ n ∈ l, String.ofList n.1 = "_" → n.2 = false) →
          ((l.map fun n => String.ofList n.1).filter (· ≠ "_")).Nodup →
          ((colFields (l.map fun p => (⟨⟨p.1, ty, p.2, false, anc, tag⟩, false⟩ : Leaf))).map SField.path).Nodup := by
        intro l
        induction l with
        | nil => intro _ _; simp [colFields, structLeaves]
        | cons a l ihl =>
          intro hb hn
          have hb' : ∀ n ∈ l, String.ofList n.1 = "_" → n.2 = false := fun n hn => hb n (by simp [hn])
          have hn' : ((l.map fun n => String.ofList n.1).filter (· ≠ "_")).Nodup :=
            hn.sublist (List.Sublist.filter _ (by simp))
          rw [List.map_cons, show ∀ (x : Leaf) xs, x :: xs = [x] ++ xs from fun _ _ => rfl, colFields_append, List.map_append, List.nodup_append]
          refine ⟨?_, ihl hb' hn', ?_⟩
          · unfold colFields structLeaves
            simp only [List.filter_cons, List.filter_nil]
            split <;> simp [List.filter_cons]
            split <;> simp
          · intro x hx y hy e
            obtain ⟨f, hf, rfl⟩ := List.mem_map.1 hx
            obtain ⟨f', hf', rfl⟩ := List.mem_map.1 hy
            obtain ⟨m, hm, rfl⟩ := colFields_named [a] (by simpa using hf)
            obtain ⟨m', hm', rfl⟩ := colFields_named l hf'
            simp only [List.mem_singleton] at hm
            subst hm
            simp only [SField.path, SField.seg, List.reverse_cons, List.append_cancel_left_eq, List.cons.injEq, Seg.mk.injEq, and_true] at e
            have hne : String.ofList m ≠ "_" := fun h => by simpa using hb (m, true) (by simp) h
            simp only [List.map_cons] at hn
            rw [List.filter_cons_of_pos (by simpa using hne), List.nodup_cons] at hn
            apply hn.1
            simp only [List.mem_filter, List.mem_map, decide_eq_true_eq]
            exact ⟨⟨_, hm', e.symm⟩, hne⟩
      exact key ns hb hn
    · intro x hx y hy e
      obtain ⟨f, hf, rfl⟩ := List.mem_map.1 hx
      obtain ⟨f', hf', rfl⟩ := List.mem_map.1 hy
      obtain ⟨m, hm, rfl⟩ := colFields_named ns hf
      obtain ⟨q, h1, h2⟩ := colFields_way h f' hf'
      obtain ⟨s, q', rfl, hs⟩ := h2.head hds.tail
      rw [h1] at e
      simp only [SField.path, SField.seg, List.reverse_cons, List.append_cancel_left_eq, List.cons.injEq] at e
      refine hds.apart (hds.field (by simp) hm) ?_
      rw [← e.1] at hs
      exact hs
  | @other anc ds out n e ty tag h ih =>
    intro hds
    have : colFields (⟨⟨n, ty, e, false, anc, tag⟩, true⟩ :: out) = colFields out := by simp [colFields, structLeaves]
    rw [this]
    exact ih hds.tail
  | @emb anc ds out sub n e ty tag id hs h ihs ih =>
    intro hds
    have : colFields (⟨⟨n, ty, e, true, anc, tag⟩, false⟩ :: sub ++ out) = colFields sub ++ colFields out := by
      rw [← colFields_append]
      simp [colFields, structLeaves, isCol]
    rw [this, List.map_append, List.nodup_append]
    refine ⟨ihs (hD id), ih hds.tail, ?_⟩
    intro x hx y hy e'
    obtain ⟨f, hf, rfl⟩ := List.mem_map.1 hx
    obtain ⟨f', hf', rfl⟩ := List.mem_map.1 hy
    obtain ⟨q, h1, h2⟩ := colFields_way hs f hf
    obtain ⟨q', h3, h4⟩ := colFields_way h f' hf'
    obtain ⟨s, q'', rfl, hsn⟩ := h4.head hds.tail
    rw [h1, h3] at e'
    simp only [List.reverse_cons, List.append_assoc, List.append_cancel_left_eq, List.singleton_append, List.cons.injEq] at e'
    refine hds.apart (x := String.ofList n) (by simp [declNames]) ?_
    rw [← e'.1] at hsn
    exact hsn

/-- The columns of a declared struct are those of a struct. -/
theorem struct_of_fields (hD : Declared env) {id : Nat} {out : List Leaf} (h : Fields env [] (env id) out) {cols : List Path}
    (hp : cols.Perm ((colFields out).map SField.path)) : Struct cols := by
  have hw : ∀ c ∈ cols, Way env (env id) c := by
    intro c hc
    obtain ⟨f, hf, rfl⟩ := List.mem_map.1 (hp.mem_iff.1 hc)
    obtain ⟨q, h1, h2⟩ := colFields_way h f hf
    rw [h1]
    simpa using h2
  exact ⟨fun c hc d hd p q hp hq e => (hw c hc).same hD (hD id) (hw d hd) hp hq e,
    fun c hc d hd hcd => (hw c hc).leaf hD (hD id) (hw d hd) hcd,
    hp.nodup_iff.2 (colFields_nodup hD h (hD id))⟩

end Verif.Embed
