import Verif.Model.Discover

/-!
# C77: the structs of a package that the generator finds
-/

namespace Verif.Props

open Verif Verif.Discover

/-- The definition of an exported struct, directly or from a struct of another package. -/
def IsTable (s : Discover.Spec) : Prop := s.alias = false ∧ s.exported = true ∧ (s.form = .struct ∨ s.form = .selector true)

/-- The definition of an exported type by something that is neither a struct nor from another package, like `type Status int`. -/
def IsPlain (s : Discover.Spec) : Prop := s.alias = false ∧ s.exported = true ∧ s.form = .other

/-- What `sort.Slice` promises: the same structs, none before one with a smaller name. -/
def SortsNames (srt : List Discover.Spec → List Discover.Spec) : Prop :=
  ∀ l, (srt l).Perm l ∧ (srt l).Pairwise fun a b => a.name ≤ b.name

variable {match? : Discover.Text → Bool} {srt : List Discover.Spec → List Discover.Spec} {fs : List File}

theorem inGroup_false (ss : List Discover.Spec) : inGroup false ss = [] := by
  induction ss with
  | nil => rfl
  | cons s ss ih => simp [inGroup, ih]

theorem mem_inGroup {s : Discover.Spec} {ss : List Discover.Spec} :
    s ∈ inGroup true ss ↔ IsTable s ∧ ∃ pre post, ss = pre ++ s :: post ∧ ∀ x ∈ pre, ¬IsPlain x := by
  induction ss with
  | nil =>
    constructor
    · intro h; cases h
    · rintro ⟨-, pre, post, e, -⟩
      cases pre <;> cases e
  | cons t ss ih =>
    -- a specification that does not end the loop
    have skip : ¬IsPlain t → ¬IsTable t → (s ∈ inGroup true ss ↔ IsTable s ∧ ∃ pre post, t :: ss = pre ++ s :: post ∧ ∀ x ∈ pre, ¬IsPlain x) := by
      intro hp ht
      rw [ih]
      constructor
      · rintro ⟨h, pre, post, rfl, hpre⟩
        exact ⟨h, t :: pre, post, rfl, fun x hx => (List.mem_cons.1 hx).elim (fun e => e ▸ hp) (hpre x)⟩
      · rintro ⟨h, pre, post, e, hpre⟩
        cases pre with
        | nil => cases e; exact absurd h ht
        | cons p pre => cases e; exact ⟨h, pre, post, rfl, fun x hx => hpre x (List.mem_cons_of_mem _ hx)⟩
    have take : IsTable t → ¬IsPlain t → (s ∈ t :: inGroup true ss ↔ IsTable s ∧ ∃ pre post, t :: ss = pre ++ s :: post ∧ ∀ x ∈ pre, ¬IsPlain x) := by
      intro ht hp
      rw [List.mem_cons, ih]
      constructor
      · rintro (rfl | ⟨h, pre, post, rfl, hpre⟩)
        · exact ⟨ht, [], ss, rfl, fun x hx => absurd hx (List.not_mem_nil)⟩
        · exact ⟨h, t :: pre, post, rfl, fun x hx => (List.mem_cons.1 hx).elim (fun e => e ▸ hp) (hpre x)⟩
      · rintro ⟨h, pre, post, e, hpre⟩
        cases pre with
        | nil => cases e; exact .inl rfl
        | cons p pre => cases e; exact .inr ⟨h, pre, post, rfl, fun x hx => hpre x (List.mem_cons_of_mem _ hx)⟩
    rw [inGroup]
    cases ha : t.alias with
    | true => simpa using skip (fun h => by simp [h.1] at ha) (fun h => by simp [h.1] at ha)
    | false =>
      cases he : t.exported with
      | false => simpa using skip (fun h => by simp [h.2.1] at he) (fun h => by simp [h.2.1] at he)
      | true =>
        cases hf : t.form with
        | struct => simpa using take ⟨ha, he, .inl hf⟩ (fun h => by simp [h.2.2] at hf)
        | selector b =>
          cases b with
          | true => simpa using take ⟨ha, he, .inr hf⟩ (fun h => by simp [h.2.2] at hf)
          | false => simpa using skip (fun h => by simp [h.2.2] at hf) (fun h => by rcases h.2.2 with e | e <;> simp [e] at hf)
        | other =>
          constructor
          · intro h; simp at h
          · rintro ⟨h, pre, post, e, hpre⟩
            exfalso
            cases pre with
            | nil => cases e; rcases h.2.2 with e | e <;> simp [e] at hf
            | cons p pre => cases e; exact hpre t (List.mem_cons_self ..) ⟨ha, he, hf⟩

theorem mem_inFile {f : File} {s : Discover.Spec} : s ∈ inFile match? f ↔
    f.generated = false ∧ match? f.path = true ∧ ∃ g ∈ f.groups, s ∈ inGroup true g.specs := by
  unfold inFile
  cases hg : f.generated with
  | true => simp
  | false =>
    cases hm : match? f.path with
    | true => simp [List.mem_flatMap]
    | false => simp [inGroup_false]

/-- The structs found, in the order of their tables. -/
def found (srt : List Discover.Spec → List Discover.Spec) (match? : Discover.Text → Bool) (fs : List File) : List Discover.Spec :=
  (inPackage srt match? fs).getD []

theorem mem_found (hs : SortsNames srt) {s : Discover.Spec} : s ∈ found srt match? fs ↔ ∃ f ∈ fs, s ∈ inFile match? f := by
  unfold found inPackage
  dsimp only
  split
  · next h =>
    constructor
    · intro h; cases h
    · rintro ⟨f, hf, hm⟩
      have := List.mem_flatMap.2 ⟨f, hf, hm⟩
      rw [h] at this
      cases this
  · rw [Option.getD_some, (hs _).1.mem_iff, List.mem_flatMap]

/-- C77, exactly: the structs found are those of the selected files that no plain type precedes in their declaration. -/
theorem C77_found_iff (hs : SortsNames srt) {s : Discover.Spec} : s ∈ found srt match? fs ↔
    ∃ f ∈ fs, f.generated = false ∧ match? f.path = true ∧ ∃ g ∈ f.groups, IsTable s ∧
      ∃ pre post, g.specs = pre ++ s :: post ∧ ∀ x ∈ pre, ¬IsPlain x := by
  simp only [mem_found hs, mem_inFile, mem_inGroup]

/-- C77, as far as it holds: if there are no type declarations in functions, and structs come before plain types wherever they are declared
together, then the exported structs of the selected files are found, and nothing else. -/
theorem C77_partial (hs : SortsNames srt)
    (hl : ∀ f ∈ fs, ∀ g ∈ f.groups, g.inFunc = false)
    (hp : ∀ f ∈ fs, ∀ g ∈ f.groups, g.specs.Pairwise fun x y => IsPlain x → ¬IsTable y) {s : Discover.Spec} :
    s ∈ found srt match? fs ↔ ∃ f ∈ fs, f.generated = false ∧ match? f.path = true ∧
      ∃ g ∈ f.groups, g.inFunc = false ∧ s ∈ g.specs ∧ IsTable s := by
  rw [C77_found_iff hs]
  constructor
  · rintro ⟨f, hf, h1, h2, g, hg, ht, pre, post, e, -⟩
    exact ⟨f, hf, h1, h2, g, hg, hl f hf g hg, by rw [e]; simp, ht⟩
  · rintro ⟨f, hf, h1, h2, g, hg, -, hm, ht⟩
    obtain ⟨pre, post, e⟩ := List.append_of_mem hm
    refine ⟨f, hf, h1, h2, g, hg, ht, pre, post, e, fun x hx hpl => ?_⟩
    have := hp f hf g hg
    rw [e, List.pairwise_append] at this
    exact this.2.2 x hx s (List.mem_cons_self ..) hpl ht

/-- C77 fails for every declaration of several types with a plain type in it: what follows the plain type is not found. -/
theorem C77_lost {pre post : List Discover.Spec} {x : Discover.Spec} (hx : IsPlain x) (m : Bool) :
    inGroup m (pre ++ x :: post) = inGroup m pre := by
  induction pre with
  | nil =>
    obtain ⟨h1, h2, h3⟩ := hx
    cases m with
    | false => rw [inGroup_false, inGroup_false]
    | true => simp [inGroup, h1, h2, h3]
  | cons p pre ih =>
    rw [List.cons_append, inGroup, inGroup, ih]

/-- So a struct declared after a plain type, and nowhere else, has no code. -/
theorem C77_lost_struct (hs : SortsNames srt) {pre post : List Discover.Spec} {x s : Discover.Spec} (hx : IsPlain x) (hn : s ∉ pre)
    (honly : ∀ f ∈ fs, ∀ g ∈ f.groups, s ∈ g.specs → g.specs = pre ++ x :: post) : s ∉ found srt match? fs := by
  intro h
  obtain ⟨f, hf, -, -, g, hg, ht, a, b, e, ha⟩ := (C77_found_iff hs).1 h
  have e' := honly f hf g hg (by rw [e]; simp)
  rw [e] at e'
  have hsp : s ∈ inGroup true (pre ++ x :: post) := by
    rw [← e']
    exact mem_inGroup.2 ⟨ht, a, b, rfl, ha⟩
  rw [C77_lost hx] at hsp
  obtain ⟨-, a, b, e, -⟩ := mem_inGroup.1 hsp
  exact hn (by rw [e]; simp)

/-- C77 fails for types declared in functions: they are found, though no method can be declared for them. -/
theorem C77_local (hs : SortsNames srt) {f : File} {g : Group} {s : Discover.Spec} (hf : f ∈ fs) (hg : g ∈ f.groups) (hgen : f.generated = false)
    (hm : match? f.path = true) (ht : IsTable s) (he : g.specs = [s]) (_ : g.inFunc = true) : s ∈ found srt match? fs :=
  (C77_found_iff hs).2 ⟨f, hf, hgen, hm, g, hg, ht, [], [], he, fun _ h => absurd h List.not_mem_nil⟩

theorem perm_sorted_eq {l₁ l₂ : List Discover.Spec} (hp : l₁.Perm l₂) (hn : (l₁.map (·.name)).Nodup)
    (h₁ : l₁.Pairwise fun a b => a.name ≤ b.name) (h₂ : l₂.Pairwise fun a b => a.name ≤ b.name) : l₁ = l₂ := by
  induction l₁ generalizing l₂ with
  | nil => exact (List.Perm.nil_eq hp)
  | cons a l₁ ih =>
    cases l₂ with
    | nil => exact absurd hp.symm (by simp)
    | cons b l₂ =>
      have hab : a = b := by
        have ha : a ∈ b :: l₂ := hp.mem_iff.1 (List.mem_cons_self ..)
        have hb : b ∈ a :: l₁ := hp.mem_iff.2 (List.mem_cons_self ..)
        rcases List.mem_cons.1 ha with e | ha
        · exact e
        rcases List.mem_cons.1 hb with e | hb
        · exact e.symm
        have x := (List.pairwise_cons.1 h₁).1 b hb
        have y := (List.pairwise_cons.1 h₂).1 a ha
        have e := List.le_antisymm x y
        rw [List.map_cons, List.nodup_cons] at hn
        exact absurd (List.mem_map.2 ⟨b, hb, e.symm⟩) hn.1
      subst hab
      rw [List.map_cons, List.nodup_cons] at hn
      rw [ih (List.Perm.cons_inv hp) hn.2 (List.pairwise_cons.1 h₁).2 (List.pairwise_cons.1 h₂).2]

/-- C77: the order of the tables does not depend on the order in which files and declarations are read, nor on the way of sorting, as long as no
two structs found have the same name. -/
theorem C77_order {srt' : List Discover.Spec → List Discover.Spec} (hs : SortsNames srt) (hs' : SortsNames srt') {fs' : List File}
    (hp : (fs.flatMap (inFile match?)).Perm (fs'.flatMap (inFile match?))) (hn : ((fs.flatMap (inFile match?)).map (·.name)).Nodup) :
    inPackage srt match? fs = inPackage srt' match? fs' := by
  unfold inPackage
  dsimp only
  by_cases h : fs.flatMap (inFile match?) = []
  · rw [if_pos h]
    rw [h] at hp
    rw [if_pos (List.Perm.nil_eq hp).symm]
  · rw [if_neg h, if_neg fun e => h (by rw [e] at hp; exact (List.Perm.nil_eq hp.symm).symm)]
    refine congrArg some (perm_sorted_eq (((hs _).1.trans hp).trans (hs' _).1.symm) ?_ (hs _).2 (hs' _).2)
    exact (((hs _).1.map _).nodup_iff).2 hn

theorem C77_files_order {srt' : List Discover.Spec → List Discover.Spec} (hs : SortsNames srt) (hs' : SortsNames srt') {fs' : List File}
    (hp : fs.Perm fs') (hn : ((fs.flatMap (inFile match?)).map (·.name)).Nodup) : inPackage srt match? fs = inPackage srt' match? fs' :=
  C77_order hs hs' (hp.flatMap_right _) hn

/-! ## Instances -/

/-- Sorting by insertion. -/
def insName (s : Discover.Spec) : List Discover.Spec → List Discover.Spec
  | [] => [s]
  | t :: l => if s.name ≤ t.name then s :: t :: l else t :: insName s l

def sortNames (l : List Discover.Spec) : List Discover.Spec := l.foldr insName []

theorem insName_perm (s : Discover.Spec) (l : List Discover.Spec) : (insName s l).Perm (s :: l) := by
  induction l with
  | nil => exact .refl _
  | cons t l ih =>
    rw [insName]
    split
    · exact .refl _
    · exact (ih.cons t).trans (.swap ..)

theorem insName_sorted (s : Discover.Spec) {l : List Discover.Spec} (h : l.Pairwise fun a b => a.name ≤ b.name) :
    (insName s l).Pairwise fun a b => a.name ≤ b.name := by
  induction l with
  | nil => exact List.pairwise_singleton ..
  | cons t l ih =>
    obtain ⟨h1, h2⟩ := List.pairwise_cons.1 h
    rw [insName]
    split
    · next hle =>
      exact List.pairwise_cons.2 ⟨fun b hb => (List.mem_cons.1 hb).elim (fun e => e ▸ hle) fun hb => List.le_trans hle (h1 b hb), h⟩
    · next hle =>
      refine List.pairwise_cons.2 ⟨fun b hb => ?_, ih h2⟩
      rcases List.mem_cons.1 ((insName_perm s l).mem_iff.1 hb) with e | hb
      · subst e
        exact (List.le_total ..).resolve_left hle
      · exact h1 b hb

/-- There is a way of sorting. -/
theorem sortNames_sorts : SortsNames sortNames := by
  intro l
  induction l with
  | nil => exact ⟨.refl _, .nil⟩
  | cons s l ih => exact ⟨(insName_perm ..).trans (ih.1.cons s), insName_sorted s ih.2⟩

private def tbl (n : String) : Discover.Spec := ⟨n.toList, false, true, .struct⟩
private def pln (n : String) : Discover.Spec := ⟨n.toList, false, true, .other⟩

/-- `type ( User struct{…}; Status int; Order struct{…} )` and, in a function, `type Local struct{…}`. -/
private def exFile : File :=
  ⟨"/w/m/a.go".toList, false, [⟨false, [tbl "User", pln "Status", tbl "Order"]⟩, ⟨true, [tbl "Local"]⟩]⟩

-- `Order` is lost, `Local` is found
example : (inPackage sortNames (fun _ => true) [exFile]).map (·.map (·.name)) = some ["Local".toList, "User".toList] := by decide +kernel
example : IsPlain (pln "Status") ∧ tbl "Order" ∉ [tbl "User"] ∧ IsTable (tbl "Order") := by unfold IsPlain IsTable; decide +kernel
-- one declaration for each type: all are found, by name
example : (inPackage sortNames (fun _ => true)
    [⟨[], false, [⟨false, [tbl "User"]⟩, ⟨false, [pln "Status"]⟩]⟩, ⟨[], false, [⟨false, [tbl "Order", pln "X"]⟩]⟩]).map (·.map (·.name)) =
    some ["Order".toList, "User".toList] := by decide +kernel

end Verif.Props
