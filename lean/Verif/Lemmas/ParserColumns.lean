import Verif.Lemmas.ParserText
import Mathlib.Data.List.Induction

/-! # The loop over the fields -/

namespace Verif.Parser

open Verif Verif.Addrs Verif.Spec.Parser

def optB (o : Str) (f : SField) : Bool := hasOpts (parseTag (opts f.tag)) [o]
def autoB (f : SField) : Bool := optB optAutoIncrement f
def keyB (f : SField) : Bool := hasOpts (parseTag (opts f.tag)) [optPK, optPKAlias] && !autoB f
def roB (f : SField) : Bool := optB optReadonly f

theorem optB_iff (o : Str) (f : SField) : optB o f = true ↔ HasOpt f.tag o := by
  rw [optB, hasOpts_iff, hasOpt_iff]; simp

theorem autoB_iff (f : SField) : autoB f = true ↔ IsAuto f := optB_iff _ f
theorem roB_iff (f : SField) : roB f = true ↔ IsReadonly f := optB_iff _ f

theorem keyB_iff (f : SField) : keyB f = true ↔ IsKey f := by
  unfold keyB IsKey
  rw [Bool.and_eq_true, hasOpts_iff, hasOpt_iff, hasOpt_iff, Bool.not_eq_true', ← autoB_iff]
  simp only [List.mem_cons, List.not_mem_nil, or_false, exists_eq_or_imp, exists_eq_left,
    Bool.not_eq_true]
  constructor
  · rintro ⟨h1 | h1, h2⟩
    · exact ⟨.inr h1, h2⟩
    · exact ⟨.inl h1, h2⟩
  · rintro ⟨h1 | h1, h2⟩
    · exact ⟨.inr h1, h2⟩
    · exact ⟨.inl h1, h2⟩

/-- Fields the parser does not reject by themselves. -/
def okField (f : SField) : Prop :=
  f.ty.ptrs ≤ 1 ∧ (tagHead f.tag = ['-'] ∨ tagHead f.tag = [] ∨ nameOk (tagHead f.tag) = true)

instance (f : SField) : Decidable (okField f) := inferInstanceAs (Decidable (_ ∧ _))

/-- The table name after a field. -/
def nextName (cfg : Config) (f : SField) (n : Str) : Str :=
  if f.ty.marker ∧ tagHead f.tag ≠ ['-'] ∧ colName cfg f ≠ [] then colName cfg f else n

theorem fieldStep_eq (cfg : Config) (f : SField) (st : LS) : fieldStep cfg f st =
    if okField f then
      if isCol f then addColumn f (colName cfg f) (opts f.tag) st
      else .ok { st with name := nextName cfg f st.name }
    else .err := by
  unfold fieldStep okField isCol nextName colName
  rw [tagName_eq]
  by_cases hp : 1 < f.ty.ptrs
  · have hp' : ¬ f.ty.ptrs ≤ 1 := by omega
    simp [hp, hp']
  · rw [if_neg hp]
    have hp' : f.ty.ptrs ≤ 1 := by omega
    by_cases h1 : tagHead f.tag = ['-']
    · simp [h1, hp']
    · by_cases h2 : tagHead f.tag = []
      · have h3 : ¬ ([] : Str) = ['-'] := by simp
        simp only [h2, h3, if_true, if_false, hp', true_and, false_or, true_or]
        cases hm : f.ty.marker <;> cases he : f.exported <;> cases hb : f.embedded <;>
          by_cases hr : cfg.rename f.name = [] <;> simp [hr]
      · by_cases h3 : nameOk (tagHead f.tag) = true
        · simp only [h1, h2, h3, if_true, if_false, hp', true_and, false_or]
          cases hm : f.ty.marker <;> cases he : f.exported <;> cases hb : f.embedded <;>
            simp [h1, h2]
        · simp [h1, h2, h3]

/-- Positions of the elements with a property. -/
def idxs (p : SField → Bool) (cs : List SField) : List Nat :=
  (cs.zipIdx.filter fun x => p x.1).map (·.2)

theorem idxs_append (p : SField → Bool) (cs : List SField) (f : SField) :
    idxs p (cs ++ [f]) = idxs p cs ++ if p f then [cs.length] else [] := by
  simp only [idxs, List.zipIdx_append, List.filter_append, List.map_append]
  congr 1
  cases h : p f <;> simp [h]

theorem mem_idxs (p : SField → Bool) (cs : List SField) (i : Nat) :
    i ∈ idxs p cs ↔ ∃ f, cs[i]? = some f ∧ p f = true := by
  simp only [idxs, List.mem_map, List.mem_filter, Prod.exists]
  constructor
  · rintro ⟨f, j, ⟨h1, h2⟩, rfl⟩
    exact ⟨f, by simpa [List.mem_zipIdx_iff_getElem?] using h1, h2⟩
  · rintro ⟨f, h1, h2⟩
    exact ⟨f, i, ⟨by simpa [List.mem_zipIdx_iff_getElem?] using h1, h2⟩, rfl⟩

theorem idxs_sorted (p : SField → Bool) (cs : List SField) : (idxs p cs).Pairwise (· < ·) := by
  induction cs using List.reverseRecOn with
  | nil => simp [idxs]
  | append_singleton cs f ih =>
    rw [idxs_append, List.pairwise_append]
    refine ⟨ih, by split <;> simp, ?_⟩
    intro a ha b hb
    split at hb
    · rw [List.mem_singleton.1 hb]
      obtain ⟨g, hg, _⟩ := (mem_idxs p cs a).1 ha
      exact (List.getElem?_eq_some_iff.1 hg).1
    · cases hb

/-- The column of a field at a position. -/
def mkCol (cfg : Config) (f : SField) (i : Nat) : PCol := ⟨colName cfg f, f.name, f.path, i, roB f⟩

def mkCols (cfg : Config) (cs : List SField) : List PCol := cs.zipIdx.map fun x => mkCol cfg x.1 x.2

theorem mkCols_append (cfg : Config) (cs : List SField) (f : SField) :
    mkCols cfg (cs ++ [f]) = mkCols cfg cs ++ [mkCol cfg f cs.length] := by
  simp [mkCols, List.zipIdx_append]

theorem mkCols_length (cfg : Config) (cs : List SField) : (mkCols cfg cs).length = cs.length := by
  simp [mkCols]

/-- The state of the loop once the fields `cs` have become columns. -/
structure Inv (cfg : Config) (cs : List SField) (st : LS) : Prop where
  columns : st.columns = mkCols cfg cs
  pos : st.pos = cs.length
  seen : ∀ n, n ∈ st.seen ↔ n ∈ cs.map (colName cfg)
  auto : idxs autoB cs = st.auto.toList
  keys : st.keys = idxs keyB cs
  names : (cs.map (colName cfg)).Nodup
  ro : ∀ f ∈ cs, autoB f = true ∨ keyB f = true → roB f = false

/-- When another field may become a column. -/
def Admits (cfg : Config) (cs : List SField) (f : SField) : Prop :=
  colName cfg f ∉ cs.map (colName cfg) ∧ (autoB f = true → idxs autoB cs = []) ∧
    (autoB f = true ∨ keyB f = true → roB f = false)

theorem hasOpts_any (t : List Str) :
    hasOpts t [optAutoIncrement, optPK, optPKAlias]
      = (hasOpts t [optAutoIncrement] || hasOpts t [optPK, optPKAlias]) := by
  simp only [hasOpts]
  by_cases h : optAutoIncrement ∈ t <;> simp [h]

theorem addColumn_spec (cfg : Config) (cs : List SField) (f : SField) (st : LS) (hi : Inv cfg cs st) :
    (Admits cfg cs f → ∃ st', addColumn f (colName cfg f) (opts f.tag) st = .ok st' ∧
      Inv cfg (cs ++ [f]) st' ∧ st'.name = st.name) ∧
    (¬ Admits cfg cs f → addColumn f (colName cfg f) (opts f.tag) st = .err) := by
  have hcol : (⟨colName cfg f, f.name, f.path, st.pos, hasOpts (parseTag (opts f.tag)) [optReadonly]⟩ : PCol)
      = mkCol cfg f cs.length := by
    rw [hi.pos]; rfl
  have hlen : st.columns.length = cs.length := by rw [hi.columns, mkCols_length]
  have hro : hasOpts (parseTag (opts f.tag)) [optReadonly] = roB f := rfl
  have hau : hasOpts (parseTag (opts f.tag)) [optAutoIncrement] = autoB f := rfl
  have hkey : keyB f = (hasOpts (parseTag (opts f.tag)) [optPK, optPKAlias] && !autoB f) := rfl
  have hsome : st.auto.isSome = true ↔ idxs autoB cs ≠ [] := by
    rw [hi.auto]; cases st.auto <;> simp
  unfold addColumn
  simp only [hcol, hasOpts_any, hau, hlen]
  simp only [hro]
  have inv' (a : Option Nat) (k : List Nat)
      (hA : Admits cfg cs f)
      (h1 : idxs autoB cs ++ (if autoB f then [cs.length] else []) = a.toList)
      (h2 : k = idxs keyB cs ++ (if keyB f then [cs.length] else [])) :
      Inv cfg (cs ++ [f]) { st with columns := st.columns ++ [mkCol cfg f cs.length], auto := a, keys := k
                                    pos := st.pos + 1, seen := colName cfg f :: st.seen } := by
    constructor
    · simp only [mkCols_append, hi.columns]
    · simp [hi.pos]
    · intro n
      simp only [List.mem_cons, hi.seen, List.map_append, List.mem_append, List.map_cons, List.map_nil,
        List.not_mem_nil, or_false]
      exact or_comm
    · rw [idxs_append]; exact h1
    · simp only [idxs_append]; exact h2
    · rw [List.map_append, List.nodup_append]
      refine ⟨hi.names, by simp, ?_⟩
      intro a ha b hb hab
      simp only [List.map_cons, List.map_nil, List.mem_singleton] at hb
      rw [hab, hb] at ha
      exact hA.1 ha
    · intro g hg
      rcases List.mem_append.1 hg with hg | hg
      · exact hi.ro g hg
      · rw [List.mem_singleton.1 hg]; exact hA.2.2
  by_cases hn : colName cfg f ∈ st.seen
  · rw [if_pos hn]
    refine ⟨fun hA => absurd ((hi.seen _).1 hn) hA.1, fun _ => rfl⟩
  · rw [if_neg hn]
    have hn' : colName cfg f ∉ cs.map (colName cfg) := fun h => hn ((hi.seen _).2 h)
    cases hA : autoB f with
    | true =>
      have hk : keyB f = false := by rw [hkey, hA]; simp
      simp only [Bool.true_or, if_true]
      by_cases hs : st.auto.isSome = true
      · rw [if_pos hs]
        exact ⟨fun h => absurd (h.2.1 hA) (hsome.1 hs), fun _ => rfl⟩
      · have hnil : idxs autoB cs = [] := by
          by_contra h; exact hs (hsome.2 h)
        rw [if_neg hs]
        cases hr : roB f with
        | true =>
          simp only [if_true]
          refine ⟨fun h => ?_, fun _ => by first | rfl | trivial⟩
          have := h.2.2 (.inl hA)
          rw [hr] at this; cases this
        | false =>
          simp only [Bool.false_eq_true, if_false]
          refine ⟨fun h => ⟨_, rfl, ?_, rfl⟩, fun h => absurd ⟨hn', fun _ => hnil, fun _ => hr⟩ h⟩
          refine inv' _ _ h ?_ ?_
          · rw [hnil, hA]; rfl
          · rw [hk, hi.keys]; simp
    | false =>
      have hk : keyB f = hasOpts (parseTag (opts f.tag)) [optPK, optPKAlias] := by rw [hkey, hA]; simp
      simp only [Bool.false_or, Bool.false_eq_true, if_false, ← hk]
      cases hK : keyB f with
      | true =>
        simp only [if_true]
        cases hr : roB f with
        | true =>
          simp only [if_true]
          refine ⟨fun h => ?_, fun _ => by first | rfl | trivial⟩
          have := h.2.2 (.inr hK)
          rw [hr] at this; cases this
        | false =>
          simp only [Bool.false_eq_true, if_false]
          refine ⟨fun h => ⟨_, rfl, ?_, rfl⟩, fun h => absurd ⟨hn', (fun h => by rw [hA] at h; cases h), fun _ => hr⟩ h⟩
          refine inv' _ _ h ?_ ?_
          · rw [hA]; simpa using hi.auto
          · rw [hK, hi.keys]; rfl
      | false =>
        simp only [Bool.false_eq_true, if_false]
        have hadm : Admits cfg cs f := ⟨hn', (fun h => by rw [hA] at h; cases h), fun h => by
          rcases h with h | h
          · rw [hA] at h; cases h
          · rw [hK] at h; cases h⟩
        refine ⟨fun h => ⟨_, rfl, ?_, rfl⟩, fun h => absurd hadm h⟩
        refine inv' _ _ h ?_ ?_
        · rw [hA]; simpa using hi.auto
        · rw [hK, hi.keys]; simp

/-- The fields that together are accepted. -/
structure Accepted (cfg : Config) (fs : List SField) : Prop where
  ok : ∀ f ∈ fs, okField f
  names : ((fs.filter isCol).map (colName cfg)).Nodup
  auto : (idxs autoB (fs.filter isCol)).length ≤ 1
  ro : ∀ f ∈ fs.filter isCol, autoB f = true ∨ keyB f = true → roB f = false

theorem inv_admits {cfg : Config} {cs : List SField} {f : SField} {st : LS} (h : Inv cfg (cs ++ [f]) st) :
    Admits cfg cs f := by
  refine ⟨?_, ?_, ?_⟩
  · have := h.names
    rw [List.map_append, List.nodup_append] at this
    intro hm
    exact this.2.2 _ hm _ (by simp) rfl
  · intro hA
    have := h.auto
    rw [idxs_append, hA] at this
    cases hst : st.auto with
    | none => rw [hst] at this; simp at this
    | some i =>
      rw [hst] at this
      have hl := congrArg List.length this
      simp at hl
      exact hl
  · exact h.ro f (by simp)

theorem fieldLoop_spec (cfg : Config) (fs : List SField) (cs : List SField) (st : LS)
    (hi : Inv cfg cs st) :
    (∀ st', fieldLoop cfg fs st = .ok st' →
      Inv cfg (cs ++ fs.filter isCol) st' ∧ (∀ f ∈ fs, okField f) ∧
      st'.name = fs.foldl (fun n f => nextName cfg f n) st.name) ∧
    fieldLoop cfg fs st ≠ .panic ∧
    ((∀ f ∈ fs, okField f) → (∃ st', Inv cfg (cs ++ fs.filter isCol) st') →
      ∃ st', fieldLoop cfg fs st = .ok st') := by
  induction fs generalizing cs st with
  | nil => simpa [fieldLoop] using hi
  | cons f fs ih =>
    simp only [fieldLoop]
    rw [fieldStep_eq]
    by_cases hok : okField f
    · rw [if_pos hok]
      by_cases hc : isCol f = true
      · rw [if_pos hc]
        obtain ⟨hA, hB⟩ := addColumn_spec cfg cs f st hi
        have hm : f.ty.marker = false := by
          cases hm : f.ty.marker
          · rfl
          · simp [isCol, hm] at hc
        have hnn : ∀ n, nextName cfg f n = n := by intro n; simp [nextName, hm]
        by_cases hadm : Admits cfg cs f
        · obtain ⟨st1, h1, h2, h3⟩ := hA hadm
          rw [h1]
          simp only [Res.ok_bind]
          obtain ⟨i1, i2, i3⟩ := ih (cs ++ [f]) st1 h2
          refine ⟨?_, i2, ?_⟩
          · intro st' hst
            obtain ⟨j1, j2, j3⟩ := i1 st' hst
            refine ⟨?_, ?_, ?_⟩
            · simpa [List.filter_cons, hc] using j1
            · intro g hg
              rcases List.mem_cons.1 hg with rfl | hg
              · exact hok
              · exact j2 g hg
            · rw [List.foldl_cons, hnn, ← h3]; exact j3
          · intro ha ⟨st', hs⟩
            refine i3 (fun g hg => ha g (List.mem_cons_of_mem _ hg)) ⟨st', ?_⟩
            simpa [List.filter_cons, hc] using hs
        · rw [hB hadm]
          refine ⟨by simp, by simp, ?_⟩
          rintro _ ⟨st', hs⟩
          exfalso
          apply hadm
          have hs' : Inv cfg (cs ++ f :: fs.filter isCol) st' := by
            simpa [List.filter_cons, hc] using hs
          -- the prefix of an accepted list is accepted
          refine ⟨?_, ?_, ?_⟩
          · have := hs'.names
            rw [List.map_append, List.nodup_append] at this
            intro hmem
            exact this.2.2 _ hmem _ (by simp) rfl
          · intro hA
            by_contra hne
            have h1 := hs'.auto
            have hlen : (idxs autoB (cs ++ f :: fs.filter isCol)).length ≤ 1 := by
              rw [h1]; cases st'.auto <;> simp
            obtain ⟨i, hmi⟩ := List.exists_mem_of_ne_nil _ hne
            obtain ⟨g, hg, hga⟩ := (mem_idxs _ _ _).1 hmi
            have hil := (List.getElem?_eq_some_iff.1 hg).1
            have m1 : i ∈ idxs autoB (cs ++ f :: fs.filter isCol) :=
              (mem_idxs _ _ _).2 ⟨g, by rw [List.getElem?_append_left hil]; exact hg, hga⟩
            have m2 : cs.length ∈ idxs autoB (cs ++ f :: fs.filter isCol) :=
              (mem_idxs _ _ _).2 ⟨f, by simp, hA⟩
            cases hx : idxs autoB (cs ++ f :: fs.filter isCol) with
            | nil => rw [hx] at m1; cases m1
            | cons a l =>
              rw [hx] at m1 m2 hlen
              have : l = [] := by simpa using hlen
              subst this
              rw [List.mem_singleton] at m1 m2
              omega
          · exact hs'.ro f (by simp)
      · rw [if_neg hc]
        simp only [Res.ok_bind]
        have hi' : Inv cfg cs { st with name := nextName cfg f st.name } :=
          ⟨hi.columns, hi.pos, hi.seen, hi.auto, hi.keys, hi.names, hi.ro⟩
        obtain ⟨i1, i2, i3⟩ := ih cs _ hi'
        have hfil : (f :: fs).filter isCol = fs.filter isCol := by simp [hc]
        rw [hfil]
        refine ⟨?_, i2, fun ha hs => i3 (fun g hg => ha g (List.mem_cons_of_mem _ hg)) hs⟩
        intro st' hst
        obtain ⟨j1, j2, j3⟩ := i1 st' hst
        refine ⟨j1, ?_, ?_⟩
        · intro g hg
          rcases List.mem_cons.1 hg with rfl | hg
          · exact hok
          · exact j2 g hg
        · rw [List.foldl_cons]; exact j3
    · rw [if_neg hok]
      refine ⟨by simp, by simp, fun ha _ => absurd (ha f List.mem_cons_self) hok⟩

theorem inv_init (cfg : Config) (n : Str) : Inv cfg [] { name := n } :=
  ⟨rfl, rfl, by simp, rfl, rfl, by simp, by simp⟩

/-- What the loop over the fields yields. -/
theorem fieldLoop_ok (cfg : Config) (fs : List SField) (n : Str) (st : LS)
    (h : fieldLoop cfg fs { name := n } = .ok st) :
    Inv cfg (fs.filter isCol) st ∧ (∀ f ∈ fs, okField f) ∧
      st.name = fs.foldl (fun n f => nextName cfg f n) n := by
  simpa using (fieldLoop_spec cfg fs [] { name := n } (inv_init cfg n)).1 st h

theorem fieldLoop_iff (cfg : Config) (fs : List SField) (n : Str) :
    (∃ st, fieldLoop cfg fs { name := n } = .ok st) ↔ Accepted cfg fs := by
  constructor
  · rintro ⟨st, h⟩
    obtain ⟨hi, hok, _⟩ := fieldLoop_ok cfg fs n st h
    exact ⟨hok, hi.names, by rw [hi.auto]; cases st.auto <;> simp, hi.ro⟩
  · intro ha
    apply (fieldLoop_spec cfg fs [] { name := n } (inv_init cfg n)).2.2 ha.ok
    have hau := ha.auto
    cases hx : idxs autoB (fs.filter isCol) with
    | nil =>
      exact ⟨{ name := n, columns := mkCols cfg (fs.filter isCol), pos := (fs.filter isCol).length
               seen := (fs.filter isCol).map (colName cfg), keys := idxs keyB (fs.filter isCol) },
        rfl, rfl, fun _ => Iff.rfl, by simpa using hx, rfl, ha.names, ha.ro⟩
    | cons a l =>
      have : l = [] := by
        rw [hx] at hau
        simpa using hau
      subst this
      exact ⟨{ name := n, columns := mkCols cfg (fs.filter isCol), pos := (fs.filter isCol).length
               seen := (fs.filter isCol).map (colName cfg), keys := idxs keyB (fs.filter isCol)
               auto := some a },
        rfl, rfl, fun _ => Iff.rfl, by simpa using hx, rfl, ha.names, ha.ro⟩

theorem fieldLoop_no_panic (cfg : Config) (fs : List SField) (n : Str) :
    fieldLoop cfg fs { name := n } ≠ .panic :=
  (fieldLoop_spec cfg fs [] { name := n } (inv_init cfg n)).2.1

/-! ## Agreement with the specification -/

theorem isLetter_iff (c : Char) : isLetter c = true ↔ letter c := by
  unfold isLetter letter Char.isAlpha Char.isUpper Char.isLower
  have hA : 'A'.val.toNat = 65 := rfl
  simp only [Bool.or_eq_true, Bool.and_eq_true, decide_eq_true_eq, ge_iff_le, UInt32.le_iff_toNat_le]
  have e1 : (65 : UInt32).toNat = 65 := rfl
  have e2 : (90 : UInt32).toNat = 90 := rfl
  have e3 : (97 : UInt32).toNat = 97 := rfl
  have e4 : (122 : UInt32).toNat = 122 := rfl
  have e5 : c.val.toNat = c.toNat := rfl
  have e6 : 'A'.toNat = 65 := rfl
  have e7 : ('\u017f' = 'ſ') := rfl
  rw [e7]
  constructor
  · rintro (((h | h) | h) | h)
    · left; right; simpa [e3, e4, e5] using h
    · left; left; simpa [e1, e2, e5] using h
    · exact .inr (.inl h)
    · exact .inr (.inr h)
  · rintro ((h | h) | h | h)
    · left; left; right; simpa [e1, e2, e5] using h
    · left; left; left; simpa [e3, e4, e5] using h
    · exact .inl (.inr h)
    · exact .inr h

theorem isDigit_iff (c : Char) : isDigit c = true ↔ c.isDigit = true := by
  unfold isDigit Char.isDigit
  simp only [Bool.and_eq_true, decide_eq_true_eq, ge_iff_le, UInt32.le_iff_toNat_le]
  rfl

theorem nameOk_iff (n : Str) : nameOk n = true ↔ ValidName n := by
  unfold ValidName
  cases n with
  | nil => simp [nameOk]
  | cons c cs =>
    simp only [nameOk, Bool.and_eq_true, isLetter_iff, List.all_eq_true, Bool.or_eq_true,
      decide_eq_true_eq, isDigit_iff]
    constructor
    · rintro ⟨h1, h2⟩
      exact ⟨c, cs, rfl, h1, fun d hd => or_assoc.1 (h2 d hd)⟩
    · rintro ⟨c', cs', h, h1, h2⟩
      cases h
      exact ⟨h1, fun d hd => or_assoc.2 (h2 d hd)⟩

theorem idxs_pairwise (cs : List SField) :
    (idxs autoB cs).length ≤ 1 ↔ cs.Pairwise fun f g => ¬(IsAuto f ∧ IsAuto g) := by
  rw [List.pairwise_iff_getElem]
  constructor
  · intro h i j hi hj hij ⟨ha, hb⟩
    have m1 : i ∈ idxs autoB cs := (mem_idxs _ _ _).2 ⟨cs[i], by simp [hi], (autoB_iff _).2 ha⟩
    have m2 : j ∈ idxs autoB cs := (mem_idxs _ _ _).2 ⟨cs[j], by simp [hj], (autoB_iff _).2 hb⟩
    cases hx : idxs autoB cs with
    | nil => rw [hx] at m1; cases m1
    | cons a l =>
      rw [hx] at m1 m2 h
      have : l = [] := by simpa using h
      subst this
      rw [List.mem_singleton] at m1 m2
      omega
  · intro h
    by_contra hlen
    match hx : idxs autoB cs, hlen with
    | [], hlen => simp at hlen
    | [_], hlen => simp at hlen
    | a :: b :: l, _ =>
      have hso := idxs_sorted autoB cs
      rw [hx] at hso
      have hab : a < b := by
        rw [List.pairwise_cons] at hso
        exact hso.1 b (by simp)
      obtain ⟨f, hf, hfa⟩ := (mem_idxs autoB cs a).1 (by rw [hx]; simp)
      obtain ⟨g, hg, hga⟩ := (mem_idxs autoB cs b).1 (by rw [hx]; simp)
      obtain ⟨hi, hfe⟩ := List.getElem?_eq_some_iff.1 hf
      obtain ⟨hj, hge⟩ := List.getElem?_eq_some_iff.1 hg
      refine h a b hi hj hab ⟨?_, ?_⟩
      · rw [hfe]; exact (autoB_iff f).1 hfa
      · rw [hge]; exact (autoB_iff g).1 hga

theorem findAnnotation_nil : findAnnotation [] = none := rfl

theorem annotations_ignore (doc : Option Str) (P : Prop) [Decidable P] :
    annotations doc (if P then doc else none) = none ↔
      (P ∧ ∃ d, doc = some d ∧ Annotated d "ignore".toList) := by
  unfold annotations
  cases doc with
  | none => simp
  | some d =>
    by_cases hP : P
    · rw [if_pos hP]
      simp only [Option.getD_some, hP, true_and, Option.some.injEq, exists_eq_left', annotated_iff]
      cases hf : findAnnotation d with
      | none => simp
      | some fl =>
        simp only [flagLoop_eq, Option.some.injEq, exists_eq_left']
        by_cases hi : "ignore".toList ∈ split ',' fl
        · rw [if_pos hi]; simp only [true_iff]; exact hi
        · rw [if_neg hi]; simp only [reduceCtorEq, false_iff]; exact hi
    · rw [if_neg hP]
      simp [findAnnotation_nil, hP]

theorem annotations_readonly (doc : Option Str) (P : Prop) [Decidable P] (ro : Bool)
    (h : annotations doc (if P then doc else none) = some ro) :
    ro = true ↔ (P ∧ ∃ d, doc = some d ∧ Annotated d "readonly".toList) := by
  unfold annotations at h
  cases doc with
  | none => simp at h; simp [← h]
  | some d =>
    by_cases hP : P
    · rw [if_pos hP] at h
      simp only [Option.getD_some] at h
      simp only [hP, true_and, Option.some.injEq, exists_eq_left', annotated_iff]
      cases hf : findAnnotation d with
      | none => rw [hf] at h; simp at h; simp [← h]
      | some fl =>
        rw [hf] at h
        simp only [flagLoop_eq, Bool.false_or] at h
        split at h
        · cases h
        · simp only [Option.some.injEq] at h
          simp only [Option.some.injEq, exists_eq_left', ← h, decide_eq_true_eq]
    · rw [if_neg hP] at h
      simp [findAnnotation_nil] at h
      simp [← h, hP]

end Verif.Parser
