import Verif.Lemmas.ParserOrder
import Verif.Lemmas.ParserColumns
import Verif.Spec.Gen
import Mathlib.Data.List.Sort

/-!
# Properties of the struct parser

`parseStruct cfg srt env n s` is the parser run on one struct: `cfg` holds the naming function, `srt`
is whatever `sort.Slice` does (`IsSort`), `env` the declarations, `n` the number of structs the walk
may visit.  `Fields env [] (env s.t) out`: read from left to right, the struct has the fields `out`.
-/

namespace Verif.Props

open Verif Verif.Addrs Verif.Parser Verif.Spec.Parser

variable {cfg : Config} {srt : Sorter} {env : Env} {n : Nat} {s : Cache} {t : PTable}

/-! ## Common part -/

private theorem parse_ok (h : parseStruct cfg srt env n s = some (.ok (some t))) :
    ∃ r fs, bfs env n (start env s) none = some r ∧ fs = (srt (indexed r.1)).map (·.2) ∧
      annotations s.doc r.2 = some t.readonly ∧
      (∀ f ∈ fs, okField f) ∧ t.goName = s.name ∧
      t.name = fs.foldl (fun n f => nextName cfg f n) (cfg.rename s.name) ∧
      t.columns = mkCols cfg (fs.filter isCol) ∧ idxs autoB (fs.filter isCol) = t.auto.toList ∧
      t.keys = idxs keyB (fs.filter isCol) ∧ ((fs.filter isCol).map (colName cfg)).Nodup ∧
      (∀ f ∈ fs.filter isCol, autoB f = true ∨ keyB f = true → roB f = false) ∧
      fs.filter isCol ≠ [] := by
  unfold parseStruct at h
  cases hb : bfs env n (start env s) none with
  | none => rw [hb] at h; simp at h
  | some r =>
    rw [hb] at h
    simp only [Option.map_some, Option.some.injEq, finish] at h
    cases ha : annotations s.doc r.2 with
    | none => rw [ha] at h; simp at h
    | some ro =>
      rw [ha] at h
      simp only [Res.bind_eq_ok] at h
      obtain ⟨st, hst, h⟩ := h
      obtain ⟨hi, hok, hn⟩ := fieldLoop_ok cfg _ _ _ hst
      split at h
      · rename_i hlen
        simp only [Res.ok.injEq, Option.some.injEq] at h
        subst h
        refine ⟨r, _, rfl, rfl, ha, hok, rfl, hn, hi.columns, hi.auto, hi.keys, hi.names, hi.ro, ?_⟩
        intro he
        rw [hi.columns, mkCols_length, he] at hlen
        simp at hlen
      · simp at h

private theorem perm_fields (hs : IsSort srt) {out : List Leaf} (ho : Fields env [] (env s.t) out)
    {r : CS × Option Str} (hr : bfs env n (start env s) none = some r) :
    ((srt (indexed r.1)).map (·.2)).Perm (structLeaves out) := by
  have h1 := ((hs (indexed r.1)).1).map (·.2)
  have h2 := bfs_fields_any env s out ho n r hr
  refine h1.trans ?_
  have : (indexed r.1).map (·.2) = r.1.fields.map (·.2) := by simp [indexed]
  rw [this]; exact h2

theorem structLeaves_filter (out : List Leaf) (h : ∀ l ∈ out, isCol l.f = true → l.nonStruct = false) :
    (structLeaves out).filter isCol = columnsOf out := by
  induction out with
  | nil => rfl
  | cons l out ih =>
    have := ih fun x hx => h x (List.mem_cons_of_mem _ hx)
    unfold structLeaves columnsOf at *
    cases hc : isCol l.f with
    | true =>
      have hn := h l List.mem_cons_self hc
      simp [hn, hc, this]
    | false =>
      cases hn : l.nonStruct <;> simp [hn, hc, this]

/-! ## C34 -/

/-- **C34.** An accepted struct has columns with pairwise different names, at positions 0, 1, 2, …. -/
theorem C34_unique_and_consecutive (h : parseStruct cfg srt env n s = some (.ok (some t))) :
    (t.columns.map (·.name)).Nodup ∧
    ∀ (i : Nat) (c : PCol), t.columns[i]? = some c → c.pos = i := by
  obtain ⟨r, fs, _, _, _, _, _, _, hcol, _, _, hnd, _, _⟩ := parse_ok h
  rw [hcol]
  constructor
  · have : (mkCols cfg (fs.filter isCol)).map (·.name) = (fs.filter isCol).map (colName cfg) := by
      simp only [mkCols, List.map_map]
      rw [show ((fun c : PCol => c.name) ∘ fun x : SField × Nat => mkCol cfg x.1 x.2)
        = (colName cfg) ∘ (Prod.fst) from rfl, ← List.map_map, List.zipIdx_map_fst]
    rw [this]; exact hnd
  · intro i c hc
    simp only [mkCols, List.getElem?_map, List.getElem?_zipIdx, Option.map_map, Option.map_eq_some_iff,
      Function.comp] at hc
    obtain ⟨f, _, rfl⟩ := hc
    simp [mkCol]

/-- **C34.** What the parser rejects, and only that: an error is returned exactly for the structs that
are not to be ignored and do not make sense, in particular those in which two columns have the same
name.  (`Acceptable` is defined on the fields in reading order.) -/
theorem C34_rejected_iff (hs : IsSort srt) {out : List Leaf} (ho : Fields env [] (env s.t) out)
    {r : Res (Option PTable)} (h : parseStruct cfg srt env n s = some r) :
    r ≠ .panic ∧
    (r = .err ↔ ¬ Acceptable cfg (structLeaves out) ∧
      ¬ (targets (env s.t) = [] ∧ ∃ d, s.doc = some d ∧ Annotated d "ignore".toList)) := by
  unfold parseStruct at h
  cases hb : bfs env n (start env s) none with
  | none => rw [hb] at h; simp at h
  | some r0 =>
    rw [hb] at h
    simp only [Option.map_some, Option.some.injEq, finish] at h
    have hp := perm_fields hs ho hb
    -- acceptance does not depend on the order
    have hacc : Accepted cfg ((srt (indexed r0.1)).map (·.2)) ↔ Acceptable cfg (structLeaves out) := by
      have hpf := hp.filter isCol
      have hname : ∀ f : SField, (tagHead f.tag = ['-'] ∨ tagHead f.tag = [] ∨ nameOk (tagHead f.tag) = true) ↔
          (tagHead f.tag = ['-'] ∨ tagHead f.tag = [] ∨ ValidName (tagHead f.tag)) := by
        intro f; rw [nameOk_iff]
      constructor
      · intro ha
        refine ⟨fun f hf => (ha.ok f (hp.mem_iff.2 hf)).1,
          fun f hf => (hname f).1 (ha.ok f (hp.mem_iff.2 hf)).2,
          (hpf.map _).nodup_iff.1 ha.names, ?_, ?_⟩
        · refine (hpf.pairwise_iff (fun {x y} hxy => fun hyx => hxy ⟨hyx.2, hyx.1⟩)).1 ?_
          exact (idxs_pairwise _).1 ha.auto
        · intro f hf hk hro
          have := ha.ro f (hpf.mem_iff.2 hf) (hk.imp (autoB_iff f).2 (keyB_iff f).2)
          rw [(roB_iff f).2 hro] at this
          cases this
      · intro ha
        refine ⟨fun f hf => ⟨ha.ptrs f (hp.mem_iff.1 hf), (hname f).2 (ha.tags f (hp.mem_iff.1 hf))⟩,
          (hpf.map _).nodup_iff.2 ha.names, ?_, ?_⟩
        · refine (idxs_pairwise _).2 ?_
          exact (hpf.pairwise_iff (fun {x y} hxy => fun hyx => hxy ⟨hyx.2, hyx.1⟩)).2 ha.auto
        · intro f hf hk
          have := ha.keys f (hpf.mem_iff.1 hf) (hk.imp (autoB_iff f).1 (keyB_iff f).1)
          rw [← roB_iff] at this
          simpa using this
    have hdoc := bfs_doc env n s r0 hb
    have hign : annotations s.doc r0.2 = none ↔
        (targets (env s.t) = [] ∧ ∃ d, s.doc = some d ∧ Annotated d "ignore".toList) := by
      rw [hdoc]; exact annotations_ignore s.doc _
    rw [← hign, ← hacc, ← fieldLoop_iff cfg _ (cfg.rename s.name)]
    subst h
    cases ha : annotations s.doc r0.2 with
    | none => simp
    | some ro =>
      simp only [reduceCtorEq, not_false_eq_true, and_true]
      have hnp := fieldLoop_no_panic cfg ((srt (indexed r0.1)).map (·.2)) (cfg.rename s.name)
      cases hl : fieldLoop cfg ((srt (indexed r0.1)).map (·.2)) { name := cfg.rename s.name } with
      | panic => exact absurd hl hnp
      | err => simp
      | ok st =>
        simp only [Res.ok_bind]
        split <;> simp

/-! ## C35 -/

private theorem cols_perm (hs : IsSort srt) {out : List Leaf} (ho : Fields env [] (env s.t) out)
    (h : parseStruct cfg srt env n s = some (.ok (some t))) :
    (t.columns.map fun c => (c.path, c.name)).Perm
      (((structLeaves out).filter isCol).map fun f => (f.path, colName cfg f)) := by
  obtain ⟨r, fs, hb, rfl, _, _, _, _, hcol, _⟩ := parse_ok h
  have hp := (perm_fields hs ho hb).filter isCol
  rw [hcol]
  have : (mkCols cfg (((srt (indexed r.1)).map (·.2)).filter isCol)).map (fun c => (c.path, c.name))
      = (((srt (indexed r.1)).map (·.2)).filter isCol).map fun f => (f.path, colName cfg f) := by
    simp only [mkCols, List.map_map]
    rw [show ((fun c : PCol => (c.path, c.name)) ∘ fun x : SField × Nat => mkCol cfg x.1 x.2)
      = (fun f : SField => (f.path, colName cfg f)) ∘ Prod.fst from rfl, ← List.map_map,
      List.zipIdx_map_fst]
  rw [this]
  exact hp.map _

private theorem leaves_cons (x : Leaf) (out : List Leaf) :
    ((structLeaves (x :: out)).filter isCol).length
      = (if isCol x.f && !x.nonStruct then 1 else 0) + ((structLeaves out).filter isCol).length := by
  unfold structLeaves
  cases h : isCol x.f <;> cases h' : x.nonStruct <;> (simp [h, h']; try omega)

private theorem columnsOf_cons (x : Leaf) (out : List Leaf) :
    (columnsOf (x :: out)).length = (if isCol x.f then 1 else 0) + (columnsOf out).length := by
  cases h : isCol x.f <;>
    simp only [columnsOf, List.filter_cons, List.map_cons, h, if_true, if_false, Bool.false_eq_true,
      List.length_cons] <;> omega

/-- **C35**, except for embedded types that are not structs: the columns of an accepted struct are
its exported fields that are neither embedded structs nor tagged `-` nor table-name markers, each
under the name of its tag or else of the naming function.  Holds at any nesting depth. -/
theorem C35_columns_partial (hs : IsSort srt) {out : List Leaf} (ho : Fields env [] (env s.t) out)
    (hn : ∀ l ∈ out, isCol l.f = true → l.nonStruct = false)
    (h : parseStruct cfg srt env n s = some (.ok (some t))) :
    (t.columns.map fun c => (c.path, c.name)).Perm
      ((columnsOf out).map fun f => (f.path, colName cfg f)) := by
  rw [← structLeaves_filter out hn]
  exact cols_perm hs ho h

/-- **C35 fails** for every struct embedding a type that is not declared as a struct literal (a
defined string, an alias, an instantiated generic struct, …): the field is silently left out. -/
theorem C35_embedded_non_struct_lost (hs : IsSort srt) {out : List Leaf}
    (ho : Fields env [] (env s.t) out) (l : Leaf) (hl : l ∈ out) (hc : isCol l.f = true)
    (hn : l.nonStruct = true) (h : parseStruct cfg srt env n s = some (.ok (some t))) :
    t.columns.length < (columnsOf out).length := by
  have hp := (cols_perm hs ho h).length_eq
  rw [List.length_map, List.length_map] at hp
  rw [hp]
  clear hp h ho
  induction out with
  | nil => cases hl
  | cons x out ih =>
    have hle : ∀ o : List Leaf, ((structLeaves o).filter isCol).length ≤ (columnsOf o).length := by
      intro o
      induction o with
      | nil => simp [structLeaves, columnsOf]
      | cons y o ih =>
        rw [leaves_cons, columnsOf_cons]
        cases isCol y.f <;> cases y.nonStruct <;> simp <;> omega
    rw [leaves_cons, columnsOf_cons]
    rcases List.mem_cons.1 hl with rfl | hl
    · have := hle out
      simp only [hn, hc, Bool.not_true, Bool.and_false, Bool.false_eq_true, if_false, if_true]
      omega
    · have := ih hl
      cases isCol x.f <;> cases x.nonStruct <;> simp <;> omega

/-! ## C36 -/

/-- **C36** for structs with at most two levels of embedding in which only the last declaration of a
struct may declare several names: the columns are in reading order.  The limits are needed, see
`C36_grouped_names_misordered` and `C36_deep_misordered`. -/
theorem C36_declaration_order_partial (hs : IsSort srt) {out : List Leaf}
    (ho : Fields env [] (env s.t) out)
    (hl : Levels env 2 (env s.t)) (h1 : ∀ j, Reach env s.t j → OneName (env j))
    (h : parseStruct cfg srt env n s = some (.ok (some t))) :
    t.columns.map (fun c => (c.path, c.name))
      = ((structLeaves out).filter isCol).map fun f => (f.path, colName cfg f) := by
  obtain ⟨r, fs, hb, rfl, _, _, _, _, hcol, _⟩ := parse_ok h
  rw [sorted_fields env s srt hs out ho hl h1 n r hb] at hcol
  rw [hcol]
  simp only [mkCols, List.map_map]
  rw [show ((fun c : PCol => (c.path, c.name)) ∘ fun x : SField × Nat => mkCol cfg x.1 x.2)
      = (fun f : SField => (f.path, colName cfg f)) ∘ Prod.fst from rfl, ← List.map_map,
      List.zipIdx_map_fst]

private theorem mkCols_map (fs : List SField) :
    (mkCols cfg fs).map (fun c => (c.path, c.name)) = fs.map fun f => (f.path, colName cfg f) := by
  simp only [mkCols, List.map_map]
  rw [show ((fun c : PCol => (c.path, c.name)) ∘ fun x : SField × Nat => mkCol cfg x.1 x.2)
      = (fun f : SField => (f.path, colName cfg f)) ∘ Prod.fst from rfl, ← List.map_map,
      List.zipIdx_map_fst]

/-- The columns of an accepted struct, from the sorted fields. -/
theorem parse_columns (h : parseStruct cfg srt env n s = some (.ok (some t))) {r : CS × Option Str}
    (hb : bfs env n (start env s) none = some r) :
    t.columns.map (fun c => (c.path, c.name))
      = (((srt (indexed r.1)).map (·.2)).filter isCol).map fun f => (f.path, colName cfg f) := by
  obtain ⟨r', fs, hb', rfl, _, _, _, _, hcol, _⟩ := parse_ok h
  rw [hb] at hb'
  cases hb'
  rw [hcol, mkCols_map]

private theorem fields_append {anc : List Seg} (a b : List Decl) (out : List Leaf)
    (h : Fields env anc (a ++ b) out) : ∃ o₁ o₂, out = o₁ ++ o₂ ∧ Fields env anc a o₁ ∧ Fields env anc b o₂ := by
  induction a generalizing out with
  | nil => exact ⟨[], out, rfl, .nil _, h⟩
  | cons d a ih =>
    cases h with
    | named ns ty tag h =>
      obtain ⟨o₁, o₂, rfl, h1, h2⟩ := ih _ h
      exact ⟨_, o₂, (List.append_assoc _ _ _).symm, .named ns ty tag h1, h2⟩
    | other nm e ty tag h =>
      obtain ⟨o₁, o₂, rfl, h1, h2⟩ := ih _ h
      exact ⟨_, o₂, rfl, .other nm e ty tag h1, h2⟩
    | emb nm e ty tag id hs h =>
      obtain ⟨o₁, o₂, rfl, h1, h2⟩ := ih _ h
      exact ⟨_, o₂, by simp, .emb nm e ty tag id hs h1, h2⟩

private theorem fields_functional {anc : List Seg} {ds : List Decl} {o₁ o₂ : List Leaf}
    (h₁ : Fields env anc ds o₁) (h₂ : Fields env anc ds o₂) : o₁ = o₂ := by
  induction h₁ generalizing o₂ with
  | nil => cases h₂; rfl
  | named ns ty tag _ ih => cases h₂ with | named _ _ _ h => rw [ih h]
  | other nm e ty tag _ ih => cases h₂ with | other _ _ _ _ h => rw [ih h]
  | emb nm e ty tag id _ _ ih1 ih2 =>
    cases h₂ with
    | emb _ _ _ _ _ hs h => rw [ih1 hs, ih2 h]

/-- Two members of a list without duplicates cannot stand in both orders. -/
private theorem not_both {α : Type} {l : List α} (hn : l.Nodup) {a b : α} (h1 : [a, b].Sublist l)
    (h2 : [b, a].Sublist l) : False := by
  induction l with
  | nil => cases h1
  | cons x l ih =>
    rw [List.nodup_cons] at hn
    cases h1 with
    | cons _ h1 =>
      cases h2 with
      | cons _ h2 => exact ih hn.2 h1 h2
      | cons_cons _ h2 => exact hn.1 (h1.subset (by simp))
    | cons_cons _ h1 =>
      cases h2 with
      | cons _ h2 => exact hn.1 (h2.subset (by simp))
      | cons_cons _ h2 => exact hn.1 (h2.subset (by simp))

/-- **C36 fails** for every struct with a declaration of three or more names (`A, B, C int`) followed
by another declaration: if the third name and the first of the next declaration become columns, the
columns are not in reading order, whatever sorting algorithm is used. -/
theorem C36_grouped_names_misordered (hs : IsSort srt) {out : List Leaf}
    (ho : Fields env [] (env s.t) out) (hl : Levels env 2 (env s.t))
    (pre post : List Decl) (a b c d : Str × Bool) (ns ns' : List (Str × Bool)) (ty ty' : FType)
    (tag tag' : Str)
    (hd : env s.t = pre ++ .named (a :: b :: c :: ns) ty tag :: .named (d :: ns') ty' tag' :: post)
    (hc1 : isCol ⟨c.1, ty, c.2, false, [], tag⟩ = true)
    (hc2 : isCol ⟨d.1, ty', d.2, false, [], tag'⟩ = true)
    (h : parseStruct cfg srt env n s = some (.ok (some t))) :
    t.columns.map (fun c => (c.path, c.name))
      ≠ ((structLeaves out).filter isCol).map fun f => (f.path, colName cfg f) := by
  obtain ⟨r, fs, hb, rfl, _, _, _, _, hcol, _, _, hnd, _⟩ := parse_ok h
  have h1 := grouped_before env s srt hs hl n r hb pre post a b c ns ns' ty ty' tag tag' d hd
  have h1 := (h1.filter isCol).map fun f => (f.path, colName cfg f)
  rw [List.filter_cons_of_pos hc2, List.filter_cons_of_pos hc1, ← mkCols_map (((srt (indexed r.1)).map (·.2)).filter isCol), ← hcol] at h1
  -- the reading order
  rw [hd] at ho
  obtain ⟨o₁, o₂, rfl, _, ho₂⟩ := fields_append _ _ _ ho
  have h2 : [(⟨c.1, ty, c.2, false, [], tag⟩ : SField), ⟨d.1, ty', d.2, false, [], tag'⟩].Sublist
      (structLeaves (o₁ ++ o₂)) := by
    cases ho₂ with
    | named _ _ _ h3 =>
      cases h3 with
      | named _ _ _ h4 =>
        rw [structLeaves_append]
        refine List.Sublist.trans ?_ (List.sublist_append_right _ _)
        rw [structLeaves_append, structLeaves_append, structLeaves_named, structLeaves_named]
        simp only [List.map_cons, List.cons_append]
        refine List.Sublist.cons _ (List.Sublist.cons _ (List.Sublist.cons_cons _ ?_))
        exact List.singleton_sublist.2 (by simp)
  have h2 := (h2.filter isCol).map fun f => (f.path, colName cfg f)
  rw [List.filter_cons_of_pos hc1, List.filter_cons_of_pos hc2] at h2
  intro he
  rw [← he] at h2
  refine not_both ?_ h1 h2
  rw [hcol, mkCols_map]
  refine List.Nodup.of_map Prod.snd ?_
  rw [List.map_map]
  exact hnd

/-! ## C37 -/

/-- **C37.** The columns of an accepted struct come from fields `cs` (those of C35, in some order);
the auto-increment column is the only one tagged so, the keys are exactly the columns tagged as
primary key and not auto-increment, in column order; neither is readonly. -/
theorem C37_keys (hs : IsSort srt) {out : List Leaf} (ho : Fields env [] (env s.t) out)
    (h : parseStruct cfg srt env n s = some (.ok (some t))) :
    ∃ cs : List SField, cs.Perm ((structLeaves out).filter isCol) ∧
      t.columns.map (fun c => (c.path, c.name)) = cs.map (fun f => (f.path, colName cfg f)) ∧
      (∀ i, t.auto = some i ↔ ∃ f, cs[i]? = some f ∧ IsAuto f) ∧
      t.keys.Pairwise (· < ·) ∧
      (∀ i, i ∈ t.keys ↔ ∃ f, cs[i]? = some f ∧ IsKey f) ∧
      (∀ (i : Nat) (c : PCol), t.columns[i]? = some c →
        (c.readonly = true ↔ ∃ f, cs[i]? = some f ∧ IsReadonly f) ∧
        (t.auto = some i ∨ i ∈ t.keys → c.readonly = false)) := by
  obtain ⟨r, fs, hb, rfl, _, _, _, _, hcol, hauto, hkeys, _, hro, _⟩ := parse_ok h
  have hp := (perm_fields hs ho hb).filter isCol
  generalize ((srt (indexed r.1)).map (·.2)).filter isCol = cs at *
  have ha : ∀ i, t.auto = some i ↔ ∃ f, cs[i]? = some f ∧ IsAuto f := by
    intro i
    have : t.auto = some i ↔ i ∈ t.auto.toList := by simp
    rw [this, ← hauto, mem_idxs]
    simp only [autoB_iff]
  have hk : ∀ i, i ∈ t.keys ↔ ∃ f, cs[i]? = some f ∧ IsKey f := by
    intro i
    rw [hkeys, mem_idxs]
    simp only [keyB_iff]
  refine ⟨cs, hp, by rw [hcol, mkCols_map], ha, by rw [hkeys]; exact idxs_sorted _ _, hk, ?_⟩
  intro i c hc
  rw [hcol] at hc
  simp only [mkCols, List.getElem?_map, List.getElem?_zipIdx, Option.map_map, Option.map_eq_some_iff,
      Function.comp] at hc
  obtain ⟨f, hf, rfl⟩ := hc
  constructor
  · simp only [mkCol, roB_iff, hf, Option.some.injEq, exists_eq_left']
  · rintro (h1 | h1)
    · obtain ⟨g, hg, h2⟩ := (ha i).1 h1
      rw [hf] at hg; cases hg
      exact hro f (List.mem_of_getElem? hf) (.inl ((autoB_iff f).2 h2))
    · obtain ⟨g, hg, h2⟩ := (hk i).1 h1
      rw [hf] at hg; cases hg
      exact hro f (List.mem_of_getElem? hf) (.inr ((keyB_iff f).2 h2))

/-! ## C38 -/

/-- **C38** for structs embedding no struct: the ignore annotation suppresses the table. -/
theorem C38_ignore_partial (ht : targets (env s.t) = []) (d : Str) (hd : s.doc = some d)
    (ha : Annotated d "ignore".toList) {r : Res (Option PTable)}
    (h : parseStruct cfg srt env n s = some r) : r = .ok none := by
  unfold parseStruct at h
  cases hb : bfs env n (start env s) none with
  | none => rw [hb] at h; simp at h
  | some r0 =>
    rw [hb] at h
    simp only [Option.map_some, Option.some.injEq, finish] at h
    have : annotations s.doc r0.2 = none := by
      rw [bfs_doc env n s r0 hb]
      exact (annotations_ignore s.doc _).2 ⟨ht, d, hd, ha⟩
    rw [this] at h
    exact h.symm

/-- **C38** for structs embedding no struct: the table is readonly exactly with the annotation. -/
theorem C38_readonly_partial (ht : targets (env s.t) = [])
    (h : parseStruct cfg srt env n s = some (.ok (some t))) :
    t.readonly = true ↔ ∃ d, s.doc = some d ∧ Annotated d "readonly".toList := by
  obtain ⟨r, fs, hb, _, ha, _⟩ := parse_ok h
  rw [bfs_doc env n s r hb] at ha
  rw [annotations_readonly s.doc _ _ ha]
  simp [ht]

private theorem declLoop_doc (f : QItem) (d : Option Str) (i : Nat) (st : CS) (ds : List Decl) :
    declLoop env { f with doc := d } i st ds = declLoop env f i st ds := by
  have hn : ∀ (ty : FType) (tag : Str) (ns : List (Str × Bool)) (k : Nat) (st : CS),
      namesLoop { f with doc := d } ty tag k st ns = namesLoop f ty tag k st ns := by
    intro ty tag ns
    induction ns with
    | nil => intros; rfl
    | cons p ns ih => intro k st; exact ih _ _
  have hs : ∀ (i : Nat) (st : CS) (dc : Decl),
      declStep env { f with doc := d } i st dc = declStep env f i st dc := by
    intro i st dc
    cases dc with
    | named ns ty tag => exact hn _ _ _ _ _
    | embed nm e ty tag t => cases t <;> rfl
  induction ds generalizing i st with
  | nil => rfl
  | cons dc ds ih => simp only [declLoop, hs, ih]

/-- **C38 fails** for every struct embedding a struct: its comment has no effect at all. -/
theorem C38_comment_ignored_when_embedding (ht : targets (env s.t) ≠ []) :
    parseStruct cfg srt env n s = parseStruct cfg srt env n { s with doc := none } := by
  have hb : bfs env n (start env s) none = bfs env n (start env { s with doc := none }) none := by
    cases n with
    | zero => rfl
    | succ n =>
      simp only [bfs, start]
      have h0 := declLoop_doc (env := env) ⟨nilSlice, [], none, env s.t⟩ s.doc 0
        { heap := ⟨fun _ _ => 0, 1⟩, fields := [], queue := [] } (env s.t)
      simp only at h0
      rw [h0]
      generalize hst : declLoop env _ _ _ _ = st
      have hq : st.queue ≠ [] := by
        have := (declLoop_shape env ⟨nilSlice, [], none, env s.t⟩ [] 0
          { heap := ⟨fun _ _ => 0, 1⟩, fields := [], queue := [] } (env s.t) [] .nil).2
        rw [hst] at this
        intro he
        rw [he] at this
        cases hx : targets (env s.t) with
        | nil => exact ht hx
        | cons id l =>
          obtain ⟨k, hk, _⟩ := mem_kdI env [] [] 0 (env s.t) id (by rw [hx]; simp)
          simp only [List.nil_append] at this
          cases hkd : kdI env [] [] 0 (env s.t) with
          | nil => rw [hkd] at hk; cases hk
          | cons _ _ => rw [hkd] at this; cases this
      cases n with
      | zero => rfl
      | succ n =>
        simp only [bfs]
        cases hx : st.queue with
        | nil => exact absurd hx hq
        | cons _ _ => rfl
  unfold parseStruct
  rw [hb]
  cases hr : bfs env n (start env { s with doc := none }) none with
  | none => rfl
  | some r =>
    have h2 := bfs_doc env n _ r hr
    simp only [if_neg ht] at h2
    simp only [Option.map_some, finish, h2]
    cases hd : s.doc with
    | none => rfl
    | some d => rfl

/-! ## C39 -/

/-- **C39.** An option is seen exactly when some entry, trimmed and cut at its first colon, is that
option. -/
theorem C39_options (es ks : List Str) :
    hasOpts (parseTag es) ks = true ↔ ∃ k ∈ ks, ∃ e ∈ es, OptOf e k := by
  rw [hasOpts_iff]
  constructor
  · rintro ⟨k, hk, h⟩
    obtain ⟨e, he, ho⟩ := (mem_parseTag _ _).1 h
    exact ⟨k, hk, e, he, ho⟩
  · rintro ⟨k, hk, e, he, ho⟩
    exact ⟨k, hk, (mem_parseTag _ _).2 ⟨e, he, ho⟩⟩

/-- **C39.** Order and duplicates do not matter. -/
theorem C39_order (es es' ks ks' : List Str) (he : ∀ e, e ∈ es ↔ e ∈ es') (hk : ∀ k, k ∈ ks ↔ k ∈ ks') :
    hasOpts (parseTag es) ks = hasOpts (parseTag es') ks' := by
  rw [Bool.eq_iff_iff, C39_options, C39_options]
  simp only [he, hk]

/-! ## C61 -/

/-- **C61**, except for structs embedding themselves: the parser ends on a struct exactly when
embedding, followed from that struct, is well-founded. -/
theorem C61_terminates_iff_partial :
    (∃ n r, parseStruct cfg srt env n s = some r) ↔ Acc (Embedded env) s.t := by
  rw [← bfs_terminates_iff]
  unfold parseStruct
  constructor
  · rintro ⟨n, r, h⟩
    cases hb : bfs env n (start env s) none with
    | none => rw [hb] at h; simp at h
    | some r => exact ⟨n, r, hb⟩
  · rintro ⟨n, r, h⟩
    exact ⟨n, _, by rw [h]; rfl⟩

/-- **C61 fails**: on a struct that embeds a pointer to itself, directly or through other structs —
valid Go — the parser never ends. -/
theorem C61_self_embedding_diverges (j : Nat) (hr : Reach env s.t j) (k : Nat) (hj : Embedded env k j)
    (hk : Reach env k j) : ∀ n, parseStruct cfg srt env n s = none := by
  have hcyc : ∀ a, Acc (Embedded env) a → ∀ b, Reach env a b → Acc (Embedded env) b := by
    intro a ha b hb
    induction hb with
    | refl => exact ha
    | step h _ ih => exact ih (ha.inv h)
  have hno : ∀ a, Acc (Embedded env) a → ∀ b, Embedded env b a → Reach env b a → False := by
    intro a ha
    induction ha with
    | intro a _ ih =>
      intro b hb hba
      -- the last step of the way back
      cases hba with
      | refl => exact ih a hb a hb (.refl a)
      | step h hr =>
        refine ih b hb _ h ?_
        have trans : ∀ x y z, Reach env x y → Embedded env z y → Reach env x z := by
          intro x y z hxy hz
          induction hxy with
          | refl => exact .step hz (.refl _)
          | step h _ ih => exact .step h (ih hz)
        exact trans _ _ _ hr hb
  intro n
  cases h : parseStruct cfg srt env n s with
  | none => rfl
  | some r =>
    have := C61_terminates_iff_partial.1 ⟨n, r, h⟩
    exact absurd (hno j (hcyc _ this j hr) k hj hk) id

/-- The number of steps allowed does not matter once the parser ends. -/
theorem C61_deterministic (m : Nat) {r r' : Res (Option PTable)}
    (h : parseStruct cfg srt env n s = some r) (h' : parseStruct cfg srt env m s = some r') : r = r' := by
  unfold parseStruct at h h'
  cases hb : bfs env n (start env s) none with
  | none => rw [hb] at h; simp at h
  | some x =>
    cases hb' : bfs env m (start env s) none with
    | none => rw [hb'] at h'; simp at h'
    | some y =>
      have e1 := bfs_mono_le env n (max n m) (Nat.le_max_left _ _) _ _ x hb
      have e2 := bfs_mono_le env m (max n m) (Nat.le_max_right _ _) _ _ y hb'
      rw [e1] at e2
      cases e2
      rw [hb] at h
      rw [hb'] at h'
      rw [h] at h'
      exact Option.some.inj h'

/-! ## C63 -/

/-- **C63 fails**: an embedded struct tagged `-` is not left out; each of its columns is a column of
the table. -/
theorem C63_excluded_embedded_struct_kept (hs : IsSort srt) {out sub : List Leaf}
    (ho : Fields env [] (env s.t) out) (pre post : List Decl) (nm : Str) (e : Bool) (ty : FType)
    (tag : Str) (id : Nat) (hd : env s.t = pre ++ .embed nm e ty tag (some id) :: post)
    (_htag : tagHead tag = ['-'])
    (hsub : Fields env [⟨String.ofList nm, decide (0 < ty.ptrs)⟩] (env id) sub)
    (h : parseStruct cfg srt env n s = some (.ok (some t))) :
    ∀ f ∈ structLeaves sub, isCol f = true → ∃ c ∈ t.columns, c.path = f.path ∧ c.name = colName cfg f := by
  intro f hf hc
  have hp := cols_perm hs ho h
  rw [hd] at ho
  obtain ⟨o₁, o₂, rfl, _, ho₂⟩ := fields_append _ _ _ ho
  have hm : f ∈ structLeaves (o₁ ++ o₂) := by
    cases ho₂ with
    | emb _ _ _ _ _ hs' h4 =>
      have := fields_functional hs' hsub
      subst this
      rw [structLeaves_append]
      refine List.mem_append_right _ ?_
      unfold structLeaves at hf ⊢
      simp only [List.mem_map, List.mem_filter] at hf ⊢
      obtain ⟨l, ⟨h1, h2⟩, h3⟩ := hf
      exact ⟨l, ⟨by simp [h1], h2⟩, h3⟩
  have : (f.path, colName cfg f) ∈ t.columns.map fun c => (c.path, c.name) :=
    hp.mem_iff.2 (List.mem_map.2 ⟨f, List.mem_filter.2 ⟨hm, hc⟩, rfl⟩)
  obtain ⟨c, hc1, hc2⟩ := List.mem_map.1 this
  simp only [Prod.mk.injEq] at hc2
  exact ⟨c, hc1, hc2.1, hc2.2⟩

/-! ## C64 -/

private theorem foldl_name (fs : List SField) (x : Str) (h : ∀ f ∈ fs, f.ty.marker = false) :
    fs.foldl (fun n f => nextName cfg f n) x = x := by
  induction fs generalizing x with
  | nil => rfl
  | cons f fs ih =>
    rw [List.foldl_cons, ih _ fun g hg => h g (List.mem_cons_of_mem _ hg)]
    simp [nextName, h f List.mem_cons_self]

private theorem foldl_name_one (fs : List SField) (x : Str) (m : SField) (h : fs.filter (·.ty.marker) = [m]) :
    fs.foldl (fun n f => nextName cfg f n) x = nextName cfg m x := by
  induction fs generalizing x with
  | nil => cases h
  | cons f fs ih =>
    cases hf : f.ty.marker with
    | true =>
      rw [List.filter_cons, if_pos hf] at h
      obtain ⟨rfl, h2⟩ := List.cons.inj h
      rw [List.foldl_cons, foldl_name]
      intro g hg
      by_contra hne
      have : g ∈ fs.filter (·.ty.marker) := List.mem_filter.2 ⟨hg, by simpa using hne⟩
      rw [h2] at this
      cases this
    | false =>
      rw [List.filter_cons_of_neg (by simp [hf])] at h
      rw [List.foldl_cons, ih _ h]
      simp [nextName, hf]

/-- **C64** for structs with at most one table-name marker, which has a tag: the table is named by
the marker, without one by the naming function applied to the name of the struct. -/
theorem C64_table_name_partial (hs : IsSort srt) {out : List Leaf} (ho : Fields env [] (env s.t) out)
    (h : parseStruct cfg srt env n s = some (.ok (some t))) :
    ((∀ f ∈ structLeaves out, f.ty.marker = false) → t.name = cfg.rename s.name) ∧
    (∀ m : SField, (structLeaves out).filter (·.ty.marker) = [m] → tagHead m.tag ≠ [] → tagHead m.tag ≠ ['-'] →
      t.name = tagHead m.tag) := by
  obtain ⟨r, fs, hb, rfl, _, _, _, hn, _⟩ := parse_ok h
  have hp := perm_fields hs ho hb
  constructor
  · intro hm
    rw [hn, foldl_name]
    exact fun f hf => hm f (hp.mem_iff.1 hf)
  · intro m hm h1 h2
    have hm' := (hp.filter (·.ty.marker))
    rw [hm, List.perm_singleton] at hm'
    rw [hn, foldl_name_one _ _ m hm']
    have hmk : m.ty.marker = true := by
      have : m ∈ (structLeaves out).filter (·.ty.marker) := by rw [hm]; simp
      exact (List.mem_filter.1 this).2
    simp [nextName, hmk, h2, colName, h1]

/-- **C64 fails** with a marker that has no name in its tag: the table is named after the marker
field instead of the struct. -/
theorem C64_untagged_marker_renames (hs : IsSort srt) {out : List Leaf} (ho : Fields env [] (env s.t) out)
    (h : parseStruct cfg srt env n s = some (.ok (some t))) (m : SField)
    (hm : (structLeaves out).filter (·.ty.marker) = [m]) (h1 : tagHead m.tag = [])
    (h2 : cfg.rename m.name ≠ []) : t.name = cfg.rename m.name := by
  obtain ⟨r, fs, hb, rfl, _, _, _, hn, _⟩ := parse_ok h
  have hp := perm_fields hs ho hb
  have hm' := (hp.filter (·.ty.marker))
  rw [hm, List.perm_singleton] at hm'
  rw [hn, foldl_name_one _ _ m hm']
  have hmk : m.ty.marker = true := by
    have : m ∈ (structLeaves out).filter (·.ty.marker) := by rw [hm]; simp
    exact (List.mem_filter.1 this).2
  simp [nextName, hmk, colName, h1, h2]

/-! ## C65 -/

/-- **C65**, except for two letters outside of ASCII: a name given in a tag is a letter followed by letters,
digits and underscores.  (`ValidName` also allows `ſ` and the Kelvin sign, see `C65_not_ascii`.) -/
theorem C65_tag_names_partial (hs : IsSort srt) {out : List Leaf} (ho : Fields env [] (env s.t) out)
    (h : parseStruct cfg srt env n s = some (.ok (some t))) :
    ∀ c ∈ t.columns, (∃ f ∈ structLeaves out, isCol f = true ∧ c.path = f.path ∧ tagHead f.tag = [] ∧
        c.name = cfg.rename f.name) ∨ ValidName c.name := by
  obtain ⟨r, fs, hb, rfl, _, hok, _, _, hcol, _⟩ := parse_ok h
  have hp := perm_fields hs ho hb
  intro c hc
  rw [hcol] at hc
  simp only [mkCols, List.mem_map] at hc
  obtain ⟨⟨f, i⟩, hf, rfl⟩ := hc
  have hf := List.fst_mem_of_mem_zipIdx hf
  obtain ⟨hf, hcf⟩ := List.mem_filter.1 hf
  simp only [mkCol, colName]
  rcases (hok f hf).2 with h1 | h1 | h1
  · simp [isCol, h1] at hcf
  · exact .inl ⟨f, hp.mem_iff.1 hf, hcf, rfl, h1, by rw [if_pos h1]⟩
  · right
    rw [if_neg (by intro h0; rw [h0] at h1; cases h1)]
    exact (nameOk_iff _).1 h1

/-- The same for the name of the table: it comes from the naming function, applied to the name of the struct or of a table-name
marker, or it is a valid name. -/
theorem C65_table_names_partial (hs : IsSort srt) {out : List Leaf} (ho : Fields env [] (env s.t) out)
    (h : parseStruct cfg srt env n s = some (.ok (some t))) :
    t.name = cfg.rename s.name ∨ (∃ f ∈ structLeaves out, f.ty.marker = true ∧ t.name = cfg.rename f.name) ∨ ValidName t.name := by
  obtain ⟨r, fs, hb, rfl, _, hok, _, hn, _⟩ := parse_ok h
  have hp := perm_fields hs ho hb
  rw [hn]
  have key : ∀ (fs : List SField) (x : Str), (∀ f ∈ fs, okField f) →
      fs.foldl (fun n f => nextName cfg f n) x = x ∨
      (∃ f ∈ fs, f.ty.marker = true ∧ fs.foldl (fun n f => nextName cfg f n) x = cfg.rename f.name) ∨
      ValidName (fs.foldl (fun n f => nextName cfg f n) x) := by
    intro fs
    induction fs with
    | nil => intro x _; exact .inl rfl
    | cons f fs ih =>
      intro x hx
      rw [List.foldl_cons]
      rcases ih (nextName cfg f x) (fun g hg => hx g (List.mem_cons_of_mem _ hg)) with h1 | ⟨g, hg, h1⟩ | h1
      · rw [h1]
        unfold nextName
        split
        · rename_i hm
          rcases (hx f List.mem_cons_self).2 with h2 | h2 | h2
          · exact absurd h2 hm.2.1
          · exact .inr (.inl ⟨f, List.mem_cons_self, hm.1, by rw [colName, if_pos h2]⟩)
          · right; right
            rw [colName, if_neg (by intro h0; rw [h0] at h2; cases h2)]
            exact (nameOk_iff _).1 h2
        · exact .inl rfl
      · exact .inr (.inl ⟨g, List.mem_cons_of_mem _ hg, h1⟩)
      · exact .inr (.inr h1)
  rcases key _ (cfg.rename s.name) hok with h1 | ⟨f, hf, h1⟩ | h1
  · exact .inl h1
  · exact .inr (.inl ⟨f, hp.mem_iff.1 hf, h1⟩)
  · exact .inr (.inr h1)

end Verif.Props
