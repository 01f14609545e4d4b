import Verif.Model.Emit
import Verif.Spec.Gen
import Verif.Props.Parser
import Verif.Props.Addrs

/-!
# Properties of the set of generated methods

`methods c t` are the names of the methods written for the table `t`.
-/

namespace Verif.Props

open Verif Verif.Addrs Verif.Parser Verif.Emit Verif.Spec.Parser

variable {cfg : Config} {srt : Sorter} {env : Env} {n : Nat} {s : Cache} {t : PTable} {c : Ctx}

/-! ## C38: methods of readonly tables -/

/-- The methods that write. -/
def writeMethods : List Str :=
  ["Values", "InsertColumns", "InsertPlaceholders", "InsertOneStmt", "UpdateOneByPKStmt"].map String.toList

private theorem mem_when (b : Bool) (x : String) (m : Str) : m ∈ when b x ↔ b = true ∧ m = x.toList := by
  unfold when; cases b <;> simp

/-- **C38.** A readonly table has no write methods; the methods for reading do not depend on it. -/
theorem C38_readonly_no_write_methods (hr : t.readonly = true) :
    (∀ m ∈ writeMethods, m ∉ fixed c t) ∧
    ∀ m, m ∉ writeMethods → (m ∈ fixed c t ↔ m ∈ fixed c { t with readonly := false }) := by
  constructor
  · intro m hm
    simp only [writeMethods, List.map_cons, List.map_nil, List.mem_cons, List.not_mem_nil, or_false] at hm
    simp only [fixed, List.mem_append, mem_when, hr, Bool.not_true, Bool.false_and, Bool.false_eq_true,
      false_and, or_false, Bool.and_false]
    rcases hm with rfl | rfl | rfl | rfl | rfl <;> simp
  · intro m hm
    simp only [writeMethods, List.map_cons, List.map_nil, List.mem_cons, List.not_mem_nil, or_false,
      not_or] at hm
    simp only [fixed, List.mem_append, mem_when, hr, Bool.not_true, Bool.not_false, Bool.false_and,
      Bool.false_eq_true, or_false, Bool.and_false, Bool.true_and, Bool.and_true, insertCols,
      nonKeyCols, hasPK, hm.1, hm.2.1, hm.2.2.1, hm.2.2.2.1, hm.2.2.2.2, and_false]

/-- **C38**, from the comment to the methods, for structs embedding no struct. -/
theorem C38_annotated_readonly_partial (ht : targets (env s.t) = []) (d : Str) (hd : s.doc = some d)
    (ha : Annotated d "readonly".toList) (h : parseStruct cfg srt env n s = some (.ok (some t))) :
    ∀ m ∈ writeMethods, m ∉ fixed c t :=
  (C38_readonly_no_write_methods ((C38_readonly_partial ht h).2 ⟨d, hd, ha⟩)).1

/-- **C38.** A table that is not readonly has the write methods that make sense for it. -/
theorem C38_writable (hr : t.readonly = false) (hf : ∀ m, c.fails m = false) (ho : ∀ m, c.own m = false) :
    (insertCols t ≠ [] → "Values".toList ∈ fixed c t ∧ "InsertPlaceholders".toList ∈ fixed c t ∧
      "InsertOneStmt".toList ∈ fixed c t) ∧
    (hasPK t = true → nonKeyCols t ≠ [] → "UpdateOneByPKStmt".toList ∈ fixed c t) := by
  have e : ∀ l : List PCol, l ≠ [] → l.isEmpty = false := by intro l; cases l <;> simp
  constructor
  · intro h
    have h := e _ h
    simp [fixed, mem_when, hr, hf, ho, h]
  · intro hp h
    have h := e _ h
    simp [fixed, mem_when, hr, hf, hp, h]

/-! ## C62: column accessors -/

/-- **C62**, exactly: the accessor of a column works on every value of the struct if and only if no
embedded field on its way is a pointer. -/
theorem C62_accessor_safe_iff_partial (p : Path) :
    (∀ m : Mem, accessor m p ≠ .panic) ↔ ∀ x ∈ p.dropLast, x.ptr = false := by
  have key : (∀ m : Mem, canReach m p = true) ↔ ∀ x ∈ p.dropLast, x.ptr = false := by
    constructor
    · intro h x hx
      by_contra hne
      have h0 := h fun _ => false
      unfold canReach at h0
      rw [List.all_eq_true] at h0
      obtain ⟨a, b, hab⟩ := List.append_of_mem hx
      have : (a ++ [x]) ∈ ptrPaths p.dropLast := by
        unfold ptrPaths
        rw [mem_ptrPathsFrom]
        exact ⟨a, x, ⟨b, by simp [hab]⟩, by simp, by simpa using hne⟩
      simpa using h0 _ this
    · intro h m
      unfold canReach
      rw [List.all_eq_true]
      intro q hq
      unfold ptrPaths at hq
      rw [mem_ptrPathsFrom] at hq
      obtain ⟨a, x, ⟨b, hab⟩, _, hx⟩ := hq
      have := h x (by rw [← hab]; simp)
      rw [this] at hx
      cases hx
  rw [← key]
  unfold accessor
  constructor
  · intro h m
    have := h m
    by_contra hne
    exact this (by rw [if_neg hne])
  · intro h m
    rw [if_pos (h m)]
    simp

/-- **C62 fails** for every column inside an embedded pointer: its accessor panics on the zero value of
the struct, which is how queries refer to columns. -/
theorem C62_accessor_panics_on_zero_value (p : Path) (x : Seg) (hx : x ∈ p.dropLast) (hp : x.ptr = true) :
    accessor (fun _ => false) p = .panic := by
  unfold accessor
  rw [if_neg]
  unfold canReach
  rw [List.all_eq_true]
  intro h
  obtain ⟨a, b, hab⟩ := List.append_of_mem hx
  have : (a ++ [x]) ∈ ptrPaths p.dropLast := by
    unfold ptrPaths
    rw [mem_ptrPathsFrom]
    exact ⟨a, x, ⟨b, by simp [hab]⟩, by simp, hp⟩
  simpa using h _ this

/-! ## C66: names of the methods -/

private def allFixed : List Str := ["TableName", "HasPK", "IsAutoIncr", "ScanAutoIncr", "PK", "CompositeKey",
  "SQLColumns", "Columns", "Values", "Addrs", "InsertColumns", "InsertPlaceholders", "InsertOneStmt",
  "FindOneByPKStmt", "UpdateOneByPKStmt"].map String.toList

private theorem fixed_sublist : (fixed c t).Sublist allFixed := by
  have w : ∀ b x, (when b x).Sublist [x.toList] := by
    intro b x; unfold when; cases b <;> simp
  have : allFixed = [("TableName" : String).toList] ++ ["HasPK".toList] ++ ["IsAutoIncr".toList]
    ++ ["ScanAutoIncr".toList] ++ ["PK".toList] ++ ["CompositeKey".toList] ++ ["SQLColumns".toList]
    ++ ["Columns".toList] ++ ["Values".toList] ++ ["Addrs".toList] ++ ["InsertColumns".toList]
    ++ ["InsertPlaceholders".toList] ++ ["InsertOneStmt".toList] ++ ["FindOneByPKStmt".toList]
    ++ ["UpdateOneByPKStmt".toList] := rfl
  rw [this]
  unfold fixed
  repeat' apply List.Sublist.append
  all_goals exact w _ _

/-- No method with a fixed name ends in `Value`. -/
private theorem fixed_not_value (x : Str) : x ++ "Value".toList ∉ allFixed := by
  intro h
  have h' : ∀ m ∈ allFixed, m.drop (m.length - 5) ≠ "Value".toList := by decide
  exact h' _ h (by simp)

/-- The only method with a fixed name starting with `Column` is `Columns`. -/
private theorem fixed_not_column (x : Str) (hx : x.head? ≠ some 's') :
    "Column".toList ++ x ∉ allFixed := by
  intro h
  have h' : ∀ m ∈ allFixed, m.take 6 = "Column".toList → m.drop 6 = ['s'] := by decide
  have := h' _ h (by simp)
  rw [List.drop_left' (by rfl)] at this
  rw [this] at hx
  exact hx rfl

/-- **C66**, exactly, for the default prefix: the methods of a table have different names if and only if
no two columns come from fields of the same name, and no field is named `ColumnX` while another is named
`XValue`.  (Exported Go names do not start with a small letter.) -/
theorem C66_distinct_iff_partial (hp : c.pref = "Column".toList)
    (hx : ∀ k ∈ t.columns, k.goName.head? ≠ some 's') :
    (methods c t).Nodup ↔ (t.columns.map (·.goName)).Nodup ∧
      ∀ a ∈ t.columns, ∀ b ∈ t.columns, a.goName ++ "Value".toList ≠ "Column".toList ++ b.goName := by
  have hf : (fixed c t).Nodup := fixed_sublist.nodup (by decide)
  unfold methods
  have hg : (getters t).Nodup ↔ (t.columns.map (·.goName)).Nodup := by
    unfold getters
    rw [show (t.columns.map fun c => c.goName ++ "Value".toList)
      = (t.columns.map (·.goName)).map (· ++ "Value".toList) by simp]
    exact List.nodup_map_iff (List.append_left_injective _)
  have ha : (accessors c t).Nodup ↔ (t.columns.map (·.goName)).Nodup := by
    unfold accessors
    rw [show (t.columns.map fun k => c.pref ++ k.goName)
      = (t.columns.map (·.goName)).map (c.pref ++ ·) by simp]
    exact List.nodup_map_iff (List.append_right_injective _)
  rw [List.nodup_append, List.nodup_append, hg, ha]
  constructor
  · rintro ⟨⟨_, h1, _⟩, _, h2⟩
    refine ⟨h1, fun a ha b hb he => ?_⟩
    refine h2 (a.goName ++ "Value".toList) ?_ ("Column".toList ++ b.goName) ?_ he
    · exact List.mem_append_right _ (List.mem_map.2 ⟨a, ha, rfl⟩)
    · exact List.mem_map.2 ⟨b, hb, by rw [hp]⟩
  · rintro ⟨h1, h2⟩
    refine ⟨⟨hf, h1, ?_⟩, h1, ?_⟩
    · intro m hm m' hm' he
      obtain ⟨a, _, rfl⟩ := List.mem_map.1 hm'
      exact fixed_not_value a.goName (he ▸ fixed_sublist.subset hm)
    · intro m hm m' hm' he
      obtain ⟨b, hb, rfl⟩ := List.mem_map.1 hm'
      subst he
      rw [hp] at hm
      rcases List.mem_append.1 hm with hm | hm
      · exact fixed_not_column b.goName (hx b hb) (fixed_sublist.subset hm)
      · obtain ⟨a, ha', he⟩ := List.mem_map.1 hm
        exact h2 a ha' b hb he

/-- **C66 fails** when two columns come from fields of the same name, say from two embedded structs:
whatever the prefix, a method is declared twice and the generated file does not compile. -/
theorem C66_same_field_name_twice (i j : Nat) (a b : PCol) (hij : i < j) (hi : t.columns[i]? = some a)
    (hj : t.columns[j]? = some b) (he : a.goName = b.goName) : ¬ (methods c t).Nodup := by
  intro h
  have h1 : (getters t).Nodup := by
    unfold methods at h
    exact h.sublist ((List.sublist_append_right _ _).trans (List.sublist_append_left _ _))
  unfold getters at h1
  rw [List.nodup_iff_getElem?_ne_getElem?] at h1
  have hlen : j < t.columns.length := by
    by_contra hn
    rw [List.getElem?_eq_none (by omega)] at hj
    cases hj
  refine h1 i j hij (by simpa using hlen) ?_
  simp [hi, hj, he]

/-- **C66 fails** as well when a column field has the name of one of the methods that every table gets:
Go does not allow a field and a method of the same name. -/
theorem C66_field_named_like_method (k : PCol) (_hk : k ∈ t.columns)
    (hn : k.goName = "TableName".toList ∨ k.goName = "Columns".toList ∨ k.goName = "Addrs".toList)
    (ho : c.own k.goName = false) : k.goName ∈ methods c t := by
  unfold methods
  refine List.mem_append_left _ (List.mem_append_left _ ?_)
  simp only [fixed, List.mem_append, mem_when]
  rcases hn with hn | hn | hn <;> rw [hn] at ho ⊢ <;> simp only [ho] <;> simp

/-! ## Parsed tables satisfy what the theorems about generated statements assume -/

/-- A parsed table as the generator sees it, given its configuration of data types. -/
def toGen (sc va : Path → Option Gen.Tmpl) (own : Option String) (t : PTable) : Gen.Table Path where
  name := String.ofList t.name
  columns := t.columns.map fun c =>
    { name := String.ofList c.name, field := c.path, pos := c.pos, readonly := c.readonly,
      sqlScan := sc c.path, sqlVal := va c.path }
  keys := t.keys
  auto := t.auto
  readonly := t.readonly
  ownTable := own

/-- Every accepted struct yields a well-formed table: `Spec.Gen.WF`, the hypothesis of C20–C33. -/
theorem C34_parsed_tables_wf (hs : IsSort srt) {out : List Leaf} (ho : Fields env [] (env s.t) out)
    (sc va : Path → Option Gen.Tmpl) (own : Option String)
    (h : parseStruct cfg srt env n s = some (.ok (some t))) : Spec.Gen.WF (toGen sc va own t) := by
  obtain ⟨hn, hpos⟩ := C34_unique_and_consecutive h
  obtain ⟨cs, _, hcol, hauto, hsorted, hkeys, _⟩ := C37_keys hs ho h
  have hlen : t.columns.length = cs.length := by simpa using congrArg List.length hcol
  have hlt : ∀ i, (∃ f, cs[i]? = some f) → i < t.columns.length := by
    rintro i ⟨f, hf⟩
    rw [hlen]
    exact (List.getElem?_eq_some_iff.1 hf).1
  refine ⟨?_, ?_, ?_, hsorted, ?_⟩
  · simp only [toGen, List.map_map]
    rw [show ((fun c : Gen.GCol Path => c.name) ∘ fun c : PCol => (⟨String.ofList c.name, c.path, c.pos,
      c.readonly, sc c.path, va c.path⟩ : Gen.GCol Path)) = String.ofList ∘ (·.name) from rfl, ← List.map_map]
    exact hn.map fun _ _ h => String.ofList_injective h
  · intro i g hg
    simp only [toGen, List.getElem?_map, Option.map_eq_some_iff] at hg
    obtain ⟨c, hc, rfl⟩ := hg
    exact hpos i c hc
  · intro k hk
    simp only [toGen, List.length_map]
    obtain ⟨f, hf, _⟩ := (hkeys k).1 hk
    exact hlt k ⟨f, hf⟩
  · intro i hi
    simp only [toGen, List.length_map]
    obtain ⟨f, hf, _⟩ := (hauto i).1 hi
    exact hlt i ⟨f, hf⟩

end Verif.Props
