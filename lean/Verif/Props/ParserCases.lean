import Verif.Props.Emit

/-!
# Concrete structs

Cases meeting the hypotheses of the theorems in `Props.Parser` and `Props.Emit`, and the counterexamples
for structs nested more than two levels deep.
-/

namespace Verif.Props

open Verif Verif.Addrs Verif.Parser Verif.Emit Verif.Spec.Parser

/-! ## A sorting function -/

/-- "not after" for fields with index -/
def notAfter (a b : List Nat × SField) : Prop := ¬ b.1 < a.1

instance : DecidableRel notAfter := fun a b => inferInstanceAs (Decidable (¬ b.1 < a.1))

instance : Std.Total notAfter := ⟨fun a b => by
  unfold notAfter
  rcases Classical.em (b.1 < a.1) with h | h
  · exact .inr (List.lt_asymm h)
  · exact .inl h⟩

instance : IsTrans _ notAfter := ⟨fun a b c h1 h2 => by
  unfold notAfter at *
  rw [List.not_lt] at *
  exact List.le_trans h1 h2⟩

/-- Insertion sort, which is what `sort.Slice` does for up to 12 elements. -/
def isort : Sorter := List.insertionSort notAfter

/-- Insertion sort after reversing. -/
def rsort : Sorter := fun l => isort l.reverse

theorem isort_isSort : IsSort isort := fun l =>
  ⟨List.perm_insertionSort _ l, (List.pairwise_insertionSort notAfter l).imp fun {a b} h => by
    rw [← Bool.not_eq_true, less_iff]; exact h⟩

theorem rsort_isSort : IsSort rsort := fun l =>
  ⟨(List.perm_insertionSort _ _).trans (List.reverse_perm l), (List.pairwise_insertionSort notAfter _).imp fun {a b} h => by
    rw [← Bool.not_eq_true, less_iff]; exact h⟩

/-! ## A struct that is read as intended -/

def lit (s : String) : Str := s.toList

/-- `type User struct { ID int64 `sql:"id,auto_increment"`; *Base; Name string `sql:"name, readonly"`;
secret, Skip int `sql:"-"` }` with `type Base struct { Code string `sql:",pk"`; Note *string }`. -/
def userEnv : Env
  | 0 => [.named [(lit "ID", true)] {} (lit "id,auto_increment"),
          .embed (lit "Base") true { ptrs := 1 } [] (some 1),
          .named [(lit "Name", true)] {} (lit "name, readonly"),
          .named [(lit "secret", false), (lit "Skip", true)] {} (lit "-")]
  | 1 => [.named [(lit "Code", true)] {} (lit ",pk"), .named [(lit "Note", true)] { ptrs := 1 } []]
  | _ => []

def user : Cache := ⟨lit "User", some (lit "User is\n+SQL:readonly\n"), 0⟩

def base : Seg := ⟨"Base", true⟩

def userOut : List Leaf :=
  [⟨⟨lit "ID", {}, true, false, [], lit "id,auto_increment"⟩, false⟩,
   ⟨⟨lit "Base", { ptrs := 1 }, true, true, [], []⟩, false⟩,
   ⟨⟨lit "Code", {}, true, false, [base], lit ",pk"⟩, false⟩,
   ⟨⟨lit "Note", { ptrs := 1 }, true, false, [base], []⟩, false⟩,
   ⟨⟨lit "Name", {}, true, false, [], lit "name, readonly"⟩, false⟩,
   ⟨⟨lit "secret", {}, false, false, [], lit "-"⟩, false⟩,
   ⟨⟨lit "Skip", {}, true, false, [], lit "-"⟩, false⟩]

theorem user_fields : Fields userEnv [] (userEnv user.t) userOut := by
  have h := Fields.named (env := userEnv) (anc := []) [(lit "ID", true)] {} (lit "id,auto_increment")
    (.emb (lit "Base") true { ptrs := 1 } [] 1
      (.named [(lit "Code", true)] {} (lit ",pk") (.named [(lit "Note", true)] { ptrs := 1 } [] (.nil _)))
      (.named [(lit "Name", true)] {} (lit "name, readonly")
        (.named [(lit "secret", false), (lit "Skip", true)] {} (lit "-") (.nil _))))
  exact h

def userTable : PTable :=
  { goName := lit "User", name := lit "User"
    columns := [⟨lit "id", lit "ID", [⟨"ID", false⟩], 0, false⟩,
                ⟨lit "Code", lit "Code", [base, ⟨"Code", false⟩], 1, false⟩,
                ⟨lit "Note", lit "Note", [base, ⟨"Note", true⟩], 2, false⟩,
                ⟨lit "name", lit "Name", [⟨"Name", false⟩], 3, true⟩]
    keys := [1], auto := some 0, readonly := false }

theorem user_parsed : parseStruct ⟨id⟩ isort userEnv 3 user = some (.ok (some userTable)) := by
  decide +kernel

example : (userTable.columns.map (·.name)).Nodup ∧
    ∀ (i : Nat) (c : PCol), userTable.columns[i]? = some c → c.pos = i :=
  C34_unique_and_consecutive user_parsed

example := C35_columns_partial isort_isSort user_fields (by decide) user_parsed
example := C37_keys isort_isSort user_fields user_parsed
example := C34_parsed_tables_wf isort_isSort user_fields (fun _ => none) (fun _ => none) none user_parsed
example := (C34_rejected_iff isort_isSort user_fields user_parsed).2

theorem user_oneName : ∀ j, Reach userEnv user.t j → OneName (userEnv j) := by
  intro j _ i ns ty tag h hlt
  match j with
  | 0 =>
    match i with
    | 0 => cases h; decide
    | 1 => cases h
    | 2 => cases h; decide
    | _ + 3 => simp [userEnv] at hlt; omega
  | 1 =>
    match i with
    | 0 => cases h; decide
    | _ + 1 => simp [userEnv] at hlt; omega
  | _ + 2 => simp [userEnv] at hlt

example := C36_declaration_order_partial isort_isSort user_fields
  (by intro i hi; cases (List.mem_singleton.1 hi); intro j hj; cases hj) user_oneName user_parsed

/-- The comment of `User` has no effect: it embeds a struct (see `C38_comment_ignored_when_embedding`). -/
example : userTable.readonly = false ∧ Annotated (lit "User is\n+SQL:readonly\n") (lit "readonly") := by
  refine ⟨rfl, lit "User is\n", lit "+SQL:", lit "readonly", lit "\n", by decide, by unfold IsMarker; decide, ?_, by decide,
    .inr ⟨[], rfl⟩, by decide, [], [], by simp, .inl rfl, .inl rfl⟩
  intro pre' m' r h hm
  by_contra hlt
  have hlt' : pre'.length < 8 := by simpa [lit] using hlt
  have hlen : m'.length = 5 := by have := congrArg List.length hm; simpa using this
  have h1 : m' = ((lit "User is\n+SQL:readonly\n").drop pre'.length).take 5 := by
    rw [h, List.append_assoc, List.drop_left, ← hlen, List.take_left]
  have : ∀ k < 8, (((lit "User is\n+SQL:readonly\n").drop k).take 5).map foldCase ≠ "+sql:".toList := by
    decide
  exact this _ hlt' (h1 ▸ hm)

/-! ## Rejected and ignored structs -/

/-- Two columns of one name. -/
example : parseStruct ⟨id⟩ isort (fun _ => [.named [(lit "A", true)] {} (lit "x"), .named [(lit "B", true)] {} (lit "x")])
    2 ⟨lit "T", none, 0⟩ = some .err := by decide +kernel

/-- `// +sql:ignore` on a struct that embeds nothing, and on one that does. -/
example : parseStruct ⟨id⟩ isort (fun _ => [.named [(lit "A", true)] {} []]) 2
      ⟨lit "T", some (lit "+sql:ignore"), 0⟩ = some (.ok none) ∧
    (parseStruct ⟨id⟩ isort userEnv 3 { user with doc := some (lit "+sql:ignore") }
      = some (.ok (some userTable))) := by
  constructor <;> decide +kernel

/-! ## Fields that get lost or misplaced -/

/-- `type T struct { ID; N int }` with `type ID string`. -/
def lostEnv : Env := fun _ => [.embed (lit "ID") true {} [] none, .named [(lit "N", true)] {} []]

theorem lost_fields : Fields lostEnv [] (lostEnv 0)
    [⟨⟨lit "ID", {}, true, false, [], []⟩, true⟩, ⟨⟨lit "N", {}, true, false, [], []⟩, false⟩] :=
  .other (lit "ID") true {} [] (.named [(lit "N", true)] {} [] (.nil _))

theorem lost_parsed : parseStruct ⟨id⟩ isort lostEnv 2 ⟨lit "T", none, 0⟩ = some (.ok (some
    { goName := lit "T", name := lit "T", columns := [⟨lit "N", lit "N", [⟨"N", false⟩], 0, false⟩]
      keys := [], auto := none, readonly := false })) := by decide +kernel

example := C35_embedded_non_struct_lost isort_isSort lost_fields _ List.mem_cons_self rfl rfl lost_parsed

/-- `type T struct { A, B, C int; D int }`: the columns come out as A, B, D, C. -/
def groupEnv : Env := fun _ =>
  [.named [(lit "A", true), (lit "B", true), (lit "C", true)] {} [], .named [(lit "D", true)] {} []]

theorem group_parsed : ∃ t, parseStruct ⟨id⟩ rsort groupEnv 2 ⟨lit "T", none, 0⟩ = some (.ok (some t)) ∧
    t.columns.map (·.name) = [lit "A", lit "D", lit "B", lit "C"] := by
  refine ⟨⟨lit "T", lit "T", [⟨lit "A", lit "A", [⟨"A", false⟩], 0, false⟩, ⟨lit "D", lit "D", [⟨"D", false⟩], 1, false⟩,
    ⟨lit "B", lit "B", [⟨"B", false⟩], 2, false⟩, ⟨lit "C", lit "C", [⟨"C", false⟩], 3, false⟩], [], none, false⟩, ?_, rfl⟩
  decide +kernel

example {out : List Leaf} (ho : Fields groupEnv [] (groupEnv 0) out) {t : PTable}
    (h : parseStruct ⟨id⟩ isort groupEnv 2 ⟨lit "T", none, 0⟩ = some (.ok (some t))) :=
  C36_grouped_names_misordered isort_isSort ho (by intro i hi; cases hi) [] [] (lit "A", true) (lit "B", true)
    (lit "C", true) (lit "D", true) [] [] {} {} [] [] rfl rfl rfl h

/-! ## Three levels of embedding

`T { A }`, `A { B }`, `B { C }`, `C { P int; D; Q int }`, `D { R int }`: the index slices of the fields
of `C` share one backing array. -/

def deepEnv : Env
  | 0 => [.embed (lit "A") true {} [] (some 1)]
  | 1 => [.embed (lit "B") true {} [] (some 2)]
  | 2 => [.embed (lit "C") true {} [] (some 3)]
  | 3 => [.named [(lit "P", true)] {} [], .embed (lit "D") true {} [] (some 4), .named [(lit "Q", true)] {} []]
  | 4 => [.named [(lit "R", true)] {} []]
  | _ => []

def deep : Cache := ⟨lit "T", none, 0⟩

def anc3 : List Seg := [⟨"C", false⟩, ⟨"B", false⟩, ⟨"A", false⟩]

def deepIndexed : List (List Nat × SField) :=
  [([0], ⟨lit "A", {}, true, true, [], []⟩),
   ([0, 0], ⟨lit "B", {}, true, true, [⟨"A", false⟩], []⟩),
   ([0, 0, 0], ⟨lit "C", {}, true, true, [⟨"B", false⟩, ⟨"A", false⟩], []⟩),
   ([0, 0, 0, 2], ⟨lit "P", {}, true, false, anc3, []⟩),
   ([0, 0, 0, 2], ⟨lit "D", {}, true, true, anc3, []⟩),
   ([0, 0, 0, 2], ⟨lit "Q", {}, true, false, anc3, []⟩),
   ([0, 0, 0, 2, 0], ⟨lit "R", {}, true, false, ⟨"D", false⟩ :: anc3, []⟩)]

theorem deep_indexed : (bfs deepEnv 6 (start deepEnv deep) none).map (fun r => indexed r.1) = some deepIndexed := by
  decide +kernel

def deepOut : List Leaf := [⟨⟨lit "A", {}, true, true, [], []⟩, false⟩,
   ⟨⟨lit "B", {}, true, true, [⟨"A", false⟩], []⟩, false⟩,
   ⟨⟨lit "C", {}, true, true, [⟨"B", false⟩, ⟨"A", false⟩], []⟩, false⟩,
   ⟨⟨lit "P", {}, true, false, anc3, []⟩, false⟩,
   ⟨⟨lit "D", {}, true, true, anc3, []⟩, false⟩,
   ⟨⟨lit "R", {}, true, false, ⟨"D", false⟩ :: anc3, []⟩, false⟩,
   ⟨⟨lit "Q", {}, true, false, anc3, []⟩, false⟩]

theorem deep_fields : Fields deepEnv [] (deepEnv 0) deepOut := by
  have h := Fields.emb (env := deepEnv) (anc := []) (ds := []) (lit "A") true {} [] 1
    (.emb (lit "B") true {} [] 2 (.emb (lit "C") true {} [] 3
      (.named [(lit "P", true)] {} [] (.emb (lit "D") true {} [] 4
        (.named [(lit "R", true)] {} [] (.nil _)) (.named [(lit "Q", true)] {} [] (.nil _))))
      (.nil _)) (.nil _)) (.nil _)
  exact h

/-- **C36 fails** at three levels of embedding, whatever sorting algorithm is used: `R`, which stands
before `Q`, becomes a column after `Q`. -/
theorem C36_deep_misordered {cfg : Config} {srt : Sorter} (hs : IsSort srt) {n : Nat} {t : PTable}
    (h : parseStruct cfg srt deepEnv n deep = some (.ok (some t))) :
    t.columns.map (fun c => (c.path, c.name))
      ≠ ((structLeaves deepOut).filter isCol).map fun f => (f.path, colName cfg f) := by
  cases hb : bfs deepEnv n (start deepEnv deep) none with
  | none => unfold parseStruct at h; rw [hb] at h; cases h
  | some r =>
    have hidx : indexed r.1 = deepIndexed := by
      cases hb' : bfs deepEnv 6 (start deepEnv deep) none with
      | none => have := deep_indexed; rw [hb'] at this; cases this
      | some r' =>
        have e1 := bfs_mono_le deepEnv n (max n 6) (Nat.le_max_left _ _) _ _ r hb
        have e2 := bfs_mono_le deepEnv 6 (max n 6) (Nat.le_max_right _ _) _ _ r' hb'
        rw [e1] at e2
        cases e2
        have := deep_indexed
        rw [hb'] at this
        simpa using this
    have hcol : t.columns.map (fun c => (c.path, c.name))
        = (((srt (indexed r.1)).map (·.2)).filter isCol).map fun f => (f.path, colName cfg f) :=
      parse_columns h hb
    rw [hidx] at hcol
    obtain ⟨hsp, hso⟩ := IsSort.lex hs deepIndexed
    have hq : ([0, 0, 0, 2], (⟨lit "Q", {}, true, false, anc3, []⟩ : SField)) ∈ srt deepIndexed :=
      hsp.mem_iff.2 (by simp [deepIndexed])
    have hr : ([0, 0, 0, 2, 0], (⟨lit "R", {}, true, false, ⟨"D", false⟩ :: anc3, []⟩ : SField)) ∈ srt deepIndexed :=
      hsp.mem_iff.2 (by simp [deepIndexed])
    have hsub := ((before_of_lt hso hq hr (by decide)).map (·.2)).filter isCol
    have hsub := hsub.map fun f => (f.path, colName cfg f)
    rw [← hcol] at hsub
    have hpaths := hsub.map Prod.fst
    intro he
    rw [he] at hpaths
    revert hpaths
    rw [List.map_map, List.map_map]
    have e : ∀ fs : List SField, fs.map (Prod.fst ∘ fun f => (f.path, colName cfg f)) = fs.map SField.path :=
      fun fs => rfl
    rw [e, e]
    decide +kernel

/-- Such a struct is accepted. -/
example : ∃ t, parseStruct ⟨id⟩ isort deepEnv 6 deep = some (.ok (some t)) ∧
    t.columns.map (·.name) = [lit "P", lit "Q", lit "R"] := by
  refine ⟨⟨lit "T", lit "T", [⟨lit "P", lit "P", (⟨"P", false⟩ :: anc3).reverse, 0, false⟩,
    ⟨lit "Q", lit "Q", (⟨"Q", false⟩ :: anc3).reverse, 1, false⟩,
    ⟨lit "R", lit "R", (⟨"R", false⟩ :: ⟨"D", false⟩ :: anc3).reverse, 2, false⟩], [], none, false⟩, ?_, rfl⟩
  decide +kernel

/-- **C36 fails** at three levels of embedding: the order of `P` and `Q` is left to the sorting
algorithm. -/
theorem C36_order_depends_on_sorting : ∃ t t',
    parseStruct ⟨id⟩ isort deepEnv 6 deep = some (.ok (some t)) ∧
    parseStruct ⟨id⟩ rsort deepEnv 6 deep = some (.ok (some t')) ∧
    t.columns.map (·.name) = [lit "P", lit "Q", lit "R"] ∧
    t'.columns.map (·.name) = [lit "Q", lit "P", lit "R"] := by
  refine ⟨⟨lit "T", lit "T", [⟨lit "P", lit "P", (⟨"P", false⟩ :: anc3).reverse, 0, false⟩,
    ⟨lit "Q", lit "Q", (⟨"Q", false⟩ :: anc3).reverse, 1, false⟩,
    ⟨lit "R", lit "R", (⟨"R", false⟩ :: ⟨"D", false⟩ :: anc3).reverse, 2, false⟩], [], none, false⟩,
    ⟨lit "T", lit "T", [⟨lit "Q", lit "Q", (⟨"Q", false⟩ :: anc3).reverse, 0, false⟩,
    ⟨lit "P", lit "P", (⟨"P", false⟩ :: anc3).reverse, 1, false⟩,
    ⟨lit "R", lit "R", (⟨"R", false⟩ :: ⟨"D", false⟩ :: anc3).reverse, 2, false⟩], [], none, false⟩, ?_, ?_, rfl, rfl⟩
  · decide +kernel
  · decide +kernel

/-! ## Self-embedding, exclusion, table names -/

/-- `type Node struct { ID int; *Node }`. -/
def nodeEnv : Env := fun _ =>
  [.named [(lit "ID", true)] {} [], .embed (lit "Node") true { ptrs := 1 } [] (some 0)]

example : ∀ n, parseStruct ⟨id⟩ isort nodeEnv n ⟨lit "Node", none, 0⟩ = none :=
  C61_self_embedding_diverges 0 (.refl 0) 0 (by unfold Embedded; decide) (.refl 0)

example : ∃ n r, parseStruct ⟨id⟩ isort userEnv n user = some r := ⟨3, _, user_parsed⟩

/-- `type T struct { Audit `sql:"-"`; N int }`, `type Audit struct { By string }`. -/
def auditEnv : Env
  | 0 => [.embed (lit "Audit") true {} (lit "-") (some 1), .named [(lit "N", true)] {} []]
  | 1 => [.named [(lit "By", true)] {} []]
  | _ => []

example : ∃ t, parseStruct ⟨id⟩ isort auditEnv 3 ⟨lit "T", none, 0⟩ = some (.ok (some t)) ∧
    t.columns.map (·.name) = [lit "By", lit "N"] := by
  refine ⟨⟨lit "T", lit "T", [⟨lit "By", lit "By", [⟨"Audit", false⟩, ⟨"By", false⟩], 0, false⟩,
    ⟨lit "N", lit "N", [⟨"N", false⟩], 1, false⟩], [], none, false⟩, ?_, rfl⟩
  decide +kernel

/-- `type T struct { _ sequel.TableName `sql:"people"`; N int }`, and the same without a tag. -/
def markerEnv (tag : Str) : Env := fun _ =>
  [.named [(lit "_", false)] { marker := true } tag, .named [(lit "N", true)] {} []]

example : (∃ t, parseStruct ⟨id⟩ isort (markerEnv (lit "people")) 2 ⟨lit "T", none, 0⟩ = some (.ok (some t)) ∧
      t.name = lit "people") ∧
    (∃ t, parseStruct ⟨id⟩ isort (markerEnv []) 2 ⟨lit "T", none, 0⟩ = some (.ok (some t)) ∧
      t.name = lit "_") := by
  constructor
  · refine ⟨⟨lit "T", lit "people", [⟨lit "N", lit "N", [⟨"N", false⟩], 0, false⟩], [], none, false⟩, ?_, rfl⟩
    decide +kernel
  · refine ⟨⟨lit "T", lit "_", [⟨lit "N", lit "N", [⟨"N", false⟩], 0, false⟩], [], none, false⟩, ?_, rfl⟩
    decide +kernel

/-- **C65 fails**: the column name `ſ` (not an ASCII letter) is accepted. -/
theorem C65_not_ascii : ∃ t, parseStruct ⟨id⟩ isort (fun _ => [.named [(lit "N", true)] {} (lit "ſ")]) 2
      ⟨lit "T", none, 0⟩ = some (.ok (some t)) ∧
    ∃ c ∈ t.columns, ∃ x ∈ c.name, 127 < x.toNat := by
  refine ⟨⟨lit "T", lit "T", [⟨lit "ſ", lit "N", [⟨"N", false⟩], 0, false⟩], [], none, false⟩, ?_, _,
    List.mem_cons_self, 'ſ', by decide, by decide⟩
  decide +kernel

/-! ## Options -/

example : hasOpts (parseTag [lit " size:10 ", lit "auto_increment ", lit ""]) [lit "pk", lit "auto_increment"] = true ∧
    hasOpts (parseTag [lit "pkx", lit "p k"]) [lit "pk"] = false := by decide

/-! ## Methods -/

example : accessor (fun _ => false) [base, ⟨"Code", false⟩] = .panic :=
  C62_accessor_panics_on_zero_value _ base (by decide) rfl

/-- A pointer column itself may be read. -/
example : ∀ m : Mem, accessor m [⟨"Note", true⟩] ≠ .panic :=
  (C62_accessor_safe_iff_partial _).2 (by decide)

example : (methods {} userTable).Nodup :=
  (C66_distinct_iff_partial rfl (by decide)).2 (by decide)

/-- `type T struct { Home Address; Work Address }`-like structs: two embedded structs with a field
`City` each. -/
def cityTable : PTable :=
  { goName := lit "T", name := lit "t"
    columns := [⟨lit "home_city", lit "City", [⟨"Home", false⟩, ⟨"City", false⟩], 0, false⟩,
                ⟨lit "work_city", lit "City", [⟨"Work", false⟩, ⟨"City", false⟩], 1, false⟩]
    keys := [], auto := none, readonly := false }

example : ¬ (methods {} cityTable).Nodup :=
  C66_same_field_name_twice 0 1 _ _ (by decide) rfl rfl rfl

example : lit "InsertOneStmt" ∈ fixed {} userTable ∧
    lit "InsertOneStmt" ∉ fixed {} { userTable with readonly := true } := by decide

end Verif.Props
