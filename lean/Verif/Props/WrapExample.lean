import Verif.Props.WrapLost

/-!
# Property C100, examples: points and UUIDs in MySQL
-/

namespace Verif.Props.WrapExample

open Verif Verif.Gen Verif.Spec Verif.Spec.Gen Verif.Spec.Sql Verif.Spec.Store Verif.Spec.Wrap Verif.Store Verif.Wrap

/-- Values of the database. -/
inductive Val where
  | null
  | int (n : Int)
  | text (s : String)
  | geom (srid : Int) (s : String)
  | bin (s : String)
deriving DecidableEq

/-- Some functions of MySQL. -/
def funs : Funs Val where
  fn f as :=
    if f = "ST_GEOMFROMTEXT".toList then
      match as with
      | [.text s, .int n] => some (.geom n s)
      | _ => none
    else if f = "ST_ASTEXT".toList then
      match as with
      | [.geom _ s] => some (.text s)
      | _ => none
    else if f = "UUID_TO_BIN".toList then
      match as with
      | [.text s] => some (.bin s)
      | _ => none
    else if f = "BIN_TO_UUID".toList then
      match as with
      | [.bin s] => some (.text s)
      | _ => none
    else none
  num w := .int (w.foldl (fun n c => 10 * n + (c.toNat - 48)) 0)

def mysql : Dialect where
  quote := '`'
  fold _ n := n
  reserved w := w = "KEY".toList

def cfg : Cfg := { style := .anon, quoteId := fun s => "`" ++ s ++ "`", postgres := false, quoteNames := false }

/-- The number of a row. -/
def number (row : Row Val) : Int :=
  match row "id".toList with
  | .int n => n
  | _ => 0

def env : Env Nat Val Val where
  g := cfg
  D := mysql
  null := .null
  gen T := .int (T.rows.foldr (fun row n => max n (number row)) 0 + 1)
  enc _ x := x
  dec _ v _ := some v
  toId v := some v

/-- A place with a point: `sql_value: ST_GeomFromText({{.}},4326)`, `sql_scan: ST_AsText({{.}})`. -/
def places : Table Nat :=
  { name := "places", keys := [0],
    columns := [⟨"id", 0, 0, false, none, none⟩,
      ⟨"at", 1, 1, false, some [.lit "ST_AsText(", .hole, .lit ")"], some [.lit "ST_GeomFromText(", .hole, .lit ",4326)"]⟩] }

def valOf : Nat → Ex Unit
  | 1 => .call "ST_GEOMFROMTEXT".toList [.val (), .num "4326".toList]
  | _ => .val ()

def scanOf : Nat → Ex Unit
  | 1 => .call "ST_ASTEXT".toList [.val ()]
  | _ => .val ()

/-- Numbers in the first column, texts in the second. -/
def ok : Nat → Val → Prop
  | 0, x => ∃ n, x = .int n
  | _, x => ∃ s, x = .text s

theorem saysVal : Says mysql [.lit "ST_GeomFromText(", .hole, .lit ",4326)"] (valOf 1) :=
  ⟨by simp, by rfl, by decide, by decide⟩

theorem saysScan : Says mysql [.lit "ST_AsText(", .hole, .lit ")"] (scanOf 1) :=
  ⟨by simp, by rfl, by decide, by decide⟩

theorem quotedOk (s : String) (h : s ≠ "" ∧ '`' ∉ s.toList) : Quoted cfg mysql s := ⟨by simp [cfg, mysql], h.2, h.1⟩

theorem texts : Texts env valOf scanOf places where
  wf := by
    refine ⟨by simp [places], ?_, by simp [places], by simp [places], by simp [places]⟩
    intro i c h
    match i, h with
    | 0, h => simp [places] at h; subst h; rfl
    | 1, h => simp [places] at h; subst h; rfl
    | n + 2, h => simp [places] at h
  key := rfl
  named := by
    refine ⟨.inl rfl, quotedOk _ (by decide), ?_⟩
    intro c hc
    simp only [places, List.mem_cons, List.not_mem_nil, or_false] at hc
    rcases hc with rfl | rfl <;> exact quotedOk _ (by decide)
  bare := by
    refine ⟨fun _ => .inr ⟨⟨by decide, by decide, by decide, by decide⟩, rfl⟩, ?_⟩
    intro c hc
    simp [pick, keyPos, places] at hc
    subst hc
    exact .inr ⟨⟨by decide, by decide, by decide, by decide⟩, rfl⟩
  vals := by
    intro c hc
    simp only [places, List.mem_cons, List.not_mem_nil, or_false] at hc
    rcases hc with rfl | rfl
    · exact ⟨rfl, fun u hu => by simp at hu⟩
    · refine ⟨saysVal, fun u hu => ?_⟩
      cases hu
      exact ⟨by simp, by rfl⟩
  scans := by
    intro c hc
    simp only [places, List.mem_cons, List.not_mem_nil, or_false] at hc
    rcases hc with rfl | rfl
    · exact rfl
    · exact saysScan
  names := by decide
  single := by intro i h; simp [places] at h

/-- The hypotheses of `C100_keyed_store`. -/
theorem wrapped : Wrapped env funs valOf scanOf places ok where
  toTexts := texts
  keys := by
    intro c hc
    simp [pick, keyPos, places] at hc
    subst hc
    rfl
  back := by
    intro c hc x hx
    simp only [places, List.mem_cons, List.not_mem_nil, or_false] at hc
    rcases hc with rfl | rfl
    · exact ⟨x, x, rfl, rfl, fun _ => rfl⟩
    · obtain ⟨s, rfl⟩ := hx
      exact ⟨.geom 4326 s, .text s, by rfl, by rfl, fun _ => rfl⟩
  keyed := by
    intro c hc x hx
    simp [pick, keyPos, places] at hc
    subst hc
    obtain ⟨n, rfl⟩ := hx
    simp [env]

theorem written : AllWritten places := by
  intro c hc
  simp only [places, List.mem_cons, List.not_mem_nil, or_false] at hc
  rcases hc with rfl | rfl <;> rfl

/-- A record. -/
def place (n : Int) (s : String) : Nat → Val
  | 0 => .int n
  | _ => .text s

theorem place_good (n : Int) (s : String) : Good ok places (place n s) := by
  intro c hc
  simp only [places, List.mem_cons, List.not_mem_nil, or_false] at hc
  rcases hc with rfl | rfl
  · exact ⟨n, rfl⟩
  · exact ⟨s, rfl⟩

/-- A database with the empty table. -/
def empty (t : Table Nat) : Sql.Store Val := fun n => if n = tableName mysql t then some (tableOf mysql t []) else none

/-- A point is stored as a point, found as a text, and replaced. -/
example : (Wrap.performs env funs places [.insert (place 1 "POINT(1 2)"), .find (place 1 ""), .update (place 1 "POINT(3 4)"),
      .find (place 1 ""), .delete (place 1 ""), .find (place 1 "")] (empty places)).1 =
    (acts places [.insert (place 1 "POINT(1 2)"), .find (place 1 ""), .update (place 1 "POINT(3 4)"),
      .find (place 1 ""), .delete (place 1 ""), .find (place 1 "")] fun _ => none).1 := by
  refine (C100_keyed_store wrapped written rfl _ ?_ _ _ ⟨[], rfl, ⟨fun k s h => by simp at h, fun row h => by simp at h, .nil⟩⟩).1
  intro o ho
  simp only [List.mem_cons, List.not_mem_nil, or_false] at ho
  rcases ho with rfl | rfl | rfl | rfl | rfl | rfl <;> exact ⟨place_good _ _, fun _ _ h => nomatch (show pick places (updatePos places) = [places.columns[1]] from rfl).symm.trans h⟩

/-- The hypotheses of `C100_batch_lost`. -/
theorem plainSetup : FullSetup env (strip places) ok where
  wf := (setup wrapped).wf
  key := (setup wrapped).key
  named := (setup wrapped).named
  bare := (setup wrapped).bare
  plain := (setup wrapped).plain
  names := (setup wrapped).names
  single := (setup wrapped).single
  back := fun _ _ _ _ _ => rfl
  keyed := by
    intro c hc x hx
    simp [strip, pick, keyPos, places] at hc
    subst hc
    obtain ⟨n, rfl⟩ := hx
    simp [env]
  writable := strip_written written

/-- Two places inserted at once cannot be read again, if the column takes their texts. -/
example : ∃ σ', insertMany env .onDuplicate places [place 1 "POINT(1 2)", place 2 "POINT(3 4)"] (empty places) =
      (.ok [place 1 "POINT(1 2)", place 2 "POINT(3 4)"], σ') ∧
    Wrap.findByPK env funs places (place 1 "POINT(1 2)") σ' = (.failed, σ') := by
  refine C100_batch_lost texts ?_ plainSetup (by decide) ?_ rfl rfl rfl (m := fun _ => none) ⟨[], rfl, ⟨fun k s h => by simp at h,
    fun row h => by simp at h, .nil⟩⟩ _ ?_ ⟨?_, fun _ _ => rfl⟩ (by simp) (c := places.columns[1]) (by simp) (by rfl)
  · intro c hc
    simp [pick, keyPos, places] at hc
    subst hc
    rfl
  · refine ⟨fun c hc => ?_, .inl rfl⟩
    simp only [places, List.mem_cons, List.not_mem_nil, or_false] at hc
    rcases hc with rfl | rfl <;> exact .inr ⟨⟨by decide, by decide, by decide, by decide⟩, rfl⟩
  · intro r hr
    simp only [List.mem_cons, List.not_mem_nil, or_false] at hr
    rcases hr with rfl | rfl <;> exact place_good _ _
  · have hk : ∀ n s, keyOf places (place n s) = [.int n] := fun _ _ => rfl
    simp [hk]

/-- The same, with keys numbered by the database. -/
def numbered : Table Nat := { places with auto := some 0 }

theorem wrapped_numbered : Wrapped env funs valOf scanOf numbered ok :=
  ⟨⟨⟨texts.wf.names, texts.wf.pos, texts.wf.keys, texts.wf.sorted, by simp [numbered, places]⟩, rfl,
    ⟨texts.named.1, texts.named.2, texts.named.3⟩, ⟨texts.bare.1, texts.bare.2⟩, texts.vals, texts.scans, texts.names, by simp [numbered, places]⟩,
    wrapped.keys, wrapped.back, wrapped.keyed⟩

/-- The other hypotheses of `C100_made_up_keys`. -/
example : numbered.autoCol = some ⟨"id", 0, 0, false, none, none⟩ ∧ (numbered.columns.map (·.field)).Nodup ∧
    pick numbered (insertPos numbered) = [places.columns[1]] ∧ MadeUp env numbered ok ⟨"id", 0, 0, false, none, none⟩ := by
  refine ⟨rfl, by decide, rfl, fun rows => ⟨_, ⟨_, rfl⟩, rfl, rfl, ?_⟩⟩
  intro row hrow e
  have hle : ∀ l : List (Row Val), row ∈ l → number row ≤ l.foldr (fun row n => max n (number row)) 0 := by
    intro l
    induction l with
    | nil => simp
    | cons r l ih =>
      intro hm
      rcases List.mem_cons.1 hm with rfl | hm
      · exact Int.le_max_right _ _
      · exact Int.le_trans (ih hm) (Int.le_max_left _ _)
  have := hle rows hrow
  have e' : row "id".toList = .int (rows.foldr (fun row n => max n (number row)) 0 + 1) := e
  have : number row = rows.foldr (fun row n => max n (number row)) 0 + 1 := by
    unfold number at e' ⊢
    rw [e']
  omega

/-- A record with a UUID as key: `sql_value: UUID_TO_BIN({{.}})`, `sql_scan: BIN_TO_UUID({{.}})`. -/
def users : Table Nat :=
  { name := "users", keys := [0],
    columns := [⟨"id", 0, 0, false, some [.lit "BIN_TO_UUID(", .hole, .lit ")"], some [.lit "UUID_TO_BIN(", .hole, .lit ")"]⟩,
      ⟨"name", 1, 1, false, none, none⟩] }

def idVal : Nat → Ex Unit
  | 0 => .call "UUID_TO_BIN".toList [.val ()]
  | _ => .val ()

def idScan : Nat → Ex Unit
  | 0 => .call "BIN_TO_UUID".toList [.val ()]
  | _ => .val ()

/-- UUIDs and names are texts. -/
def texts2 : Env Nat String Val where
  g := cfg
  D := mysql
  null := .null
  gen _ := .null
  enc _ x := .text x
  dec _ v _ := match v with
    | .text s => some s
    | _ => none
  toId _ := none

theorem userTexts : Texts texts2 idVal idScan users where
  wf := by
    refine ⟨by simp [users], ?_, by simp [users], by simp [users], by simp [users]⟩
    intro i c h
    match i, h with
    | 0, h => simp [users] at h; subst h; rfl
    | 1, h => simp [users] at h; subst h; rfl
    | n + 2, h => simp [users] at h
  key := rfl
  named := by
    refine ⟨.inl rfl, quotedOk _ (by decide), ?_⟩
    intro c hc
    simp only [users, List.mem_cons, List.not_mem_nil, or_false] at hc
    rcases hc with rfl | rfl <;> exact quotedOk _ (by decide)
  bare := by
    refine ⟨fun _ => .inr ⟨⟨by decide, by decide, by decide, by decide⟩, rfl⟩, ?_⟩
    intro c hc
    simp [pick, keyPos, users] at hc
    subst hc
    exact .inr ⟨⟨by decide, by decide, by decide, by decide⟩, rfl⟩
  vals := by
    intro c hc
    simp only [users, List.mem_cons, List.not_mem_nil, or_false] at hc
    rcases hc with rfl | rfl
    · refine ⟨⟨by simp, by rfl, by decide, by decide⟩, fun u hu => ?_⟩
      cases hu
      exact ⟨by simp, by rfl⟩
    · exact ⟨rfl, fun u hu => by simp at hu⟩
  scans := by
    intro c hc
    simp only [users, List.mem_cons, List.not_mem_nil, or_false] at hc
    rcases hc with rfl | rfl
    · exact (⟨by simp, by rfl, by decide, by decide⟩ :
        Says mysql [.lit "BIN_TO_UUID(", .hole, .lit ")"] (.call "BIN_TO_UUID".toList [.val ()]))
    · exact rfl
  names := by decide
  single := by intro i h; simp [users] at h

/-- The column for the key. -/
def idCol : GCol Nat :=
  ⟨"id", 0, 0, false, some [.lit "BIN_TO_UUID(", .hole, .lit ")"], some [.lit "UUID_TO_BIN(", .hole, .lit ")"]⟩

/-- No user is found by id, whatever was inserted. -/
example (ops : List (Store.Op Nat String)) (hno : ∀ r, .update r ∉ ops) (i : Nat) (r : Nat → String) (hi : ops[i]? = some (.find r)) :
    (Wrap.performs texts2 funs users ops (empty users)).1[i]? = some .noRows := by
  refine (C100_wrapped_key_lost userTexts (c := idCol) rfl (by rfl) rfl ⟨by simp, by simp⟩ ?_ ?_ ops hno [] (fun row h => by simp at h)
    _ rfl).2 i r hi
  · intro c hc
    simp only [users, List.mem_cons, List.not_mem_nil, or_false] at hc
    rcases hc with rfl | rfl <;> rfl
  · intro x y h
    have : apply funs (idVal idCol.field) (texts2.enc idCol.field x) = some (.bin x) := rfl
    rw [this] at h
    simp [texts2] at h

/-- But a user is inserted. -/
example : (match (Wrap.perform texts2 funs users (.insert fun _ => "x") (empty users)).1 with
    | .ok r => r 0 == "x"
    | _ => false) = true := by
  decide +kernel

end Verif.Props.WrapExample
