import Verif.Model.Gen

/-!
# Insert, upsert and by-key helpers

`cmd/sqlgen/codegen/templates/db.go.tpl:13-803`, for models that do not bring their own generated
statement (`default` and later cases of the type switches), and the batch helpers.  A helper is
represented by the statement text and the arguments it hands to the database; what is done with the
answer is not modelled here.

`Columns()`, `Values()`, `PK()` … are functions of the record returning fresh slices (the generated
ones do); a hand-written method handing out a slice it keeps would have it overwritten by the
`append(columns[:i], columns[i+1:]...)` of the helpers.  In the batch helpers column names and key
positions are read from the first record; here they do not depend on the record.
-/

namespace Verif.Helpers

open Verif

/-- The key interfaces of a model (`sequel/sequel.go:59-76`). -/
inductive Key (R V : Type) where
  | none
  /-- `PrimaryKeyer`: name, position, value; `auto` if also `AutoIncrKeyer` -/
  | single (auto : Bool) (name : String) (idx : Nat) (val : R → V)
  /-- `CompositeKeyer` -/
  | comp (names : List String) (idxs : List Nat) (vals : R → List V)

/-- The methods of a model type with records `R` (`sequel/sequel.go:26-113`), hand-written or
generated. -/
structure Mdl (R V : Type) where
  /-- `DbTable(model)` (db.go.tpl:1533-1538) -/
  table : String
  columns : List String
  /-- `TableColumns(model)` (db.go.tpl:1540-1545) -/
  sqlColumns : List String
  values : R → List V
  /-- `InsertPlaceholders(row)` -/
  placeholders : Nat → Txt := fun _ => []
  key : Key R V := .none
  /-- `DuplicateKeys()`, if implemented (db.go.tpl:199-201) -/
  dupKeys : Option (List String) := none
  /-- `OnUpsertOmitColumns()`, if implemented (db.go.tpl:202-204) -/
  omitCols : Option (List String) := none

variable {R V α : Type}

/-- `strings.Join(l, sep)`. -/
def join (sep : String) (l : List String) : Txt := joinTxt (tx sep) (l.map tx)

/-- `append(l[:i], l[i+1:]...)`: panics when the slice is too short. -/
def removeAt (l : List α) (i : Nat) : Res (List α) :=
  if i < l.length then .ok (l.eraseIdx i) else .panic

/-- `strings.Repeat(",?", n)[1:]`: panics for `n = 0`. -/
def repQ1 (n : Nat) : Res Txt := if n = 0 then .panic else .ok ((Gen.repeatVar n).drop 1)

/-- `"?" + strings.Repeat(",?", n-1)` and, numbered, the loop `wrapVar(off+1), wrapVar(off+2), …`. -/
def vars (st : Style) (off : Nat) : Nat → Txt
  | 0 => []
  | n + 1 => vars st off n ++ (if n = 0 then [] else tx ",") ++ [st.var (off + n + 1)]

/-- `{{quoteVar 1}}` followed by placeholders 2 to `n` (at least one is written). -/
def varsFrom1 (st : Style) (n : Nat) : Txt := vars st 0 (max n 1)

/-! ### Single and batch insert -/

/-- `InsertOne`, default case, postgres (db.go.tpl:23-34). -/
def insertOnePg (m : Mdl R V) (r : R) : Res (Txt × List V) :=
  .ok (tx "INSERT INTO " ++ tx m.table ++ tx " (" ++ join "," m.columns ++ tx ") VALUES (" ++
    varsFrom1 .numbered (m.values r).length ++ tx ") RETURNING " ++ join "," m.sqlColumns ++ tx ";",
    m.values r)

/-- `InsertOne`, default case, other dialects (db.go.tpl:63-66); `strings.Repeat` panics on a
negative count. -/
def insertOneMy (m : Mdl R V) (r : R) : Res (Txt × List V) :=
  if m.columns.length = 0 then .panic
  else .ok (tx "INSERT INTO " ++ tx m.table ++ tx " (" ++ join "," m.columns ++ tx ") VALUES (" ++
    vars .anon 0 m.columns.length ++ tx ");", m.values r)

/-- The loops over the records: placeholder groups separated by commas, and the arguments. `drop` is
the position removed from each record's values, if any. -/
def rowsLoop (m : Mdl R V) (ph : Nat → Txt) (drop : Option Nat) : Nat → List R → Res (Txt × List V)
  | _, [] => .ok ([], [])
  | i, r :: rs => do
    let vs ← match drop with
      | some k => removeAt (m.values r) k
      | none => .ok (m.values r)
    let (t, as) ← rowsLoop m ph drop (i + 1) rs
    .ok ((if i > 0 then tx "," else []) ++ ph i ++ t, vs ++ as)

/-- The column list of the batch helpers, and the position to drop from the values. -/
def batchColumns (m : Mdl R V) : Res (List String × Option Nat) :=
  match m.key with
  | .single true _ idx _ => (removeAt m.columns idx).map fun c => (c, some idx)
  | _ => .ok (m.columns, none)

/-- `Insert`, postgres (db.go.tpl:74-142). `none`: no statement is issued. -/
def insertPg (m : Mdl R V) (data : List R) : Res (Option (Txt × List V)) :=
  match data with
  | [] => .ok none
  | _ => do
    let (cols, drop) ← batchColumns m
    let (t, as) ← rowsLoop m m.placeholders drop 0 data
    .ok (some (tx "INSERT INTO " ++ tx m.table ++ tx " (" ++ join "," cols ++ tx ") VALUES " ++ t ++
      tx " RETURNING " ++ join "," m.sqlColumns ++ tx ";", as))

/-- `Insert`, other dialects (db.go.tpl:145-194). -/
def insertMy (m : Mdl R V) (data : List R) : Res (Option (Txt × List V)) :=
  match data with
  | [] => .ok none
  | _ => do
    let (cols, drop) ← batchColumns m
    let q ← repQ1 cols.length
    let (t, as) ← rowsLoop m (fun _ => tx "(" ++ q ++ tx ")") drop 0 data
    .ok (some (tx "INSERT INTO " ++ tx m.table ++ tx " (" ++ join "," cols ++ tx ") VALUES " ++ t ++
      tx ";", as))

/-! ### Upsert -/

/-- Options of the postgres upsert (db.go.tpl:205-228). -/
structure UpOpts where
  doNothing : Bool := false
  omitted : List String := []
  dup : List String := []

/-- The loop writing `c = EXCLUDED.c` (or `c =VALUES(c)`) for the columns not omitted
(db.go.tpl:294-308, 414-428, 458-475, 614-630). -/
def setLoop (item : String → String) (omitted : List String) : Bool → List String → Txt
  | _, [] => []
  | first, c :: cs =>
    if c ∈ omitted then setLoop item omitted first cs
    else (if first then [] else tx ",") ++ tx (item c) ++ setLoop item omitted false cs

def excluded (c : String) : String := c ++ " = EXCLUDED." ++ c
def valuesFn (c : String) : String := c ++ " =VALUES(" ++ c ++ ")"
def valuesFn' (c : String) : String := c ++ "=VALUES(" ++ c ++ ")"

/-- The names of the key, added to the omitted columns (db.go.tpl:247-265, 338-382). -/
def keyNames (m : Mdl R V) : Res (List String) :=
  match m.key with
  | .single _ n _ _ => .ok [n]
  | .comp ns _ _ => .ok ns
  | .none => .panic

/-- The conflict target, and what it adds to the omitted columns (db.go.tpl:267-284, 383-404). -/
def target (m : Mdl R V) (o : UpOpts) : Res (List String × List String) :=
  if o.dup ≠ [] then .ok (o.dup, [])
  else match m.dupKeys with
    | some ks => .ok (ks, ks)
    | none => (keyNames m).map fun ks => (ks, [])

/-- Everything from `ON CONFLICT` on (db.go.tpl:267-311, 383-431); `cols` are the columns looped
over. -/
def conflictPg (m : Mdl R V) (o : UpOpts) (cols : List String) : Res Txt := do
  let ks ← keyNames m
  let (tgt, extra) ← target m o
  let act := if o.doNothing then tx " DO NOTHING"
    else tx " DO UPDATE SET " ++
      setLoop excluded (o.omitted ++ ks ++ extra ++ m.omitCols.getD []) true cols
  .ok (tx " ON CONFLICT(" ++ join "," tgt ++ tx ")" ++ act ++ tx " RETURNING " ++
    join "," m.sqlColumns ++ tx ";")

/-- `UpsertOne`, postgres (db.go.tpl:230-313). -/
def upsertOnePg (m : Mdl R V) (o : UpOpts) (r : R) : Res (Txt × List V) := do
  let (cols, drop) ← batchColumns m
  let vs ← match drop with
    | some k => removeAt (m.values r) k
    | none => .ok (m.values r)
  let c ← conflictPg m o cols
  .ok (tx "INSERT INTO " ++ tx m.table ++ tx " (" ++ join "," cols ++ tx ") VALUES " ++
    m.placeholders 0 ++ c, vs)

/-- `Upsert`, postgres (db.go.tpl:316-446): the update list is made from all columns. -/
def upsertPg (m : Mdl R V) (o : UpOpts) (data : List R) : Res (Option (Txt × List V)) :=
  match data with
  | [] => .ok none
  | _ => do
    let (cols, drop) ← batchColumns m
    let (t, as) ← rowsLoop m m.placeholders drop 0 data
    let c ← conflictPg m o m.columns
    .ok (some (tx "INSERT INTO " ++ tx m.table ++ tx " (" ++ join "," cols ++ tx ") VALUES " ++ t ++ c,
      as))

/-- Removing the composite key's columns from the back (db.go.tpl:513-515, 607-609, 698-701). -/
def removeAll (cols : List α) : List Nat → Res (List α)
  | [] => .ok cols
  | i :: is => do
    let c ← removeAll cols is
    removeAt c i

/-- The loop of the composite branch, with its own idea of the last column (db.go.tpl:516-525). -/
def trailLoop (omitted : List String) (n : Nat) : Nat → List String → Txt
  | _, [] => []
  | i, c :: cs =>
    (if c ∈ omitted then [] else tx (valuesFn c) ++ (if i + 1 < n then tx "," else [])) ++
      trailLoop omitted n (i + 1) cs

/-- `UpsertOne`, mysql and sqlite (db.go.tpl:448-532). -/
def upsertOneMy (m : Mdl R V) (override : Bool) (omitted : List String) (r : R) : Res (Txt × List V) :=
  match m.key with
  | .single _ name _ _ => do
    let q ← repQ1 m.columns.length
    if override then
      .ok (tx "INSERT INTO " ++ tx m.table ++ tx " (" ++ join "," m.columns ++ tx ") VALUES (" ++ q ++
        tx ") ON DUPLICATE KEY UPDATE " ++ setLoop valuesFn (name :: omitted) true m.columns, m.values r)
    else
      .ok (tx "INSERT IGNORE INTO " ++ tx m.table ++ tx " (" ++ join "," m.columns ++ tx ") VALUES (" ++
        q ++ tx ");", m.values r)
  | .comp names idxs _ => do
    let q ← repQ1 m.columns.length
    if override then
      -- `for i := range append(names, omittedFields...) { dict[omittedFields[i]] = … }`
      -- (db.go.tpl:507-509) reads past the end of `omittedFields`
      if omitted.length < (names ++ omitted).length then .panic
      else do
        let cols ← removeAll m.columns idxs
        .ok (tx "INSERT INTO " ++ tx m.table ++ tx " (" ++ join "," m.columns ++ tx ") VALUES (" ++ q ++
          tx ") ON DUPLICATE KEY UPDATE " ++ trailLoop omitted m.columns.length 0 cols, m.values r)
    else
      .ok (tx "INSERT IGNORE INTO " ++ tx m.table ++ tx " (" ++ join "," m.columns ++ tx ") VALUES (" ++
        q ++ tx ");", m.values r)
  | .none => .panic

/-- The end of `Upsert`, mysql and sqlite (db.go.tpl:611-633). -/
def upsertTail (override : Bool) (omitted cols : List String) : Txt :=
  if override then tx " ON DUPLICATE KEY UPDATE " ++ setLoop valuesFn' omitted true cols ++ tx ";"
  else tx ";"

/-- `Upsert`, mysql and sqlite (db.go.tpl:535-635).  For auto-increment keys the placeholder group
has the number of all columns (line 564 uses the length taken before the removal). -/
def upsertMy (m : Mdl R V) (override : Bool) (omitted : List String) (data : List R) :
    Res (Option (Txt × List V)) :=
  let verb := if override then tx "INSERT INTO " else tx "INSERT IGNORE INTO "
  match data with
  | [] => .ok none
  | _ =>
    match m.key with
    | .single true name idx _ => do
      let cols ← removeAt m.columns idx
      let q ← repQ1 m.columns.length
      let (t, as) ← rowsLoop m (fun _ => tx "(" ++ q ++ tx ")") (some idx) 0 data
      .ok (some (verb ++ tx m.table ++ tx " (" ++ join "," cols ++ tx ") VALUES " ++ t ++
        upsertTail override (omitted ++ [name]) cols, as))
    | .single false name _ _ => do
      let (t, as) ← rowsLoop m m.placeholders none 0 data
      .ok (some (verb ++ tx m.table ++ tx " (" ++ join "," m.columns ++ tx ") VALUES " ++ t ++
        upsertTail override (omitted ++ [name]) m.columns, as))
    | .comp _ idxs _ => do
      let (t, as) ← rowsLoop m m.placeholders none 0 data
      let cols ← removeAll m.columns idxs
      .ok (some (verb ++ tx m.table ++ tx " (" ++ join "," m.columns ++ tx ") VALUES " ++ t ++
        upsertTail override omitted cols, as))
    | .none => .ok (some (upsertTail override omitted m.columns, []))

/-! ### By key -/

/-- The condition `(k1,k2) = (?,?)` (db.go.tpl:648-661, 739-752, 785-798); `strings.Repeat` panics on
a negative count with anonymous placeholders. -/
def compCond (st : Style) (names : List String) : Res Txt :=
  if names.length = 0 ∧ st = .anon then .panic
  else .ok (tx "(" ++ join "," names ++ tx ") = (" ++ varsFrom1 st names.length ++ tx ")")

/-- The condition and arguments of the by-key helpers. -/
def keyCond (st : Style) (m : Mdl R V) (r : R) : Res (Txt × List V) :=
  match m.key with
  | .single _ name _ val => .ok (tx name ++ tx " = " ++ [st.var 1], [val r])
  | .comp names _ vals => (compCond st names).map fun c => (c, vals r)
  | .none => .panic

/-- `FindByPK` without generated statement (db.go.tpl:644-665). -/
def findByPK (st : Style) (m : Mdl R V) (r : R) : Res (Txt × List V) := do
  let (c, as) ← keyCond st m r
  .ok (tx "SELECT " ++ join "," m.sqlColumns ++ tx " FROM " ++ tx m.table ++ tx " WHERE " ++ c ++
    tx " LIMIT 1;", as)

/-- `LockByPK` (db.go.tpl:779-803). -/
def lockByPK (st : Style) (m : Mdl R V) (mode : String) (r : R) : Res (Txt × List V) := do
  let (c, as) ← keyCond st m r
  .ok (tx "SELECT " ++ join "," m.sqlColumns ++ tx " FROM " ++ tx m.table ++ tx " WHERE " ++ c ++
    tx " LIMIT 1 " ++ tx mode ++ tx ";", as)

/-- `DeleteByPK` without own statement (db.go.tpl:734-756). -/
def deleteByPK (st : Style) (m : Mdl R V) (r : R) : Res (Txt × List V) := do
  let (c, as) ← keyCond st m r
  .ok (tx "DELETE FROM " ++ tx m.table ++ tx " WHERE " ++ c ++ tx ";", as)

/-- `c1 = $1,c2 = $2,…`: with anonymous placeholders `strings.Join(columns, " = ?,") + " = ?"`, else
the loop (db.go.tpl:681, 685-689, 705, 710-713), which reads `columns[0]` first. -/
def assigns (st : Style) : Nat → List String → Txt
  | _, [] => []
  | i, c :: cs => (if i > 0 then tx "," else []) ++ tx c ++ tx " = " ++ [st.var (i + 1)] ++ assigns st (i + 1) cs

def setList (st : Style) (cols : List String) : Res Txt :=
  match st, cols with
  | .anon, [] => .ok (tx " = " ++ [.anon])
  | .numbered, [] => .panic
  | st, cs => .ok (assigns st 0 cs)

/-- The key tuple as written by the numbered branch (db.go.tpl:714-718): from the second key on, a
column assignment is written inside the tuple. -/
def badTuple (cols : List String) (n : Nat) : Nat → Nat → Res Txt
  | _, 0 => .ok []
  | i, k + 1 => do
    let c ← getIdx cols i
    let r ← badTuple cols n (i + 1) k
    .ok (tx "," ++ tx c ++ tx " = " ++ [.num (n + i + 1)] ++ r)

/-- Insertion sort, for `sort.Ints`. -/
def insertNat (x : Nat) : List Nat → List Nat
  | [] => [x]
  | y :: l => if x ≤ y then x :: y :: l else y :: insertNat x l

def sortNat : List Nat → List Nat
  | [] => []
  | x :: l => insertNat x (sortNat l)

/-- `UpdateByPK` without generated statement (db.go.tpl:674-725). -/
def updateByPK (st : Style) (m : Mdl R V) (r : R) : Res (Txt × List V) :=
  match m.key with
  | .single _ name idx val => do
    let cols ← removeAt m.columns idx
    let vs ← removeAt (m.values r) idx
    -- the key is appended at line 679 and again at line 681 or 691
    let args := vs ++ [val r] ++ [val r]
    let set ← setList st cols
    .ok (tx "UPDATE " ++ tx m.table ++ tx " SET " ++ set ++ tx " WHERE " ++ tx name ++ tx " = " ++
      [st.var (cols.length + 2)] ++ tx ";", args)
  | .comp names idxs vals => do
    let cols ← removeAll m.columns (sortNat idxs)
    let vs ← removeAll (m.values r) (sortNat idxs)
    match st with
    | .anon => do
      let set ← setList .anon cols
      let q ← if names.length = 0 then .panic else Res.ok (vars .anon 0 names.length)
      -- only the key values are passed (lines 703-706)
      .ok (tx "UPDATE " ++ tx m.table ++ tx " SET " ++ set ++ tx " WHERE (" ++ join "," names ++
        tx ") = (" ++ q ++ tx ");", vals r)
    | .numbered => do
      let set ← setList .numbered cols
      let q ← badTuple cols cols.length 1 (names.length - 1)
      .ok (tx "UPDATE " ++ tx m.table ++ tx " SET " ++ set ++ tx " WHERE (" ++ join "," names ++
        tx ") = (" ++ [.num (cols.length + 1)] ++ q ++ tx ");", vs ++ vals r)
  | .none => .panic

/-! ### Generated models as arguments of the helpers -/

/-- The characters of a text. -/
def txString (t : Txt) : String :=
  String.ofList (t.filterMap fun | .ch c => some c | _ => none)

/-- The methods the generator writes for a table, as seen by the helpers. -/
def ofTable {F : Type} (g : Gen.Cfg) (t : Gen.Table F) : Mdl (F → V) V where
  table := g.genTableName t
  columns := g.genColumns t
  sqlColumns := match g.genSqlColumns t with
    | some l => l.map txString
    | none => g.genColumns t
  values r := (Gen.genValues t).map r
  placeholders := Gen.insertPlaceholders g.style t.insertColumns.length
  key := match t.autoCol with
    | some _ => match g.genPK t with
      | some (n, i, f) => .single true n i fun r => r f
      | none => .none
    | none => match g.genPK t, Gen.genCompositeKey t with
      | some (n, i, f), _ => .single false n i fun r => r f
      | none, some (ns, is, fs) => .comp ns is fun r => fs.map r
      | none, none => .none

end Verif.Helpers
