import Verif.Base.Sql

/-!
# Generated methods of a model

`cmd/sqlgen/codegen/generate.go:117-670` writes, for every parsed table, Go methods.  Here each
generated method is represented by what it returns: statement texts as symbol lists, values as the
Go fields they are read from.  The Go text around it (`func (v T) …`, comments, imports) is not
modelled.  User-written methods: a hand-written `TableName` is modelled (`ownTable`, its run-time
result); hand-written `Columns`, `Values`, `Addrs` are not (the generator then leaves them alone).
-/

namespace Verif.Gen

open Verif

/-- A user supplied SQL template (`config.DataTypes[…].SQLScanner`/`SQLValuer`), parsed by
`text/template`: literal text, the action `{{.}}`, or anything whose execution fails. -/
inductive Piece where
  | lit (s : String)
  | hole
  | bad
  deriving DecidableEq, Repr

abbrev Tmpl := List Piece

/-- `template.Execute(buf, x)`: the text written, or an error. -/
def Tmpl.exec : Tmpl → Txt → Res Txt
  | [], _ => .ok []
  | .lit s :: t, x => (Tmpl.exec t x).map (tx s ++ ·)
  | .hole :: t, x => (Tmpl.exec t x).map (x ++ ·)
  | .bad :: _, _ => .err

/-- `compiler.Column` (`internal/compiler/compiler.go:101-111`): `field` stands for the Go field
reached by `GoPath`. -/
structure GCol (F : Type) where
  name : String
  field : F
  pos : Nat
  readonly : Bool := false
  /-- `config.DataTypes[type].SQLScanner` -/
  sqlScan : Option Tmpl := none
  /-- `config.DataTypes[type].SQLValuer` -/
  sqlVal : Option Tmpl := none

/-- `compiler.Table` (`internal/compiler/compiler.go:33-46`); `keys` and `auto` point into
`columns`, here by index. -/
structure Table (F : Type) where
  name : String
  columns : List (GCol F)
  keys : List Nat := []
  auto : Option Nat := none
  readonly : Bool := false
  /-- result of a hand-written `TableName` method -/
  ownTable : Option String := none

/-- Dialect and configuration of the generator. -/
structure Cfg where
  style : Style
  /-- `dialect.QuoteIdentifier` -/
  quoteId : String → String
  /-- `config.Driver == Postgres` -/
  postgres : Bool := false
  /-- `config.QuoteIdentifier` -/
  quoteNames : Bool := false

variable {F : Type}

/-- The columns behind the key list. -/
def Table.keyCols (t : Table F) : List (GCol F) := t.keys.filterMap fun i => t.columns[i]?

/-- `Table.AutoIncrKey` (compiler.go:83-85). -/
def Table.autoCol (t : Table F) : Option (GCol F) := t.auto.bind fun i => t.columns[i]?

/-- `Table.HasPK` (compiler.go:79-81). -/
def Table.hasPK (t : Table F) : Bool := t.auto.isSome || !t.keys.isEmpty

/-- `Table.InsertColumns` (compiler.go:87-91). -/
def Table.insertColumns (t : Table F) : List (GCol F) :=
  (t.columns.zipIdx.filter fun p => !p.1.readonly && some p.2 != t.auto).map (·.1)

/-- `Table.ColumnsWithoutPK` (compiler.go:48-61): keys are recognised by name. -/
def Table.columnsWithoutPK (t : Table F) : List (GCol F) :=
  (t.columns.zipIdx.filter fun p =>
    !((t.keyCols.map (·.name)).contains p.1.name || p.1.readonly || some p.2 == t.auto)).map (·.1)

/-- `Generator.QuoteIdentifier` (generate.go:109-114). -/
def Cfg.ident (g : Cfg) (s : String) : String := if g.quoteNames then g.quoteId s else s

/-- `Generator.sqlScanner` (generate.go:746-758). -/
def Cfg.sqlScanner (g : Cfg) (c : GCol F) : Res Txt :=
  match c.sqlScan with
  | some t => t.exec (tx (g.quoteId c.name))
  | none => .ok (tx (g.quoteId c.name))

/-- `Generator.sqlValuer` (generate.go:760-772). -/
def Cfg.sqlValuer (g : Cfg) (c : GCol F) (idx : Nat) : Res Txt :=
  match c.sqlVal with
  | some t => t.exec [g.style.var (idx + 1)]
  | none => .ok [g.style.var (idx + 1)]

/-- The loops `for i, f := range columns { if i > 0 { ',' }; … }`. -/
def commaLoop (f : Nat → GCol F → Res Txt) : Nat → List (GCol F) → Res Txt
  | _, [] => .ok []
  | i, c :: cs => do
    let x ← f i c
    let r ← commaLoop f (i + 1) cs
    .ok ((if i > 0 then tx "," else []) ++ x ++ r)

/-- The table name in a statement: a literal, or the result of the hand-written method. -/
def Cfg.tableText (g : Cfg) (t : Table F) : Txt :=
  match t.ownTable with
  | some n => tx n
  | none => tx (g.quoteId t.name)

/-- `TableName()` (generate.go:144-152). -/
def Cfg.genTableName (g : Cfg) (t : Table F) : String :=
  match t.ownTable with
  | some n => n
  | none => g.ident t.name

/-- `Columns()` (generate.go:182-196). -/
def Cfg.genColumns (g : Cfg) (t : Table F) : List String := t.columns.map fun c => g.ident c.name

/-- One entry of `SQLColumns()` (generate.go:419-436). -/
def Cfg.sqlColumn (g : Cfg) (c : GCol F) : Res Txt :=
  match c.sqlScan with
  | some t => t.exec (tx (g.ident c.name))
  | none => .ok (tx (g.ident c.name))

/-- `buildSqlColumns` (generate.go:411-444): `none` when the method is not generated. -/
def Cfg.genSqlColumns (g : Cfg) (t : Table F) : Option (List Txt) :=
  match t.columns.mapM g.sqlColumn with
  | .ok l => if t.columns.any (fun c => c.sqlScan.isSome) then some l else none
  | _ => none

/-- `InsertColumns()` (generate.go:217-229): only generated when it differs from `Columns()`. -/
def Cfg.genInsertColumns (g : Cfg) (t : Table F) : Option (List String) :=
  if t.readonly ∨ t.insertColumns.length = 0 ∨ t.insertColumns.length = t.columns.length then none
  else some (t.insertColumns.map fun c => g.ident c.name)

/-- `Values()` (`buildValuer`, generate.go:446-458): the fields read. -/
def genValues (t : Table F) : List F := t.insertColumns.map (·.field)

/-- `Addrs()` (`buildScanner`, generate.go:460-474): the fields whose addresses are returned. -/
def genAddrs (t : Table F) : List F := t.columns.map (·.field)

/-- `PK()` (generate.go:155-173): `none` when the method is not generated. -/
def Cfg.genPK (g : Cfg) (t : Table F) : Option (String × Nat × F) :=
  match t.autoCol with
  | some c => some (g.ident c.name, c.pos, c.field)
  | none =>
    match t.keyCols with
    | [c] => some (g.ident c.name, c.pos, c.field)
    | _ => none

/-- `CompositeKey()` (`buildCompositeKeys`, generate.go:384-409): `none` when not generated.  The
names are not quoted. -/
def genCompositeKey (t : Table F) : Option (List String × List Nat × List F) :=
  match t.autoCol with
  | some _ => none
  | none =>
    match t.keyCols with
    | [] => none
    | [_] => none
    | ks => some (ks.map (·.name), ks.map (·.pos), ks.map (·.field))

/-- The generated loop of `InsertPlaceholders` for numbered placeholders (generate.go:236-248). -/
def placeholderLoop (n row : Nat) : Nat → Nat → Txt
  | _, 0 => []
  | i, k + 1 =>
    (if i > 0 then tx "," else []) ++ [.num (row * n + (i + 1))] ++ placeholderLoop n row (i + 1) k

/-- `strings.Repeat(","+v, n)`. -/
def repeatVar : Nat → Txt
  | 0 => []
  | n + 1 => tx "," ++ [.anon] ++ repeatVar n

/-- `InsertPlaceholders(row)` for `n > 0` insertable columns (generate.go:231-248). -/
def insertPlaceholders (st : Style) (n row : Nat) : Txt :=
  match st with
  | .anon => tx "(" ++ (repeatVar n).drop 1 ++ tx ")"
  | .numbered => tx "(" ++ placeholderLoop n row 0 n ++ tx ")"

/-- `InsertOneStmt()` (`buildInsertOne`, generate.go:542-605). `.err`: the method is not
generated. -/
def Cfg.genInsertOne (g : Cfg) (t : Table F) : Res (Txt × List F) := do
  let cols := t.insertColumns
  let names ← commaLoop (fun _ c => .ok (tx (g.quoteId c.name))) 0 cols
  let vals ← commaLoop (fun i c => g.sqlValuer c i) 0 cols
  let ret ← if g.postgres then
      (commaLoop (fun _ c => g.sqlScanner c) 0 t.columns).map (tx " RETURNING " ++ ·)
    else .ok []
  let text := tx "INSERT INTO " ++ g.tableText t ++ tx " (" ++ names ++ tx ") VALUES (" ++ vals ++
    tx ")" ++ ret ++ tx ";"
  if cols.length = t.columns.length then .ok (text, genValues t)
  else .ok (text, cols.map (·.field))

/-- `strings.Join(keyNames, ",")`. -/
def Cfg.keyNames (g : Cfg) (ks : List (GCol F)) : Txt :=
  joinTxt (tx ",") (ks.map fun c => tx (g.quoteId c.name))

/-- `FindOneByPKStmt()` (`buildFindByPK`, generate.go:476-540). -/
def Cfg.genFindByPK (g : Cfg) (t : Table F) : Res (Txt × List F) := do
  let sel ← commaLoop (fun _ c => g.sqlScanner c) 0 t.columns
  let cond ← match t.autoCol, t.keyCols with
    | some pk, _ => .ok (tx (g.quoteId pk.name) ++ tx " = " ++ [g.style.var 1])
    | none, [pk] => .ok (tx (g.quoteId pk.name) ++ tx " = " ++ [g.style.var 1])
    | none, ks => do
      let vs ← commaLoop (fun i c => g.sqlValuer c i) 0 ks
      Res.ok (tx "(" ++ g.keyNames ks ++ tx ")" ++ tx " = " ++ tx "(" ++ vs ++ tx ")")
  let args := match t.autoCol with
    | some pk => [pk.field]
    | none => t.keyCols.map (·.field)
  .ok (tx "SELECT " ++ sel ++ tx " FROM " ++ g.tableText t ++ tx " WHERE " ++ cond ++
    tx " LIMIT 1;", args)

/-- `UpdateOneByPKStmt()` (`buildUpdateByPK`, generate.go:607-670). -/
def Cfg.genUpdateByPK (g : Cfg) (t : Table F) : Res (Txt × List F) := do
  let cols := t.columnsWithoutPK
  let set ← commaLoop (fun i c => (g.sqlValuer c i).map (tx (g.quoteId c.name) ++ tx " = " ++ ·)) 0 cols
  let (cond, cols) ← match t.autoCol, t.keyCols with
    | some pk, _ =>
      Res.ok (tx (g.quoteId pk.name) ++ tx " = " ++ [g.style.var t.columns.length], cols ++ [pk])
    | none, [pk] =>
      Res.ok (tx (g.quoteId pk.name) ++ tx " = " ++ [g.style.var t.columns.length], cols ++ [pk])
    | none, ks => do
      let vs ← commaLoop (fun i c => g.sqlValuer c (i + cols.length)) 0 ks
      Res.ok (tx "(" ++ g.keyNames ks ++ tx ")" ++ tx " = " ++ tx "(" ++ vs ++ tx ")", cols ++ ks)
  .ok (tx "UPDATE " ++ g.tableText t ++ tx " SET " ++ set ++ tx " WHERE " ++ cond ++ tx ";",
    cols.map (·.field))

end Verif.Gen
