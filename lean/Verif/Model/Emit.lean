import Verif.Model.Parser

/-!
# Which methods are generated

`Generator.generateModels` (`cmd/sqlgen/codegen/generate.go:117-337`): the methods emitted for one
table, by name, and the body of the column accessors.  The bodies of the other methods are modelled in
`Model.Gen` and `Model.Addrs`.
-/

namespace Verif.Emit

open Verif Verif.Addrs Verif.Parser

/-- What else decides about the methods. -/
structure Ctx where
  /-- the struct already has this method, hand-written or promoted (`t.Implements`, compiler.go:93-99) -/
  own : Str → Bool := fun _ => false
  /-- some column has an SQL scanner configured (generate.go:411-436) -/
  sqlScanner : Bool := false
  /-- a template fails while this method is being built; the error is dropped (generate.go:250-259) -/
  fails : Str → Bool := fun _ => false
  /-- `config.Getter.Prefix` -/
  pref : Str := "Column".toList

/-- `Table.HasPK` (compiler.go:79-81). -/
def hasPK (t : PTable) : Bool := t.auto.isSome || !t.keys.isEmpty

/-- `Table.InsertColumns` (compiler.go:87-91). -/
def insertCols (t : PTable) : List PCol := t.columns.zipIdx.filterMap fun x =>
  if !x.1.readonly && t.auto != some x.2 then some x.1 else none

/-- `Table.ColumnsWithoutPK` (compiler.go:48-61): columns that are neither the auto-increment column,
nor a key, nor readonly. -/
def nonKeyCols (t : PTable) : List PCol := t.columns.zipIdx.filterMap fun x =>
  if t.auto != some x.2 && !t.keys.contains x.2 && !x.1.readonly then some x.1 else none

def when (b : Bool) (n : String) : List Str := if b then [n.toList] else []

/-- Methods with a fixed name, in the order they are written. -/
def fixed (c : Ctx) (t : PTable) : List Str :=
  -- generate.go:145-153
  when (!c.own "TableName".toList) "TableName"
  -- generate.go:155-175
  ++ when (hasPK t) "HasPK"
  ++ when t.auto.isSome "IsAutoIncr" ++ when t.auto.isSome "ScanAutoIncr"
  ++ when (t.auto.isSome || t.keys.length == 1) "PK"
  ++ when (hasPK t && !(t.auto.isSome || t.keys.length == 1)) "CompositeKey"
  -- generate.go:177-182, 411-442
  ++ when (!c.own "SQLColumns".toList && c.sqlScanner && !c.fails "SQLColumns".toList) "SQLColumns"
  -- generate.go:184-197
  ++ when (!c.own "Columns".toList) "Columns"
  -- generate.go:199-206, 445-458
  ++ when (!t.readonly && !c.own "Values".toList && !(insertCols t).isEmpty) "Values"
  -- generate.go:208-213
  ++ when (!c.own "Addrs".toList) "Addrs"
  -- generate.go:216-252
  ++ when (!t.readonly && !(insertCols t).isEmpty && (insertCols t).length != t.columns.length) "InsertColumns"
  ++ when (!t.readonly && !(insertCols t).isEmpty) "InsertPlaceholders"
  ++ when (!t.readonly && !(insertCols t).isEmpty && !c.fails "InsertOneStmt".toList) "InsertOneStmt"
  -- generate.go:254-259
  ++ when (hasPK t && !c.fails "FindOneByPKStmt".toList) "FindOneByPKStmt"
  ++ when (hasPK t && !t.readonly && !(nonKeyCols t).isEmpty && !c.fails "UpdateOneByPKStmt".toList)
      "UpdateOneByPKStmt"

/-- The value getters (generate.go:262-289, 817-819). -/
def getters (t : PTable) : List Str := t.columns.map fun c => c.goName ++ "Value".toList

/-- The column accessors (generate.go:291-337). -/
def accessors (c : Ctx) (t : PTable) : List Str := t.columns.map fun k => c.pref ++ k.goName

/-- All methods of the table. -/
def methods (c : Ctx) (t : PTable) : List Str := fixed c t ++ getters t ++ accessors c t

/-- The body of a column accessor (generate.go:318-331) evaluates `v.a.b.c` as it stands. -/
def accessor (m : Mem) (p : Path) : Res Path := if canReach m p then .ok p else .panic

end Verif.Emit
