import Verif.Model.Store
import Verif.Model.Dispatch
import Verif.Model.ColumnType
import Verif.Model.Float
import Verif.Spec.Cell

/-!
# Fields of Go types in columns of SQL types

What the helpers of `Model/Store.lean` write for fields of predeclared types, defined types and pointers, and what they
read: the choice of the generator (`Model/Dispatch.lean`), the valuers of `dialect/{mysql,postgres,sqlite}/column_type.go`,
the scanners of `sequel/encoding` (`Model/Scan.lean`) and, for the types that have none, `database/sql.convertAssign`.
Left out: fields of other types, of type `rune` and `byte` (C70, C68), and pointers to pointers.
-/

namespace Verif.Typed

open Verif Verif.Dispatch Verif.ColumnType Verif.Spec.Float Verif.Spec.Columns Verif.Scan

/-- Predeclared types. -/
inductive Kind where
  | bool
  | int (k : GoInt)
  | float (w : Nat)
  | string
  deriving DecidableEq, Repr

/-- The predeclared types in the tables of column types (column_type.go of all dialects), apart from `rune` and `byte`. -/
def kinds : List (Text × Kind) :=
  [("string".toList, .string), ("bool".toList, .bool), ("int".toList, .int .int), ("int8".toList, .int .int8),
   ("int16".toList, .int .int16), ("int32".toList, .int .int32), ("int64".toList, .int .int64), ("uint".toList, .int .uint),
   ("uint8".toList, .int .uint8), ("uint16".toList, .int .uint16), ("uint32".toList, .int .uint32),
   ("uint64".toList, .int .uint64), ("float32".toList, .float 32), ("float64".toList, .float 64)]

def kindOf (b : Text) : Option Kind := kinds.lookup b

/-- The predeclared type that a type is (defined from), behind at most one pointer. -/
def kindOfTy (D : Decls) : Ty → Option Kind
  | .basic b => kindOf b
  | .named id =>
    match D.under id with
    | .basic b => kindOf b
    | _ => none
  | .ptr (.basic b) => kindOf b
  | _ => none

def isPtr : Ty → Bool
  | .ptr _ => true
  | _ => false

/-- The keys of the tables of column types. -/
def tableOf : Dialect → Dispatch.Table
  | .mysql => Dispatch.mysql
  | .postgres => Dispatch.postgres
  | .sqlite => Dispatch.sqlite

/-! ## Columns -/

def intType : SqlType → String × Option Nat
  | .int2 => ("int2", none)
  | .int4 => ("int4", none)
  | .bigint => ("bigint", none)
  | .mysqlInteger => ("INTEGER", none)
  | .sqliteInteger => ("INTEGER", none)
  | .char1 => ("CHAR", some 1)
  | .blob => ("BLOB", none)

def brand : Dialect → Float.Brand
  | .mysql => .mysql
  | .postgres => .postgres
  | .sqlite => .sqlite

/-- `DataType` of the entries (mysql/column_type.go:28-104, postgres/column_type.go:29-105, sqlite/column_type.go:28-98),
without constraints and defaults: text has the size in the tag, or 255. -/
def declared (d : Dialect) (size : Nat) : Kind → String × Option Nat
  | .bool => (if d = .postgres then "bool" else "BOOL", none)
  | .int k => intType (columnType d k)
  | .float w => (Float.columnType (brand d) w, none)
  | .string =>
    match d with
    | .mysql => ("VARCHAR", some (if 0 < size then size else 255))
    | .postgres => ("varchar", some (if 0 < size then size else 255))
    | .sqlite => ("TEXT", none)

/-! ## Writing -/

/-- `Valuer` of the entries (same lines). -/
def value (d : Dialect) : Kind → Val → Src
  | .bool, .bool b => .bool b
  | .int .uint64, .int n => if d = .postgres then .int64 (written d .uint64 n) else .uint64 n.toNat
  | .int k, .int n => .int64 (written d k n)
  | .float w, .flt x => Float.write w x
  | .string, .str s => .str s
  | _, _ => .other 0

/-- The value of a field of type `string`, `bool`, `int64` or `float64` as it is. -/
def same : Val → Src
  | .bool b => .bool b
  | .int n => .int64 n
  | .flt x => .float (Float.bits double x)
  | .str s => .str s
  | .nil => .nil

/-- How many types are looked through at most. -/
def fuel : Nat := 3

/-- The parameter for a field (generate.go:260-284, 672-678): nil pointers are nil. -/
def write (d : Dialect) (D : Decls) (F : Facts) (ty : Ty) (v : Val) : Src :=
  if isPtr ty ∧ v = .nil then .nil
  else
    match Dispatch.writes D (tableOf d) F fuel ty with
    | some .direct => same v
    | some (.table (.toks [.name b])) =>
      match kindOf b with
      | some k => value d k v
      | none => .other 0
    | _ => .other 0

/-! ## Reading -/

/-- What is not modelled: `convertAssign` from values that are no text, number or truth value. -/
structure Lib where
  std : Std
  odd : Nat → Bytes → Option Flt
  rest : Kind → Src → Option Val

/-- `database/sql.convertAssign` into `*string`, `*bool`, `*int64`, `*float64`. -/
def assign (L : Lib) : Kind → Src → Option Val
  | .string, .str s => some (.str s)
  | .string, .bytes s => some (.str s)
  | .bool, .bool b => some (.bool b)
  | .bool, .int64 n => if n = 1 then some (.bool true) else if n = 0 then some (.bool false) else none
  | .bool, .bytes s => (parseBool s).map .bool
  | .bool, .str s => (parseBool s).map .bool
  | .int .int64, .int64 n => some (.int n)
  | .int .int64, .bytes s => (parseInt s 64).map .int
  | .int .int64, .str s => (parseInt s 64).map .int
  | .float 64, .float b => some (.flt (Float.ofBits double b))
  | .float 64, .bytes s => (Float.parse (L.odd 64) double s).map .flt
  | .float 64, .str s => (Float.parse (L.odd 64) double s).map .flt
  | .float 64, .int64 n => (Float.parse (L.odd 64) double (intDec n)).map .flt
  | _, .nil => none
  | k, s => L.rest k s

/-- The destination of a scanner, from what is in the field. -/
def dest {α : Type} (z : α) (get : Val → Option α) (ptr : Bool) (old : Val) : Dest α :=
  if ptr then .ptr (get old) else .val ((get old).getD z)

/-- What is in the field afterwards. -/
def result {α : Type} (put : α → Val) : Res (Dest α) → Option Val
  | .ok (.val x) => some (put x)
  | .ok (.ptr (some x)) => some (put x)
  | .ok (.ptr none) => some .nil
  | _ => none

def getBool : Val → Option Bool
  | .bool b => some b
  | _ => none

def getInt : Val → Option Int
  | .int n => some n
  | _ => none

def getNat : Val → Option Nat
  | .int n => some n.toNat
  | _ => none

def getFlt (w : Nat) : Val → Option Nat
  | .flt x => some (Float.bits (Float.fmt w) x)
  | _ => none

def getStr : Val → Option Bytes
  | .str s => some s
  | _ => none

/-- `Scanner` of the entries (mysql/column_type.go:28-104, postgres/column_type.go:29-105, sqlite/column_type.go:28-98), which
are those of `sequel/encoding`; a generated scanner is never strict. -/
def scanner (L : Lib) (ptr : Bool) (old : Val) (s : Src) : Kind → Option Val
  | .bool => result .bool (scanBool false (dest false getBool ptr old) s)
  | .int k =>
    match k with
    | .int | .int64 => result .int (scanInt 64 (dest 0 getInt ptr old) s)
    | .int8 => result .int (scanInt 8 (dest 0 getInt ptr old) s)
    | .int16 => result .int (scanInt 16 (dest 0 getInt ptr old) s)
    | .int32 => result .int (scanInt 32 (dest 0 getInt ptr old) s)
    | .uint | .uint64 => result (fun n : Nat => .int n) (scanUint 64 (dest 0 getNat ptr old) s)
    | .uint8 => result (fun n : Nat => .int n) (scanUint 8 (dest 0 getNat ptr old) s)
    | .uint16 => result (fun n : Nat => .int n) (scanUint 16 (dest 0 getNat ptr old) s)
    | .uint32 => result (fun n : Nat => .int n) (scanUint 32 (dest 0 getNat ptr old) s)
    | .byte => none
  | .float w => result (fun b => .flt (Float.ofBits (Float.fmt w) b))
      (scanFloat (Float.floats L.odd L.std) 0 w false (dest 0 (getFlt w) ptr old) s)
  | .string => result .str (scanString (Float.floats L.odd L.std) false (dest [] getStr ptr old) s)

/-- A field after `Scan(model.Addrs()...)` with `s` from the driver (generate.go:460-476, 717-744). -/
def read (L : Lib) (d : Dialect) (D : Decls) (F : Facts) (ty : Ty) (s : Src) (old : Val) : Option Val :=
  match Dispatch.reads D (tableOf d) F fuel ty with
  | some .direct => (kindOfTy D ty).bind fun k => assign L k s
  | some (.table (.toks [.name b])) => (kindOf b).bind fun k => scanner L (isPtr ty) old s k
  | _ => none

/-! ## Models -/

/-- A program with its database and driver. -/
structure World (F : Type) where
  dialect : Dialect
  decls : Decls
  facts : Facts
  lib : Lib
  /-- the types of the fields, and the sizes in their tags -/
  ty : F → Ty
  size : F → Nat
  /-- what the column of a field keeps of a parameter -/
  keep : F → Src → Cell
  /-- what the driver hands over for it -/
  hand : F → Cell → Src

variable {F : Type}

/-- `ScanAutoIncr`: `v.Key = T(val)` (generate.go:158-162). -/
def convert : Kind → Cell → Option Val
  | .int k, .num n =>
    match k with
    | .int | .int64 => some (.int (toSigned 64 n))
    | .int8 => some (.int (toSigned 8 n))
    | .int16 => some (.int (toSigned 16 n))
    | .int32 => some (.int (toSigned 32 n))
    | .uint | .uint64 => some (.int (toUnsigned 64 n : Nat))
    | .uint8 => some (.int (toUnsigned 8 n : Nat))
    | .uint16 => some (.int (toUnsigned 16 n : Nat))
    | .uint32 => some (.int (toUnsigned 32 n : Nat))
    | .byte => none
  | _, _ => none

/-- The environment of the helpers of `Model/Store.lean`; `auto` is the type of a key that the database makes up. -/
def World.env (W : World F) (g : Gen.Cfg) (S : Spec.Sql.Dialect) (gen : Spec.Sql.Tbl Cell → Cell) (auto : Kind) :
    Store.Env F Val Cell where
  g := g
  D := S
  null := .null
  gen := gen
  enc f v := W.keep f (write W.dialect W.decls W.facts (W.ty f) v)
  dec f c old := read W.lib W.dialect W.decls W.facts (W.ty f) (W.hand f c) old
  toId := convert auto

end Verif.Typed
