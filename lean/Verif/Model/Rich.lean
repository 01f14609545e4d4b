import Verif.Model.Typed
import Verif.Model.Array

/-!
# Fields of list types, byte strings and times

What is written and read for fields of types `[]T`, `[]byte`, `time.Time` and `*time.Time`, next to the fields of `Model/Typed.lean`: the
entries of `dialect/{mysql,postgres,sqlite}/column_type.go` for them, `sequel/sqltype`, `sequel/driver/postgres/pgtype`
(`Model/Array.lean`, `Model/Float.lean`) and `sequel/encoding` (`Model/Scan.lean`).  Left out: pointers to lists (which do not compile,
C80), lists of lists, of runes and of pointers, arrays, the zones of times, and that `[]byte` fields share memory with what the driver
handed over (C67).
-/

namespace Verif.Rich

open Verif Verif.Dispatch Verif.ColumnType Verif.Spec.Float Verif.Scan Verif.Typed

/-- Kinds of fields. -/
inductive Form where
  | scalar (k : Kind)
  | list (k : Kind)
  | bytes
  | time
  deriving DecidableEq, Repr

/-- Values of fields: those of `Model/Typed.lean`, with nil for lists as well, lists, byte strings, and times as nanoseconds since
1970. -/
inductive Val where
  | base (v : Spec.Columns.Val)
  | bools (l : List Bool)
  | ints (l : List Int)
  | flts (l : List Flt)
  | strs (l : List Bytes)
  | bytes (s : Bytes)
  | time (i : Int)
  deriving DecidableEq

/-- Times among the values that drivers take and hand over (`Src.time`). -/
def tag (i : Int) : Nat := if 0 ≤ i then 2 * i.toNat else 2 * (-i).toNat - 1
def instant (n : Nat) : Int := if n % 2 = 0 then (n / 2 : Nat) else -((n / 2 + 1 : Nat) : Int)

/-! ## Columns -/

/-- postgres/column_type.go:144-228 -/
def arrayType : Kind → String
  | .string => "text[]"
  | .bool => "bool[]"
  | .float _ => "double[]"
  | .int k =>
    match k with
    | .int | .int32 | .uint | .uint32 => "int4[]"
    | .int8 | .int16 | .uint8 | .uint16 | .byte => "int2[]"
    | .int64 | .uint64 => "int8[]"

/-- `DataType` of the entries (mysql/column_type.go:104-207, postgres/column_type.go:105-228, sqlite/column_type.go:98-197), without
constraints and defaults. -/
def declared (d : Dialect) (size : Nat) : Form → String × Option Nat
  | .scalar k => Typed.declared d size k
  | .list k =>
    match d with
    | .mysql => ("JSON", none)
    | .postgres => (arrayType k, none)
    | .sqlite => ("TEXT", none)
  | .bytes => (if d = .postgres then "blob" else "BLOB", none)
  | .time =>
    match d with
    | .mysql => ("TIMESTAMP", none)
    | .postgres => ("timestamptz", some 6)
    | .sqlite => ("TEXT", none)

/-! ## Writing -/

/-- `pgtype` in PostgreSQL, `sqltype` elsewhere. -/
def format (d : Dialect) : Fmt := if d = .postgres then .brace else .bracket

def signed : GoInt → Bool
  | .int | .int8 | .int16 | .int32 | .int64 => true
  | _ => false

/-- The bits of the integer types. -/
def width : GoInt → Nat
  | .int | .int64 | .uint | .uint64 => 64
  | .int8 | .uint8 | .byte => 8
  | .int16 | .uint16 => 16
  | .int32 | .uint32 => 32

/-- What `Value` gives (`string_slice.go`, `bool_slice.go`, `int_slice.go`, `uint_slice.go`, `float_slice.go`, and in pgtype). -/
def listText (d : Dialect) : Kind → Val → Option Bytes
  | .string, .strs l => stringValue (format d) (some l)
  | .bool, .bools l =>
    match boolValue (format d) (some l) with
    | .ok t => t
    | _ => none
  | .int k, .ints l => if signed k then intValue (format d) (some l) else uintValue (format d) (some (l.map Int.toNat))
  | .float w, .flts l => Float.listValue (format d) w (some l)
  | _, _ => none

/-- Text as a parameter; without any it is nil. -/
def asText : Option Bytes → Src
  | some t => .str t
  | none => .nil

/-- `Valuer` of the entries for `[]b` (same lines). -/
def value (d : Dialect) (b : Text) (v : Val) : Src :=
  if b = "byte".toList then
    match v with
    | .bytes s => .bytes s
    | _ => .nil
  else
    match kindOf b with
    | some k => asText (listText d k v)
    | none => .other 0

/-- The value in `Model/Typed.lean`. -/
def toBase : Val → Spec.Columns.Val
  | .base v => v
  | _ => .nil

/-- The parameter for a field (generate.go:260-284, 672-678). -/
def write (d : Dialect) (D : Decls) (F : Facts) (ty : Ty) (v : Val) : Src :=
  match Dispatch.writes D (tableOf d) F fuel ty, v with
  | some (.table (.toks [.slice, .name b])), v => value d b v
  | some .direct, .time i => .time (tag i)
  | _, v => Typed.write d D F ty (toBase v)

/-! ## Reading -/

/-- What drivers hand over, to the scanners of lists. -/
def toDV : Src → DV
  | .nil => .nil
  | .bytes b => .bytes b
  | .str s => .str s
  | .int64 n => .int64 n
  | .uint64 n => .uint64 n
  | .bool b => .bool b
  | _ => .other 0

/-- The field after the scan of a list. -/
def listResult {α : Type} (put : List α → Val) : Res Unit × Option (List α) → Option Val
  | (.ok (), some l) => some (put l)
  | (.ok (), none) => some (.base .nil)
  | _ => none

def getBools : Val → Option (List Bool)
  | .bools l => some l
  | _ => none

def getInts : Val → Option (List Int)
  | .ints l => some l
  | _ => none

def getNats : Val → Option (List Nat)
  | .ints l => some (l.map Int.toNat)
  | _ => none

def getFlts : Val → Option (List Flt)
  | .flts l => some l
  | _ => none

def getStrs : Val → Option (List Bytes)
  | .strs l => some l
  | _ => none

def getBytes : Val → Bytes
  | .bytes s => s
  | _ => []

/-- `Scan` of the lists. -/
def listScanner (L : Lib) (d : Dialect) (old : Val) (s : Src) : Kind → Option Val
  | .string => listResult .strs (stringScan (format d) (toDV s) (getStrs old))
  | .bool => listResult .bools (boolScan (format d) (toDV s) (getBools old))
  | .int k =>
    if signed k then listResult .ints (intScan (format d) (width k) (toDV s) (getInts old))
    else listResult (fun l => .ints (l.map Int.ofNat)) (uintScan (format d) (width k) (toDV s) (getNats old))
  | .float w => listResult .flts (Float.listScan (L.odd w) (format d) w (toDV s) (getFlts old))

/-- `database/sql.convertAssign` into `*[]byte`: a copy; numbers and truth values, which are written as text, are left out. -/
def assignBytes : Src → Option Val
  | .bytes s => some (.bytes s)
  | .str s => some (.bytes s)
  | .nil => some (.base .nil)
  | _ => none

/-- `encoding.StringScanner[[]byte]` (string.go): NULL gives the zero value, which is nil. -/
def scanBytes (L : Lib) (old : Val) (s : Src) : Option Val :=
  match scanString (Float.floats L.odd L.std) false (.val (getBytes old)) s with
  | .ok (.val x) => some (if s = .nil then .base .nil else .bytes x)
  | _ => none

/-- `database/sql.convertAssign` into `*time.Time`: from nothing but times. -/
def assignTime : Src → Option Val
  | .time n => some (.time (instant n))
  | _ => none

/-- `encoding.TimeScanner` (time.go) on a pointer field. -/
def scanTimePtr (L : Lib) (old : Val) (s : Src) : Option Val :=
  match scanTime L.std 0 (.ptr (match old with | .time i => some (tag i) | _ => none)) s with
  | .ok (.ptr (some n)) => some (.time (instant n))
  | .ok (.ptr none) => some (.base .nil)
  | _ => none

/-- The type is `time.Time`. -/
def isTime (D : Decls) : Ty → Bool
  | .named id => D.name id = "time.Time".toList
  | _ => false

/-- A field after `Scan(model.Addrs()...)` with `s` from the driver (generate.go:460-476, 717-744). -/
def read (L : Lib) (d : Dialect) (D : Decls) (F : Facts) (ty : Ty) (s : Src) (old : Val) : Option Val :=
  match Dispatch.reads D (tableOf d) F fuel ty with
  | some (.table (.toks [.slice, .name b])) =>
    if b = "byte".toList then (if d = .postgres then assignBytes s else scanBytes L old s)
    else (kindOf b).bind fun k => listScanner L d old s k
  | some (.table (.toks [.name b])) =>
    if b = "time.Time".toList then scanTimePtr L old s else (Typed.read L d D F ty s (toBase old)).map .base
  | some .direct => if isTime D ty then assignTime s else (Typed.read L d D F ty s (toBase old)).map .base
  | _ => (Typed.read L d D F ty s (toBase old)).map .base

/-! ## Models -/

/-- What is in a column of a row: as before, or a list, a byte string, a time. -/
inductive Cell where
  | base (c : Spec.Columns.Cell)
  | array (l : List Spec.Columns.Cell)
  | blob (s : Bytes)
  | time (i : Int)
  deriving DecidableEq

/-- A program with its database and driver. -/
structure World (F : Type) where
  dialect : Dialect
  decls : Decls
  facts : Facts
  lib : Lib
  /-- the types of the fields, and the sizes in their tags -/
  ty : F → Ty
  size : F → Nat
  /-- the columns that may be NULL -/
  nullable : F → Bool
  /-- what the column of a field keeps of a parameter -/
  keep : F → Src → Cell
  /-- what the driver hands over for it -/
  hand : F → Cell → Src

variable {F : Type}

/-- `ScanAutoIncr`: `v.Key = T(val)` (generate.go:158-162). -/
def convert (k : Kind) : Cell → Option Val
  | .base c => (Typed.convert k c).map .base
  | _ => none

/-- The environment of the helpers of `Model/Store.lean`; `auto` is the type of a key that the database makes up. -/
def World.env (W : World F) (g : Gen.Cfg) (S : Spec.Sql.Dialect) (gen : Spec.Sql.Tbl Cell → Cell) (auto : Kind) :
    Store.Env F Val Cell where
  g := g
  D := S
  null := .base .null
  gen := gen
  enc f v := W.keep f (write W.dialect W.decls W.facts (W.ty f) v)
  dec f c old := read W.lib W.dialect W.decls W.facts (W.ty f) (W.hand f c) old
  toId := convert auto

end Verif.Rich
