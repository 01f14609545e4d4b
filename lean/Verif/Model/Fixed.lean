import Verif.Model.Custom

/-!
# Fields that are arrays of bytes or characters, on a database

What is written and read for fields of types `[n]byte` and `[n]rune`, next to those of `Model/Custom.lean`: the entries `[...]byte` and
`[...]rune` of `cmd/sqlgen/codegen/dialect/{mysql,postgres,sqlite}/column_type.go`, and `sequel/encoding/{byte,rune}_array.go`
(`Model/Scan.lean`).
-/

namespace Verif.Fixed

open Verif Verif.Dispatch Verif.ColumnType Verif.Typed Verif.Scan

/-- Values of fields: those of `Model/Custom.lean`, arrays of bytes, and arrays of characters. -/
inductive Val (U : Type) where
  | base (v : Custom.Val U)
  | bytes (l : Bytes)
  | runes (l : List Int)
  deriving DecidableEq

/-- What is in a column of a row: as before, or the bytes of a text or of a byte string. -/
inductive Cell where
  | base (c : Custom.Cell)
  | text (s : Bytes)
  | blob (s : Bytes)
  deriving DecidableEq

/-- The types of the elements. -/
inductive Elem where
  | byte
  | rune
  deriving DecidableEq

/-- `DataType` of the entries (mysql/column_type.go:119-129, postgres/column_type.go:120-130, sqlite/column_type.go:113-119), without
constraints and defaults; `size` is the size in the tag, or 0. -/
def declared (d : Dialect) (size : Nat) : Elem → String × Option Nat
  | .byte =>
    match d with
    | .mysql => ("CHAR", some size)
    | .postgres => ("varchar", some size)
    | .sqlite => ("BLOB", none)
  | .rune =>
    match d with
    | .mysql => ("VARCHAR", some size)
    | .postgres => ("varchar", some size)
    | .sqlite => ("TEXT", none)

/-- A program with its types, its database and its driver. -/
structure World (F U : Type) where
  base : Custom.World F U
  /-- fields that are arrays -/
  arr : F → Bool
  /-- what the column of an array keeps of a parameter -/
  keep : F → Src → Cell
  /-- what the driver hands over for it -/
  hand : F → Cell → Src

variable {F U : Type}

/-- The type of a field. -/
def World.ty (W : World F U) (f : F) : Ty := W.base.base.base.ty f

/-- What is generated to write a field. -/
def World.writes (W : World F U) (f : F) : Option How :=
  Dispatch.writes W.base.base.base.decls (tableOf W.base.base.base.dialect) W.base.base.base.facts fuel (W.ty f)

/-- What is generated to read a field. -/
def World.reads (W : World F U) (f : F) : Option How :=
  Dispatch.reads W.base.base.base.decls (tableOf W.base.base.base.dialect) W.base.base.base.facts fuel (W.ty f)

/-- The parameter for an array: `v.F[:]` of bytes, `string(v.F[:])` of characters (the same entries). -/
def World.param (W : World F U) (f : F) : Val U → Src
  | .bytes l => if W.writes f = some (.table (.fixed "byte".toList)) then .bytes l else .nil
  | .runes l => if W.writes f = some (.table (.fixed "rune".toList)) then .str (runesValue l) else .nil
  | .base _ => .nil

/-- The column of a field after it was written. -/
def World.enc (W : World F U) (f : F) : Val U → Cell
  | .base v => .base (W.base.enc f v)
  | x => W.keep f (W.param f x)

/-- The bytes that a field has before it is read; those of a variable of another type do not matter. -/
def oldBytes (n : Nat) : Val U → Bytes
  | .bytes l => if l.length = n then l else List.replicate n 0
  | _ => List.replicate n 0

/-- The characters that a field has before it is read, as numbers of 32 bits without a sign. -/
def oldRunes (n : Nat) : Val U → List Nat
  | .runes l => if l.length = n then l.map fun r => (r % 2 ^ 32).toNat else List.replicate n 0
  | _ => List.replicate n 0

/-- The value in `Model/Custom.lean`. -/
def toOwn : Val U → Custom.Val U
  | .base v => v
  | _ => .base (.base (.base .nil))

/-- A field after `Scan(model.Addrs()...)` (generate.go:460-476, 717-744): `encoding.ByteArrayScanner(v.F[:], n)` and
`encoding.RuneArrayScanner(v.F[:], n)` write into the array itself. -/
def World.dec (W : World F U) (f : F) (c : Cell) (old : Val U) : Option (Val U) :=
  if W.arr f then
    match W.reads f with
    | some (.table (.fixed b)) =>
      if b = "byte".toList then
        (Custom.done (scanByteArr (arraySize (W.ty f)).toNat (oldBytes (arraySize (W.ty f)).toNat old) (W.hand f c))).map .bytes
      else
        (Custom.done (scanRuneArr (arraySize (W.ty f)).toNat (oldRunes (arraySize (W.ty f)).toNat old) (W.hand f c))).map
          fun l => .runes (l.map fun (r : Nat) => toSigned 32 r)
    | _ => none
  else
    match c with
    | .base c => (W.base.dec f c (toOwn old)).map .base
    | _ => none

/-- The environment of the helpers of `Model/Store.lean`. -/
def World.env (W : World F U) (g : Gen.Cfg) (S : Spec.Sql.Dialect) (gen : Spec.Sql.Tbl Cell → Cell) (auto : Kind) :
    Store.Env F (Val U) Cell where
  g := g
  D := S
  null := .base Custom.null
  gen := gen
  enc := W.enc
  dec := W.dec
  toId
    | .base (.base (.base c)) => (Rich.convert auto c).map fun v => .base (.base (.base v))
    | _ => none

end Verif.Fixed
