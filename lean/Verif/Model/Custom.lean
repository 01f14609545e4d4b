import Verif.Model.Document

/-!
# Fields of types with methods of their own, on a database

What is written and read for fields of defined types that have `Value` and `Scan`, `MarshalText` and `UnmarshalText`, or `MarshalJSON` and
`UnmarshalJSON`, next to those of `Model/Document.lean`: `valuer` and `scanner` (`cmd/sqlgen/codegen/generate.go:696-744`) and
`sequel/encoding/{pointer,text,json}.go`.  The methods are any functions of the value; what they do with the text they are given is not seen.
Methods `Value` are those of the type: one of the pointer only is taken for it by the generator, but not called.  `MarshalText` and
`MarshalJSON` do not give a nil slice, which drivers take for NULL.  A method that fails makes the call fail before anything is sent; here,
nothing is said of this.
-/

namespace Verif.Custom

open Verif Verif.Dispatch Verif.ColumnType Verif.Typed Verif.Scan

/-- Values of fields: those of `Model/Document.lean`, and values of types with methods, or pointers to them; nil is `none`. -/
inductive Val (U : Type) where
  | base (v : Document.Val)
  | own (p : Option U)
  deriving DecidableEq

/-- What is in a column of a row: as before, or what the column keeps of a parameter. -/
inductive Cell where
  | base (c : Document.Cell)
  | own (s : Src)
  deriving DecidableEq

/-- A program with its types, its database and its driver. -/
structure World (F U : Type) where
  base : Document.World F
  /-- fields of types with methods -/
  own : F → Bool
  /-- what `new` gives -/
  zero : F → U
  /-- `Value`, unless it fails -/
  value : F → U → Option Src
  scan : F → U → Src → Res U
  /-- `MarshalText`, unless it fails -/
  marshal : F → U → Option Bytes
  unmarshal : F → U → Bytes → Res U
  /-- `MarshalJSON`, or what `encoding/json` writes for the type, unless it fails -/
  toJson : F → U → Option Bytes
  /-- `Decode` into the field or the pointer that it is, unless it fails -/
  fromJson : F → Option U → Bytes → Option (Option U)
  /-- `UnmarshalJSON(nil)`, unless it fails -/
  jsonNil : F → U → Option U
  /-- what the column of a field keeps of a parameter that is not nil -/
  store : F → Src → Src
  /-- what the driver hands over for it -/
  shown : F → Src → Src

variable {F U : Type}

/-- NULL. -/
def null : Cell := .base (.base (.base .null))

/-- The parameter for a field (generate.go:260-284, 672-678, 696-715, text.go:16-22, json.go:20-35): nil pointers are nil, other pointers
dereferenced. -/
def World.param (W : World F U) (f : F) : Option U → Src
  | none => .nil
  | some u =>
    match Dispatch.writes W.base.base.decls (tableOf W.base.base.dialect) W.base.base.facts fuel (W.base.base.ty f) with
    | some .own => (W.value f u).getD .nil
    | some .text => ((W.marshal f u).map .bytes).getD .nil
    | some .json => ((W.toJson f u).map .bytes).getD .nil
    | _ => .nil

/-- The column of a field after it was written. -/
def World.enc (W : World F U) (f : F) : Val U → Cell
  | .base v => .base (W.base.enc f v)
  | .own p => if W.param f p = .nil then null else .own (W.store f (W.param f p))

/-- What the driver hands over for the column. -/
def World.hand (W : World F U) (f : F) : Cell → Src
  | .own s => W.shown f s
  | .base (.base (.base .null)) => .nil
  | .base _ => .other 0

/-- What a pointer points to after `Addrs` has allocated it (generate.go:460-467), or the value. -/
def World.current (W : World F U) (f : F) : Val U → U
  | .own (some u) => u
  | _ => W.zero f

/-- Methods are not called on nil pointers, which `Addrs` has replaced. -/
def unreached {α β : Type} : α → Res β := fun _ => .panic

/-- The outcome, if there is no error. -/
def done {α : Type} : Res α → Option α
  | .ok a => some a
  | _ => none

/-- What a destination has. -/
def content {α : Type} : Dest α → Option α
  | .val x => some x
  | .ptr p => p

/-- `jsonScanner.Scan` (json.go:45-70), for a type with `UnmarshalJSON`; a pointer to a pointer has no methods. -/
def World.scanJson (W : World F U) (f : F) (ptr : Bool) (u : U) : Src → Option (Option U)
  | .nil => if ptr then some none else (W.jsonNil f u).map some
  | .str s => W.fromJson f (some u) s
  | .bytes s => W.fromJson f (some u) s
  | _ => none

/-- A field after `Scan(model.Addrs()...)` (generate.go:460-476, 717-744). -/
def World.read (W : World F U) (f : F) (u : U) (s : Src) : Option (Option U) :=
  match Dispatch.reads W.base.base.decls (tableOf W.base.base.dialect) W.base.base.facts fuel (W.base.base.ty f) with
  | some .own =>
    if isPtr (W.base.base.ty f) then done (scanPtr (W.scan f) unreached (some u) s) else (done (W.scan f u s)).map some
  | some .text =>
    (done (scanText W.base.base.lib.std (W.zero f) (W.unmarshal f) unreached
      (if isPtr (W.base.base.ty f) then .ptr (some u) else .val u) s)).map content
  | some .json => W.scanJson f (isPtr (W.base.base.ty f)) u s
  | _ => none

/-- The value in `Model/Document.lean`. -/
def toDoc : Val U → Document.Val
  | .base v => v
  | .own _ => .base (.base .nil)

/-- A field after `Scan(model.Addrs()...)`. -/
def World.dec (W : World F U) (f : F) (c : Cell) (old : Val U) : Option (Val U) :=
  if W.own f then (W.read f (W.current f old) (W.hand f c)).map .own
  else
    match c with
    | .base c => (W.base.dec f c (toDoc old)).map .base
    | .own _ => none

/-- The environment of the helpers of `Model/Store.lean`. -/
def World.env (W : World F U) (g : Gen.Cfg) (S : Spec.Sql.Dialect) (gen : Spec.Sql.Tbl Cell → Cell) (auto : Kind) :
    Store.Env F (Val U) Cell where
  g := g
  D := S
  null := null
  gen := gen
  enc := W.enc
  dec := W.dec
  toId
    | .base (.base c) => (Rich.convert auto c).map fun v => .base (.base v)
    | _ => none

end Verif.Custom
