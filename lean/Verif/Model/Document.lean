import Verif.Model.Rich
import Verif.Model.JsonText

/-!
# Fields in JSON columns, on a database

What is written and read for fields of all other types, next to those of `Model/Rich.lean`: the entries `*` of
`dialect/{mysql,postgres,sqlite}/column_type.go`, and `sequel/encoding/json.go` with `encoding/json` (`Model/JsonField.lean`,
`Model/JsonText.lean`).  Left out is what is left out there: floating point numbers, interfaces and byte strings in documents, types that
contain themselves, and types with their own `MarshalJSON` or `UnmarshalJSON`.
-/

namespace Verif.Document

open Verif Verif.Dispatch Verif.ColumnType Verif.Typed

deriving instance DecidableEq for JsonField.Ty, JsonField.Fields

mutual
/-- Whether a value is one that exists: integers in range, arrays of the right length, maps with one entry per key. -/
def exists_ : (t : JsonField.Ty) → t.Val → Bool
  | .bool => fun _ => true
  | .int lo hi => fun n => decide (lo ≤ (show Int from n)) && decide ((show Int from n) ≤ hi)
  | .str => fun _ => true
  | .ptr t => fun p => match (show Option t.Val from p) with
    | none => true
    | some v => exists_ t v
  | .slice t => fun l => match (show Option (List t.Val) from l) with
    | none => true
    | some vs => vs.all (exists_ t)
  | .array n t => fun l => decide ((show List t.Val from l).length = n) && (show List t.Val from l).all (exists_ t)
  | .map t => fun m => match (show Option (List (JsonField.Name × t.Val)) from m) with
    | none => true
    | some es => decide (es.map Prod.fst).Nodup && es.all fun e => exists_ t e.2
  | .struct fs => fun v => existFields fs v
def existFields : (fs : JsonField.Fields) → fs.Val → Bool
  | .nil => fun _ => true
  | .cons _ _ t rest => fun v => exists_ t v.1 && existFields rest v.2
end

mutual
/-- Values can be compared. -/
def same : (t : JsonField.Ty) → DecidableEq t.Val
  | .bool => inferInstanceAs (DecidableEq Bool)
  | .int _ _ => inferInstanceAs (DecidableEq Int)
  | .str => inferInstanceAs (DecidableEq (List JsonField.Rune))
  | .ptr t => have := same t; inferInstanceAs (DecidableEq (Option t.Val))
  | .slice t => have := same t; inferInstanceAs (DecidableEq (Option (List t.Val)))
  | .array _ t => have := same t; inferInstanceAs (DecidableEq (List t.Val))
  | .map t => have := same t; inferInstanceAs (DecidableEq (Option (List (JsonField.Name × t.Val))))
  | .struct fs => sameFields fs
def sameFields : (fs : JsonField.Fields) → DecidableEq fs.Val
  | .nil => inferInstanceAs (DecidableEq Unit)
  | .cons _ _ t rest => have := same t; have := sameFields rest; inferInstanceAs (DecidableEq (t.Val × rest.Val))
end

instance (t : JsonField.Ty) : DecidableEq t.Val := same t

/-- Values of fields: those of `Model/Rich.lean`, and values of any type that `encoding/json` writes. -/
inductive Val where
  | base (v : Rich.Val)
  | doc (t : JsonField.Ty) (v : t.Val)
  deriving DecidableEq

/-- What is in a column of a row: as before, or a document, which is shown as this text. -/
inductive Cell where
  | base (c : Rich.Cell)
  | doc (s : Bytes)
  deriving DecidableEq

/-- `DataType` of the entries `*` (mysql/column_type.go:208-212, postgres/column_type.go:229-233, sqlite/column_type.go:198-202). -/
def declared : Dialect → String
  | .mysql => "JSON"
  | .postgres => "json"
  | .sqlite => "TEXT"

/-- A program with its database and driver. -/
structure World (F : Type) where
  base : Rich.World F
  /-- how `encoding/json` compares names that differ -/
  fold : JsonField.Name → JsonField.Name
  /-- the types of the fields, for `encoding/json` -/
  doc : F → JsonField.Ty
  /-- what the JSON column of a field keeps of a text -/
  store : F → Bytes → Bytes
  /-- what the driver hands over for it -/
  shown : F → Bytes → DV

/-- A nil pointer. -/
def nilPtr : (t : JsonField.Ty) → t.Val → Bool
  | .ptr t, p => (show Option t.Val from p).isNone
  | _, _ => false

/-- What is in the way of a value that is read: what the field has. -/
def current (t : JsonField.Ty) : Val → t.Val
  | .doc t' v => if h : t' = t then (if exists_ t (h ▸ v) then h ▸ v else t.zero) else t.zero
  | .base _ => t.zero

variable {F : Type}

/-- The column of a field after it was written (generate.go:260-284, 672-678, json.go:20-35): nil pointers are NULL, other pointers
dereferenced. -/
def World.write (W : World F) (f : F) (t : JsonField.Ty) (v : t.Val) : Cell :=
  match Dispatch.writes W.base.decls (tableOf W.base.dialect) W.base.facts fuel (W.base.ty f) with
  | some .json =>
    if isPtr (W.base.ty f) ∧ nilPtr t v then .base (.base .null)
    else
      match JsonField.value (JsonText.goLib W.fold) t v with
      | .bytes s => .doc (W.store f s)
      | _ => .base (.base .null)
  | _ => .base (.base .null)

/-- The column of a field after it was written. -/
def World.enc (W : World F) (f : F) : Val → Cell
  | .base v => .base (W.base.keep f (Rich.write W.base.dialect W.base.decls W.base.facts (W.base.ty f) v))
  | .doc t v => W.write f t v

/-- What the driver hands over for a JSON column. -/
def World.hand (W : World F) (f : F) : Cell → DV
  | .doc s => W.shown f s
  | .base (.base .null) => .nil
  | .base _ => .other 0

/-- The value in `Model/Rich.lean`. -/
def toRich : Val → Rich.Val
  | .base v => v
  | .doc _ _ => .base .nil

/-- A field after `Scan(model.Addrs()...)` (generate.go:460-476, 717-744, json.go:45-70). -/
def World.dec (W : World F) (f : F) (c : Cell) (old : Val) : Option Val :=
  match Dispatch.reads W.base.decls (tableOf W.base.dialect) W.base.facts fuel (W.base.ty f) with
  | some .json => (JsonField.scan (JsonText.goLib W.fold) (W.doc f) (current (W.doc f) old) (W.hand f c)).map (.doc (W.doc f))
  | _ =>
    match c with
    | .base c =>
      (Rich.read W.base.lib W.base.dialect W.base.decls W.base.facts (W.base.ty f) (W.base.hand f c) (toRich old)).map .base
    | .doc _ => none

/-- The environment of the helpers of `Model/Store.lean`. -/
def World.env (W : World F) (g : Gen.Cfg) (S : Spec.Sql.Dialect) (gen : Spec.Sql.Tbl Cell → Cell) (auto : Kind) :
    Store.Env F Val Cell where
  g := g
  D := S
  null := .base (.base .null)
  gen := gen
  enc := W.enc
  dec := W.dec
  toId
    | .base c => (Rich.convert auto c).map .base
    | .doc _ => none

end Verif.Document
