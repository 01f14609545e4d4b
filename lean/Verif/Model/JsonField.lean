import Verif.Base.Go

/-!
# Fields in JSON columns

`JSONValue` and `JSONScanner` (`sequel/encoding/json.go`), and what `encoding/json` does with Go values: the
encoder makes a JSON value of them, the decoder reads a JSON value *into* a Go value that is there already.

Go types are built from booleans, integers, strings, pointers, slices, arrays, maps with string keys, and structs.
Left out: types that contain themselves, floating point numbers, interfaces, `[]byte` (base64), types with their
own `MarshalJSON` or `UnmarshalJSON`, and aliasing (two pointers to one value).  An element of a slice beyond its
length but within its capacity counts as an element of the value that is decoded into, as the decoder uses it.
-/

namespace Verif.JsonField

abbrev Name := List Char

inductive Json where
  | null
  | bool (b : Bool)
  | num (n : Int)
  /-- a number with a fraction or an exponent, as it is written -/
  | frac (t : Bytes)
  | str (t : List Char)
  | arr (js : List Json)
  | obj (ms : List (Name × Json))

mutual
/-- Go types. -/
inductive Ty where
  | bool
  /-- integers from `lo` to `hi` -/
  | int (lo hi : Int)
  | str
  | ptr (t : Ty)
  | slice (t : Ty)
  | array (n : Nat) (t : Ty)
  | map (t : Ty)
  | struct (fs : Fields)
/-- Fields of a struct.  A field has no key if it is not exported or has the tag `json:"-"`; `om` stands for the
option `omitempty`. -/
inductive Fields where
  | nil
  | cons (key : Option Name) (om : Bool) (t : Ty) (rest : Fields)
end

/-- An element of a Go string: a character or a byte that belongs to none. -/
inductive Rune where
  | char (c : Char)
  | bad (b : Byte)
  deriving DecidableEq

mutual
/-- Values of a type.  Nil pointers, slices and maps are `none`. -/
def Ty.Val : Ty → Type
  | .bool => Bool
  | .int _ _ => Int
  | .str => List Rune
  | .ptr t => Option t.Val
  | .slice t => Option (List t.Val)
  | .array _ t => List t.Val
  | .map t => Option (List (Name × t.Val))
  | .struct fs => fs.Val
def Fields.Val : Fields → Type
  | .nil => Unit
  | .cons _ _ t rest => t.Val × rest.Val
end

mutual
/-- The zero value. -/
def Ty.zero : (t : Ty) → t.Val
  | .bool => false
  | .int _ _ => (0 : Int)
  | .str => ([] : List Rune)
  | .ptr _ => none
  | .slice _ => none
  | .array n t => List.replicate n t.zero
  | .map _ => none
  | .struct fs => fs.zero
def Fields.zero : (fs : Fields) → fs.Val
  | .nil => ()
  | .cons _ _ t rest => (t.zero, rest.zero)
end

/-- What `omitempty` leaves out (encoding/json, `isEmptyValue`). -/
def Ty.isEmpty : (t : Ty) → t.Val → Bool
  | .bool, b => !(show Bool from b)
  | .int _ _, n => (show Int from n) == 0
  | .str, s => (show List Rune from s).isEmpty
  | .ptr t, p => (show Option t.Val from p).isNone
  | .slice t, l => ((show Option (List t.Val) from l).getD []).isEmpty
  | .array _ t, l => (show List t.Val from l).isEmpty
  | .map t, m => ((show Option (List (Name × t.Val)) from m).getD []).isEmpty
  | .struct _, _ => false

/-- A byte that belongs to no character is written as U+FFFD. -/
def Rune.written : Rune → Char
  | .char c => c
  | .bad _ => '�'

/-- The member for a field, if it is written. -/
def member (key : Option Name) (out : Bool) (j : Json) : List (Name × Json) :=
  match key with
  | none => []
  | some n => if out then [] else [(n, j)]

mutual
/-- The JSON value of a Go value (encoding/json, `Encoder.Encode`). -/
def Ty.encode : (t : Ty) → t.Val → Json
  | .bool => fun b => .bool b
  | .int _ _ => fun n => .num n
  | .str => fun s => .str ((show List Rune from s).map Rune.written)
  | .ptr t => fun p => match (show Option t.Val from p) with
    | none => .null
    | some v => t.encode v
  | .slice t => fun l => match (show Option (List t.Val) from l) with
    | none => .null
    | some vs => .arr (vs.map t.encode)
  | .array _ t => fun l => .arr ((show List t.Val from l).map t.encode)
  | .map t => fun m => match (show Option (List (Name × t.Val)) from m) with
    | none => .null
    | some es => .obj (es.map fun e => (e.1, t.encode e.2))
  | .struct fs => fun v => .obj (fs.encode v)
def Fields.encode : (fs : Fields) → fs.Val → List (Name × Json)
  | .nil => fun _ => []
  | .cons key om t rest => fun v =>
    member key (om && t.isEmpty v.1) (t.encode v.1) ++ rest.encode v.2
end

/-- The keys of the fields that are read and written. -/
def Fields.keys : Fields → List Name
  | .nil => []
  | .cons key _ _ rest => key.toList ++ rest.keys

/-- The field that a member with the key `k` is read into: the one with this key, otherwise the first one whose key
differs only in case (encoding/json, `decodeState.object`). -/
def target (fold : Name → Name) (keys : List Name) (k : Name) : Option Name :=
  if k ∈ keys then some k else keys.find? fun n => fold n = fold k

/-- Reading elements into those of a slice. -/
def decodeElems {V : Type} (dec : V → Json → Option V) (zero : V) : List V → List Json → Option (List V)
  | _, [] => some []
  | [], j :: js => do
    let v ← dec zero j
    let vs ← decodeElems dec zero [] js
    some (v :: vs)
  | o :: os, j :: js => do
    let v ← dec o j
    let vs ← decodeElems dec zero os js
    some (v :: vs)

/-- Reading elements into those of an array: the rest becomes zero, what does not fit is skipped. -/
def decodeArray {V : Type} (dec : V → Json → Option V) (zero : V) : List V → List Json → Option (List V)
  | [], _ => some []
  | _ :: os, [] => do
    let vs ← decodeArray dec zero os []
    some (zero :: vs)
  | o :: os, j :: js => do
    let v ← dec o j
    let vs ← decodeArray dec zero os js
    some (v :: vs)

/-- Entry of a map. -/
def entry {V : Type} (k : Name) : List (Name × V) → Option V
  | [] => none
  | e :: es => if e.1 = k then some e.2 else entry k es

/-- `m[k] = v` -/
def put {V : Type} (k : Name) (v : V) (m : List (Name × V)) : List (Name × V) :=
  (k, v) :: m.filter fun e => e.1 ≠ k

/-- Reading members into a map: each value is read into a zero value; the other entries stay. -/
def decodeMap {V : Type} (dec : V → Json → Option V) (zero : V) : List (Name × V) → List (Name × Json) →
    Option (List (Name × V))
  | m, [] => some m
  | m, (k, j) :: js => do
    let v ← dec zero j
    decodeMap dec zero (put k v m) js

/-- Reading the members that belong to a field, one after the other. -/
def decodeField {V : Type} (dec : V → Json → Option V) (fold : Name → Name) (keys : List Name) (key : Option Name)
    (old : V) (ms : List (Name × Json)) : Option V :=
  match key with
  | none => some old
  | some n => ((ms.filter fun m => target fold keys m.1 = some n).map Prod.snd).foldlM dec old

mutual
/-- Reading a JSON value into a Go value (encoding/json, `Decoder.Decode`).  `null` makes pointers, slices and maps
nil and leaves other values alone.  `none`: an error is returned; what it leaves behind is not modelled. -/
def Ty.decode (fold : Name → Name) : (t : Ty) → t.Val → Json → Option t.Val
  | .bool => fun old j => match j with
    | .null => some old
    | .bool b => some b
    | _ => none
  | .int lo hi => fun old j => match j with
    | .null => some old
    | .num n => if lo ≤ n ∧ n ≤ hi then some n else none
    | _ => none
  | .str => fun old j => match j with
    | .null => some old
    | .str t => some (t.map Rune.char)
    | _ => none
  | .ptr t => fun old j => match j with
    | .null => some none
    | j => (t.decode fold ((show Option t.Val from old).getD t.zero) j).map some
  | .slice t => fun old j => match j with
    | .null => some none
    | .arr js => (decodeElems (t.decode fold) t.zero ((show Option (List t.Val) from old).getD []) js).map some
    | _ => none
  | .array _ t => fun old j => match j with
    | .null => some old
    | .arr js => decodeArray (t.decode fold) t.zero old js
    | _ => none
  | .map t => fun old j => match j with
    | .null => some none
    | .obj ms => (decodeMap (t.decode fold) t.zero ((show Option (List (Name × t.Val)) from old).getD []) ms).map some
    | _ => none
  | .struct fs => fun old j => match j with
    | .null => some old
    | .obj ms => fs.decode fold fs.keys old ms
    | _ => none
/-- Every field reads, in their order, the members that belong to it. -/
def Fields.decode (fold : Name → Name) : (fs : Fields) → List Name → fs.Val → List (Name × Json) → Option fs.Val
  | .nil => fun _ _ _ => some ()
  | .cons key _ t rest => fun keys old ms => do
    let v ← decodeField (t.decode fold) fold keys key old.1 ms
    let vs ← rest.decode fold keys old.2 ms
    some (v, vs)
end

/-- The text of a JSON value, the first JSON value at the start of a text, and how names are compared. -/
structure Lib where
  print : Json → Bytes
  parse : Bytes → Option Json
  fold : Name → Name

/-- `jsonValuer.Value` (json.go:20-35), the last case: the encoder adds a newline. -/
def value (lib : Lib) (t : Ty) (v : t.Val) : DV := .bytes (lib.print (t.encode v) ++ [10])

/-- `jsonScanner.Scan` (json.go:45-70): the field afterwards, `none` for an error. -/
def scan (lib : Lib) (t : Ty) (old : t.Val) : DV → Option t.Val
  | .nil => some t.zero
  | .str s => (lib.parse s).bind (t.decode lib.fold old)
  | .bytes s => (lib.parse s).bind (t.decode lib.fold old)
  | _ => none

end Verif.JsonField
