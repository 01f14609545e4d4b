import Verif.Model.Scan

/-!
# The auto-increment key after an insert (MySQL and SQLite)

`InsertOne` and `UpsertOne` (`cmd/sqlgen/codegen/templates/db.go.tpl:37-69, 466-485`), the batch `Insert`
(db.go.tpl:137-190), and the generated method `ScanAutoIncr` (`cmd/sqlgen/codegen/generate.go:158-162`).
-/

namespace Verif.AutoIncr

/-- A field of the struct that has generated code, or of a struct embedded in it: the names of the embedded structs
on the way, and its own name. -/
structure Fld where
  path : List String
  name : String
  deriving DecidableEq, Repr

def Fld.depth (f : Fld) : Nat := f.path.length

/-- Types of keys: integers of `w` bits, and strings.  (Floating point numbers are left out.) -/
inductive KeyType where
  | signed (w : Nat)
  | unsigned (w : Nat)
  | string
  deriving DecidableEq, Repr

/-- Values of keys. -/
inductive Key where
  | int (n : Int)
  | text (b : Bytes)
  deriving DecidableEq, Repr

/-- A record: the values of its fields. -/
abbrev Record := Fld → Key

/-- Go's conversion of an integer to a string: the UTF-8 encoding of the character with this number, U+FFFD if
there is none (https://go.dev/ref/spec#Conversions_to_and_from_a_string_type). -/
def runeText (n : Int) : Bytes :=
  if n < 0 ∨ (0xD800 ≤ n ∧ n ≤ 0xDFFF) ∨ 0x110000 ≤ n then [0xEF, 0xBF, 0xBD]
  else
    let m := n.toNat
    if m < 0x80 then [UInt8.ofNat m]
    else if m < 0x800 then [UInt8.ofNat (0xC0 + m / 64), UInt8.ofNat (0x80 + m % 64)]
    else if m < 0x10000 then
      [UInt8.ofNat (0xE0 + m / 4096), UInt8.ofNat (0x80 + m / 64 % 64), UInt8.ofNat (0x80 + m % 64)]
    else
      [UInt8.ofNat (0xF0 + m / 262144), UInt8.ofNat (0x80 + m / 4096 % 64), UInt8.ofNat (0x80 + m / 64 % 64),
       UInt8.ofNat (0x80 + m % 64)]

/-- `T(val)` for `val` of type `int64`. -/
def convert : KeyType → Int → Key
  | .signed w, n => .int (toSigned w n)
  | .unsigned w, n => .int (toUnsigned w n)
  | .string, n => .text (runeText n)

/-- The field that the selector `v.name` denotes: the one at the least depth; none if there are several at that
depth (https://go.dev/ref/spec#Selectors). -/
def selector (fs : List Fld) (name : String) : Option Fld :=
  let same := fs.filter fun f => f.name = name
  match same.filter fun f => same.all fun g => f.depth ≤ g.depth with
  | [f] => some f
  | _ => none

/-- The method `ScanAutoIncr`, `v.<GoName> = <Type>(val)` (generate.go:159-162), of a struct with the fields `fs`
whose key has this name and type: the key is written without its path.  `none`: the generated file does not
compile. -/
def scanAutoIncr (fs : List Fld) (name : String) (ty : KeyType) (val : Int) (v : Record) : Option Record :=
  (selector fs name).map fun f g => if g = f then convert ty val else v g

/-- What `ExecContext` answers: an error, or a result whose `LastInsertId` is a number or an error. -/
inductive Reply where
  | fail
  | noId
  | id (n : Int)
  deriving DecidableEq, Repr

/-- `InsertOne` of a struct with an auto-increment key (db.go.tpl:49-59). -/
def insertOne (fs : List Fld) (name : String) (ty : KeyType) (a : Reply) (v : Record) : Option (Record × Res Unit) :=
  match a with
  | .fail => some (v, .err)
  | .noId => some (v, .err)
  | .id n => (scanAutoIncr fs name ty n v).map fun v' => (v', .ok ())

/-- What `Addrs()` has for the key: a pointer to an `int64`, a scanner, or something else. -/
inductive Addr where
  | int64
  | scanner (scan : Int → Key → Key × Bool)
  | other

/-- `IntScanner` (encoding/int.go:50-95) for a type of `w` bits, as the address of a key that is no `int64`. -/
def intAddr (w : Nat) : Addr := .scanner fun n _ => (.int (toSigned w n), true)

/-- `UintScanner` (encoding/uint.go:51-96) likewise. -/
def uintAddr (w : Nat) : Addr := .scanner fun n _ => (.int (toUnsigned w n), true)

/-- The end of `UpsertOne` of a struct with an auto-increment key (db.go.tpl:466-485): the key and the error. -/
def upsertOne (addr : Addr) (a : Reply) (k : Key) : Key × Res Unit :=
  match a with
  | .fail => (k, .err)
  | .noId => (k, .err)
  | .id n =>
    match addr with
    | .int64 => (.int n, .ok ())
    | .scanner scan => if (scan n k).2 then ((scan n k).1, .ok ()) else ((scan n k).1, .err)
    | .other => (k, .err)

/-- The end of `Insert` of several records (db.go.tpl:166-169, 186-189): the keys stay as they are. -/
def insertMany (a : Reply) (ks : List Key) : List Key × Res Unit :=
  match a with
  | .fail => (ks, .err)
  | _ => (ks, .ok ())

end Verif.AutoIncr
