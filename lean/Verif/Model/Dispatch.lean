import Verif.Base.Go

/-!
# How the generator decides how a field is written and read

`cmd/sqlgen/codegen/tool.go` (`columnDataType`, `arraySize`, `underlyingType`, `pointerType`), `generate.go:680-744` (`isBasicType`,
`valuer`, `scanner`), `expr.go:52-63` (`elemType`) and the keys of the tables in `dialect/*/column_type.go`.
-/

namespace Verif.Dispatch

abbrev Text := List Char

/-- Types as the checker gives them (`go/types`). -/
inductive Ty where
  /-- Predeclared types; `byte` and `uint8`, `rune` and `int32` are told apart by their names. -/
  | basic (name : Text)
  /-- Defined types. -/
  | named (id : Nat)
  | alias (rhs : Ty)
  | ptr (e : Ty)
  | slice (e : Ty)
  | array (n : Nat) (e : Ty)
  /-- A struct type that is written out. -/
  | struct
  /-- Maps, channels, functions, interfaces, type parameters. -/
  | other
  deriving DecidableEq

/-- The defined types of a program. -/
structure Decls where
  /-- `String()`: import path and name. -/
  name : Nat → Text
  /-- `Underlying()`: never a defined type or an alias. -/
  under : Nat → Ty
  /-- Which object `Underlying()` is; defined types share it if one is defined by the other. -/
  obj : Nat → Nat

/-- What a type adds to the key under which it is looked up. -/
inductive Tok where
  | star
  | slice
  | arr (n : Nat)
  | name (s : Text)
  deriving DecidableEq

/-- Keys of the table of column types: `[]string` is `[slice, name "string"]`, `[...]byte` is `fixed "byte"`.  (In the code keys are texts;
names neither start with `*` or `[` nor are empty, so different lists are different texts.) -/
inductive Key where
  | toks (l : List Tok)
  | fixed (s : Text)
  deriving DecidableEq

abbrev Table := Key → Bool

/-- How the loop of `columnDataType` ends: with a key that was found in it, or with what was collected. -/
inductive Walk where
  | found (l : List Tok)
  | rest (l : List Tok)
  deriving DecidableEq

/-- The loop of `columnDataType` (tool.go:21-60), at most `n` times around; `last` is `t`, as far as `prev == t` can hold, `s` is `typeStr`. -/
def walk (D : Decls) (tab : Table) : Nat → Ty → Option Nat → List Tok → Option Walk
  | 0, _, _, _ => none
  | n + 1, ty, last, s =>
    match ty with
    | .basic b => some (.rest (s ++ [.name b]))
    | .named id =>
      if D.under id = .struct then some (.rest (s ++ [.name (D.name id)]))
      else if tab (.toks s) then some (.found s)
      else if last = some (D.obj id) then some (.rest s)
      else walk D tab n (D.under id) (some (D.obj id)) s
    | .alias r => walk D tab n r last s
    | .ptr e => walk D tab n e last (s ++ [.star])
    | .slice e => walk D tab n e last (s ++ [.slice])
    | .array k e => walk D tab n e last (s ++ [.arr k])
    | .struct => some (.rest s)
    | .other => some (.rest s)

/-- `arrayRegexp` (tool.go:12). -/
def fixedName : List Tok → Option Text
  | [.arr _, .name b] => if b = "rune".toList ∨ b = "string".toList ∨ b = "byte".toList then some b else none
  | _ => none

/-- The lookups after the loop (tool.go:61-75). -/
def lookup (tab : Table) : Walk → Option Key
  | .found l => some (.toks l)
  | .rest s =>
    if tab (.toks s) then some (.toks s)
    else if s.head? = some .star ∧ tab (.toks s.tail) then some (.toks s.tail)
    else
      match fixedName s with
      | some b => if tab (.fixed b) then some (.fixed b) else none
      | none => none

/-- `columnDataType` (tool.go:15-76): the key of the column type found. -/
def columnKey (D : Decls) (tab : Table) (n : Nat) (t : Ty) : Option (Option Key) := (walk D tab n t none []).map (lookup tab)

/-- `arraySize` (tool.go:86-98). -/
def arraySize : Ty → Int
  | .ptr e => arraySize e
  | .array n _ => n
  | _ => -1

/-- What the generator knows of the methods of types, and of the types given in the configuration. -/
structure Facts where
  /-- `types.MissingMethod(t, driver.Valuer)` reports a wrong type: `driver.Value` was loaded separately, so that this is so exactly if `t` or
  `*t` has a method called `Value`. -/
  hasValue : Ty → Bool
  /-- The pointer to the type has `Scan(any) error`. -/
  scans : Ty → Bool
  /-- The type has `MarshalText`. -/
  marshals : Ty → Bool
  /-- The pointer to the type has `UnmarshalText`. -/
  unmarshals : Ty → Bool
  confValue : Ty → Bool
  confScan : Ty → Bool

/-- What is generated for a field. -/
inductive How where
  /-- The field itself, or its address. -/
  | direct
  /-- What the configuration says. -/
  | config
  /-- The methods of the type. -/
  | own
  /-- The column type of a key. -/
  | table (k : Key)
  | text
  | json
  /-- The generator panics. -/
  | panic
  deriving DecidableEq

/-- `isBasicType` (generate.go:680-694), also the start of `scanner` (generate.go:719-729). -/
def isDirect (D : Decls) : Ty → Bool
  | .basic b => b ∈ ["string", "bool", "int64", "float64"].map String.toList
  | .named id => D.name id = "time.Time".toList
  | _ => false

/-- `underlyingType` (tool.go:112-119). -/
def deref : Ty → Ty
  | .ptr e => deref e
  | t => t

/-- What `pointerType` points to (tool.go:104-110). -/
def pointee : Ty → Ty
  | .ptr e => e
  | t => t

/-- The default column type `*`. -/
def fallback : How := .json

/-- The column type of a key; the key `*` is that of the default. -/
def ofKey (k : Key) : How := if k = .toks [.star] then .json else .table k

/-- `valuer` (generate.go:696-715). -/
def valuer (D : Decls) (tab : Table) (F : Facts) (n : Nat) (t : Ty) : Option How :=
  if isDirect D t then some .direct
  else if F.confValue t then some .config
  else if F.hasValue (deref t) then some .own
  else
    (columnKey D tab n t).map fun k? =>
      match k? with
      | some k => ofKey k
      | none => if F.marshals (deref t) then .text else fallback

/-- The scanners with `{{len}}` in them: those of byte and rune arrays; `len` is only defined for positive sizes (expr.go:82-86). -/
def needsLen (k : Key) : Bool := k = .fixed "byte".toList ∨ k = .fixed "rune".toList

/-- `scanner` (generate.go:717-744). -/
def scanner (D : Decls) (tab : Table) (F : Facts) (n : Nat) (t : Ty) : Option How :=
  if isDirect D t then some .direct
  else if F.confScan t then some .config
  else if F.scans (pointee t) then some .own
  else
    (columnKey D tab n t).map fun k? =>
      match k? with
      | some k => if needsLen k ∧ arraySize t ≤ 0 then .panic else ofKey k
      | none => if F.unmarshals (pointee t) then .text else fallback

/-- What is generated to write a field (generate.go:270-275): pointers are dereferenced first. -/
def writes (D : Decls) (tab : Table) (F : Facts) (n : Nat) : Ty → Option How
  | .ptr e => valuer D tab F n e
  | t => valuer D tab F n t

/-- What is generated to read a field (generate.go:470). -/
def reads (D : Decls) (tab : Table) (F : Facts) (n : Nat) (t : Ty) : Option How := scanner D tab F n t

/-- `elemType` (expr.go:52-63). -/
def elemType : Ty → Ty
  | .array _ e => e
  | .slice e => e
  | .ptr e => e
  | t => t

/-! ## The tables -/

def numbers : List Text := ["int", "int8", "int16", "int32", "int64", "uint", "uint8", "uint16", "uint32", "uint64", "float32", "float64"].map String.toList

/-- The keys that all dialects have (dialect/*/column_type.go). -/
def commonKeys : List Key :=
  (numbers ++ ["rune", "byte", "string", "bool", "time.Time", "sql.RawBytes", "encoding/json.RawMessage"].map String.toList).map
    (fun b => .toks [.name b]) ++
  (numbers ++ ["string", "byte", "bool"].map String.toList).map (fun b => .toks [.slice, .name b]) ++
  [.fixed "rune".toList, .fixed "byte".toList, .toks [.star]]

def mysql : Table := fun k => k ∈ commonKeys
def sqlite : Table := fun k => k ∈ commonKeys
def postgres : Table := fun k =>
  k ∈ commonKeys ++ [.fixed "bool".toList, .fixed "string".toList, .toks [.slice, .slice, .name "byte".toList], .toks [.slice, .name "rune".toList]]

end Verif.Dispatch
