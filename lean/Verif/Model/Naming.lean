import Verif.Base.Go

/-!
# Naming conventions

`cmd/sqlgen/internal/strfmt/strfmt.go` and `convert.go`: names of columns and tables derived from Go
names.  Strings are lists of bytes, bytes are natural numbers.  `toScreamingDelimited` is modelled for the
arguments it is called with: delimiter `_`, nothing ignored, not screaming.
-/

namespace Verif.Naming

abbrev Bytes := List Nat

def isCap (v : Nat) : Bool := 65 ≤ v && v ≤ 90
def isLow (v : Nat) : Bool := 97 ≤ v && v ≤ 122
def isNum (v : Nat) : Bool := 48 ≤ v && v ≤ 57

/-! ## `strings.TrimSpace` -/

/-- The UTF-8 encodings of the characters for which `unicode.IsSpace` holds. -/
def spaceSeqs : List Bytes :=
  [[9], [10], [11], [12], [13], [32], [0xC2, 0x85], [0xC2, 0xA0], [0xE1, 0x9A, 0x80],
   [0xE2, 0x80, 0x80], [0xE2, 0x80, 0x81], [0xE2, 0x80, 0x82], [0xE2, 0x80, 0x83], [0xE2, 0x80, 0x84],
   [0xE2, 0x80, 0x85], [0xE2, 0x80, 0x86], [0xE2, 0x80, 0x87], [0xE2, 0x80, 0x88], [0xE2, 0x80, 0x89],
   [0xE2, 0x80, 0x8A], [0xE2, 0x80, 0xA8], [0xE2, 0x80, 0xA9], [0xE2, 0x80, 0xAF], [0xE2, 0x81, 0x9F],
   [0xE3, 0x80, 0x80]]

/-- Removes one of the prefixes, if there is one. -/
def strip : List Bytes → Bytes → Option Bytes
  | [], _ => none
  | q :: qs, s => if q <+: s then some (s.drop q.length) else strip qs s

/-- Removes prefixes as long as possible, at most `n` times. -/
def stripAll (qs : List Bytes) : Nat → Bytes → Bytes
  | 0, s => s
  | n + 1, s =>
    match strip qs s with
    | some r => stripAll qs n r
    | none => s

/-- `strings.TrimSpace`. -/
def trimSpace (s : Bytes) : Bytes :=
  let s := stripAll spaceSeqs s.length s
  (stripAll (spaceSeqs.map List.reverse) s.length s.reverse).reverse

/-! ## snake_case -/

/-- strfmt.go:60-68: `v` in lower case. -/
def lower (v : Nat) : Nat := if isCap v then v + 32 else v

/-- strfmt.go:72-78: the kind of letter changes between `v` and the byte after it. -/
def boundary (v next : Nat) : Bool :=
  (isCap v && (isLow next || isNum next)) || (isLow v && (isCap next || isNum next)) ||
    (isNum v && (isCap next || isLow next))

/-- strfmt.go:95-101. -/
def plain (v : Nat) : Nat :=
  let w := lower v
  if w = 32 ∨ w = 95 ∨ w = 45 ∨ w = 46 then 95 else w

/-- The loop of `toScreamingDelimited` (strfmt.go:60-102); `prevCap`: the byte before is a capital
letter. -/
def snakeLoop (prevCap : Bool) : Bytes → Bytes
  | [] => []
  | [v] => [plain v]
  | v :: next :: r =>
    if boundary v next then
      (if isCap v && isLow next && prevCap then [95] else []) ++ [lower v] ++
        (if isLow v || isNum v || isNum next then [95] else []) ++ snakeLoop (isCap v) (next :: r)
    else plain v :: snakeLoop (isCap v) (next :: r)

/-- `ToSnakeCase` (convert.go:3-5). -/
def toSnakeCase (s : Bytes) : Bytes := snakeLoop false (trimSpace s)

/-! ## camelCase and PascalCase -/

/-- strfmt.go:27-41: the byte after changing its case; `first`: it is the first one. -/
def camelByte (capNext first prevCap acronym : Bool) (v : Nat) : Nat :=
  if capNext then (if isLow v then v - 32 else v)
  else if first then (if isCap v then v + 32 else v)
  else if prevCap && isCap v && !acronym then v + 32
  else v

/-- The loop of `toCamelInitCase` (strfmt.go:24-52). -/
def camelLoop (acronym : Bool) (capNext first prevCap : Bool) : Bytes → Bytes
  | [] => []
  | v :: r =>
    let w := camelByte capNext first prevCap acronym v
    if isCap v || isLow v then w :: camelLoop acronym false false (isCap v) r
    else if isNum w then w :: camelLoop acronym true false (isCap v) r
    else camelLoop acronym (w == 95 || w == 32 || w == 45 || w == 46) false (isCap v) r

/-- `toCamelInitCase` (strfmt.go:10-54). -/
def toCamelInitCase (initCase : Bool) (s : Bytes) : Bytes :=
  let s := trimSpace s
  if s = [73, 68] then camelLoop true initCase true false [105, 100]
  else camelLoop false initCase true false s

/-- `ToCamelCase` (convert.go:11-13). -/
def toCamelCase (s : Bytes) : Bytes := toCamelInitCase false s

/-- `ToPascalCase` (convert.go:7-9). -/
def toPascalCase (s : Bytes) : Bytes := toCamelInitCase true s

end Verif.Naming
