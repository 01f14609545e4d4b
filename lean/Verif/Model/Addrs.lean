import Verif.Base.Go

/-!
# Pointers along field paths

`compiler.Column.GoPtrPaths`, `compiler.Table.GoPtrPaths`, `IsUnderlyingPtr`
(`cmd/sqlgen/internal/compiler/compiler.go:63-77,113-141`), and the bodies of the generated `Addrs`
(`cmd/sqlgen/codegen/generate.go:460-474`) and of the generated getters and `Values`
(`generate.go:263-290`, `672-678`).

A field path is the list of the embedded fields leading to a column and the column's own field, each
with a flag telling whether its type is a pointer.  Paths are compared by their names; the code
compares the names joined by dots, which is the same for Go identifiers.
-/

namespace Verif.Addrs

/-- One step of a path. -/
structure Seg where
  name : String
  ptr : Bool
  deriving DecidableEq, Repr

abbrev Path := List Seg

def names (p : Path) : List String := p.map (·.name)

/-- Which pointer fields are non-nil, by the names leading to them. -/
abbrev Mem := List String → Bool

/-- The loop of `Column.GoPtrPaths` (compiler.go:113-128): `acc` is `goPath` so far. -/
def ptrPathsFrom (acc : Path) : Path → List Path
  | [] => []
  | s :: r =>
    let acc := acc ++ [s]
    if s.ptr then acc :: ptrPathsFrom acc r else ptrPathsFrom acc r

/-- `Column.GoPtrPaths`. -/
def ptrPaths (c : Path) : List Path := ptrPathsFrom [] c

/-- The inner loop of `Table.GoPtrPaths` (compiler.go:66-73): `out` are the paths so far, which are
also the keys of `pathMap`. -/
def addPaths (out : List Path) : List Path → List Path
  | [] => out
  | p :: ps => if names p ∈ out.map names then addPaths out ps else addPaths (out ++ [p]) ps

/-- `Table.GoPtrPaths` (compiler.go:63-77). -/
def tablePtrPaths (cols : List Path) : List Path :=
  cols.foldl (fun out c => addPaths out (ptrPaths c)) []

/-- `IsUnderlyingPtr` (compiler.go:134-141). -/
def isUnderlyingPtr (c : Path) : Bool := c.any (·.ptr)

/-- Whether evaluating the Go expression `v.a.b.c` dereferences no nil pointer: every pointer before
the last step must be non-nil. -/
def canReach (m : Mem) (p : Path) : Bool := (ptrPaths p.dropLast).all fun q => m (names q)

/-- `v.p = new(T)`: the pointer becomes non-nil, the pointers inside the new struct are nil. -/
def alloc (m : Mem) (p : List String) : Mem :=
  fun q => if q = p then true else if p <+: q then false else m q

/-- The generated statements `if v.p == nil { v.p = new(T) }` (generate.go:462-466); also returns
what was allocated. -/
def initAll : Mem → List Path → Res (Mem × List Path)
  | m, [] => .ok (m, [])
  | m, p :: ps =>
    if canReach m p then
      if m (names p) then initAll m ps
      else do
        let (m', as) ← initAll (alloc m (names p)) ps
        .ok (m', p :: as)
    else .panic

/-- The generated `Addrs` (generate.go:460-474): initialise, then take the address of every
column. -/
def addrs (m : Mem) (cols : List Path) : Res (Mem × List Path) := do
  let r ← initAll m (tablePtrPaths cols)
  if cols.all (canReach r.1) then .ok r else .panic

/-- The body of a generated getter (generate.go:264-288): nested nil checks around
`return value`; `none` is `return nil`. -/
def getterFrom (m : Mem) (c : Path) : List Path → Res (Option Path)
  | [] => if canReach m c then .ok (some c) else .panic
  | p :: ps =>
    if canReach m p then
      if m (names p) then getterFrom m c ps else .ok none
    else .panic

/-- `getOrValue` (generate.go:672-678): the getter when a pointer is on the path, else the field
itself.  The result is the field read, or `none` for NULL. -/
def getOrValue (m : Mem) (c : Path) : Res (Option Path) :=
  if isUnderlyingPtr c then getterFrom m c (ptrPaths c)
  else if canReach m c then .ok (some c) else .panic

end Verif.Addrs
