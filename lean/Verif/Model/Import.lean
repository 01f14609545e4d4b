import Verif.Base.Go

/-!
# Imports of the generated file

`cmd/sqlgen/codegen/package.go`.  `packages.Load` is a parameter: the declared name of a package, empty if it is not found, `none` if
loading fails.  Names and paths are byte strings.
-/

namespace Verif.Import

/-- A `*types.Package` as far as it is used here. -/
structure Imp where
  path : Bytes
  name : Bytes
  deriving DecidableEq, Repr

/-- `Package` (package.go:11-16); of `cache` only the keys are used. -/
structure Pkg where
  pkgPath : Bytes
  cache : List Bytes := []
  imports : List Imp := []
  deriving DecidableEq, Repr

/-- `newAliasIfExists` (package.go:57-67), at most `n` times around the loop; `i` is the loop counter and `cand` is `newPkgName`. -/
def fresh (cache : List Bytes) (name : Bytes) : Nat → Nat → Bytes → Option Bytes
  | 0, _, _ => none
  | n + 1, i, cand => if cand ∈ cache then fresh cache name n (i + 1) (name ++ natDec i) else some cand

/-- `Import` (package.go:30-55): what is returned (`none` is `nil`), whether the package is new, and the state afterwards.  The outer
option is `none` if the search for a name did not end within `n` rounds. -/
def imp (load : Bytes → Option Bytes) (n : Nat) (p : Pkg) (r : Imp) : Option (Option Imp × Bool × Pkg) :=
  match p.imports.find? (fun x => r.path = x.path) with
  | some x => some (some x, false, p)
  | none =>
    match load r.path with
    | none => some (some r, false, p)
    | some real =>
      if r.path = p.pkgPath then some (none, false, p)
      else
        let name := if real ≠ [] ∧ real ≠ r.name then real else r.name
        (fresh p.cache name n 1 name).map fun alias =>
          let x := ⟨r.path, alias⟩
          (some x, true, { p with cache := alias :: p.cache, imports := p.imports ++ [x] })

/-- A sequence of requests: the answers and the final state. -/
def imps (load : Bytes → Option Bytes) (n : Nat) : Pkg → List Imp → Option (List (Option Imp) × Pkg)
  | p, [] => some ([], p)
  | p, r :: rs =>
    (imp load n p r).bind fun (a, _, p) => (imps load n p rs).map fun (as, p) => (a :: as, p)

/-- `filepath.Base` of a path that does not end with a slash. -/
def base (p : Bytes) : Bytes := (p.reverse.takeWhile (· ≠ 47)).reverse

/-- The line in the import block (generate.go:356-363): the name written before the path, if any. -/
def lineName (x : Imp) : Option Bytes := if base x.path = x.name then none else some x.name

end Verif.Import
