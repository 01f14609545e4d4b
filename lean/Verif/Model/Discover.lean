import Verif.Base.Go

/-!
# Which structs of a package the generator finds

`cmd/sqlgen/internal/compiler/parser.go:48-154`: the walk of `Parse` over the files of a package.
-/

namespace Verif.Discover

abbrev Text := List Char

/-- What is written as the type in a type declaration. -/
inductive Form where
  /-- `struct { … }`. -/
  | struct
  /-- `pkg.T`; whether a declaration of `T` as a struct is found in the files of the package (parser.go:106-133). -/
  | selector (found : Bool)
  /-- Anything else: a name, a pointer, a slice, a map, a function, an interface, an instance of a generic type. -/
  | other
  deriving DecidableEq

/-- One specification of a type declaration (`ast.TypeSpec`). -/
structure Spec where
  name : Text
  /-- `type A = …`. -/
  alias : Bool
  exported : Bool
  form : Form
  deriving DecidableEq

/-- A declaration `type …` or `type ( … )` (`ast.GenDecl`). -/
structure Group where
  /-- It is in the body of a function. -/
  inFunc : Bool
  specs : List Spec

/-- A file; its declarations in the order in which `ast.Inspect` comes to them. -/
structure File where
  path : Text
  /-- `ast.IsGenerated`. -/
  generated : Bool
  groups : List Group

/-- The loop over the specifications of a declaration (parser.go:73-140); the last case is the `return` in the switch. -/
def inGroup (matched : Bool) : List Spec → List Spec
  | [] => []
  | s :: ss =>
    if s.alias then inGroup matched ss
    else if !matched then inGroup matched ss
    else if !s.exported then inGroup matched ss
    else
      match s.form with
      | .struct => s :: inGroup matched ss
      | .selector true => s :: inGroup matched ss
      | .selector false => inGroup matched ss
      | .other => []

/-- The structs of a file (parser.go:50-141). -/
def inFile (match? : Text → Bool) (f : File) : List Spec :=
  if f.generated then [] else f.groups.flatMap fun g => inGroup (match? f.path) g.specs

/-- The structs of a package in the order of their tables (parser.go:48-154); `srt` is `sort.Slice` with the comparison of names, `none` is
`ErrSkip`. -/
def inPackage (srt : List Spec → List Spec) (match? : Text → Bool) (fs : List File) : Option (List Spec) :=
  let l := fs.flatMap (inFile match?)
  if l = [] then none else some (srt l)

end Verif.Discover
