import Verif.Model.Source

/-!
# A run of the generator over its sources

`cmd/sqlgen/codegen/codegen.go`: the loop of `Generate` over the sources and `parseGoPackage`, with the effect of `compiler.Parse` and
`generateModels` (generate.go) on the generated files.  Of a generated file only the structs it has code for are modelled.
-/

namespace Verif.Source

/-- What a run works with. -/
structure World where
  fs : FS
  /-- The destinations of database code (codegen.go:204-214). -/
  skip : List Text
  /-- `fileutil.IsDirEmptyFiles`: there is no Go file in the directory, other than the generated one. -/
  isEmpty : Text → Bool
  /-- The exported structs declared in a file. -/
  structs : Text → List Text
  /-- The parser or the generator rejects a struct. -/
  rejects : Text → Text → Bool

/-- The generated code of each directory: none, or a file with code for some structs. -/
abbrev Code := Text → Option (List (Text × Text))

def setCode (g : Code) (d : Text) (x : Option (List (Text × Text))) : Code := fun d' => if d' = d then x else g d'

/-- The structs of a directory, with their files, that are in files which match (parser.go:48-146). -/
def matching (w : World) (m : Matcher) (dir : Text) : List (Text × Text) :=
  (w.fs.files dir).flatMap fun n => let f := dir ++ '/' :: n; if m.test f then (w.structs f).map fun s => (f, s) else []

/-- One round of the loop of `parseGoPackage` (codegen.go:200-262); the truth value tells whether the run goes on. -/
def visit (w : World) (m : Matcher) (g : Code) (dir : Text) : Bool × Code :=
  if dir ∈ w.skip then (true, g)
  else if w.isEmpty dir then (true, g)
  else
    -- the generated file is removed first
    let g := setCode g dir none
    let ss := matching w m dir
    if ss = [] then (true, g)
    else if ss.any fun x => w.rejects x.1 x.2 then (false, g)
    else (true, setCode g dir (some ss))

def visits (w : World) (m : Matcher) : Code → List Text → Bool × Code
  | g, [] => (true, g)
  | g, d :: ds =>
    match visit w m g d with
    | (true, g) => visits w m g ds
    | (false, g) => (false, g)

/-- The loop of `Generate` over what was planned for the sources (codegen.go:69-158). -/
def run (w : World) : Code → List Plan → Bool × Code
  | g, [] => (true, g)
  | g, p :: ps =>
    match p with
    | .skip => run w g ps
    | .job root dirs m =>
      match visits w m g (dirs.map (join root)) with
      | (true, g) => run w g ps
      | (false, g) => (false, g)
    | _ => (false, g)

end Verif.Source
