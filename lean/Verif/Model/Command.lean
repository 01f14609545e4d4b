import Verif.Model.Config

/-!
# The commands

`cmd/sqlgen/{cmd,generate,init}.go` and the loading of configuration files (`cmd/sqlgen/codegen/config.go`).  What a
configuration file holds is left open: `decode` reads it into a configuration, as `yaml.Decoder.Decode` does, and `encode`
writes it.  Questions are modelled by their answers.  Checking the configuration (`validator.Struct`) accepts it, as it has no
rules.
-/

namespace Verif.Command

open Verif Verif.Config

variable {D F : Type}

/-- The standard library with YAML. -/
structure Yaml (D F : Type) where
  decode : F → Config D → Res (Config D)
  encode : Config D → F
  /-- whether a map has entries -/
  nonempty : (Bytes → Option D) → Bool

/-- The current directory: the files in it, by name or path. -/
abbrev Dir (F : Type) := Bytes → Option F

/-- `cfgFilenames` (config.go:40). -/
def names : List Bytes := [lit "sqlgen.yml", lit ".sqlgen.yml", lit ".sqlgen.yaml", lit "sqlgen.yaml"]

/-- `findCfgInDir` (config.go:296-304). -/
def find (w : Dir F) : Option F := names.findSome? w

variable (Y : Yaml D F)

/-- `DefaultConfig` (config.go:270-281); a file that cannot be read panics. -/
def defaultConfig (w : Dir F) : Res (Config D) :=
  match find w with
  | none => .ok init
  | some f =>
    match Y.decode f init with
    | .ok c => .ok c
    | _ => .panic

/-- `LoadConfigFrom` (config.go:261-268). -/
def loadConfigFrom (w : Dir F) (path : Bytes) : Res (Config D) :=
  match w path with
  | none => .err
  | some f => Y.decode f init

/-- `Generate` (codegen.go:43-52), up to the configuration that is used. -/
def generate (w : Dir F) (c : Config D) : Res (Config D) := do
  let cfg ← defaultConfig Y w
  merge Y.nonempty cfg c

/-- `sqlgen` (cmd.go:29-43); without the flag `config` is empty. -/
def root (w : Dir F) (config : Bytes) : Res (Config D) := do
  let cfg ← defaultConfig Y w
  if config ≠ [] then
    let cfg ← loadConfigFrom Y w config
    generate Y w cfg
  else generate Y w cfg

/-- `sqlgen generate source` (generate.go:18-62). -/
def source (w : Dir F) (src : Bytes) : Res (Config D) := do
  let cfg ← defaultConfig Y w
  generate Y w { cfg with source := some [src] }

/-- The answers to the questions of `sqlgen init` (init.go:65-70). -/
structure Answer where
  driver : Bytes
  naming : Bytes
  tag : Bytes
  strict : Bool

/-- The configuration that is written (init.go:82-102): a naming convention that is not one of the three is not taken over. -/
def answered (a : Answer) (c : Config D) : Config D :=
  { c with
    driver := a.driver
    naming := if a.naming ∈ [lit "snake_case", lit "PascalCase", lit "camelCase"] then a.naming else c.naming
    tag := a.tag
    strict := some a.strict }

/-- `sqlgen init` (init.go:27-121, codegen/init.go:18-45): the files afterwards.  `confirm` is the answer to the last
question. -/
def setup (w : Dir F) (force : Bool) (a : Answer) (confirm : Bool) : Res (Dir F) :=
  if !force && (w (lit "sqlgen.yml")).isSome then .ok w
  else do
    let cfg ← defaultConfig Y w
    if confirm then .ok fun n => if n = lit "sqlgen.yml" then some (Y.encode (answered a cfg)) else w n
    else .ok w

end Verif.Command
