import Verif.Model.Config

/-!
# Which configuration a run uses

The settings are those of `Config.Config`; what is said here is how the settings of a run follow from those that were given.
-/

namespace Verif.Spec.Command

open Verif Verif.Config

variable {D F : Type}

/-- The configuration files, the first of which that exists counts. -/
def candidates : List Bytes := [lit "sqlgen.yml", lit ".sqlgen.yml", lit ".sqlgen.yaml", lit "sqlgen.yaml"]

/-- `f` is the configuration file of the directory. -/
def Current (w : Bytes → Option F) (f : F) : Prop :=
  ∃ pre n post, candidates = pre ++ n :: post ∧ w n = some f ∧ ∀ m ∈ pre, w m = none

/-- The directory has no configuration file. -/
def NoFile (w : Bytes → Option F) : Prop := ∀ n ∈ candidates, w n = none

/-- The setting that was given, or the built-in one. -/
def Given (x d y : Bytes) : Prop := (x ≠ [] → y = x) ∧ (x = [] → y = d)

/-- The settings of the database code. -/
structure DatabaseOf (d : Database) (r : Database) : Prop where
  package : Given d.package (lit "db") r.package
  dir : Given d.dir (lit "db") r.dir
  filename : Given d.filename (lit "db.go") r.filename
  operator : ∃ o, r.operator = some o ∧
    Given ((d.operator.getD {}).package) r.package o.package ∧ Given ((d.operator.getD {}).dir) r.dir o.dir ∧
    Given ((d.operator.getD {}).filename) (lit "operator.go") o.filename

/-- A run uses the settings `r` if `c` was given: all of them that the generator looks at. -/
structure Used (c r : Config D) : Prop where
  source : r.source = some (c.source.getD [lit "./**/*"])
  driver : Given c.driver (lit "mysql") r.driver
  naming : Given c.naming (lit "snake_case") r.naming
  tag : Given c.tag (lit "sql") r.tag
  quoteIdentifier : r.quoteIdentifier = c.quoteIdentifier
  strict : r.strict = c.strict
  skipEmpty : r.skipEmpty = c.skipEmpty
  filename : Given c.filename (lit "generated.go") r.filename
  prefix_ : Given c.prefix_ (lit "Column") r.prefix_
  database : ∃ d, r.database = some d ∧ DatabaseOf (c.database.getD {}) d
  skipHeader : r.skipHeader = c.skipHeader
  skipModTidy : r.skipModTidy = c.skipModTidy
  dataTypes : ∃ m, r.dataTypes = some m ∧ ∀ k, m k = (c.dataTypes.getD fun _ => none) k

/-- The settings that are only read and written. -/
def Rest (c r : Config D) : Prop := r.readOnly = c.readOnly ∧ r.omitGetters = c.omitGetters ∧ r.sourceMap = c.sourceMap

end Verif.Spec.Command
