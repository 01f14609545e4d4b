import Verif.Base.Go

/-!
# Configuration

`cmd/sqlgen/codegen/config.go`: `Init`, `Merge` and `initIfEmpty`.  Strings are byte strings; reading the YAML file and checking the
driver are not modelled.  `*bool` is an option, a map is an option (`nil`) of a function from keys.
-/

namespace Verif.Config

def lit (s : String) : Bytes := s.toUTF8.toList

/-- `DatabaseOperatorConfig` (config.go:99-103). -/
structure Operator where
  package : Bytes := []
  dir : Bytes := []
  filename : Bytes := []
  deriving DecidableEq

/-- `DatabaseConfig` (config.go:92-97). -/
structure Database where
  package : Bytes := []
  dir : Bytes := []
  filename : Bytes := []
  operator : Option Operator := none
  deriving DecidableEq

/-- `MigrationConfig` (config.go:85-90). -/
structure Migration where
  dsn : Bytes := []
  package : Bytes := []
  dir : Bytes := []
  filename : Bytes := []
  deriving DecidableEq

/-- `Config` (config.go:42-65); `D` is `*DataType`. -/
structure Config (D : Type) where
  source : Option (List Bytes) := none
  driver : Bytes := []
  naming : Bytes := []
  tag : Bytes := []
  quoteIdentifier : Bool := false
  readOnly : Bool := false
  strict : Option Bool := none
  skipEmpty : Bool := false
  filename : Bytes := []
  prefix_ : Bytes := []
  migration : Option Migration := none
  database : Option Database := none
  omitGetters : Bool := false
  sourceMap : Bool := false
  skipHeader : Bool := false
  skipModTidy : Bool := false
  dataTypes : Option (Bytes → Option D) := none

variable {D : Type}

/-- `if x == "" { x = d }`. -/
def orElse (x d : Bytes) : Bytes := if x = [] then d else x

/-- `Init` (config.go:105-123) of a new configuration. -/
def init : Config D where
  source := some [lit "./**/*"]
  naming := lit "snake_case"
  tag := lit "sql"
  driver := lit "mysql"
  strict := some true
  filename := lit "generated.go"
  prefix_ := lit "Column"
  database := some ⟨lit "db", lit "db", lit "db.go", some ⟨lit "db", lit "db", lit "operator.go"⟩⟩
  dataTypes := some fun _ => none

/-- The part of `initIfEmpty` about the database (config.go:145-168). -/
def fillDatabase (d : Option Database) : Database :=
  let d := d.getD {}
  let o := d.operator.getD {}
  let package := orElse d.package (lit "db")
  let dir := orElse d.dir (lit "db")
  { package := package, dir := dir, filename := orElse d.filename (lit "db.go"),
    operator := some ⟨orElse o.package package, orElse o.dir dir, orElse o.filename (lit "operator.go")⟩ }

/-- The part of `initIfEmpty` about migrations (config.go:169-179). -/
def fillMigration (m : Migration) : Migration :=
  { m with dir := orElse m.dir (lit "migrate"), package := orElse m.package (lit "migrate"), filename := orElse m.filename (lit "migrate.go") }

/-- `initIfEmpty` (config.go:125-183). -/
def initIfEmpty (c : Config D) : Config D :=
  { c with
    source := some (c.source.getD [lit "./**/*"])
    driver := orElse c.driver (lit "mysql")
    naming := orElse c.naming (lit "snake_case")
    tag := orElse c.tag (lit "sql")
    prefix_ := orElse c.prefix_ (lit "Column")
    filename := orElse c.filename (lit "generated.go")
    database := some (fillDatabase c.database)
    migration := c.migration.map fillMigration
    dataTypes := some (c.dataTypes.getD fun _ => none) }

/-- `maps.Copy(dst, src)`: the entries of `src` win.  Writing to a nil map panics; copying nothing to it does not. -/
def copyMap (dst : Option (Bytes → Option D)) (src : Bytes → Option D) (nonempty : Bool) : Res (Option (Bytes → Option D)) :=
  match dst with
  | some f => .ok (some fun k => (src k).or (f k))
  | none => if nonempty then .panic else .ok none

/-- `Merge` (config.go:185-246); `nonempty m` tells whether the map `m` has entries. -/
def merge (nonempty : (Bytes → Option D) → Bool) (c m : Config D) : Res (Config D) := do
  let dt ← match m.dataTypes with
    | some f => copyMap c.dataTypes f (nonempty f)
    | none => .ok c.dataTypes
  .ok (initIfEmpty { c with
    quoteIdentifier := m.quoteIdentifier
    source := m.source.or c.source
    driver := orElse m.driver c.driver
    naming := orElse m.naming c.naming
    strict := m.strict.or c.strict
    tag := orElse m.tag c.tag
    prefix_ := orElse m.prefix_ c.prefix_
    skipEmpty := m.skipEmpty || c.skipEmpty
    filename := orElse m.filename c.filename
    database := match m.database with
      | some d => some ⟨d.package, d.dir, d.filename, d.operator.or ((none : Option Operator))⟩
      | none => c.database
    skipHeader := m.skipHeader || c.skipHeader
    skipModTidy := m.skipModTidy || c.skipModTidy
    migration := m.migration.or c.migration
    dataTypes := dt })

end Verif.Config
