import Verif.Props.ArrayCodec
import Verif.Props.PgQuote
import Verif.Props.JsonSlices
import Verif.Props.Stmt
import Verif.Props.Pool
import Verif.Props.Gen
import Verif.Props.Addrs
import Verif.Props.GenPool
import Verif.Props.Helpers
import Verif.Props.Pager
import Verif.Props.Parser
import Verif.Props.Emit
import Verif.Props.ParserCases
import Verif.Props.Naming
import Verif.Props.Scan
import Verif.Props.Marshal
import Verif.Props.Alias
import Verif.Props.ColumnType
import Verif.Props.Migrate
import Verif.Props.MigrateText
import Verif.Props.MigrateDefault
import Verif.Props.MigrateCase
import Verif.Model.PgType
import Verif.Spec.PgType
import Verif.Lemmas.PgType
import Verif.Props.PgType
import Verif.Model.Catalog
import Verif.Spec.Catalog
import Verif.Props.Catalog
import Verif.Props.Quote
import Verif.Props.Import
import Verif.Props.Config
import Verif.Props.Source
import Verif.Props.SourcePattern
import Verif.Props.Run
import Verif.Props.Discover
import Verif.Props.Expr
import Verif.Props.Dispatch
import Verif.Props.DispatchExpr
import Verif.Props.Answers
import Verif.Props.AutoIncr
import Verif.Props.Debug
import Verif.Props.JsonField
import Verif.Props.Methods
import Verif.Props.JsonText
import Verif.Props.Time
import Verif.Props.Store
import Verif.Spec.Bulk
import Verif.Model.Bulk
import Verif.Lemmas.Bulk
import Verif.Lemmas.BulkStore
import Verif.Props.Bulk
import Verif.Spec.Cond
import Verif.Model.Cond
import Verif.Spec.Wide
import Verif.Lemmas.Cond
import Verif.Lemmas.CondStore
import Verif.Lemmas.CondRun
import Verif.Lemmas.CondHollow
import Verif.Props.Cond
import Verif.Spec.Page
import Verif.Model.Page
import Verif.Lemmas.PageText
import Verif.Lemmas.PageRun
import Verif.Lemmas.PageLoop
import Verif.Lemmas.PageOrder
import Verif.Props.Page
import Verif.Spec.Float
import Verif.Model.Float
import Verif.Lemmas.FloatRound
import Verif.Lemmas.FloatText
import Verif.Lemmas.FloatPrint
import Verif.Lemmas.FloatRead
import Verif.Props.Float
import Verif.Model.Command
import Verif.Spec.Command
import Verif.Props.Command
import Verif.Spec.Cell
import Verif.Model.Typed
import Verif.Spec.Typed
import Verif.Props.Typed
import Verif.Props.TypedOrder
import Verif.Props.TypedMore
import Verif.Model.Upkeep
import Verif.Spec.Upkeep
import Verif.Props.Upkeep
import Verif.Spec.Program
import Verif.Model.Program
import Verif.Props.Program
import Verif.Model.Rich
import Verif.Spec.Rich
import Verif.Props.Rich
import Verif.Props.RichOrder
import Verif.Props.RichLost
import Verif.Props.RichExample
import Verif.Spec.Wrap
import Verif.Model.Wrap
import Verif.Spec.Wrapped
import Verif.Lemmas.Wrap
import Verif.Lemmas.WrapStore
import Verif.Props.Wrap
import Verif.Props.WrapLost
import Verif.Props.WrapExample
import Verif.Model.Document
import Verif.Spec.Document
import Verif.Lemmas.Document
import Verif.Props.Document
import Verif.Props.DocumentMore
import Verif.Props.DocumentLost
import Verif.Props.DocumentExample
import Verif.Model.Embed
import Verif.Spec.Embed
import Verif.Lemmas.Embed
import Verif.Lemmas.EmbedStore
import Verif.Lemmas.Declared
import Verif.Props.Embed
import Verif.Props.EmbedLost
import Verif.Props.EmbedParsed
import Verif.Spec.EmbedTyped
import Verif.Props.EmbedTyped
import Verif.Spec.Fault
import Verif.Model.Fault
import Verif.Props.Fault
import Verif.Props.FaultMore
import Verif.Props.FaultLost
import Verif.Props.FaultExample
import Verif.Model.PageFault
import Verif.Props.FaultPages
import Verif.Model.Custom
import Verif.Spec.Custom
import Verif.Props.Custom
import Verif.Props.CustomMore
import Verif.Props.CustomLost
import Verif.Props.CustomExample
import Verif.Model.Fixed
import Verif.Spec.Fixed
import Verif.Lemmas.Utf8Order
import Verif.Props.Fixed
import Verif.Props.FixedOrder
import Verif.Props.FixedMore
import Verif.Props.FixedExample
import Verif.Model.EmbedMany
import Verif.Spec.EmbedMany
import Verif.Lemmas.EmbedMany
import Verif.Props.EmbedMany
import Verif.Props.EmbedRecords
import Verif.Props.EmbedManyLost
import Verif.Props.EmbedManyCase
import Verif.Model.MyType
import Verif.Spec.Made
import Verif.Props.Made
import Verif.Spec.MyTable
import Verif.Props.MyTable
import Verif.Spec.MadeTable
import Verif.Props.MadeTable
import Verif.Model.TimeList
import Verif.Props.TimeList
import Verif.Spec.Tags
import Verif.Props.Tags
import Verif.Model.Binary
import Verif.Props.Binary
import Verif.Spec.Schema
import Verif.Props.Schema
import Verif.Props.SchemaCase
import Verif.Props.MadeWidth
import Verif.Props.FixedSqlite
