# Formal model of si3nloong/sqlgen

The source under study is `/repo` (Go).  Nothing is executed; the code was read as text and
transcribed, function by function, into total computable Lean 4 definitions under
`lean/Verif/Model`.  Specifications that do not use the model's helpers are under
`lean/Verif/Spec`.  Helper lemmas are under `lean/Verif/Lemmas`.  Property theorems, each with a
concrete example meeting its hypotheses, are under `lean/Verif/Props`.

## Trusted base

* Lean's kernel (4.33.0) and the three standard axioms `propext`, `Classical.choice`, `Quot.sound`.
  No theorem depends on any other axiom; there is no `sorry`, no `native_decide`, no `bv_decide`.
  Concrete instances use `decide +kernel`, which is checked by the kernel.
* The transcription of Go into Lean.  Every definition cites file and lines.
* The reading of what the code calls in Go's standard library, modelled by small definitions:
  `encoding/json` (bytes of a string that are not UTF-8 are written as U+FFFD, not as `\ufffd`), `strconv.AppendInt/ParseInt/ParseUint/ParseBool/Quote`, `strconv.AppendFloat/FormatFloat/ParseFloat` (correctly rounded; shortest digits), conversions between numeric types (IEEE 754, one not-a-number), `encoding/hex`, `unicode/utf8`,
  `strings.Repeat/Join/HasPrefix/TrimSpace/SplitN/Replace/NewReplacer`, `sync.Pool`, `sort.Slice`
  (any function that sorts), `filepath.Clean/Join/Dir/WalkDir`, `regexp` (the expressions that occur, by derivatives or by hand),
  `maps.Copy`, `ast.Inspect` (order of declarations).
  Parameters about which nothing, or only what is said, is assumed: time formatting (`Std`), `strconv.ParseFloat` on texts with underscores or the letter x (`odd`),
  `strconv.IsPrint`, `packages.Load`, the file system (`FS`), the method sets of types (`Facts`).
* The specifications of external systems: PostgreSQL's escape-string lexer, bytea output formats, JSON (RFC 8259), SQL
  boolean precedence and three-valued logic, the ranges of SQL integer types, quoted identifiers of MySQL and PostgreSQL,
  Go's interpreted and raw string literals, a database that answers a keyset query with the first rows in key order
  (`Spec.Pager.Serves`), a server that executes `ALTER TABLE` (`Spec.Migrate`) and one that reads the text of migrations (`Spec.Ddl`: PostgreSQL and MySQL; names of keys per schema, `createAll` for several statements), the types of PostgreSQL and how its catalogue shows them (`Spec.PgType`), what columns get that are not given (`Spec.Made`), that `sort.Slice` sees the comparison only (`Spec.Tags.Blind`), the tables MySQL makes (`Spec.MyTable`), what the columns of a script mean (`Spec.MadeTable`), the catalogue of a database with several schemas (`Spec.Catalog`), `INSERT ... ON CONFLICT ... RETURNING` with rows in the order
  of the records (`Spec.Answers`), `LAST_INSERT_ID` (`Spec.AutoIncr`), string literals of MySQL (`Spec.Debug`),
  a database that reads and executes INSERT, SELECT, UPDATE and DELETE by key (`Spec.Sql`: lexer with quoted and folded names and reserved
  words, grammar, rows, uniqueness of keys, NULL in comparisons), and multi-row INSERT with its conflict clauses in two families of syntax
  (`Spec.Bulk`: `ON CONFLICT` for PostgreSQL and SQLite, `IGNORE` and `ON DUPLICATE KEY UPDATE` for MySQL), SELECT, UPDATE and DELETE with conditions, orders and limits
  (`Spec.Cond`: precedence of AND and OR, three-valued logic, which parts PostgreSQL, MySQL and SQLite accept), the queries of pagination (`Spec.Page`: comparisons of rows of
  columns, rows in ORDER BY for PostgreSQL only), a database that fills in columns on inserts and updates
  (`Spec.Upkeep`: defaults, generated columns, triggers), statements that are run one after the other as a whole (`Spec.Program`), columns for lists, byte strings and times (`Spec.Rich`: texts of arrays in PostgreSQL), JSON columns (`Spec.Document`: MySQL keeps values of documents, others their texts), structs in memory and Go's rule of unique field names (`Spec.Embed`), methods of types (`Spec.Custom`: any functions of which one undoes the other; drivers hand over what is in a column, text as bytes or as a string), columns for arrays of bytes and characters (`Spec.Fixed`: texts are UTF-8, `CHAR` of MySQL loses spaces at the end, PostgreSQL keeps no NUL), ways for connections to fail (`Spec.Fault`; that `Row.Scan` returns errors after its row and that loops over `Rows.Next` do not, as documented by `database/sql`), statements that call functions of the database (`Spec.Wrap`, `Spec.Wrapped`), and what `database/sql` and drivers do with buffers
  (`Model.Alias`).

## Modelling conventions

* Go strings and byte slices are `List UInt8` where bytes matter, `List Char` where the code works on
  characters of valid UTF-8; panics and errors are outcomes (`Res.ok | Res.err | Res.panic`); a nil slice is `none`.
* SQL text under construction is a list of symbols: characters or placeholders (`Base.Sql`).  `Spec.Bind` puts the
  arguments in their places; `Spec.Text` finds the placeholders in plain characters, and lemmas connect the two.
* Fixed-width integers are `Int` with explicit ranges and wrap-around, or `BitVec`.
* Loops are structural recursions; loops that may not end take fuel, and theorems say for all fuel, or that there is enough.
* Pools are state machines over explicit operations and every schedule.

## What is modelled

| code in /repo | module of `Verif.Model` | left out |
|---|---|---|
| sequel/sqltype/*.go, sequel/driver/postgres/pgtype/*.go | Array, Bytea, Float | |
| sequel/driver/postgres/pgutil | PgQuote | |
| sequel/encoding/*.go | Scan, Time, Marshal, TimeList, Alias, JsonField, JsonText, Float | zones attached to times; recursive types and interfaces in JSON |
| sequel/types/binary.go | Binary | |
| sequel/strpool, pools of db.go.tpl | Pool, GenPool | |
| templates/operator.go.tpl | Stmt | |
| templates/db.go.tpl | Stmt, Query, Helpers, Pager, Answers, AutoIncr, Debug, Store, Wrap, Upkeep, Bulk, Cond, Page, Program, Rich, Document, Embed, EmbedMany, Custom, Fixed, Fault, PageFault | contexts, `database/sql` itself |
| codegen/generate.go | Gen, Addrs, Emit, GenPool, Dispatch, Methods | the Go text around statements; file writing and goimports |
| codegen/tool.go, codegen/expr.go, codegen/package.go | Dispatch, Expr, Import | text/template |
| codegen/codegen.go, codegen/path_matcher.go | Source, Run | running `go mod tidy`, reading YAML |
| codegen/config.go, cmd.go, generate.go, init.go | Config, Command | YAML, the terminal |
| internal/compiler/*.go | Discover, Parser, Addrs | `go/packages`, `go/types`; sizes of columns, which nothing sets (they are 0; the models of columns take any size) |
| internal/strfmt | Naming | the functions that are not used |
| codegen/dialect/*/ | ColumnType, PgType, MyType, Catalog, Quote, Migrate, MigrateText, SqlBool, Dispatch (keys), Typed, Rich, Document and Fixed (entries) | connections; queries about indexes |

## How to read seeded/LOG.jsonl

Each line is one wrong (or repaired) program: the model was edited in a copy, and everything was built again.
`first_failures` are the declarations in which Lean reported errors.  `theorems_failed` are the property theorems among
them together with those that use one of them, directly or through other lemmas (in a mutual block, all declarations
fail together); it is computed from the dependencies of the present development, by module and name.  It says that the
proof given here no longer goes through, not that the theorem is refuted.  `theorems_tightened` were added or
strengthened because of the attempt.


## Per property

`proved`: the statement in properties.jsonl is proved in full.  `partial`: part of it is proved, the rest is false of the code (then the
negation is proved, for all inputs of a kind where possible) or is said to be missing in the note.  The full statements stay in
properties.jsonl.

* **C01** (proved) String arrays survive a Value/Scan round trip.  Model: Array; spec ArrayGrammar.  The element loop consumes exactly one escaped element; induction on the list.
* **C02** (proved) Bool arrays survive a Value/Scan round trip.  Model: Array.  The buffer, built by index arithmetic, equals a closed form; then the round trip.
* **C03** (proved) Signed integer arrays survive a Value/Scan round trip at every width.  Model: Array; spec Numeral.  Printing and parsing of decimals are inverse; induction on the list.
* **C04** (partial) Unsigned integer arrays survive a Value/Scan round trip at every width.  Model: Array.  As C03; the refutation is for every value from 2^63 on.  Holds for sqltype at every width; pgtype parses signed, so values from 2^63 on never read back (refuted), the rest proved.
* **C05** (proved) The array scanner accepts exactly the one-dimensional array grammar and never panics.  Model: Array; spec ArrayGrammar.  Inductive grammar; soundness by induction on the run, completeness on the derivation; panics are outcomes of the model.
* **C06** (proved) A failed array Scan leaves the destination as it was.  Model: Array, Bytea.  Scanners as functions of destination and text; all errors keep the destination.
* **C07** (partial) Accepted integer array elements keep their numeric value.  Model: Array; spec Numeral.  Value of a numeral as specification; the wrapped value is given exactly.  Holds for sqltype unsigned and for 64-bit signed; narrow signed types and pgtype unsigned wrap silently (refuted); exact wrapped value characterised.
* **C08** (proved) Bytea arrays survive a Value/Scan round trip.  Model: Bytea.  Buffer offsets against a closed form; hex round trip.
* **C09** (proved) Both bytea text formats are decoded correctly.  Model: Bytea; spec Bytea.  Both formats as inductive relations.
* **C10** (partial) Slices bound to JSON columns are sent as valid JSON.  Model: Array; spec Json.  Inductive JSON grammar; universal refutations.  Integers proved; strings proved when no element has a control character, refuted otherwise; non-empty bool slices are never JSON (refuted).
* **C100** (partial) Records in columns with functions of the database.  Model: Wrap, on Store, Gen, Helpers; specs Wrap (SQL statements with function calls: reader and evaluator) and Wrapped (what is assumed of templates and functions).  The texts that the generator makes are read as calls of the functions (lexing and parsing lemmas for any template that reads as an expression, in front of anything that can follow it). The effect of each statement on the database is that of the plain statement of a model without templates, on a database that applies the functions on the way in and out (through, strip); then the theorems of C90.  Proved for keys without templates, given or made up by the database, and templates that are expressions of function calls, numbers and texts around one place for the value (numbered placeholders: one or more); columns take whatever the functions give. Refuted for a key of one column with a template for values: records are inserted under what the function makes of the key but looked up under the key itself, so that no find finds anything and no delete deletes (C100_wrapped_key_lost); and for Insert of several records other than on PostgreSQL, which writes the values without the functions (C100_batch_raw), so that reads give what the other function makes of raw values, or fail (C100_batch_misread, C100_batch_lost; a database whose columns have types may refuse the batch instead). Missing: Insert with templates on PostgreSQL, UpdateByPK with a wrapped key, conditions on wrapped columns (they compare unwrapped), operators and casts in templates.
* **C101** (partial) Records with JSON documents stay records on a database.  Model: Document, on Rich, JsonField, JsonText, Dispatch, Store; spec Document (types of documents, JSON columns of the databases, what they take and give, comparisons).  Which types are documents is shown of the walk through the type and the keys of the tables. A field: what is written means the JSON value of the document (C87), the database gives a text that means the same up to the order of members, which is read as C85 says; without maps and unwritten fields this is the value itself, whatever was there. Other fields as in C99. Then the theorems of C90, C91, C92, C93, C97 and C98, whose assumptions are shown of these fields.  Proved for document types without maps of which all fields are written, for values whose texts are made of characters and whose pointers do not point to something nil, with keys of the types of C99; MySQL keeps JSON values of at most 100 levels, PostgreSQL and SQLite texts. One field exactly: what is read is what was stored if and only if the conditions of C85 hold, which depend on what the field had before (C101_field_iff_partial). Refuted for maps, where entries of the record that is read into stay (C101_map_leftover); for fields of structs that are not exported, have the tag json:"-", or are empty and have omitempty (C101_unwritten); and for documents nested deeper than 10000, which are stored and cannot be read (C101_deep_lost). The column is NULL exactly for nil pointers: lists and maps that are nil are JSON's null (C101_null_iff). What comparisons of documents give is left to the database; PostgreSQL has none for its type json, where such conditions fail. Missing: floating point numbers, interfaces, byte strings and types with their own MarshalJSON in documents, keys made up by the database, maps read into new records.
* **C102** (partial) Structs with embedded pointers stay records.  Model: Embed, on Addrs, Gen, Store, Parser; spec Embed (structs in memory, which fields exist, what a call does with rows and structs, unique field names of Go).  What the paths of columns are is shown of the walk through the declaration with unique field names in every struct (C102_parsed). Getters: induction over the pointers before a field. Addrs: induction over the columns; the fields that exist only grow. The helpers: the statements are those of Model/Store, whose theorems are used with cells in place of records, and with a coder that fails where scanning would; the structs afterwards by cases on the answer.  Proved for all structs and all choices of nil pointers: what the arguments are (C102_arguments), what Addrs leaves (C102_addrs), and exactly what every sequence of calls does with the rows and with the structs (C102_steps, from the declaration C102_declared); with no embedded pointer nil, calls are operations on a map from keys to records (C102_records_partial). For fields of predeclared types, types defined from them and pointers: a struct that was inserted is found later if and only if no field behind a nil pointer is a string, bool, int64 or float64; the fields behind nil pointers are then zero (C102_typed). Refuted for nil embedded pointers: after FindByPK none is nil, whatever was stored (C102_never_nil); if a field behind one does not accept NULL the inserted row cannot be read, and on PostgreSQL InsertOne returns an error with the row stored (C102_unreadable); where the key is made up by the database and is behind a nil pointer InsertOne panics with the row stored (C102_key_panics); FindByPK without a row allocates the pointers, so that a following InsertOne stores zero values instead of NULLs (C102_find_or_create). Missing: read-only columns and columns with functions of the database, batches, upserts and queries with such structs.
* **C103** (partial) Calls over connections that fail.  Model: Fault, PageFault, on Program, Store, Bulk, Cond, Page; spec Fault (how connections fail; what calls that can fail are to do).  A call over a connection that fails is the call itself or an error with the database as before or after it, by cases on the fault and the helper; the rest by the theorems about calls of C98. Programs: induction over the order of the calls. Repeated calls: an invariant on what is under the key, with what one call leaves there being left by two. Pagination: induction over the rounds, side by side with those over connections that work. The refutations compute the answer that is cut from that of the database in full.  Proved for all calls, for statements that do not arrive and for answers that are lost (C103_once_partial), for all clients and orders (C103_serial_partial), and for a client that makes a call for one record again and again while the others keep away from the record (C103_insist_partial). Refuted where an answer ends with an error after some rows while a helper goes through them, since rows.Err is never asked: QueryStmt returns the rows so far as all there are (C103_query_short), and Insert and Upsert on PostgreSQL return no error though the statement is undone and nothing is stored, even if all rows have arrived, as when a commit fails (C103_insert_silent, C103_upsert_silent, C103_not_once). Refuted for keys that the database makes up: a call of InsertOne whose answer is lost, made again, stores the record twice (C103_twice). Pagination: the iteration goes as over connections that work, or yields the first of those pages and then an error (C103_pages_prefix, C103_pages_partial), unless the answer to a page query is cut: then what has arrived is yielded as the last page, without an error, so that any number of the last records of a listing can be left out (C103_pages_short, C103_pages_missing). Missing: the restrictions of C98, for pagination those of C93.
* **C104** (partial) Records with types that have methods of their own.  Model: Custom, on Document, Dispatch, Scan, Store, Bulk, Cond, Page, Upkeep, Program; spec Custom (which types have which methods, what it is for them to belong together).  Which methods are used is computed from the choices of the generator for every type. One field: by cases on the way, on pointers, and on the form in which the driver hands over a text; NULL apart. Records: the assumptions of C90 to C93, C97, C98 are shown for the columns, keys by fields with methods included. The refutations compute what the other method is given.  Proved for defined types with Value and Scan and pointers to them, for structs and maps with MarshalText and UnmarshalText and pointers to such structs, and for types of JSON documents with any methods for JSON, for values that their methods give back from what the column hands over. Exact for one field (C104_field_iff_partial). Refuted: a pointer to a value for which Value gives nil is nil afterwards (C104_nil_value); a struct of which only the pointer has MarshalText is written as JSON and read with UnmarshalText (C104_receiver), one with Scan and without Value is written as text or JSON and read with Scan (C104_scan_only), one with Value and without Scan is not read at all if Value gives a number, a time or a truth value (C104_value_only); a pointer to a map with MarshalText and UnmarshalText is written as text and read as JSON (C104_text_pointer). Missing: methods that fail, JSON columns that do not keep the text (MySQL, PostgreSQL jsonb) for types with methods, keys that the database makes up, the restrictions of C91, C92, C93, C97, C98.
* **C105** (partial) Batches, upserts and queries with structs that embed pointers.  Model: EmbedMany, on Embed, Bulk, Cond, Helpers, Store; spec EmbedMany (LoadsAll, Lists, Moves).  The statements are those for the rows of the structs, by congruence in the values; the rows themselves are records whose fields are written as they are, for which C91 and C92 are used. Reading rows into structs follows the loops by induction, with what C102 says of one row. Structs without nil embedded pointers: C91 and C92 for records whose fields are read as they are stored.  Proved for structs without nil embedded pointers (C105_records_insert_partial, C105_records_upsert_partial, C105_records_query_partial). What happens with any structs is described exactly, for all sequences of calls (C105_moves_partial): NULL is stored for fields that cannot be reached, no call panics, and reading back is decided by what the fields accept. Refuted beyond: a query fails if and only if one of the rows that it gives cannot be read (C105_query_iff), and then gives none of the others (C105_poison); a batch with a nil embedded pointer, and a field behind it that does not accept NULL, is stored as a whole, with an error on PostgreSQL and silently elsewhere, and from then on a query for all records fails (C105_insert_poisons). Missing: keys that the database makes up, structs of a batch that share what they point to, pagination, the restrictions of C91 and C92.
* **C106** (partial) The script of a migration is read as it is meant.  Model: MigrateText on Migrate; spec MigrateText (symbols, statements, script, Says, createIn).  A reader of SQL is written down without looking at the writer: symbols, then statements, then the two halves of the script. Pieces of text with a space or a mark between them are read as the pieces are (toks_space, toks_mark), by what the state of the reader is at their ends; lists by induction, parts found again by counting parentheses. Defaults: a text with a quote is read as something shorter than what was written, by a weight on the states of the reader.  Proved for all scripts whose names have no quotes and whose types and defaults can be read by themselves: the script is read as its statements and clauses, both ways (C106_reads_partial); for PostgreSQL with the scripts that Migrate writes (C106_way_back_iff), for MySQL with new tables (C106_mysql_new_partial). Refuted beyond: the way back is read exactly if no column is dropped, as it has no types for them (C106_way_back_iff, C106_no_way_back), and never for a table that exists on MySQL (C106_mysql_no_way_back); a default that is a text is read as that text if and only if it has no quote and on MySQL no backslash (C106_text_default_iff; numbers and truth values always are, C106_plain_default), and a default of bytes panics (C106_bytes_default); the name of a key comes from its columns alone, so in a schema of PostgreSQL the second table with the same key columns is refused (C106_same_key_refused, C106_second_script_refused). Missing: queries to the catalogue, expressions in defaults beyond their symbols, whether the types exist, rows.
* **C107** (partial) Migrations come to an end.  Model: PgType on Migrate, ColumnType; spec PgType (names, shownAs, serial, known, apply, rounds).  The catalogue of PostgreSQL is written down as a reader of type texts; what it shows is compared with the table of types by cases, lengths for all numbers through the numeral lemmas. That the table after a script is again one the server shows is the invariant of the rounds (one_round); the exact condition follows from C74 by induction on the number of rounds.  Proved for columns that do not count up and whose types exist: migrating again and again ends exactly if the catalogue shows all types as they were written and nullability was right (C107_ends_iff_partial), and then after one round (C107_once_partial). For every Go type and size it is settled which ones these are (C107_type_stays_iff) and whose SQL types do not exist: []byte, []float32, []float64, arrays of strings and of truth values, texts that are too long (C107_type_missing_iff). Refuted beyond: int64, uint64, byte, rune, floats and lists are changed again in every round, without end (C107_forever_type), so are columns with another nullability (C107_forever_null); once a column that counts up exists, every migration is rejected (C107_serial_rejected), and so is every one with a type that does not exist (C107_missing_rejected); int64 never counts up (C107_serial_iff). Missing: types that users configure, rows whose values cannot be converted.
* **C108** (partial) A migration looks at its own table.  Model: Catalog on Migrate; spec Catalog (Tab, rowsOf, Sound, Answers).  The catalogue is the concatenation of the rows of all tables, an answer any ordered permutation of those that are asked for. With one table of that name the positions are distinct, so the answer is unique. The refutations hold for every such database: a column left over is dropped, and a statement that drops a column needs it to be there (drop_needs).  Proved for MySQL for all databases (C108_mysql), for PostgreSQL if no other schema has a table of that name (C108_pg_partial). Refuted for PostgreSQL otherwise, as the query names no schema: columns of the other table are dropped from the table, which is rejected (C108_pg_foreign_column), and columns the table lacks are overlooked (C108_pg_overlooked). Missing: columns the user may not see, folding of names of tables on MySQL.
* **C109** (partial) Records with arrays of bytes and characters.  Model: Fixed on Custom, Scan; spec Fixed (meaning, Takes, Keeps, Hands, Behaves, Stores, order, Compares, Keyed).  One field is read through C30, with the copy over what the field had before; what a column keeps is UTF-8, so arrays of bytes and characters are related through an injective encoding whose byte order is the order of code points (Utf8Order). That gives the setup of the store, from which the claims about calls follow as for C104.  Proved next to the types of C104 for arrays that their columns keep: all bytes on SQLite (C109_sqlite_bytes); elsewhere bytes that are UTF-8 of at most as many characters as the size in the tag (C109_bytes_kept_iff), without NUL on PostgreSQL and without a space at the end on MySQL; characters where the driver hands over bytes, or if they are ASCII. Exact for one field (C109_bytes_iff_partial, C109_runes_iff_partial). Refuted: on MySQL spaces at the end are lost, and what was in the record that is read into stays there (C109_spaces); on PostgreSQL arrays with a zero, the zero value among them, cannot be stored (C109_postgres_zero); without a size in the tag, or for characters with a size below the length, MySQL and PostgreSQL keep none (C109_no_size_bytes, C109_too_small_runes); characters outside ASCII are not read from drivers that hand over strings (C109_runes_iff_partial). Missing: arrays of defined element types and of strings and truth values on PostgreSQL, defined array types, for which the generator panics, keys that the database makes up, the restrictions of C91, C92, C93, C97, C98.
* **C11** (proved) PostgreSQL literal quoting cannot be broken out of.  Model: PgQuote; spec PgLexer.  A lexer for escape strings reads the quoted text back.
* **C110** (partial) Tables made by migrations make up keys.  Model: MyType, PgType, MigrateText, Store; spec Made (what a column gets that is not given), Ddl, Keyed.  The types of both tables are read by the reader of C106, symbol by symbol; what a server does with a column that is not given follows from the column read. InsertOne with a key that is always the same is computed from the proof of C90: it fails if the key is taken. For types that count C90_made_up_keys applies.  Proved on PostgreSQL for columns of all integer types but int64 (C110_pg_made, C110_pg_counts_partial), which keep their width (C110_pg_width), in tables that have the columns; the script itself does not make tables there (C72_pg_new_table_fails). Refuted for int64, whose type does not count: no InsertOne ever stores anything (C110_pg_int64_never). Refuted for MySQL: all scripts for new tables are read there (C110_mysql_reads), but keys of all integer types have the default false, which is 0, instead of counting (C110_mysql_made), so that of all records ever inserted one is stored, and the others are duplicates (C110_mysql_once). byte is not taken: on MySQL it is a character.
* **C111** (partial) MySQL makes the tables of migrations.  Model: MyType, MigrateText; spec MyTable (kinds of types, bytes of rows and keys, defaults), Ddl.  The reader of C106 gives the columns of the script for any model (my_script); the words of each type are the kind that is meant, for all sizes, by the decimal lemmas of Numeral. The rest is about lists: the columns of a name are found, sums are bounded by induction.  Proved exactly (C111_makes_iff): MySQL makes the table if and only if every field fits into a column of its kind, defaults are right, names differ, and row and key are not too long; in particular for numbers, truth values, times, characters and texts of at most 255 characters, up to 64 fields with up to three of them in the key (C111_plain_partial). Refuted for all models with sizes that are too large (C111_too_long), with defaults for documents or bytes that are neither NULL nor in parentheses (C111_default), with keys that are documents, bytes or arrays without a size (C111_key), with four texts in the key (C111_long_key) and with 65 texts in a record (C111_long_row), where no sizes are given. Names and defaults of which the texts can be read, as in C106.
* **C112** (partial) Records in tables that migrations made.  Model: MyType, PgType, MigrateText, Typed, Store; spec MadeTable (what columns that were read from a script mean; a database that obeys them), Ddl, MyTable, Typed.  The reader of C106 gives the columns of the script (my_script); what the words of a type mean is what C96 assumes of the declared column, for all sizes, since decimals are read back. A column is NOT NULL unless the field may be nil, so Behaves asks for NULL only in columns of pointers. Then C96 and C90.  Proved for MySQL (C112_mysql_behaves, C112_mysql_store_partial): if the script makes the table (exactly when: C111) and the database keeps in each column, as it is read from the script, what its type is for, then all sequences of calls give what they would on an empty map, for values that fit (C96_stores_iff says which) and keys that the program chooses. On PostgreSQL the script for a new table is refused (C72), so the columns are taken as Migrate declares them (C112_pg_behaves, C112_pg_store_partial). Missing: keys that count up (C110: they do not on MySQL), values that do not fit (C96), fields of other types, sqlite, and that the names in the script are those of the statements (C89, C106 treat names by themselves).
* **C113** (partial) Lists of times are written as JSON that is read as the same times.  Model: TimeList (MarshalTimeList; time.Time.Format for the layout, with the calendar of the time package); spec Time (C88), JsonText.  The calendar of the package, which counts years from March in centuries of four, against the count of days of C88 (civil_days): division by 146097 and 1461, and a table of the 366 days of a year that is gone through by the kernel. Numbers of fixed width are the digits of C88; other years have a sign or five digits (format_years), zones of 25 hours or more end in six bytes that no zone has (format_zone). That the strings are JSON by induction on the list.  False as stated. Proved: the text is always a JSON array of one string for each time (C113_partial); a string stands for its time exactly when that is in whole seconds, its zone in whole minutes and less than 25 hours away, and clocks in its zone show one of the years 0 to 9999 (C113_same_iff). Otherwise fractions are dropped, seconds of the zone are added, and strings of other years and zones stand for no time; nothing more is lost (C113_kept). No part of the statement is left open.
* **C114** (partial) Every documented option of a tag has its effect.  Model: Parser; spec Tags (tags that say the same; a sorting function that sees indices only).  A simulation: two packages that differ in tags that say the same are walked through in step (same_bfs), the fields are sorted alike since sort.Slice is given a comparison of indices only (Blind, which insertion sort is shown to be), and each field has the same effect on the table (same_step).  False: what the parser makes of a package depends on the names in tags and on auto_increment, pk, primary_key and readonly in lower case only (C114_other_options_never), so size, binary, encode and decode, with any value, and options in any other case make no difference (C114_documented_never, C114_case_never). The effect of the four is C37. The parser does not set the size of columns (compiler.go:110): it is 0 everywhere, and the theorems about columns hold for all sizes.
* **C115** (partial) Values that write themselves as bytes are read back.  Model: Binary; spec Fixed (columns of text and bytes, what they keep, what drivers hand over).  By cases on what the column keeps and the driver hands over; the methods of the type are parameters, of which only that reading is the inverse of writing is assumed.  Proved for columns of bytes (C115_blob), exactly what may be read. From columns of text: exactly when the driver hands over bytes and not a string (C115_text_partial), if spaces at the end are kept (C115_spaces). False of values whose bytes are a nil slice: they become NULL, which is refused (C115_nil_never). Missing: variables that UnmarshalBinary changed before it failed.
* **C116** (partial) The tables of all models are made in one schema.  Model: MigrateText; spec Schema (statements one after the other), Ddl (createIn).  The first statement of each script is known from C106; then induction on the list of models, for any schema, with the names that are left behind as the state. Names of keys differ if their columns do: commas separate, hexadecimal digits are read back; MD5 is a parameter.  False as stated: the name of a key is made of the names of its columns only, and PostgreSQL gives its index that name in the schema. Two models whose keys have the same columns, as all with a single column id, never get both of their tables, whatever the schema (C116_same_key_never). Proved exactly when the statements that make the tables are all accepted: the keys are of different columns and none has the name of one that is there (C116_made_iff_partial), for scripts that are read (C106), names of columns without commas, tables not named as keys are, and no two keys with the same MD5 sum. Missing: the statements after CREATE TABLE in the scripts (C72, C106), and sequences, whose names PostgreSQL chooses freely.
* **C12** (proved) Placeholders and arguments of a where clause correspond one to one, in order.  Model: Stmt; spec Where, Bind, Text.  Structural induction on conditions; `bind` puts arguments in the place of placeholders.  C12_condition_total has no hypothesis on the condition (an empty value list with anonymous placeholders panics, see C18); for the character level: column names free of the placeholder character.
* **C13** (proved) Nested And/Or keep their logical grouping in the SQL text.  Model: Stmt; spec Where.  Lexer, precedence parser and three-valued evaluation, compared with the tree.  Also refuted for groups with an empty And/Or member (text is rejected).
* **C14** (proved) Values never reach the SQL text.  Model: Stmt.  Two conditions of the same shape have the same text.
* **C15** (proved) A statement taken from the pool carries nothing over from earlier use.  Model: Pool; spec Pool.  Refinement of an abstract machine without a pool, for all histories and all schedules of `sync.Pool`; slices share backing arrays in the model.
* **C16** (proved) Debug formatting shows each argument in its own placeholder's place.  Model: Query, Stmt; spec Text.  Induction over symbols.
* **C17** (proved) Select, update and delete statements place clauses and arguments in SQL order.  Model: Query, Stmt; spec Query.  The text is the one of a declarative specification.
* **C18** (partial) IN over a list never panics and binds every element.  Model: Stmt.  Closed form; panic proved wherever the empty list stands.  Proved for non-empty lists; refuted for the empty list: panic with anonymous placeholders, rejected text with numbered ones.
* **C19** (proved) Row placeholders of a multi-row insert are disjoint and contiguous.  Model: Helpers.  Closed form of the numbers of a row.
* **C20** (proved) The generated single-row INSERT binds every column to its own field.  Model: Gen; spec Gen.  Loops over columns against the specified statement, for every record.
* **C21** (partial) The generated find-by-key statement matches on exactly the key.  Model: Gen; spec Gen.  As C20; deviation proved for every table with a wrapped single key.  Proved except that a single key whose column has an SQL wrapper is compared without the wrapper; that deviation is proved for every such table.
* **C22** (partial) The generated update-by-key statement updates exactly the non-key writable columns of the identified row.  Model: Gen; spec Gen.  As C20; rejection proved for every table with the wrong number.  Proved when the WHERE placeholder number is right; with numbered placeholders and a single key, tables with readonly or extra key columns get a statement the database rejects, proved for every such table.
* **C23** (proved) Scan destinations never dereference a nil embedded pointer.  Model: Addrs.  Invariant over the list of pointers to allocate; memory as a function from paths.
* **C24** (proved) Reported key positions index the reported columns.  Model: Gen.  Positions against the column list, under the well-formedness that C34 proves of parsed tables.  Composite names are reported unquoted even when identifiers are quoted elsewhere; the boundary is proved.
* **C25** (proved) Columns, values and scan destinations agree position by position.  Model: Gen.  Alignment by induction on columns.
* **C26** (partial) Batch insert binds each row's values to the listed columns.  Model: Helpers; spec Helpers.  Rows by induction; refutations for every generated model of the kind.  Proved for models with one value per column (hand-written, or generated without readonly and auto-increment columns); refuted for every generated model with an auto-increment key or a readonly column.
* **C27** (partial) PostgreSQL upsert never updates keys, omitted or conflict columns and keeps arguments aligned.  Model: Helpers; spec Helpers.  As C26.  Proved for models with one value per column unless conflict columns are given by the caller; refuted for those (they are overwritten), for an empty update list (malformed) and for generated auto-increment models.
* **C28** (partial) MySQL upsert never updates keys or omitted columns and keeps arguments aligned.  Model: Helpers; spec Helpers.  As C26.  Proved for single upsert with single keys and batches without auto-increment; refuted for composite keys in the single upsert (always panics), every auto-increment batch and generated models with fewer values than columns.
* **C29** (partial) Update-by-key helper on hand-written models binds every parameter.  Model: Helpers; spec Helpers.  As C26.  Refuted for all keys except a one-column composite key with numbered placeholders, for which it is proved.
* **C30** (proved) Find, lock and delete by key compare exactly the key.  Model: Helpers; spec Helpers.  Statement equals the specified one.
* **C31** (partial) Keyset pagination visits every row exactly once and stops.  Model: Pager; spec Pager.  Strong induction on the rows that remain; the database is any function that serves the two kinds of queries.  Proved for unfiltered, key-ordered iteration from a record in the table with page sizes below 65535 (all tables, single and composite keys, both directions). False for page size 65535 (row count wraps to LIMIT 0: one empty page) and for a start record not in the table (error); filters and order columns produce malformed queries (C32).
* **C32** (partial) Pagination queries are well-formed SQL.  Model: Pager; spec Where.  Exact condition.  False in general; the theorem characterises exactly when the query has a well-formed condition: no order columns, and a filter or a cursor but not both.
* **C33** (proved) Single insert fallback binds each listed column.  Model: Helpers; spec Helpers.  Statement equals the specified one.
* **C34** (proved) Parsed columns have unique names and consecutive positions.  Model: Parser; spec Parser.  Invariant of the loop over collected fields; rejection characterised exactly.  C34_rejected_iff characterises rejection completely; C34_parsed_tables_wf discharges the well-formedness assumption of the theorems on generated statements.
* **C35** (partial) Exactly the exported, non-excluded fields become columns.  Model: Parser; spec Parser.  The queue of structs yields exactly the fields in reading order up to sorting.  Proved for structs that embed only struct declarations. False otherwise: an embedded type not declared as a struct is silently left out.
* **C36** (partial) Columns follow the declaration order of the struct, embedded structs expanded in place.  Model: Parser; spec Parser.  The sort is any function meeting `IsSort`; shared backing arrays of field indexes are modelled.  Proved up to two levels of embedding with one name per declaration (except in the last one of a struct). False for every struct with three or more names in a declaration followed by another one, and at three levels of embedding (shared backing arrays).
* **C37** (proved) Key options are validated.  Model: Parser; spec Parser.  Invariant of the loop.
* **C38** (partial) Struct annotations are honoured.  Model: Parser, Emit; spec Parser.  Case analysis on annotations.  Proved for structs embedding no struct. False for every struct embedding a struct: its comment has no effect.
* **C39** (proved) Tag options are recognised regardless of order, spacing and arguments.  Model: Parser; spec Parser.  Options as a set of words.
* **C40** (proved) Snake-case naming yields stable lower-case names.  Model: Naming; spec Naming.  Invariants of the byte loops.  Idempotence holds for all byte strings. C40_collisions records that different Go names may share a column name (the parser then rejects the struct, C34).
* **C41** (partial) Camel/Pascal naming keeps exactly the letters and digits.  Model: Naming; spec Naming.  As C40.  First-letter case proved for texts starting with an ASCII letter; false for texts starting with '_' (camelCase starts with a capital) or with a byte that is no letter or separator (PascalCase starts small).
* **C42** (partial) Integer fields survive being written and read back.  Model: Scan, ColumnType; spec Scan.  Integer arithmetic of width w.  Proved for everything written as a 64-bit signed integer or sent as text bytes. C42_uint64_never_read: uint64 fields of MySQL and SQLite are written as uint64, which the scanners reject if a driver hands it back.
* **C43** (partial) Scanning a number that does not fit is an error, not a different number.  Model: Scan; spec Scan.  Exact condition for text; every number out of range refuted.  Holds for text; false for numbers: every number out of range is stored as another number.
* **C44** (proved) Boolean scanning.  Model: Scan; spec Scan.  Case analysis on driver values.  Exact characterisation in both modes, for value and pointer fields.
* **C45** (partial) Catalogue booleans are decoded with the right polarity.  Model: SqlBool.  Case analysis.  Holds for text; for numbers the polarity is inverted.
* **C46** (partial) Fixed-size byte arrays hold exactly the scanned value.  Model: Scan.  Closed form of `copy`.  Shorter values leave the end of the old value in place.
* **C47** (partial) Fixed-size rune arrays decode text the same way from strings and bytes.  Model: Scan.  UTF-8 encoding and decoding proved inverse.  Bytes are decoded; strings only if ASCII; NULL does not clear the field.
* **C48** (proved) NULL handling of scanners.  Model: Scan.  Independence of the previous content.  C48_scalars is the property for the scalar scanners; the others are about types that read themselves.
* **C49** (proved) String scanning.  Model: Scan.  Case analysis on driver values.
* **C50** (proved) List marshalling renders an unambiguous JSON-style list.  Model: Marshal, Array.  The text is read back by the scanner of C01-C03.  Beyond the property: lists of ASCII strings are JSON exactly if they contain no control characters other than those JSON can abbreviate the same way.
* **C51** (partial) Import aliases are unique and stable.  Model: Import.  Invariant over all histories, pigeonhole for the end of the search.  Proved for packages that can be loaded. False otherwise: a package that cannot be loaded is given the name asked for, even if another has it, and is not imported. The import line names the package exactly if the alias is written or the last part of the path is the package name.
* **C52** (partial) Configuration merging.  Model: Config.  Field by field, no bound on the maps.  Proved for the settings that are merged. False for read_only, omit_getters and source_map (ignored), quote_identifier (always overwritten) and the settings of the database (giving one resets the others).
* **C53** (partial) Source selection by folder or file.  Model: Source; spec Source.  Regular expressions by derivatives, proved equal to their languages; paths as lists of names.  Exact for folders and files whose path has no dot parts. False for paths with `..` (nothing is selected), for `../x` and `.hidden` (resolved wrongly), for a `+` in a path, for directories with capital letters below `**` and for patterns with one star below directories with one-letter names.
* **C54** (partial) String builders are returned to the pool at most once per acquisition by the generator.  Model: GenPool.  Traces of the builder pool; corruption shown under a possible schedule.  Proved for column list, find and insert builders; refuted for the update builder, with the corruption of later statements that follows.
* **C55** (partial) Quoted identifiers denote the original name.  Model: Quote; spec Quote.  Readers of quoted identifiers; exact condition.  Exact characterisation per dialect; holds for all names from tags and all names made by snake_case. False for camelCase and PascalCase: Go names without ASCII letters or digits become the empty name. strconv.IsPrint is assumed to hold for letters, digits and the underscore.
* **C56** (partial) Migration diff accounts for every column.  Model: Migrate; spec Migrate.  Difference of column lists by membership.  PostgreSQL: exact whenever a column is to be added or altered; a difference of dropped columns alone is never reported. MySQL: every existing column is dropped and nothing is added or altered.
* **C57** (partial) Slices stored in a MySQL JSON column can be read back.  Model: Array; spec Json.  MySQL normalises JSON with blanks after commas; universal refutation.  Refuted for two or more elements (universal negative); proved for at most one.
* **C58** (proved) Float slices round-trip given that number printing does.  Model: Array.  Printing and parsing of one number are hypotheses.  For any printing and parsing that are inverse to each other; that those of floating point numbers are, is proved in C94_list.
* **C59** (partial) A query result is complete or an error is reported.  Model: Query.  Outcomes of the row iterator; refutation for every failing iteration.  Refuted: an iteration error is never reported. Proved part: every returned list is exactly the delivered rows.
* **C60** (partial) Offset is accepted by the database whenever it is set.  Model: Query.  Exact text.  Refuted for mysql and sqlite without limit; proved with a limit.
* **C61** (partial) Parsing a package ends.  Model: Parser.  Fuel: ends iff embedding is well-founded.  Ends exactly when embedding is well-founded; on valid Go structs embedding a pointer to themselves the parser never ends.
* **C62** (partial) Column accessors can be called on any value of the struct.  Model: Addrs, Emit.  Exact condition.  Holds exactly for columns not inside an embedded pointer; otherwise the accessor panics on the zero value.
* **C63** (partial) An embedded struct excluded by its tag contributes no columns.  Model: Parser.  Refutation for every such struct.  False: every column of an embedded struct tagged '-' is kept.
* **C64** (partial) The table name is the declared one or follows from the struct name.  Model: Parser.  Loop over marker fields.  Proved for structs with at most one marker, which has a name in its tag. False with a marker without a name.
* **C65** (partial) Column names given in tags are plain identifiers.  Model: Parser.  The class of characters of the regular expression.  Proved up to the two non-ASCII letters that case-insensitive matching adds.
* **C66** (partial) Generated methods do not collide.  Model: Emit, Parser.  Exact condition for distinct names.  Exact condition for the default prefix; false when two columns come from fields of one name, and for fields named like a generated method.
* **C67** (partial) A scanned field keeps its value.  Model: Alias.  Heap with the buffer of the driver.  Strings are copied; []byte fields keep the buffer of the driver.
* **C68** (partial) Columns are wide enough for their fields.  Model: ColumnType.  Ranges of SQL integer types.  Exact set of types whose columns are wide enough.
* **C69** (partial) Types that read text get the text of the database value.  Model: Scan.  Case analysis on driver values.  False for truth values: the method receives a byte 0 or 1.
* **C70** (partial) A rune field is read back.  Model: Scan, ColumnType.  Refutation for every rune.  False for every rune: the text is parsed as a number.
* **C71** (partial) Fixed-size arrays of runes and bytes are read back.  Model: Scan, ColumnType.  Uses C46 and C47.  Proved for bytes, and for characters if the driver sends bytes; false for strings with characters outside ASCII and for runes that are no characters.
* **C72** (partial) Applying a migration yields the model's table.  Model: Migrate; spec Migrate.  A server executes the statements.  Proved for existing PostgreSQL tables whose common columns have the right nullability, and for new MySQL tables. False otherwise: nullability is never changed, new PostgreSQL tables fail, existing MySQL tables lose every column.
* **C73** (partial) Rolling a migration back restores the table.  Model: Migrate; spec Migrate.  As C72.  Proved when no column is dropped; a dropped column is added without a type, which the database rejects.
* **C74** (partial) A migration that was applied leaves nothing to do.  Model: Migrate; spec Migrate.  The spelling of types in the catalogue is a parameter.  Holds exactly for types the catalogue spells as the model does.
* **C75** (partial) String literals in the generated file denote the text.  Model: Quote; spec Quote.  Reader of Go literals; exact condition.  Exact characterisation; false for every text with a character outside of ASCII (only the first byte of each character is written).
* **C76** (partial) Generated code is complete after a run.  Model: Run, Source.  Induction over sources and directories; the last source that reads a directory decides.  Exact characterisation: the last source that reads a directory decides. False for two sources in one directory (code for what only the first selects is lost) and for runs that fail (the generated file is gone).
* **C77** (partial) Every exported struct of a selected file has generated code.  Model: Discover.  Exact condition by induction over the specifications of a declaration.  Exact characterisation. False for grouped declarations with a plain type before a struct (the struct is lost) and for types declared in functions (they are found).
* **C78** (partial) Types and expressions are written with the names of their packages.  Model: Expr; spec Expr.  The leftmost match of the regular expression by hand; exact where it applies.  Proved for one package whose path elements start with letters. False for a second package in a type, for path elements that start with a digit, and for field paths that have the package path in them as a text.
* **C79** (partial) A field is read in the encoding in which it is written.  Model: Dispatch.  The search with its table is compared with a spelling of the type; induction on the steps.  Proved for types without pointers at the top and without methods or configuration, and for pointers to predeclared types, slices and structs. False for pointers to defined types that are no structs (read as JSON), pointers to byte and rune arrays, types with Value but no Scan, and pointer types in the configuration.
* **C80** (partial) The expressions generated for fields are well-typed.  Model: Dispatch.  A small type system of the conversions that are written.  Exact for slices (only slices that are written out) and arrays (only non-empty ones that are written out). False for defined and aliased slice and array types and for pointers to them.
* **C81** (partial) Choosing the column type of a field ends.  Model: Dispatch.  Rank of defined types; for the refutation, no number of steps is enough.  Proved for all declarations that are not recursive, and for slices of themselves. False for types that are slices of each other: the search never ends.
* **C82** (partial) After an insert or upsert every record holds its own row.  Model: Answers; spec Answers.  A table that inserts record by record; the loop over the rows in closed form.  Proved for Insert and for Upsert with updates when all rows are delivered. False for DO NOTHING: the rows of later records are read into records that were passed over, and UpsertOne reports an error. False for answers that break off: success is reported. RETURNING is taken to give rows in the order of the records.
* **C83** (partial) The key generated by the database is stored in the record.  Model: AutoIncr; spec AutoIncr.  Go's selector rule and conversions; numerals.  Exact for InsertOne and integer keys. False for numbers the type does not have (wrapped), string keys, keys shadowed by a field of the same name, records that INSERT IGNORE passes over (the key becomes 0), and batches (keys are never set). Floating point keys are not modelled.
* **C84** (partial) Debug output shows arguments as literals that denote them.  Model: Debug; spec Debug, Quote, PgLexer, Bytea, Numeral.  Readers of the literals; exact conditions by induction on texts, and by uniqueness of decimals.  Proved for null, truth values, integers and PostgreSQL texts; exact conditions for MySQL and SQLite texts, PostgreSQL byte strings, and floating point numbers. False for times, for pointers and composite types (panic). Texts are valid UTF-8, numbers finite.
* **C85** (partial) A field in a JSON column holds exactly the value that was stored.  Model: JsonField; spec JsonField.  Types as data, values indexed by types; mutual induction on types and fields.  Exact condition. Proved for new records whose fields are all written, and for used records without maps. False for maps in used records (entries stay), for fields that are not written or left out, pointers to nil, strings that are not UTF-8, and JSON null. Types are not recursive; encoding/json is specified on JSON values; that its text is read as the value it was written for is an assumption here, and proved in C87.
* **C86** (partial) A struct has its own methods after generation, or an error is reported.  Model: Methods; spec Methods.  Go's selector rule by depth; the search equals the rule by induction on depth; induction on the list of methods.  Exact condition for one method; proved for structs where nothing they have or embed carries the names. False for structs that embed a model: its methods are promoted, nothing is written and no error is reported, in strict mode too. False for methods of another signature or receiver unless the mode is strict. A field with the name of a method is C66.
* **C87** (partial) The text in a JSON column is JSON and means the stored value, and any JSON text for it is read.  Model: JsonText; spec JsonText, Json.  A relation between texts and JSON values after RFC 8259; the reader follows it by induction on the relation, and conversely by induction on fuel; the writer by mutual induction on values.  The text of JSON is modelled, so that C85 holds without an assumption about it, for types whose values are nested at most 10000 deep. False for deeper values: they are written and cannot be read. Whether a value comes back is decided by the conditions of C85. Text after the first value is ignored. Strings that are not UTF-8 and halves of surrogate pairs have no meaning in the spec.
* **C88** (partial) A time in a text column is read as the time that was written.  Model: Time, Scan; spec Time.  Each part of the parser is equivalent to a form of text; the formula for day numbers equals counting days by arithmetic; every day has a date by induction on years and months.  Exactly which texts are read and as which instants; the calendar is counted day by day. False for texts of drivers: without a zone the text is taken as UTC, so times from a driver set to another zone are off by its distance, and a text with a space and a zone, which the SQLite driver writes for a time, is never read; nor is a day that is not in the calendar, such as 0000-00-00. time.Parse of Go 1.24 is modelled for the four layouts in use; the zone attached to a time is not.
* **C89** (partial) The statements generated for a model mean its table and its columns.  Model: Gen, Helpers; spec Sql (lexer, grammar), Store.  The statements are parsed symbol by symbol: lemmas on the lexer and each production, composed with what C20-C22 and C30 say about the text and the places of arguments.  The generated statements quote names and are read as intended for all names without the quote character. The DELETE of the helpers has names without quotes unless configured otherwise: C89_delete_iff says exactly when it means the same table; false for reserved words (C89_reserved_never: refused) and for names with capital letters in PostgreSQL (C89_other_table: another table). UPDATE only as far as C22 goes; columns without SQL templates.
* **C90** (partial) InsertOne, FindByPK, UpdateByPK and DeleteByPK are a store of records by key.  Model: Store, Gen, Helpers; spec Sql (execution), Store, Keyed.  Simulation: the rows of the table are the records of a map, each under its key; every call keeps this and gives the result of the map; induction on the sequence of calls.  By simulation between the database running the generated statements and a map, for sequences of any length. Assumes columns that are written back unchanged by their codings, no read-only columns and no SQL templates, names as in C89, and that made-up keys are new. Refuted for tables named by a reserved word, or with capital letters in PostgreSQL.
* **C91** (partial) Batch inserts and upserts store what they are given, under its key.  Model: Bulk, Store, Helpers, Gen; spec Bulk (multi-row INSERT with ON CONFLICT, ON DUPLICATE KEY, INSERT IGNORE), Sql, Store.  The text of C26-C28 is parsed and executed; the execution is simulated by storing the records one after the other in a map, whose effect is then given in closed form; refusals by running the parser on the token that does not fit.  By parsing and executing the statements of the helpers on a database. Proved for Insert, Upsert and UpsertOne in PostgreSQL and MySQL, all records and contents. Refuted: with do-nothing in PostgreSQL the first record in memory is overwritten with another one (C91_keep_overwrites); no upsert works in SQLite (C91_sqlite_upsert_never), with nothing to replace (C91_nothing_to_replace), or one at a time with composite keys outside PostgreSQL (C91_composite_one_never); no batch insert works with a reserved word as column name unless quoting is configured (C91_reserved_never). Assumptions as in C90; keys given by the program; composite keys only without configured quoting; conflict columns given by the caller are left out.
* **C92** (partial) Queries, updates and deletes with conditions apply to exactly the records that satisfy them.  Model: Cond, Query, Stmt, Gen, Store; spec Cond (grammar of SELECT, UPDATE and DELETE with WHERE, ORDER BY, LIMIT and OFFSET, three-valued evaluation, meaning of conditions on records), Wide.  The text of C17 is lexed and parsed by induction on the condition; its evaluation on a row equals the meaning of the condition on the record; the rows chosen then correspond one by one to the records found. Refusals by running the parser on the token that does not fit, by induction on the condition.  By parsing and executing the statements on a database with three-valued logic. Proved for all nested conditions without empty groups and lists, all columns or none selected; conditions mean what they say wherever nothing compared is nil (C92_plain, C92_found_plain). Refuted: comparisons with nil find nothing, not even inequality (C92_nil, C92_not_in_nil, C92_nil_record); an empty group or list anywhere makes every statement fail or panic (C92_hollow); orders and limits in updates and deletes fail outside MySQL (C92_not_allowed), offsets without limit outside PostgreSQL (C92_offset_alone), updates that set nothing (C92_no_set); selecting fewer columns fails and selecting them in another order fills the wrong fields (C92_select_count, C92_select_order); reserved words as column names without quoting (C92_reserved). Left out: GroupBy, FromTable, raw text in Select, hand-written WhereClause functions, new values for key columns.
* **C93** (partial) Pagination visits the records in the order asked for, from the given one on, also while others change the table.  Model: Page, Pager, Cond, Gen, Store; spec Page (grammar of the queries with row comparisons and orders, Tour).  The queries of Pager are lexed, parsed and executed as in C92; the rows are the sorted list of the records from the cursor on; by induction on the rounds, with one store per statement, the pages make up a Tour. With order columns, by counting parentheses outside of quotes: every accepted text is balanced, the query is not. The panic from the positions of columns and values.  By parsing and executing the statements on a database that others change between any two of them. Proved for listings from a given record on without filter and order columns: C93_pages_partial (under all changes by others), C93_static_partial (without changes: exactly the stored records from the given one on), C93_missing, C93_stop. Refuted, each for all inputs of its kind: with a filter every listing of more than one page ends in an error after the first page (C93_filter), and in an error at once with a start record (C93_filter_cursor); without filter and start record there is an error (C93_nothing); with order columns no page is ever delivered, and if the database makes up the key, ordering by the last column panics (C93_order); keys of several columns fail outside PostgreSQL (C93_composite); pages of 65535 are empty (C93_limit_65535). Models may have read-only columns; C93_order has the exact range of columns that panic. Left out: conditions with empty groups or lists.
* **C94** (partial) Floating point fields and lists hold the numbers that were stored.  Model: Float, Scan, Array, Marshal; spec Float (IEEE 754 formats, nearest numbers, decimal texts, formats of columns).  A value is its sign and its ordinal, the bits without the sign. The numbers are strictly monotone in the ordinals, and the nearest one is unique and monotone. Rounding is shown to give the nearest, printing by search from above for a decimal that rounds to the number, so reading it gives the number. Every midpoint of float32 numbers is a float64 number, so rounding twice is rounding once. For JSON by induction on the grammar: without quotes there is no I and no N.  Proved: round trips of fields (C94_number) and lists (C94_list), reading of texts as an if and only if (C94_text, C94_text_unique), also of texts printed for the wider type (C94_wide_text). Refuted: MySQL columns for float64 are FLOAT and hold exactly the float32 numbers (C94_column_mysql_iff); numbers of 2^128 or more become infinity in float32 fields without an error (C94_narrow_infinite; exactly C94_narrow_iff_partial, for whole numbers C94_int_iff_partial); lists are JSON if and only if all values are finite (C94_list_json_iff_partial); lists of two or more cannot be read from a JSON column of MySQL (C94_list_mysql); without a precision numbers are rounded to whole ones (C94_marshal_iff_partial, C94_marshal_zeros). Left open: texts with underscores or the letter x, longer texts, and how databases print numbers.
* **C95** (partial) A run uses the configuration that was given.  Model: Command, Config; spec Command (which file counts, which settings follow).  Unfolding; merging a configuration with itself fills in what is empty and nothing else.  Proved for runs without -c, for init, and with -c in a directory without configuration file. Refuted: with -c, what the file of the directory turns on stays on, and its data types and migrations are used too (C95_flag_mixed); read_only, omit_getters and source_map of the given file are never used (C95_flag_lost); if the file of the directory cannot be read, every run panics, also with -c and when init is to replace it (C95_broken). YAML is left open; for C95_init it is assumed that what is written is read back.
* **C96** (partial) Records of Go types in the tables declared for them.  Model: Typed, on Store, Dispatch, ColumnType, Scan, Float; spec Cell (columns, what they keep, what drivers hand over), Typed (which values fit, comparison in Go).  Per type, what is written and kept and what any scanner makes of any form it is handed; this gives the assumptions of C90, C91, C92, C93 and C97 on fields, which are then applied.  Proved for all values that fit the columns which the dialect declares, for records and conditions; keys are not pointers, and the restrictions of C90, C91, C92, C93 and C97 apply; batches and upserts (as in C91), read-only columns (as in C97) and pages while the table changes (as in C93) included. Refuted: unsigned numbers of 2^63 or more are stored as negative ones by PostgreSQL (uint64) and SQLite (uint), are not read back from texts and are found in the wrong place (C96_large_unsigned); on MySQL float64 fields keep single precision only (C96_mysql_float64). Assumed of databases and drivers: spec Cell (what a column keeps of a parameter that fits, and in which forms a driver hands it over), and comparison of numbers by size and of texts by bytes, that is, with a binary collation. Left out: NaN, infinities, negative zero, runes, bytes, times, pointers to defined types (C79), arrays and JSON.
* **C97** (partial) Columns that the database fills in.  Model: Upkeep, on Store; spec Upkeep (Keeper: guarded columns and what is stored in place of a row; Care: the same for records; act, Acts).  Simulation as in C90: the rows represent the records of the map, the row of an insert has NULL in read-only columns before the database fills them in, the assignments of an update leave them alone. That the key has a wrong number from the counts of columns (C22).  Proved for every database that fills in read-only columns as a function of the time, the row before and the new row, and may forbid writing them: C97_upkeep_partial (all sequences of operations, keys given or made up), C97_never_overwritten_partial (a column set on insert, such as the time, keeps its value). Missing there: updates of models with one key where parameters are numbered. Refuted: for these UpdateByPK fails, whatever the database and the record (C97_update_never, from C22); after InsertOne in MySQL and SQLite the record does not have what the database filled in (C97_insert_stale, C97_insert_then_find); after UpdateByPK it never has. Left out: templates, multi-row inserts.
* **C98** (partial) Programs of several clients on several models.  Model: Program, on Store, Bulk and Cond; spec Program (Does: what a call is to do to a map of records; Runs: clients in turn on maps).  Each call simulates Does on the map of its model (call_does, from C90, C91 and C92) and leaves the other tables; induction over the schedule. Undisturbed records and winners by induction over Runs, from what Does leaves of one key.  Proved for all clients and orders of calls (C98_serial_partial), with what follows for a record that nobody else writes and for inserts under one key. What is asked of calls is asked only of those that clients come to make. Each call sends one statement, which the database runs as a whole. The helpers take a *sql.DB, so no call is part of a transaction of the program. Missing: Paginate (C93), upserts on SQLite; connections that fail are in C103, and the restrictions of C90 to C92 (every column written; batches with keys that the program gives). Nothing is said of the records in memory after an upsert on PostgreSQL that keeps rows (C91_keep_overwrites). Refuted, beyond the property: two clients that find a record, set different fields and update it lose the change of the first, for every model and record, since UpdateByPK writes all columns (C98_lost_update).
* **C99** (partial) Records with lists, byte strings and times.  Model: Rich, on Typed, Array, Scan, Time, Store, Bulk, Cond, Page, Upkeep, Program; spec Rich (columns for lists, byte strings and times; texts of arrays in PostgreSQL; which values fit).  One field: what is written is kept, whatever the database makes of it, and what the driver hands over is read as it was (list_back from the grammar of array texts and C03, C09, C94; scalars from C96 through the part of the database with such fields; times from C88). From this the setup of C90 and the agreement of comparisons of C92, and from these C90 to C93, C97 and C98 for such records.  Proved for every database and driver that does what is documented (Spec.Rich.Behaves), for all values that fit; C99_stores_iff says which these are, by dialect and type. Missing: pointers to lists, lists of lists, arrays with a given size, types with methods of their own, times as keys of tables on MySQL without parseTime; comparisons of lists and LIKE are those of the database, whatever they are; and the restrictions of C90 to C93, C97 and C98. Refuted where values do not fit: on PostgreSQL []byte and lists of floating point numbers get column types that do not exist (C99_postgres_no_column), and lists of int, uint and uint32 get arrays of 32 bits, which keep exactly the lists whose elements fit (C99_postgres_large_elements); on MySQL, whose JSON columns print a space after each comma, no list of two or more numbers is read back and lists of truth values are no JSON (C99_mysql_numbers), and lists of two or more texts are read without an error as other texts (C99_mysql_texts); times in text columns, as on SQLite, are never read into time.Time (C99_text_times).

## Tests of the theorems

`seeded/LOG.jsonl` has one line per deliberate change to the model, made in a scratch copy: the definition and the edit, the
claim it breaks, the declarations that stopped checking, the manifest theorems that depend on them, and the theorems that were tightened or
added because a change went unnoticed.  Changes marked as repairs fix a finding; the theorem that states the finding must then fail.
