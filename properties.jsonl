{"id": "C01", "title": "String arrays survive a Value/Scan round trip", "statement": "For every non-nil list of strings (any bytes at all, including quotes, backslashes, commas, brackets, empty strings, the word NULL and NUL bytes), reading back with Scan the text produced by Value gives exactly the same list, for the bracket format used by sqltype.StringSlice and for the brace format used by pgtype.StringArray, whatever the destination held before.", "quantifier": "all lists of all byte strings, all previous destination contents, both formats", "why_tests_cant": "The escaping interacts with delimiters, brackets and NULL in unboundedly many positions; tests sample a few strings.", "anchors": ["sequel/sqltype/string_slice.go: StringSlice.Value, StringSlice.Scan, parseArray, appendArrayQuotedBytes", "sequel/driver/postgres/pgtype/string_array.go: StringArray.Value, StringArray.Scan", "sequel/driver/postgres/pgtype/array.go: parseArray, appendArrayQuotedBytes"]}
{"id": "C02", "title": "Bool arrays survive a Value/Scan round trip", "statement": "For every non-nil list of booleans of any length, Scan of the text produced by Value gives the same list, in both formats, and Value never indexes outside the buffer it sizes in advance.", "quantifier": "all boolean lists, all previous destination contents, both formats", "why_tests_cant": "The encoder writes by computed offsets into a pre-sized buffer; off-by-one mistakes depend on the length, which tests only sample.", "anchors": ["sequel/sqltype/bool_slice.go: BoolSlice.Value, scanBytes", "sequel/driver/postgres/pgtype/bool_array.go: BoolArray.Value, scanBytes"]}
{"id": "C03", "title": "Signed integer arrays survive a Value/Scan round trip at every width", "statement": "For every width 8, 16, 32, 64 and every list of values of that signed type, Scan(Value(list)) yields the same list, in both formats.", "quantifier": "all signed integers of every width, all list lengths", "why_tests_cant": "2^64 values per element times unbounded lengths; boundary values such as the minimum interact with sign handling.", "anchors": ["sequel/sqltype/int_slice.go: intSliceValue, arrayScan, scanBytes", "sequel/driver/postgres/pgtype/array.go: intArrayValue, arrayScan", "sequel/driver/postgres/pgtype/int_array.go: scanBytes"]}
{"id": "C04", "title": "Unsigned integer arrays survive a Value/Scan round trip at every width", "statement": "For every width 8, 16, 32, 64 and every list of values of that unsigned type, Scan(Value(list)) yields the same list, in both formats.", "quantifier": "all unsigned integers of every width, all list lengths", "why_tests_cant": "Only the top half of the 64-bit range distinguishes a correct decoder from one that parses signed numbers.", "anchors": ["sequel/sqltype/uint_slice.go: uintSliceValue, scanUBytes", "sequel/driver/postgres/pgtype/uint_array.go: Uint64Array.Scan", "sequel/driver/postgres/pgtype/array.go: uintArrayValue"]}
{"id": "C05", "title": "The array scanner accepts exactly the one-dimensional array grammar and never panics", "statement": "For every byte string whatsoever, scanning it as a string array either succeeds with list L, exactly when the input is an open bracket, a comma separated list of quoted or bare elements denoting L, and a close bracket (or a nest of empty brackets denoting the empty list), or returns an error; it never panics (no index out of range, no division by zero).", "quantifier": "all byte strings, both formats", "why_tests_cant": "Malformed, truncated and deeply nested inputs form an infinite set; fuzzing cannot exclude a panic or a wrong acceptance.", "anchors": ["sequel/sqltype/string_slice.go: parseArray, scanLinearArray", "sequel/driver/postgres/pgtype/array.go: parseArray, scanLinearArray"]}
{"id": "C06", "title": "A failed array Scan leaves the destination as it was", "statement": "Whenever Scan of any array type returns an error, the destination slice is unchanged; scanning nil sets it to nil; scanning a value that is neither text, bytes nor nil returns an error.", "quantifier": "all inputs, all destination contents, all array element types", "why_tests_cant": "The error may come from any element position of an unboundedly long input.", "anchors": ["sequel/sqltype/*.go: Scan/scanBytes", "sequel/driver/postgres/pgtype/*.go: Scan/scanBytes"]}
{"id": "C07", "title": "Accepted integer array elements keep their numeric value", "statement": "Whenever Scan of an integer array succeeds, each stored element equals the decimal number written in the text; a number that does not fit the element type is reported as an error, not wrapped.", "quantifier": "all texts, all element widths and signedness, both formats", "why_tests_cant": "Requires looking at every out-of-range text for every width.", "anchors": ["sequel/sqltype/int_slice.go: scanBytes", "sequel/sqltype/uint_slice.go: scanUBytes", "sequel/driver/postgres/pgtype/int_array.go: scanBytes"]}
{"id": "C08", "title": "Bytea arrays survive a Value/Scan round trip", "statement": "For every non-nil list of byte strings, Scan(Value(list)) yields the same byte strings in order, and Value fills its pre-sized buffer exactly.", "quantifier": "all lists of all byte strings", "why_tests_cant": "The encoder relies on a precomputed size and in-place overwriting of first and last bytes; correctness depends on every length combination.", "anchors": ["sequel/driver/postgres/pgtype/byte_array.go: ByteaArray.Value, scanBytes, parseBytea"]}
{"id": "C09", "title": "Both bytea text formats are decoded correctly", "statement": "For every byte string, decoding its PostgreSQL escape-format rendering, or its hex-format rendering in either letter case, returns the original bytes; for every input at all, decoding returns a value or an error and does not panic.", "quantifier": "all byte strings; all inputs", "why_tests_cant": "Backslash and octal sequences can fall at any offset including the end of input.", "anchors": ["sequel/driver/postgres/pgtype/byte_array.go: parseBytea"]}
{"id": "C10", "title": "Slices bound to JSON columns are sent as valid JSON", "statement": "For the MySQL dialect, which declares slice columns as JSON, the text produced by Value for every slice is a valid JSON array text.", "quantifier": "all slices of booleans, integers and strings", "why_tests_cant": "Needs every string content (control characters) and every element type.", "anchors": ["cmd/sqlgen/codegen/dialect/mysql/column_type.go: ColumnDataTypes", "sequel/sqltype/*.go: Value"]}
{"id": "C11", "title": "PostgreSQL literal quoting cannot be broken out of", "statement": "For every byte string s and every continuation t that does not begin with a quote, a lexer for PostgreSQL escape-string literals reading Quote(s) followed by t consumes exactly Quote(s), decodes it to s, and leaves t.", "quantifier": "all byte strings and all following texts", "why_tests_cant": "Injection safety must hold for adversarial strings of any length.", "anchors": ["sequel/driver/postgres/pgutil/pgutil.go: Quote"]}
{"id": "C12", "title": "Placeholders and arguments of a where clause correspond one to one, in order", "statement": "For every condition built from the provided operators, nested to any depth, appended to any statement: the placeholders added to the text are numbered consecutively from the current position (or are one '?' per argument for dialects with anonymous placeholders), and the k-th added placeholder refers to the k-th added argument, which is the k-th value of the condition read left to right.", "quantifier": "all clause trees of any depth and width, all starting statements, both placeholder styles", "why_tests_cant": "Clause trees are unbounded and numbering is stateful.", "anchors": ["cmd/sqlgen/codegen/templates/operator.go.tpl: And, Or, Equal, In, Between, Set", "cmd/sqlgen/codegen/templates/db.go.tpl: SqlStmt.Var, SqlStmt.Vars"]}
{"id": "C13", "title": "Nested And/Or keep their logical grouping in the SQL text", "statement": "For every nesting of non-empty And/Or over atomic comparisons, reading the emitted text with standard SQL precedence (BETWEEN binding its own AND, AND above OR, parentheses) yields a boolean expression with the same truth value under every assignment.", "quantifier": "all clause trees with non-empty And/Or, all assignments of truth values to atoms", "why_tests_cant": "Precedence mistakes only show up for particular nestings.", "anchors": ["cmd/sqlgen/codegen/templates/operator.go.tpl: And, Or"]}
{"id": "C14", "title": "Values never reach the SQL text", "statement": "For any two conditions of the same shape and columns that differ only in the values compared against, the emitted SQL text is identical; values only appear in the argument list.", "quantifier": "all pairs of clause trees of equal shape, all values", "why_tests_cant": "Non-interference quantifies over pairs of executions with adversarial values.", "anchors": ["cmd/sqlgen/codegen/templates/operator.go.tpl", "cmd/sqlgen/codegen/templates/db.go.tpl: SqlStmt"]}
{"id": "C15", "title": "A statement taken from the pool carries nothing over from earlier use", "statement": "After any history of acquiring, writing, binding, resetting and releasing statements in which nobody releases a statement they do not hold, each newly acquired statement has empty text, no arguments and numbering starting at one, and no two holders share a statement.", "quantifier": "all histories of pool operations by any number of holders", "why_tests_cant": "Histories are unbounded and pool behaviour depends on interleaving.", "anchors": ["cmd/sqlgen/codegen/templates/db.go.tpl: AcquireStmt, ReleaseStmt, SqlStmt.Reset", "sequel/strpool/pool.go: AcquireString, ReleaseString"]}
{"id": "C16", "title": "Debug formatting shows each argument in its own placeholder's place", "statement": "For every statement produced by the builder whose fixed text contains no placeholder character, formatting it with %+v prints the text with the k-th placeholder replaced by the rendering of the k-th argument and nothing else changed.", "quantifier": "all statements and arguments, both placeholder styles, more than nine arguments included", "why_tests_cant": "Numbered placeholders are prefixes of one another from ten arguments on.", "anchors": ["cmd/sqlgen/codegen/templates/db.go.tpl: SqlStmt.Format, strf"]}
{"id": "C17", "title": "Select, update and delete statements place clauses and arguments in SQL order", "statement": "For every statement description, the text is SELECT/UPDATE/DELETE with the clauses present in the order required by SQL, each present exactly when requested, and the arguments are those of SET then WHERE, aligned with the placeholders.", "quantifier": "all combinations of optional parts, all clause trees", "why_tests_cant": "The option space is a product of unbounded lists.", "anchors": ["cmd/sqlgen/codegen/templates/db.go.tpl: QueryStmt, QueryOneStmt, ExecStmt"]}
{"id": "C18", "title": "IN over a list never panics and binds every element", "statement": "For every column and every list of values, the IN / NOT IN condition emits a parenthesised placeholder list with exactly one placeholder per value, and does not panic.", "quantifier": "all value lists including the empty one, both placeholder styles", "why_tests_cant": "The empty list and the numbering offset are length-dependent.", "anchors": ["cmd/sqlgen/codegen/templates/operator.go.tpl: In, NotIn", "cmd/sqlgen/codegen/templates/db.go.tpl: SqlStmt.Vars"]}
{"id": "C19", "title": "Row placeholders of a multi-row insert are disjoint and contiguous", "statement": "For every table with c insertable columns and every number of rows r, concatenating the generated placeholder groups for rows 0..r-1 numbers the parameters 1..r*c in order without gaps or repeats (or r groups of c '?').", "quantifier": "all column counts and row counts", "why_tests_cant": "Row arithmetic must hold for every r and c.", "anchors": ["cmd/sqlgen/codegen/generate.go: generateModels (InsertPlaceholders)"]}
{"id": "C20", "title": "The generated single-row INSERT binds every column to its own field", "statement": "For every table definition, the generated insert statement lists exactly the writable, non auto-increment columns, each once and in order; its k-th parameter is the value of the field behind the k-th listed column; and the returned row is read back column by column into the matching fields.", "quantifier": "all table definitions (any columns, keys, readonly flags, custom SQL wrappers), all dialects", "why_tests_cant": "Table definitions are unbounded; alignment errors only appear for particular mixes of readonly, key and auto-increment columns.", "anchors": ["cmd/sqlgen/codegen/generate.go: buildInsertOne, buildValuer", "cmd/sqlgen/internal/compiler/compiler.go: InsertColumns"]}
{"id": "C21", "title": "The generated find-by-key statement matches on exactly the key", "statement": "For every table with a key, the generated select lists all columns in the order the scan destinations are given, and its WHERE compares each key column to the parameter holding that key field's value.", "quantifier": "all table definitions with a key, all dialects", "why_tests_cant": "Depends on every combination of single, composite and auto-increment keys.", "anchors": ["cmd/sqlgen/codegen/generate.go: buildFindByPK, buildScanner"]}
{"id": "C22", "title": "The generated update-by-key statement updates exactly the non-key writable columns of the identified row", "statement": "For every table with a key, the generated update assigns each writable non-key column its own field's value, never assigns a key or readonly column, and its WHERE parameters refer to the key fields' values.", "quantifier": "all table definitions with a key, all dialects", "why_tests_cant": "Parameter numbers depend on how many readonly and key columns precede.", "anchors": ["cmd/sqlgen/codegen/generate.go: buildUpdateByPK", "cmd/sqlgen/internal/compiler/compiler.go: ColumnsWithoutPK"]}
{"id": "C23", "title": "Scan destinations never dereference a nil embedded pointer", "statement": "For every model with pointers anywhere along its field paths, asking for the scan destinations of a zero value allocates every pointer before anything below it is touched, each at most once, so no nil pointer is dereferenced; reading values through nil pointers yields NULL.", "quantifier": "all field trees of any nesting depth, all nil/non-nil patterns", "why_tests_cant": "Nesting depth and sharing of path prefixes are unbounded.", "anchors": ["cmd/sqlgen/codegen/generate.go: buildScanner, getOrValue, generateModels (getters)", "cmd/sqlgen/internal/compiler/compiler.go: GoPtrPaths, fieldPaths"]}
{"id": "C24", "title": "Reported key positions index the reported columns", "statement": "For every table, the position reported with the primary (or each composite) key is the index of that key's column in the reported column list, and composite positions are strictly increasing.", "quantifier": "all table definitions", "why_tests_cant": "Positions are assigned during parsing of arbitrary structs.", "anchors": ["cmd/sqlgen/codegen/generate.go: generateModels (PK), buildCompositeKeys", "cmd/sqlgen/internal/compiler/parser.go: Parse"]}
{"id": "C25", "title": "Columns, values and scan destinations agree position by position", "statement": "For every table, the reported columns and scan destinations have the same length and refer to the same field at every position, and the reported values are those of the insertable columns in the same relative order.", "quantifier": "all table definitions", "why_tests_cant": "Alignment over arbitrary column lists.", "anchors": ["cmd/sqlgen/codegen/generate.go: buildValuer, buildScanner, buildSqlColumns"]}
{"id": "C26", "title": "Batch insert binds each row's values to the listed columns", "statement": "For every non-empty list of records, the batch insert statement has one value group per record, as many parameters per group as listed columns, and the argument for row i, column j is the value of that column in record i; for an empty list no statement is issued.", "quantifier": "all models (with and without auto-increment, with and without readonly columns), all numbers of records, both dialect families", "why_tests_cant": "Row/column alignment must hold for every model shape and row count.", "anchors": ["cmd/sqlgen/codegen/templates/db.go.tpl: Insert"]}
{"id": "C27", "title": "PostgreSQL upsert never updates keys, omitted or conflict columns and keeps arguments aligned", "statement": "For every model and option combination, the DO UPDATE list contains exactly the inserted columns that are neither key, conflict target nor omitted; DO NOTHING is emitted when asked; placeholders and arguments are aligned.", "quantifier": "all models, all option lists, all numbers of records", "why_tests_cant": "Option combinations times model shapes are unbounded.", "anchors": ["cmd/sqlgen/codegen/templates/db.go.tpl: UpsertOne, Upsert (postgres)"]}
{"id": "C28", "title": "MySQL upsert never updates keys or omitted columns and keeps arguments aligned", "statement": "For every model, number of records and omitted-field list, the ON DUPLICATE KEY UPDATE list contains exactly the columns that are neither key nor omitted, separated by single commas; placeholders and arguments are aligned; nothing panics.", "quantifier": "all models (single, composite, auto-increment keys), all omitted lists, all numbers of records", "why_tests_cant": "Index arithmetic on mutated slices depends on every combination of lengths.", "anchors": ["cmd/sqlgen/codegen/templates/db.go.tpl: UpsertOne, Upsert (mysql/sqlite)"]}
{"id": "C29", "title": "Update-by-key helper on hand-written models binds every parameter", "statement": "For every model with a primary or composite key that has no generated update statement, the helper's statement assigns every non-key column its own value and compares the key columns to the key values, with as many arguments as parameters.", "quantifier": "all models, both placeholder styles", "why_tests_cant": "Depends on key position and count.", "anchors": ["cmd/sqlgen/codegen/templates/db.go.tpl: UpdateByPK"]}
{"id": "C30", "title": "Find, lock and delete by key compare exactly the key", "statement": "For every model, the fallback find/lock/delete statements compare each key column to its own value, with parameters and arguments aligned, and read the row into the destinations in column order.", "quantifier": "all models with primary or composite keys, both placeholder styles, all lock modes", "why_tests_cant": "Composite keys have unbounded width.", "anchors": ["cmd/sqlgen/codegen/templates/db.go.tpl: FindByPK, LockByPK, DeleteByPK"]}
{"id": "C31", "title": "Keyset pagination visits every row exactly once and stops", "statement": "For every table content, starting key and page size, iterating forward (backward) from a given record yields pages of at most the page size whose concatenation is exactly the rows at or after (before) the start in key order, each once, and the iteration ends.", "quantifier": "all tables, cursors and page sizes, provided no concurrent writes", "why_tests_cant": "Termination and exactly-once coverage quantify over all table contents and limits, including the 16-bit limit arithmetic.", "anchors": ["cmd/sqlgen/codegen/templates/db.go.tpl: Pager.Next, Pager.Prev"]}
{"id": "C32", "title": "Pagination queries are well-formed SQL", "statement": "For every filter, order and cursor, the pagination query has balanced parentheses, a condition after WHERE, and AND between the filter and the cursor condition.", "quantifier": "all filters, order lists and cursor presence", "why_tests_cant": "Cross product of optional parts.", "anchors": ["cmd/sqlgen/codegen/templates/db.go.tpl: Pager.Next, Pager.Prev"]}
{"id": "C33", "title": "Single insert fallback binds each listed column", "statement": "For every hand-written model whose values correspond to its columns, the fallback single insert has as many parameters as arguments, and the k-th parameter is the k-th column's value.", "quantifier": "all models, both placeholder styles", "why_tests_cant": "Length-dependent string building.", "anchors": ["cmd/sqlgen/codegen/templates/db.go.tpl: InsertOne"]}
{"id": "C34", "title": "Parsed columns have unique names and consecutive positions", "statement": "Whenever a struct is accepted, its columns have pairwise different names and positions 0,1,2,... in order; a struct with two fields mapped to one column name is rejected.", "quantifier": "all structs, tags, naming functions", "why_tests_cant": "Arbitrary structs and naming functions.", "anchors": ["cmd/sqlgen/internal/compiler/parser.go: Parse"]}
{"id": "C35", "title": "Exactly the exported, non-excluded fields become columns", "statement": "For every accepted struct, a field is a column exactly when it is exported, is not an embedded struct, is not tagged '-', and is not the table-name marker; its column name is the tag name when given, else the naming convention applied to the field name.", "quantifier": "all structs of any nesting", "why_tests_cant": "Arbitrary nesting and tags.", "anchors": ["cmd/sqlgen/internal/compiler/parser.go: Parse"]}
{"id": "C36", "title": "Columns follow the declaration order of the struct, embedded structs expanded in place", "statement": "For every struct, the column order is the left-to-right, depth-first declaration order of its fields.", "quantifier": "all structs of any nesting depth, including several names per declaration", "why_tests_cant": "The order comes from sorting index paths that are built by appending to shared slices; failures need particular depths.", "anchors": ["cmd/sqlgen/internal/compiler/parser.go: Parse (typeQueue, sort.Slice)"]}
{"id": "C37", "title": "Key options are validated", "statement": "Whenever a struct is accepted, it has at most one auto-increment column, no key column is readonly, and the key list consists of exactly the columns tagged as primary key but not auto-increment, in column order.", "quantifier": "all structs and tag option lists", "why_tests_cant": "Arbitrary option combinations.", "anchors": ["cmd/sqlgen/internal/compiler/parser.go: Parse", "cmd/sqlgen/internal/compiler/tag.go: parseTag, hasOpts"]}
{"id": "C38", "title": "Struct annotations are honoured", "statement": "A struct whose comment carries the ignore annotation produces no table, and one carrying the readonly annotation produces a table without write methods, whatever fields it has.", "quantifier": "all structs including those with embedded structs", "why_tests_cant": "Depends on what else the struct contains.", "anchors": ["cmd/sqlgen/internal/compiler/parser.go: Parse (annotation)"]}
{"id": "C39", "title": "Tag options are recognised regardless of order, spacing and arguments", "statement": "For every list of tag options, an option is considered present exactly when some entry, trimmed and cut at the first colon, equals it; order and duplicates do not matter.", "quantifier": "all option lists", "why_tests_cant": "All orderings and spacings.", "anchors": ["cmd/sqlgen/internal/compiler/tag.go: parseTag, hasOpts"]}
{"id": "C40", "title": "Snake-case naming yields stable lower-case names", "statement": "For every input, the snake_case name contains no ASCII capital letter, space, hyphen or dot; on Go identifiers converting twice equals converting once; and removing underscores gives the lower-cased letters and digits of the input, so no character is lost or reordered.", "quantifier": "all strings", "why_tests_cant": "All strings of any length.", "anchors": ["cmd/sqlgen/internal/strfmt/strfmt.go: toScreamingDelimited", "cmd/sqlgen/internal/strfmt/convert.go: ToSnakeCase"]}
{"id": "C41", "title": "Camel/Pascal naming keeps exactly the letters and digits", "statement": "For every input, the camelCase/PascalCase name consists of ASCII letters and digits only, equals the input's letters and digits up to letter case, and starts with a lower-case (upper-case) letter whenever it starts with a letter.", "quantifier": "all strings", "why_tests_cant": "All strings of any length.", "anchors": ["cmd/sqlgen/internal/strfmt/strfmt.go: toCamelInitCase"]}
{"id": "C42", "title": "Integer fields survive being written and read back", "statement": "For every integer field type and value, the driver value written for it (a 64-bit signed integer), when scanned back, restores the same value, including unsigned values above 2^63.", "quantifier": "all integer types, all values", "why_tests_cant": "2^64 values per type.", "anchors": ["sequel/encoding/int.go", "sequel/encoding/uint.go", "cmd/sqlgen/codegen/dialect/*/column_type.go: ColumnDataTypes"]}
{"id": "C43", "title": "Scanning a number that does not fit is an error, not a different number", "statement": "Whenever an integer scanner succeeds on a non-null database value, the field equals the number the database sent.", "quantifier": "all database values, all integer widths", "why_tests_cant": "Needs all out-of-range values.", "anchors": ["sequel/encoding/int.go: Scan", "sequel/encoding/uint.go: Scan"]}
{"id": "C44", "title": "Boolean scanning", "statement": "Scanning NULL gives false (or nil for pointer fields), an integer gives whether it is non-zero, the textual forms 1,t,T,TRUE,true,True / 0,f,F,FALSE,false,False give their value when text is allowed, and everything else is an error; whatever is written for a bool reads back equal.", "quantifier": "all database values, strict and lenient modes, value and pointer fields", "why_tests_cant": "All texts.", "anchors": ["sequel/encoding/bool.go: Scan"]}
{"id": "C45", "title": "Catalogue booleans are decoded with the right polarity", "statement": "The helper that reads information_schema flags maps YES/true/1 to true and NO/false/0 to false for every letter case and representation.", "quantifier": "all representations", "why_tests_cant": "All texts and integers.", "anchors": ["cmd/sqlgen/internal/sqltype/bool.go: Bool.Scan"]}
{"id": "C46", "title": "Fixed-size byte arrays hold exactly the scanned value", "statement": "After a successful scan into a [n]byte field the field holds the scanned bytes followed by zero bytes; NULL gives all zeros; longer input is an error; the result does not depend on what the field held before.", "quantifier": "all sizes, inputs and previous contents", "why_tests_cant": "Previous contents matter and are arbitrary.", "anchors": ["sequel/encoding/byte_array.go: Scan"]}
{"id": "C47", "title": "Fixed-size rune arrays decode text the same way from strings and bytes", "statement": "For every valid UTF-8 text, scanning it into a [n]rune field as a string or as bytes gives the same runes; NULL clears the field.", "quantifier": "all texts, sizes and previous contents", "why_tests_cant": "All Unicode texts.", "anchors": ["sequel/encoding/rune_array.go: Scan"]}
{"id": "C48", "title": "NULL handling of scanners", "statement": "For every scalar scanner, scanning NULL into a pointer field sets it to nil and into a value field sets the zero value, and never returns an error; scanning a non-NULL value into a pointer field never leaves it nil.", "quantifier": "all scanners, all previous contents", "why_tests_cant": "All previous contents and all target kinds.", "anchors": ["sequel/encoding/{bool,int,uint,float,string,time}.go: Scan"]}
{"id": "C49", "title": "String scanning", "statement": "Scanning text or bytes stores exactly those bytes (for every content), in strict mode any other non-NULL kind is an error, in lenient mode integers and booleans are stored in their decimal / true-false rendering and read back to the same number.", "quantifier": "all texts and integers, strict and lenient", "why_tests_cant": "All contents.", "anchors": ["sequel/encoding/string.go: Scan"]}
{"id": "C50", "title": "List marshalling renders an unambiguous JSON-style list", "statement": "For every list of integers or booleans, the rendered text is a bracketed comma separated list from which the elements can be read back, for any length including empty.", "quantifier": "all lists", "why_tests_cant": "All lengths and values.", "anchors": ["sequel/encoding/marshaler.go"]}
{"id": "C51", "title": "Import aliases are unique and stable", "statement": "After any sequence of import requests, different package paths have different names in the generated file, requesting the same path again returns the name given before, and the search for a fresh name always ends.", "quantifier": "all sequences of import requests", "why_tests_cant": "Histories of requests with clashing names are unbounded.", "anchors": ["cmd/sqlgen/codegen/package.go: Import, newAliasIfExists"]}
{"id": "C52", "title": "Configuration merging", "statement": "For every user configuration, each setting the user gave wins, each unset setting keeps the default, after merging no required setting is empty, and merging the same configuration again changes nothing.", "quantifier": "all configurations", "why_tests_cant": "Product of all optional settings.", "anchors": ["cmd/sqlgen/codegen/config.go: Merge, initIfEmpty, Init"]}
{"id": "C53", "title": "Source selection by folder or file", "statement": "A folder source selects exactly the files inside that folder, a file source exactly that file, a pattern `dir/**` the files of the directory and all directories below it, and a pattern with one star exactly the files of its directory whose names match.", "quantifier": "all paths, patterns and file systems", "why_tests_cant": "All path strings.", "anchors": ["cmd/sqlgen/codegen/path_matcher.go", "cmd/sqlgen/codegen/codegen.go: Generate"]}
{"id": "C54", "title": "String builders are returned to the pool at most once per acquisition by the generator", "statement": "In every run of each statement builder of the generator, every acquired builder is released at most once, so that later acquisitions never share a builder.", "quantifier": "all table definitions", "why_tests_cant": "Sharing only shows after later acquisitions.", "anchors": ["cmd/sqlgen/codegen/generate.go: buildUpdateByPK, buildFindByPK, buildInsertOne, sqlScanner, sqlValuer", "sequel/strpool/pool.go"]}
{"id": "C55", "title": "Quoted identifiers denote the original name", "statement": "For every column or table name accepted by the parser, the dialect's quoted identifier is read back by the SQL lexer of that dialect as the same name.", "quantifier": "all accepted names, three dialects", "why_tests_cant": "All names.", "anchors": ["cmd/sqlgen/codegen/dialect/{mysql,postgres,sqlite}/*.go: QuoteIdentifier", "cmd/sqlgen/internal/compiler/compiler.go: nameRegex"]}
{"id": "C56", "title": "Migration diff accounts for every column", "statement": "For every existing table and every model, the migration adds exactly the model columns missing from the table, alters exactly those present with different type or nullability, drops exactly the table columns not in the model, and reports no migration when nothing differs.", "quantifier": "all existing column lists and all model column lists", "why_tests_cant": "All pairs of schemas.", "anchors": ["cmd/sqlgen/codegen/dialect/postgres/migration.go: Migrate", "cmd/sqlgen/codegen/dialect/mysql/migration.go: Migrate"]}
{"id": "C57", "title": "Slices stored in a MySQL JSON column can be read back", "statement": "If a slice value is written to a MySQL JSON column, the text the server gives back (its normalised JSON, with a comma and a space between elements) is accepted by the same slice type and yields the same slice.", "quantifier": "all integer slices", "why_tests_cant": "The server's normalisation is outside unit tests of the codec, and slices are unbounded.", "anchors": ["sequel/encoding/sqltype/*.go: Scan, Value", "internal/sqltype/array.go: parseArray"]}
{"id": "C58", "title": "Float slices round-trip given that number printing does", "statement": "For every slice of floating point values, if printing and parsing a single number is lossless and printed numbers contain none of the structural characters, the whole slice is read back unchanged.", "quantifier": "all slices, all print/parse pairs satisfying the two conditions", "why_tests_cant": "Unbounded slices.", "anchors": ["sequel/encoding/sqltype/float*.go", "sequel/encoding/pgtype/float*.go"]}
{"id": "C59", "title": "A query result is complete or an error is reported", "statement": "If fetching rows fails part way through, the query helpers report an error; they never return a shortened list as if it were the whole answer.", "quantifier": "all row sequences and all points of failure", "why_tests_cant": "Needs a driver failing in the middle of iteration, at every position.", "anchors": ["cmd/sqlgen/codegen/templates/db.go.tpl: QueryStmt, Insert, Upsert, Pager.Next, Pager.Prev"]}
{"id": "C60", "title": "Offset is accepted by the database whenever it is set", "statement": "A select statement with an offset is syntactically valid in the dialect the helpers were generated for, whatever the other fields are.", "quantifier": "all select statement descriptions, three dialects", "why_tests_cant": "All combinations of optional fields.", "anchors": ["cmd/sqlgen/codegen/templates/db.go.tpl: QueryStmt"]}
{"id": "C61", "title": "Parsing a package ends", "statement": "For every package that compiles, parsing its structs finishes, and the outcome does not depend on anything but the declarations.", "quantifier": "all sets of struct declarations, including structs embedding pointers to themselves or to each other", "why_tests_cant": "Non-termination cannot be observed by a finished test run, and the embedding graphs are unbounded.", "anchors": ["cmd/sqlgen/internal/compiler/parser.go: Parse (typeQueue)"]}
{"id": "C62", "title": "Column accessors can be called on any value of the struct", "statement": "For every column, the generated column accessor can be evaluated on every value of the struct, in particular on its zero value, without a panic.", "quantifier": "all columns, all nil/non-nil combinations of pointers", "why_tests_cant": "All combinations of nil pointers along all embedding paths.", "anchors": ["cmd/sqlgen/codegen/generate.go: generateModels (column accessors)"]}
{"id": "C63", "title": "An embedded struct excluded by its tag contributes no columns", "statement": "A field of a struct that is embedded with the tag '-' is not a column.", "quantifier": "all structs of any nesting", "why_tests_cant": "All nestings and tags.", "anchors": ["cmd/sqlgen/internal/compiler/parser.go: Parse"]}
{"id": "C64", "title": "The table name is the declared one or follows from the struct name", "statement": "The table of an accepted struct is named by the tag of its table-name marker if it has one with a name, and otherwise by the naming convention applied to the struct name.", "quantifier": "all structs, all naming functions", "why_tests_cant": "All structs and marker positions.", "anchors": ["cmd/sqlgen/internal/compiler/parser.go: Parse (TableName marker)"]}
{"id": "C65", "title": "Column names given in tags are plain identifiers", "statement": "Every column name given in a tag of an accepted struct is an ASCII letter followed by ASCII letters, digits and underscores.", "quantifier": "all tags", "why_tests_cant": "All strings.", "anchors": ["cmd/sqlgen/internal/compiler/compiler.go: nameRegex", "cmd/sqlgen/internal/compiler/parser.go: Parse"]}
{"id": "C66", "title": "Generated methods do not collide", "statement": "For every accepted struct, the methods generated for it have pairwise different names and none has the name of a field of the struct, so the generated file compiles.", "quantifier": "all accepted structs, all getter prefixes", "why_tests_cant": "All combinations of field names over all nestings.", "anchors": ["cmd/sqlgen/codegen/generate.go: generateModels"]}
{"id": "C67", "title": "A scanned field keeps its value", "statement": "After a row has been scanned, the value of a string or []byte field does not change when the driver fetches further rows into the buffers it lent.", "quantifier": "all rows, all ways a driver may reuse buffers", "why_tests_cant": "Depends on how the driver manages its buffers over any number of rows; test drivers allocate fresh ones.", "anchors": ["sequel/encoding/string.go: Scan", "cmd/sqlgen/codegen/dialect/*/column_type.go: ColumnDataTypes ([]byte)"]}
{"id": "C68", "title": "Columns are wide enough for their fields", "statement": "For every integer field type and every value of it, the column type chosen for the field can hold the number that is written.", "quantifier": "all databases, all integer types, all values", "why_tests_cant": "2^64 values per type, and the limits are those of the database.", "anchors": ["cmd/sqlgen/codegen/dialect/{mysql,postgres,sqlite}/column_type.go: ColumnDataTypes"]}
{"id": "C69", "title": "Types that read text get the text of the database value", "statement": "A field type that decodes itself from text receives the text of the database value: the bytes of text, the decimal form of a number, and true or false for a truth value.", "quantifier": "all database values, all decoding methods", "why_tests_cant": "All values and methods.", "anchors": ["sequel/encoding/text.go: Scan"]}
{"id": "C70", "title": "A rune field is read back", "statement": "For every value of a field of type rune, reading the text that was written for it gives the same value.", "quantifier": "all runes", "why_tests_cant": "All 2^32 values.", "anchors": ["cmd/sqlgen/codegen/dialect/*/column_type.go: ColumnDataTypes (rune)"]}
{"id": "C71", "title": "Fixed-size arrays of runes and bytes are read back", "statement": "For every value of a field of type [n]rune or [n]byte, reading what was written for it gives the same value, whatever the field held before, whether the driver sends text as a string or as bytes.", "quantifier": "all sizes, all values, all previous contents", "why_tests_cant": "All contents and sizes.", "anchors": ["cmd/sqlgen/codegen/dialect/*/column_type.go: ColumnDataTypes ([...]rune, [...]byte)", "sequel/encoding/rune_array.go: Scan", "sequel/encoding/byte_array.go: Scan"]}
{"id": "C72", "title": "Applying a migration yields the model's table", "statement": "For every existing table, or none, and every model, executing the upgrade statements of the migration succeeds and leaves a table with exactly the columns of the model, each with its type and nullability.", "quantifier": "all existing tables including none, all models, all ways the database spells types", "why_tests_cant": "All pairs of schemas, and the effect depends on the state of the database.", "anchors": ["cmd/sqlgen/codegen/dialect/postgres/migration.go: Migrate", "cmd/sqlgen/codegen/dialect/mysql/migration.go: Migrate"]}
{"id": "C73", "title": "Rolling a migration back restores the table", "statement": "For every existing table and every model, executing the upgrade statements and then the downgrade statements of the migration gives back the columns the table had, with their types, nullability and defaults.", "quantifier": "all existing tables, all models", "why_tests_cant": "All pairs of schemas.", "anchors": ["cmd/sqlgen/codegen/dialect/postgres/migration.go: Migrate"]}
{"id": "C74", "title": "A migration that was applied leaves nothing to do", "statement": "For every model and every table, once the migration has been applied, asking for a migration again reports that none is needed.", "quantifier": "all models, all tables, all ways the database spells types", "why_tests_cant": "All pairs of schemas; the answer depends on how the catalogue of the server spells type names.", "anchors": ["cmd/sqlgen/codegen/dialect/postgres/migration.go: Migrate"]}
{"id": "C75", "title": "String literals in the generated file denote the text", "statement": "For every text that the generator writes as a string literal (SQL, names), the literal is valid Go and its value is the text.", "quantifier": "all byte strings, three dialects", "why_tests_cant": "All texts.", "anchors": ["cmd/sqlgen/codegen/generate.go: Generator.Quote"]}
{"id": "C76", "title": "Generated code is complete after a run", "statement": "After a run that succeeds there is generated code for exactly the structs of the files selected by the sources; code of directories that no source reads is unchanged; a run that fails leaves the generated code as it was.", "quantifier": "all lists of sources, all packages, all previous generated code", "why_tests_cant": "Depends on the order of all sources and on what earlier runs left behind.", "anchors": ["cmd/sqlgen/codegen/codegen.go: Generate, parseGoPackage", "cmd/sqlgen/codegen/generate.go: generateModels"]}
{"id": "C77", "title": "Every exported struct of a selected file has generated code", "statement": "For every package, the structs with generated code are exactly the exported struct types declared at package level in the selected files, however the declarations are grouped and ordered; the order of their code depends on their names only.", "quantifier": "all packages, all arrangements of type declarations in groups, files and functions", "why_tests_cant": "All arrangements of declarations.", "anchors": ["cmd/sqlgen/internal/compiler/parser.go: Parse"]}
{"id": "C78", "title": "Types and expressions are written with the names of their packages", "statement": "For every type, and every expression built from a field and its type, the generated text has, in place of every import path, the name under which that package is imported, the package is imported, and the rest of the text is unchanged.", "quantifier": "all import paths, all types with any number of packages, all field paths, all aliases", "why_tests_cant": "All types and all collisions of names.", "anchors": ["cmd/sqlgen/codegen/expr.go: importPkgIfNeeded, pkgRegexp, Expr.Format", "cmd/sqlgen/codegen/package.go: Import"]}
{"id": "C79", "title": "A field is read in the encoding in which it is written", "statement": "For every field type, pointers, defined types and aliases included, the encoding used to read a column is the one used to write it: the value itself, the methods of the type, the entry of the configuration, the same table entry, text, or JSON.", "quantifier": "all types built from predeclared types, defined types, aliases, pointers, slices and arrays, all method sets, all configurations, three dialects", "why_tests_cant": "All types, of unbounded nesting, with all combinations of methods and configuration.", "anchors": ["cmd/sqlgen/codegen/tool.go: columnDataType", "cmd/sqlgen/codegen/generate.go: valuer, scanner, isBasicType", "cmd/sqlgen/codegen/dialect/*/column_type.go: ColumnDataTypes"]}
{"id": "C80", "title": "The expressions generated for fields are well-typed", "statement": "For every field type the generator accepts, it does not panic and the conversion written for the field satisfies the constraint of the type it converts to.", "quantifier": "all slice and array types, written out, defined or aliased, and pointers to them", "why_tests_cant": "All types; a compiler only sees those of the test models.", "anchors": ["cmd/sqlgen/codegen/generate.go: valuer, scanner", "cmd/sqlgen/codegen/expr.go: elemType", "cmd/sqlgen/codegen/tool.go: arraySize"]}
{"id": "C81", "title": "Choosing the column type of a field ends", "statement": "For every field type, also recursive ones, the generator finds a column type or reports that there is none, after finitely many steps.", "quantifier": "all types, all declarations of defined types, recursive ones included", "why_tests_cant": "Termination for all types.", "anchors": ["cmd/sqlgen/codegen/tool.go: columnDataType"]}
{"id": "C82", "title": "After an insert or upsert every record holds its own row", "statement": "When inserting or upserting records in PostgreSQL succeeds, every record of the caller's slice has been read from the row that stands for it, a record without a row is unchanged, the number of rows is reported, and an answer that breaks off is an error.", "quantifier": "all tables, all rows in them, all lists of records, all three conflict actions, all answers", "why_tests_cant": "All combinations of existing rows and records, and failures in the middle of an answer.", "anchors": ["cmd/sqlgen/codegen/templates/db.go.tpl: Insert, Upsert, InsertOne, UpsertOne (postgres)"]}
{"id": "C83", "title": "The key generated by the database is stored in the record", "statement": "When inserting or upserting a record with an auto-increment key succeeds in MySQL or SQLite, the key field of the record holds the key of its row, and no other field changes.", "quantifier": "all numbers, all types of keys, all layouts of embedded structs, all fates of a record in the database", "why_tests_cant": "All numbers and all layouts of structs.", "anchors": ["cmd/sqlgen/codegen/templates/db.go.tpl: InsertOne, Insert, UpsertOne (mysql)", "cmd/sqlgen/codegen/generate.go: generateModels (ScanAutoIncr)"]}
{"id": "C84", "title": "Debug output shows arguments as literals that denote them", "statement": "Formatting a statement for debugging never panics, and prints every argument as an SQL literal of the dialect that denotes the value that is bound.", "quantifier": "all texts, byte strings, integers, floating point numbers, times, and all nestings of valuers, three dialects", "why_tests_cant": "All texts and numbers, against a reader of the literals of each database.", "anchors": ["cmd/sqlgen/codegen/templates/db.go.tpl: strf"]}
{"id": "C85", "title": "A field in a JSON column holds exactly the value that was stored", "statement": "Storing a value of a field that is encoded as JSON and reading it back gives the same value, whatever the field held before; NULL gives the zero value.", "quantifier": "all Go types built from booleans, integers, strings, pointers, slices, arrays, maps and structs; all values; all previous contents", "why_tests_cant": "All types, and all combinations of stored value and previous content.", "anchors": ["sequel/encoding/json.go: JSONValue, JSONScanner"]}
{"id": "C86", "title": "A struct has its own methods after generation, or an error is reported", "statement": "After a successful run, TableName, SQLColumns, Columns, Values and Addrs called on a struct run methods that were declared for this struct, by its author or by the generator, with the signature the library asks for; in particular they do not run those of a struct it embeds. If that is not possible, the run reports an error.", "quantifier": "for all struct declarations, with fields, methods with value and pointer receivers, structs embedded by value and by pointer to any depth, ambiguous and cyclic embedding; strict mode or not; read-only or not", "why_tests_cant": "Tests embed structs without methods, or declare all methods by hand. Which method is promoted depends on depth, ambiguity, receivers and pointers in all combinations.", "anchors": ["cmd/sqlgen/codegen/generate.go:144-151", "cmd/sqlgen/codegen/generate.go:176-213", "cmd/sqlgen/internal/compiler/compiler.go:93-99"]}
{"id": "C87", "title": "The text in a JSON column is JSON and means the stored value, and any JSON text for it is read", "statement": "What is stored in a JSON column is JSON text that means the value of the field; whatever JSON text for this value the database gives back, with other white space, escapes or order of members, reading it gives the stored value; text that is not JSON is an error.", "quantifier": "all values, all JSON texts for them, all other texts", "why_tests_cant": "There are infinitely many texts for each value, nested without bound; databases rewrite JSON in their own way.", "anchors": ["sequel/encoding/json.go: JSONValue, JSONScanner"]}
{"id": "C88", "title": "A time in a text column is read as the time that was written", "statement": "Reading a text for a time gives the instant the text denotes in the Gregorian calendar and its zone, or an error when it denotes none, and the text a database driver hands out for a stored time is read as that time.", "quantifier": "all texts, all instants of the years 0 to 9999, all zones, all previous contents of the field", "why_tests_cant": "All texts and the whole calendar.", "anchors": ["sequel/encoding/time.go: TimeScanner, parseTime"]}
{"id": "C89", "title": "The statements generated for a model mean its table and its columns", "statement": "Parsed by the database with its rules for names (quoting, case folding, reserved words), the statements that insert, find, update and delete a record all mean the table of the model, its columns, and the row with the key of the record, whatever the names are.", "quantifier": "all models, all names of tables and columns, all records, all databases that differ in quotes, folding of case and reserved words", "why_tests_cant": "All names and all databases; tests use one database and lower-case names that are no keywords.", "anchors": ["cmd/sqlgen/codegen/generate.go: InsertOneStmt, FindOneByPKStmt, UpdateOneByPKStmt", "cmd/sqlgen/codegen/templates/db.go.tpl: DeleteByPK"]}
{"id": "C90", "title": "InsertOne, FindByPK, UpdateByPK and DeleteByPK are a store of records by key", "statement": "For every sequence of these calls on a table, every result and the records stored at the end are those of a map from keys to records: inserting an existing key is an error, finding gives what was last written under the key or sql.ErrNoRows, updates and deletes affect just the record with the key; nothing else in the database changes. Keys made up by the database are new and are in the record afterwards.", "quantifier": "all models with a key, all finite sequences of calls with all records, all initial contents", "why_tests_cant": "All sequences of calls on all tables; tests make a few calls.", "anchors": ["cmd/sqlgen/codegen/templates/db.go.tpl: InsertOne, FindByPK, UpdateByPK, DeleteByPK", "cmd/sqlgen/codegen/generate.go"]}
{"id": "C91", "title": "Batch inserts and upserts store what they are given, under its key", "statement": "Insert stores all records or, if a key exists or is given twice, none. Upsert and UpsertOne with override replace, under each given key, the columns that are not to be left out, and insert what is new; without override they insert what is new and leave the rest alone. Nothing else in the database changes, and every record passed in afterwards holds what is stored under its own key, or is as it was.", "quantifier": "all models with a key, all lists of records, all initial contents, all lists of columns to leave out, PostgreSQL, MySQL and SQLite", "why_tests_cant": "All lists of records against all contents of a database, in three dialects; there are no tests of upserts against a database.", "anchors": ["cmd/sqlgen/codegen/templates/db.go.tpl: Insert, UpsertOne, Upsert", "cmd/sqlgen/codegen/generate.go"]}
{"id": "C92", "title": "Queries, updates and deletes with conditions apply to exactly the records that satisfy them", "statement": "QueryStmt returns the stored records that satisfy the condition built with And, Or, Equal, NotEqual, LessThan, In, NotIn, Between, IsNull, Like and so on: each once, in the order asked for, from the offset on and at most as many as the limit. QueryOneStmt returns the first of them, or sql.ErrNoRows. ExecStmt changes, or removes, exactly these records and nothing else in the database. Groups and lists may be empty, values may be nil, and columns may be selected.", "quantifier": "all models with a key, all nested conditions, all orders, offsets and limits, all contents, PostgreSQL, MySQL and SQLite", "why_tests_cant": "All conditions against all contents of a database, in three dialects with three-valued logic.", "anchors": ["cmd/sqlgen/codegen/templates/db.go.tpl: QueryStmt, QueryOneStmt, ExecStmt", "cmd/sqlgen/codegen/templates/operator.go.tpl", "cmd/sqlgen/codegen/generate.go"]}
{"id": "C93", "title": "Pagination visits the records in the order asked for, from the given one on, also while others change the table", "statement": "Iterating with Paginate(...).Next or Prev over a table delivers pages of at most the limit, all but the last full, of the stored records that satisfy the filter, from the given record on (or from the beginning), in the order asked for and then in the order of keys. Each record is delivered as it was stored when its page was read, no key comes twice, and no record that is there all the time is passed over, even if other sessions insert, change and delete records between the statements. The iteration ends with an error only if a record at which a page begins is gone, and never panics. A consumer that stops early gets the first pages.", "quantifier": "all models with a key, all filters, orders and limits, all start records, all contents and all changes to them between any two statements, PostgreSQL, MySQL and SQLite", "why_tests_cant": "All interleavings with changes by other sessions over runs of any length.", "anchors": ["cmd/sqlgen/codegen/templates/db.go.tpl: Paginate, Pager.Next, Pager.Prev", "cmd/sqlgen/codegen/generate.go: buildValuer"]}
{"id": "C94", "title": "Floating point fields and lists hold the numbers that were stored", "statement": "What is written for a field of type float32 or float64, or for a list of them, is read back exactly, whatever it holds: all numbers, negative zero, infinities and not-a-number, from a number as well as from a text. A text is read as the value it stands for, the nearest number if it is decimal, and all other texts and numbers that are too large are errors. The column that is generated for a field can hold every finite value of it. A list is written as JSON for a JSON column and can be read from what the database prints for it. A list that is written with a precision differs from the numbers by at most half a unit of the last digit; without a precision nothing is lost.", "quantifier": "all values of both types, all lists of them, all texts of at most 5000 bytes without underscores and the letter x, PostgreSQL, MySQL and SQLite", "why_tests_cant": "2^64 values, and rounding errors occur only in rare ones.", "anchors": ["sequel/encoding/float.go", "sequel/encoding/marshaler.go: MarshalFloat64List", "sequel/sqltype/float_slice.go", "sequel/driver/postgres/pgtype/float_array.go", "cmd/sqlgen/codegen/dialect/*/column_type.go"]}
{"id": "C95", "title": "A run uses the configuration that was given", "statement": "sqlgen uses the settings of the configuration file of the directory, the first of sqlgen.yml, .sqlgen.yml, .sqlgen.yaml and sqlgen.yaml that exists, with built-in values for what it leaves out, and the built-in settings if there is none. sqlgen generate source differs from that only in the source. With -c the settings of the given file are used instead. A file that is missing or cannot be read is reported as an error. sqlgen init writes a file with which the next run uses the answers and otherwise the settings from before, and does not touch an existing file unless told to.", "quantifier": "all directories, all contents of configuration files, all answers", "why_tests_cant": "All combinations of two files and seventeen settings.", "anchors": ["cmd/sqlgen/cmd.go", "cmd/sqlgen/generate.go", "cmd/sqlgen/init.go", "cmd/sqlgen/codegen/config.go: DefaultConfig, LoadConfigFrom, Merge", "cmd/sqlgen/codegen/codegen.go: Generate"]}
{"id": "C96", "title": "Records of Go types in the tables declared for them", "statement": "For models whose fields are of predeclared types, of types defined from them, or pointers to predeclared types, in a table as Migrate declares it: every sequence of inserts, finds, updates and deletes gives what it would on a map from keys to records, with every field exactly as it was, nil pointers included, in whatever form the driver hands over numbers, truth values and texts. Queries, updates and deletes with conditions find the records for which the condition holds, numbers being compared as numbers and texts as texts, and pagination lists them in the order of the keys, also while others change the table. Batch inserts, upserts and read-only columns that the database fills in do what C91 and C97 say of them.", "quantifier": "all models of such fields, all values, all dialects, all drivers and all sequences of operations", "why_tests_cant": "The generator, the valuers, the column types, the database, the driver and the scanners all have to agree, for every combination of types and every value.", "anchors": ["cmd/sqlgen/codegen/generate.go: valuer, scanner, buildScanner, getters", "cmd/sqlgen/codegen/dialect/{mysql,postgres,sqlite}/column_type.go", "sequel/encoding", "cmd/sqlgen/codegen/templates/db.go.tpl: InsertOne, FindByPK, UpdateByPK, DeleteByPK, QueryStmt, ExecStmt, Paginate"]}
{"id": "C97", "title": "Columns that the database fills in", "statement": "For models with read-only fields, in a database with defaults, generated columns or triggers for their columns: InsertOne and UpdateByPK never write these columns, so that a database which forbids it accepts the statements, and what the program has in these fields is ignored. Every sequence of inserts, finds, updates and deletes gives what it would on a map of records whose read-only fields are left to the database; FindByPK gives what the database put there, and a record that was inserted has it as well.", "quantifier": "all models with read-only columns, all databases that fill in such columns (depending on the time and the rows before), all sequences of operations", "why_tests_cant": "A unit test has one table and one trigger; that no statement in any order touches the columns, and that records agree with rows afterwards, is a statement on all databases and histories.", "anchors": ["cmd/sqlgen/internal/compiler/compiler.go: InsertColumns, ColumnsWithoutPK", "cmd/sqlgen/internal/compiler/parser.go: readonly", "cmd/sqlgen/codegen/generate.go", "cmd/sqlgen/codegen/templates/db.go.tpl: InsertOne, FindByPK, UpdateByPK, DeleteByPK"]}
{"id": "C98", "title": "Programs of several clients on several models", "statement": "Several clients use the generated helpers at the same time on several models in one database, each deciding its next call by what its calls returned so far. In every order in which the calls come, each client gets what it would get from maps of records, one for each model, with each call done as a whole; the tables have the records of the maps afterwards and other tables are untouched. In particular a record that nobody else writes is found as it was stored, whatever others do; and of several clients that insert a record under the same key, at most one is told that it succeeded.", "quantifier": "all models, all numbers of clients, all programs of the clients, all orders of the calls, all contents of the tables before", "why_tests_cant": "Tests run one order of calls of one program; interference between calls and models is about all orders, all programs and all contents.", "anchors": ["cmd/sqlgen/codegen/templates/db.go.tpl: InsertOne, Insert, UpsertOne, Upsert, FindByPK, UpdateByPK, DeleteByPK, QueryStmt, QueryOneStmt, ExecStmt"]}
{"id": "C99", "title": "Records with lists, byte strings and times", "statement": "Models with fields that are lists of numbers, texts and truth values, byte strings and times, next to the fields of C96, in tables whose columns have the types that Migrate declares for the fields. Whatever sequence of inserts, finds, updates, deletes, batches and upserts a program does: every call gives what it would on a map from keys to records, lists with their elements in order and times to the instant; conditions and orders on times are those of Go's Before and Equal; pages and programs of several clients are as on maps of records. This is so for all values that fit the columns.", "quantifier": "all models of such fields, all dialects, all sequences of calls, all values that fit, all databases and drivers that do what is documented of them, whatever text of an array or form of a value a driver chooses", "why_tests_cant": "Tests use a few lists on one database; that texts of lists survive quoting, the database's own printing of arrays and the scanner is about all lists and all forms of the text, and that records stay maps is about all sequences of calls.", "anchors": ["cmd/sqlgen/codegen/dialect/mysql/column_type.go:104-207", "cmd/sqlgen/codegen/dialect/postgres/column_type.go:105-228", "cmd/sqlgen/codegen/dialect/sqlite/column_type.go:98-197", "sequel/sqltype", "sequel/driver/postgres/pgtype", "sequel/encoding/time.go", "cmd/sqlgen/codegen/templates/db.go.tpl"]}
{"id": "C100", "title": "Records in columns with functions of the database", "statement": "For types of the configuration with templates for values and columns (sql_value and sql_scan, as in ST_GeomFromText({{.}},4326) and ST_AsText({{.}})), the statements that are sent call these functions on the values and on the columns. If what one function makes of a value is turned back by the other, then whatever sequence of inserts, finds, updates and deletes a program does, every call gives what it would on a map from keys to records.", "quantifier": "all models, all templates that are expressions with function calls, all functions, all sequences of calls, all databases", "why_tests_cant": "Tests check the text of statements for one template; that the text around a value is read by the database as the intended call, whatever the template and value, and that records are kept by it through any sequence of calls, is about all of them.", "anchors": ["cmd/sqlgen/codegen/generate.go:453-760", "cmd/sqlgen/codegen/templates/db.go.tpl:13-69", "cmd/sqlgen/codegen/templates/db.go.tpl:639-756", "cmd/sqlgen/codegen/config.go:60-75"]}
{"id": "C101", "title": "Records with JSON documents stay records on a database", "statement": "For models with fields of structs, lists of structs, arrays, maps and pointers to them, which are stored as JSON in the columns declared for them: whatever sequence of inserts, finds, updates, deletes, batches, queries with conditions and pages a program does, every call gives what it would on a map from keys to records, whatever was in the records that are read into.", "quantifier": "all models, all document types, all values, all sequences of calls, all programs, all databases that keep texts or JSON values", "why_tests_cant": "Tests store and read one document in one table; that every value of every document type comes back through writing, the column type, the database's own form of JSON and reading over a used record, in any sequence of calls, is about all of them.", "anchors": ["sequel/encoding/json.go:15-70", "cmd/sqlgen/codegen/generate.go:260-284", "cmd/sqlgen/codegen/generate.go:460-476", "cmd/sqlgen/codegen/generate.go:672-744", "cmd/sqlgen/codegen/dialect/mysql/column_type.go:208-212", "cmd/sqlgen/codegen/dialect/postgres/column_type.go:229-233", "cmd/sqlgen/codegen/dialect/sqlite/column_type.go:198-202"]}
{"id": "C102", "title": "Structs with embedded pointers stay records", "statement": "For structs whose columns are in embedded structs and behind embedded pointers at any depth, any of which may be nil: InsertOne, FindByPK, UpdateByPK and DeleteByPK never panic; a column is NULL exactly for a field that does not exist or is a nil pointer, and what FindByPK leaves in the struct is the record that was stored, with the same pointers nil.", "quantifier": "all structs, all nestings of embedded structs and pointers, all choices of nil pointers, all values, all sequences of calls, all databases", "why_tests_cant": "Tests have one struct with one embedded pointer, nil or not; that getters, Addrs, scanning and the assignment of made up keys agree on what exists in every struct, and what a row with NULLs does to the struct it is read into, is about all of them.", "anchors": ["cmd/sqlgen/codegen/templates/db.go.tpl:13-69", "cmd/sqlgen/codegen/templates/db.go.tpl:639-756", "cmd/sqlgen/codegen/generate.go:156-176", "cmd/sqlgen/codegen/generate.go:263-290", "cmd/sqlgen/codegen/generate.go:460-474", "cmd/sqlgen/codegen/generate.go:672-678"]}
{"id": "C103", "title": "Calls over connections that fail", "statement": "Whenever a connection fails during a call of a helper: a call that returns no error has been done, and its result is complete; a call that returns an error has been done once or not at all, never in part; so a client that makes a call for one record again until there is no error of the connection leaves the record as one call would; an iteration over pages that ends without an error has yielded all there is to list.", "quantifier": "all calls, all clients at the same time, all orders of their calls, all points at which connections fail, all databases", "why_tests_cant": "Tests run on connections that work, or fail the first call of a mock; where an answer is lost or stops after some rows, between any two calls of any clients, cannot be enumerated.", "anchors": ["cmd/sqlgen/codegen/templates/db.go.tpl:13-69", "cmd/sqlgen/codegen/templates/db.go.tpl:71-195", "cmd/sqlgen/codegen/templates/db.go.tpl:230-673", "cmd/sqlgen/codegen/templates/db.go.tpl:729-756", "cmd/sqlgen/codegen/templates/db.go.tpl:827-1139", "cmd/sqlgen/codegen/templates/db.go.tpl:1141-1397"]}
{"id": "C104", "title": "Records with types that have methods of their own", "statement": "For models with fields, keys included, of types with Value and Scan, with MarshalText and UnmarshalText, or with MarshalJSON and UnmarshalJSON, of which one method undoes the other, and with pointers to such types: whatever is done with the helpers, a field has afterwards the value that was stored, whatever was in it before, and the helpers give what they would on a map from keys to records.", "quantifier": "all types, all methods of which one undoes the other, all values, all sequences of calls and all clients, three databases", "why_tests_cant": "The methods are the user's: every type is another program. Which of them are called depends on the type, on pointers and on NULL.", "anchors": ["cmd/sqlgen/codegen/generate.go:260-290", "cmd/sqlgen/codegen/generate.go:460-476", "cmd/sqlgen/codegen/generate.go:696-744", "sequel/encoding/pointer.go", "sequel/encoding/text.go", "sequel/encoding/json.go"]}
{"id": "C105", "title": "Batches, upserts and queries with structs that embed pointers", "statement": "For models with embedded pointers to structs: Insert and Upsert store every struct of a batch, and a query gives all structs that satisfy the condition, each as it was stored; embedded pointers that are nil neither end the program nor keep other structs from being stored or returned. If a call reports an error, nothing is stored.", "quantifier": "all structs with any depth of embedded pointers, nil or not, all batches, all queries, all sequences of calls, all contents, three databases", "why_tests_cant": "Which fields can be read depends on the pointers in memory and on the values in the table, in every combination; one row of thousands can decide over the result of a query.", "anchors": ["cmd/sqlgen/codegen/templates/db.go.tpl:71-195", "cmd/sqlgen/codegen/templates/db.go.tpl:230-635", "cmd/sqlgen/codegen/templates/db.go.tpl:1141-1397", "cmd/sqlgen/codegen/generate.go:263-290", "cmd/sqlgen/codegen/generate.go:460-476"]}
{"id": "C106", "title": "The script of a migration is read as it is meant", "statement": "A database that reads the script written by Migrate finds in it the table with the columns, types, nullability, defaults and primary key of the model, then the changes to be made; and after the line '-- +migrate Down' the changes that undo them. Every script can be applied to the database it was written for, and be rolled back.", "quantifier": "all tables, columns, names, types, defaults and keys, PostgreSQL and MySQL", "why_tests_cant": "Whether text that is put together from pieces is read as those pieces depends on the bytes of every one of them; tests compare some scripts with text that was written by hand, and no database reads it.", "anchors": ["cmd/sqlgen/codegen/dialect/postgres/migration.go:18-173", "cmd/sqlgen/codegen/dialect/mysql/migration.go:12-167", "cmd/sqlgen/codegen/dialect/postgres/index.go:65-77", "cmd/sqlgen/codegen/dialect/postgres/column_type.go:287-308", "cmd/sqlgen/codegen/dialect/mysql/column_type.go:233-254", "cmd/sqlgen/codegen/dialect/dialect.go:95-97"]}
{"id": "C107", "title": "Migrations come to an end", "statement": "On PostgreSQL every migration of an existing table is accepted, and whatever the Go types of the fields are, once it has been applied, asking again reports that there is nothing to do; migrating again and again stops.", "quantifier": "all models with fields of all Go types of the type table, all sizes, all existing tables, any number of rounds", "why_tests_cant": "It depends on how the server's catalogue spells each type and takes repeated runs against a live server; no bound on the number of rounds shows that it never stops.", "anchors": ["cmd/sqlgen/codegen/dialect/postgres/column_type.go:17-285", "cmd/sqlgen/codegen/dialect/postgres/column.go:27-37", "cmd/sqlgen/codegen/dialect/postgres/migration.go:45-67"]}
{"id": "C108", "title": "A migration looks at its own table", "statement": "The columns Migrate compares the model with are those of the table the statements it writes are applied to, in their order, whatever other tables the database has in other schemas.", "quantifier": "all databases with tables in any number of schemas, all models", "why_tests_cant": "Quantifies over everything else that is in the database.", "anchors": ["cmd/sqlgen/codegen/dialect/postgres/column.go:39-79", "cmd/sqlgen/codegen/dialect/mysql/column.go:22-64", "cmd/sqlgen/codegen/dialect/postgres/migration.go:29-37"]}
{"id": "C109", "title": "Records with arrays of bytes and characters", "statement": "For models with fields, keys included, of types [n]byte and [n]rune: whatever is done with the helpers, a field has afterwards the elements that were stored, whatever was in it before, conditions compare arrays element by element, and the helpers give what they would on a map from keys to records.", "quantifier": "all lengths, all arrays, all earlier contents of the record that is read into, all sequences of calls and all clients, three databases", "why_tests_cant": "Whether an array survives depends on its bytes, on the type of the column, on the form in which the driver hands it over and on what was in memory before; there are too many arrays to try.", "anchors": ["cmd/sqlgen/codegen/dialect/mysql/column_type.go:119-132", "cmd/sqlgen/codegen/dialect/postgres/column_type.go:120-133", "cmd/sqlgen/codegen/dialect/sqlite/column_type.go:113-126", "sequel/encoding/byte_array.go", "sequel/encoding/rune_array.go"]}
{"id": "C110", "title": "Tables made by migrations make up keys", "statement": "For a model whose integer key is marked auto_increment: once the table has the columns that the script of Migrate writes for it, every record that is inserted with InsertOne is stored, under a key of its own that the record has afterwards.", "quantifier": "all models, all integer types of keys, all sequences of records, MySQL and PostgreSQL", "why_tests_cant": "Tests compare the text of a script with a recorded text, or insert into tables that were written by hand; whether a table that is made from the script makes up keys needs both, for all types and for more than one record.", "anchors": ["cmd/sqlgen/codegen/dialect/mysql/column_type.go:17-214", "cmd/sqlgen/codegen/dialect/postgres/column_type.go:17-215", "cmd/sqlgen/codegen/templates/db.go.tpl"]}
{"id": "C111", "title": "MySQL makes the tables of migrations", "statement": "For every model, MySQL accepts the script that Migrate writes for a table that is not there, and makes the table.", "quantifier": "all models: numbers and types of fields, sizes, defaults, keys", "why_tests_cant": "Whether a table is made depends on all its columns together: the bytes of a row, the bytes of a key, the kinds of types and defaults. Tests compare scripts with recorded texts and have one model.", "anchors": ["cmd/sqlgen/codegen/dialect/mysql/column_type.go:17-214", "cmd/sqlgen/codegen/dialect/mysql/migration.go"]}
{"id": "C112", "title": "Records in tables that migrations made", "statement": "For every model with fields of predeclared types, types defined from them and pointers to them: once the database has run the script of Migrate for the new table, whatever sequence of InsertOne, FindByPK, UpdateByPK and DeleteByPK follows gives what it would on an empty map from keys to records.", "quantifier": "all models of such fields, all sizes in tags, all sequences of calls with values that fit, all databases that do what the columns of the script say", "why_tests_cant": "It needs the text of the script, what the database makes of it, and what drivers hand over, together. Tests compare scripts with recorded texts and store a few records in tables that were written by hand.", "anchors": ["cmd/sqlgen/codegen/dialect/mysql/migration.go", "cmd/sqlgen/codegen/dialect/mysql/column_type.go:17-214", "cmd/sqlgen/codegen/dialect/postgres/column_type.go", "cmd/sqlgen/codegen/templates/db.go.tpl"]}
{"id": "C113", "title": "Lists of times are written as JSON that is read as the same times", "statement": "For every list of times, the text that is made of it is a JSON array with one string for each time, in order, and each string is read as its time again.", "quantifier": "all lists, all times and zones", "why_tests_cant": "Times have fractions of seconds, zones and years that a test does not go through: the one test there is writes the empty list.", "anchors": ["sequel/encoding/marshaler.go:84-96"]}
{"id": "C114", "title": "Every documented option of a tag has its effect", "statement": "Each option that the documentation of models lists (primary_key, pk, auto_increment, binary, size, encode, decode) changes the generated code of the struct as is said there, written in upper or lower case.", "quantifier": "all packages, all tags, all values of options", "why_tests_cant": "That an option has no effect at all is a statement about all packages in which it may occur; a test of a struct with a size passes as long as nothing depends on it.", "anchors": ["cmd/sqlgen/internal/compiler/tag.go:18-43", "cmd/sqlgen/internal/compiler/parser.go:376-452", "cmd/sqlgen/internal/compiler/compiler.go:101-161", "docs/MODELS.md:19-28"]}
{"id": "C115", "title": "Values that write themselves as bytes are read back", "statement": "A value that is written through BinaryMarshaler is the value that BinaryUnmarshaler reads from the column, for every type whose methods are the inverse of each other.", "quantifier": "all such types and values, all columns of bytes or text, all drivers that hand over what they may", "why_tests_cant": "Which values a driver hands over depends on the database and the column; tests call Scan with one slice of bytes.", "anchors": ["sequel/types/binary.go:16-47"]}
{"id": "C116", "title": "The tables of all models are made in one schema", "statement": "If the migrations of several models with tables of different names are applied to one schema of PostgreSQL that has none of these tables, each of them makes its table.", "quantifier": "all lists of models, all keys, all schemas", "why_tests_cant": "A test migrates one model. Whether a statement is accepted depends on the names that all the others have left behind in the schema.", "anchors": ["cmd/sqlgen/codegen/dialect/postgres/index.go:66-78", "cmd/sqlgen/codegen/dialect/postgres/migration.go:71-114"]}
