{
 "claims": [
  {
   "property": "C01",
   "status": "proved",
   "theorems": [
    "Verif.Props.C01_string_roundtrip",
    "Verif.Props.C01_string_nil"
   ],
   "note": ""
  },
  {
   "property": "C02",
   "status": "proved",
   "theorems": [
    "Verif.Props.C02_bool_roundtrip"
   ],
   "note": ""
  },
  {
   "property": "C03",
   "status": "proved",
   "theorems": [
    "Verif.Props.C03_int_roundtrip"
   ],
   "note": ""
  },
  {
   "property": "C04",
   "status": "partial",
   "theorems": [
    "Verif.Props.C04_uint_roundtrip_sqltype",
    "Verif.Props.C04_uint_roundtrip_pgtype_partial",
    "Verif.Props.C04_uint64_pgtype_not_roundtrip"
   ],
   "note": "Holds for sqltype at every width; pgtype parses signed, so values from 2^63 on never read back (refuted), the rest proved."
  },
  {
   "property": "C05",
   "status": "proved",
   "theorems": [
    "Verif.Props.C05_accepts_iff_grammar",
    "Verif.Props.C05_elements_iff_grammar",
    "Verif.Props.C05_parse_never_panics",
    "Verif.Props.C05_scan_never_panics"
   ],
   "note": ""
  },
  {
   "property": "C06",
   "status": "proved",
   "theorems": [
    "Verif.Props.C06_scan_error_preserves",
    "Verif.Props.C06_covers_all_types"
   ],
   "note": ""
  },
  {
   "property": "C07",
   "status": "partial",
   "theorems": [
    "Verif.Props.C07_sqltype_uint_faithful",
    "Verif.Props.C07_int64_faithful",
    "Verif.Props.C07_int_narrow_partial",
    "Verif.Props.C07_int8_wraps",
    "Verif.Props.C07_pgtype_uint_partial",
    "Verif.Props.C07_pgtype_uint_wraps"
   ],
   "note": "Holds for sqltype unsigned and for 64-bit signed; narrow signed types and pgtype unsigned wrap silently (refuted); exact wrapped value characterised."
  },
  {
   "property": "C08",
   "status": "proved",
   "theorems": [
    "Verif.Props.C08_bytea_roundtrip"
   ],
   "note": ""
  },
  {
   "property": "C09",
   "status": "proved",
   "theorems": [
    "Verif.Props.C09_bytea_iff_formats",
    "Verif.Props.C09_server_escape_decodes",
    "Verif.Props.C09_bytea_never_panics"
   ],
   "note": ""
  },
  {
   "property": "C11",
   "status": "proved",
   "theorems": [
    "Verif.Props.C11_quote_is_one_literal",
    "Verif.Props.C11_quote_injective"
   ],
   "note": ""
  },
  {
   "property": "C10",
   "status": "partial",
   "theorems": [
    "Verif.Props.C10_int_slices_are_json",
    "Verif.Props.C10_uint_slices_are_json",
    "Verif.Props.C10_string_slices_are_json_partial",
    "Verif.Props.C10_string_control_not_json",
    "Verif.Props.C10_bool_slices_never_json"
   ],
   "note": "Integers proved; strings proved when no element has a control character, refuted otherwise; non-empty bool slices are never JSON (refuted)."
  },
  {
   "property": "C57",
   "status": "partial",
   "theorems": [
    "Verif.Props.C57_mysql_json_ints_unreadable",
    "Verif.Props.C57_mysql_json_ints_partial"
   ],
   "note": "Refuted for two or more elements (universal negative); proved for at most one."
  },
  {
   "property": "C58",
   "status": "proved",
   "theorems": [
    "Verif.Props.C58_any_scalar_roundtrip"
   ],
   "note": "For any printing and parsing that are inverse to each other; that those of floating point numbers are, is proved in C94_list."
  },
  {
   "property": "C12",
   "status": "proved",
   "theorems": [
    "Verif.Props.C12_condition_total",
    "Verif.Props.C12_condition_binds",
    "Verif.Props.C12_condition_text"
   ],
   "note": "C12_condition_total has no hypothesis on the condition (an empty value list with anonymous placeholders panics, see C18); for the character level: column names free of the placeholder character."
  },
  {
   "property": "C13",
   "status": "proved",
   "theorems": [
    "Verif.Props.C13_grouping",
    "Verif.Props.C13_empty_condition_invalid",
    "Verif.Props.C13_empty_member_invalid"
   ],
   "note": "Also refuted for groups with an empty And/Or member (text is rejected)."
  },
  {
   "property": "C14",
   "status": "proved",
   "theorems": [
    "Verif.Props.C14_text_independent_of_values"
   ],
   "note": ""
  },
  {
   "property": "C15",
   "status": "proved",
   "theorems": [
    "Verif.Props.C15_pool_refines_fresh",
    "Verif.Props.C15_acquired_is_clean",
    "Verif.Props.C15_never_shared"
   ],
   "note": ""
  },
  {
   "property": "C16",
   "status": "proved",
   "theorems": [
    "Verif.Props.C16_format_condition",
    "Verif.Props.C16_format_query",
    "Verif.Props.C16_format_update",
    "Verif.Props.C16_format_delete",
    "Verif.Props.C16_format_needs_clean_names"
   ],
   "note": ""
  },
  {
   "property": "C17",
   "status": "proved",
   "theorems": [
    "Verif.Props.C17_query",
    "Verif.Props.C17_query_one",
    "Verif.Props.C17_update",
    "Verif.Props.C17_delete"
   ],
   "note": ""
  },
  {
   "property": "C18",
   "status": "partial",
   "theorems": [
    "Verif.Props.C18_in_values",
    "Verif.Props.C18_empty_in_panics",
    "Verif.Props.C18_empty_in_rejected"
   ],
   "note": "Proved for non-empty lists; refuted for the empty list: panic with anonymous placeholders, rejected text with numbered ones."
  },
  {
   "property": "C59",
   "status": "partial",
   "theorems": [
    "Verif.Props.C59_failure_is_silent",
    "Verif.Props.C59_complete_partial"
   ],
   "note": "Refuted: an iteration error is never reported. Proved part: every returned list is exactly the delivered rows."
  },
  {
   "property": "C60",
   "status": "partial",
   "theorems": [
    "Verif.Props.C60_offset_without_limit",
    "Verif.Props.C60_offset_with_limit_partial"
   ],
   "note": "Refuted for mysql and sqlite without limit; proved with a limit."
  },
  {
   "property": "C19",
   "status": "proved",
   "theorems": [
    "Verif.Props.C19_row_placeholders"
   ],
   "note": ""
  },
  {
   "property": "C20",
   "status": "proved",
   "theorems": [
    "Verif.Props.C20_insert_one"
   ],
   "note": ""
  },
  {
   "property": "C21",
   "status": "partial",
   "theorems": [
    "Verif.Props.C21_find_by_key_partial",
    "Verif.Props.C21_single_key_not_wrapped"
   ],
   "note": "Proved except that a single key whose column has an SQL wrapper is compared without the wrapper; that deviation is proved for every such table."
  },
  {
   "property": "C22",
   "status": "partial",
   "theorems": [
    "Verif.Props.C22_update_by_key_partial",
    "Verif.Props.C22_update_rejected"
   ],
   "note": "Proved when the WHERE placeholder number is right; with numbered placeholders and a single key, tables with readonly or extra key columns get a statement the database rejects, proved for every such table."
  },
  {
   "property": "C23",
   "status": "proved",
   "theorems": [
    "Verif.Props.C23_addrs_never_nil",
    "Verif.Props.C23_values_null_safe"
   ],
   "note": ""
  },
  {
   "property": "C24",
   "status": "proved",
   "theorems": [
    "Verif.Props.C24_pk_position",
    "Verif.Props.C24_composite_positions",
    "Verif.Props.C24_composite_names_unquoted"
   ],
   "note": "Composite names are reported unquoted even when identifiers are quoted elsewhere; the boundary is proved."
  },
  {
   "property": "C25",
   "status": "proved",
   "theorems": [
    "Verif.Props.C25_columns_addrs",
    "Verif.Props.C25_sql_columns",
    "Verif.Props.C25_values"
   ],
   "note": ""
  },
  {
   "property": "C54",
   "status": "partial",
   "theorems": [
    "Verif.Props.C54_sql_columns",
    "Verif.Props.C54_insert",
    "Verif.Props.C54_find",
    "Verif.Props.C54_update_releases_twice",
    "Verif.Props.C54_update_corrupted",
    "Verif.Props.C54_double_release_shares"
   ],
   "note": "Proved for column list, find and insert builders; refuted for the update builder, with the corruption of later statements that follows."
  },
  {
   "property": "C26",
   "status": "partial",
   "theorems": [
    "Verif.Props.C26_empty",
    "Verif.Props.C26_insert_pg_partial",
    "Verif.Props.C26_insert_my_partial",
    "Verif.Props.C26_generated_full",
    "Verif.Props.C26_auto_increment_fails",
    "Verif.Props.C26_auto_increment_fails_my",
    "Verif.Props.C26_readonly_short",
    "Verif.Props.C26_readonly_fails_my"
   ],
   "note": "Proved for models with one value per column (hand-written, or generated without readonly and auto-increment columns); refuted for every generated model with an auto-increment key or a readonly column."
  },
  {
   "property": "C27",
   "status": "partial",
   "theorems": [
    "Verif.Props.C27_empty",
    "Verif.Props.C27_upsert_one_text",
    "Verif.Props.C27_upsert_text",
    "Verif.Props.C27_upsert_one_partial",
    "Verif.Props.C27_upsert_partial",
    "Verif.Props.C27_given_targets_updated",
    "Verif.Props.C27_nothing_to_update",
    "Verif.Props.C27_auto_increment_fails"
   ],
   "note": "Proved for models with one value per column unless conflict columns are given by the caller; refuted for those (they are overwritten), for an empty update list (malformed) and for generated auto-increment models."
  },
  {
   "property": "C28",
   "status": "partial",
   "theorems": [
    "Verif.Props.C28_empty",
    "Verif.Props.C28_upsert_one_partial",
    "Verif.Props.C28_upsert_one_ignore_partial",
    "Verif.Props.C28_upsert_single_partial",
    "Verif.Props.C28_upsert_composite_partial",
    "Verif.Props.C28_upsert_one_composite_panics",
    "Verif.Props.C28_upsert_one_generated_fails",
    "Verif.Props.C28_upsert_auto_fails"
   ],
   "note": "Proved for single upsert with single keys and batches without auto-increment; refuted for composite keys in the single upsert (always panics), every auto-increment batch and generated models with fewer values than columns."
  },
  {
   "property": "C29",
   "status": "partial",
   "theorems": [
    "Verif.Props.C29_update_by_key_partial",
    "Verif.Props.C29_single_key_fails",
    "Verif.Props.C29_only_key_malformed",
    "Verif.Props.C29_composite_fails_anon",
    "Verif.Props.C29_composite_wrong_numbered"
   ],
   "note": "Refuted for all keys except a one-column composite key with numbered placeholders, for which it is proved."
  },
  {
   "property": "C30",
   "status": "proved",
   "theorems": [
    "Verif.Props.C30_find_by_key",
    "Verif.Props.C30_lock_by_key",
    "Verif.Props.C30_delete_by_key"
   ],
   "note": ""
  },
  {
   "property": "C33",
   "status": "proved",
   "theorems": [
    "Verif.Props.C33_insert_one_pg",
    "Verif.Props.C33_insert_one_my"
   ],
   "note": ""
  },
  {
   "property": "C31",
   "status": "partial",
   "theorems": [
    "Verif.Props.C31_pages_exactly_once_partial",
    "Verif.Props.C31_early_stop",
    "Verif.Props.C31_page_size_65535",
    "Verif.Props.C31_missing_start"
   ],
   "note": "Proved for unfiltered, key-ordered iteration from a record in the table with page sizes below 65535 (all tables, single and composite keys, both directions). False for page size 65535 (row count wraps to LIMIT 0: one empty page) and for a start record not in the table (error); filters and order columns produce malformed queries (C32)."
  },
  {
   "property": "C32",
   "status": "partial",
   "theorems": [
    "Verif.Props.C32_well_formed_iff"
   ],
   "note": "False in general; the theorem characterises exactly when the query has a well-formed condition: no order columns, and a filter or a cursor but not both."
  },
  {
   "property": "C34",
   "status": "proved",
   "theorems": [
    "Verif.Props.C34_unique_and_consecutive",
    "Verif.Props.C34_rejected_iff",
    "Verif.Props.C34_parsed_tables_wf"
   ],
   "note": "C34_rejected_iff characterises rejection completely; C34_parsed_tables_wf discharges the well-formedness assumption of the theorems on generated statements."
  },
  {
   "property": "C35",
   "status": "partial",
   "theorems": [
    "Verif.Props.C35_columns_partial",
    "Verif.Props.C35_embedded_non_struct_lost"
   ],
   "note": "Proved for structs that embed only struct declarations. False otherwise: an embedded type not declared as a struct is silently left out."
  },
  {
   "property": "C36",
   "status": "partial",
   "theorems": [
    "Verif.Props.C36_declaration_order_partial",
    "Verif.Props.C36_grouped_names_misordered",
    "Verif.Props.C36_deep_misordered",
    "Verif.Props.C36_order_depends_on_sorting"
   ],
   "note": "Proved up to two levels of embedding with one name per declaration (except in the last one of a struct). False for every struct with three or more names in a declaration followed by another one, and at three levels of embedding (shared backing arrays)."
  },
  {
   "property": "C37",
   "status": "proved",
   "theorems": [
    "Verif.Props.C37_keys",
    "Verif.Props.C34_rejected_iff"
   ],
   "note": ""
  },
  {
   "property": "C38",
   "status": "partial",
   "theorems": [
    "Verif.Props.C38_ignore_partial",
    "Verif.Props.C38_readonly_partial",
    "Verif.Props.C38_annotated_readonly_partial",
    "Verif.Props.C38_readonly_no_write_methods",
    "Verif.Props.C38_writable",
    "Verif.Props.C38_comment_ignored_when_embedding"
   ],
   "note": "Proved for structs embedding no struct. False for every struct embedding a struct: its comment has no effect."
  },
  {
   "property": "C39",
   "status": "proved",
   "theorems": [
    "Verif.Props.C39_options",
    "Verif.Props.C39_order"
   ],
   "note": ""
  },
  {
   "property": "C61",
   "status": "partial",
   "theorems": [
    "Verif.Props.C61_terminates_iff_partial",
    "Verif.Props.C61_self_embedding_diverges",
    "Verif.Props.C61_deterministic"
   ],
   "note": "Ends exactly when embedding is well-founded; on valid Go structs embedding a pointer to themselves the parser never ends."
  },
  {
   "property": "C62",
   "status": "partial",
   "theorems": [
    "Verif.Props.C62_accessor_safe_iff_partial",
    "Verif.Props.C62_accessor_panics_on_zero_value"
   ],
   "note": "Holds exactly for columns not inside an embedded pointer; otherwise the accessor panics on the zero value."
  },
  {
   "property": "C63",
   "status": "partial",
   "theorems": [
    "Verif.Props.C63_excluded_embedded_struct_kept"
   ],
   "note": "False: every column of an embedded struct tagged '-' is kept."
  },
  {
   "property": "C64",
   "status": "partial",
   "theorems": [
    "Verif.Props.C64_table_name_partial",
    "Verif.Props.C64_untagged_marker_renames"
   ],
   "note": "Proved for structs with at most one marker, which has a name in its tag. False with a marker without a name."
  },
  {
   "property": "C65",
   "status": "partial",
   "theorems": [
    "Verif.Props.C65_tag_names_partial",
    "Verif.Props.C65_table_names_partial",
    "Verif.Props.C65_not_ascii"
   ],
   "note": "Proved up to the two non-ASCII letters that case-insensitive matching adds."
  },
  {
   "property": "C66",
   "status": "partial",
   "theorems": [
    "Verif.Props.C66_distinct_iff_partial",
    "Verif.Props.C66_same_field_name_twice",
    "Verif.Props.C66_field_named_like_method"
   ],
   "note": "Exact condition for the default prefix; false when two columns come from fields of one name, and for fields named like a generated method."
  },
  {
   "property": "C40",
   "status": "proved",
   "theorems": [
    "Verif.Props.C40_bytes",
    "Verif.Props.C40_idempotent",
    "Verif.Props.C40_letters",
    "Verif.Props.C40_nothing_lost",
    "Verif.Props.C40_identifier",
    "Verif.Props.C40_words",
    "Verif.Props.C40_pascal_roundtrip",
    "Verif.Props.C40_collisions"
   ],
   "note": "Idempotence holds for all byte strings. C40_collisions records that different Go names may share a column name (the parser then rejects the struct, C34)."
  },
  {
   "property": "C41",
   "status": "partial",
   "theorems": [
    "Verif.Props.C41_alphabet",
    "Verif.Props.C41_letters",
    "Verif.Props.C41_pascal_words",
    "Verif.Props.C41_camel_words",
    "Verif.Props.C41_first_partial",
    "Verif.Props.C41_camel_capital",
    "Verif.Props.C41_pascal_small"
   ],
   "note": "First-letter case proved for texts starting with an ASCII letter; false for texts starting with '_' (camelCase starts with a capital) or with a byte that is no letter or separator (PascalCase starts small)."
  },
  {
   "property": "C42",
   "status": "partial",
   "theorems": [
    "Verif.Props.C42_signed",
    "Verif.Props.C42_unsigned",
    "Verif.Props.C42_stored_iff",
    "Verif.Props.C42_text",
    "Verif.Props.C42_text_unsigned",
    "Verif.Props.C42_uint64_never_read",
    "Verif.Props.C42_string_never_read"
   ],
   "note": "Proved for everything written as a 64-bit signed integer or sent as text bytes. C42_uint64_never_read: uint64 fields of MySQL and SQLite are written as uint64, which the scanners reject if a driver hands it back."
  },
  {
   "property": "C43",
   "status": "partial",
   "theorems": [
    "Verif.Props.C43_text_iff",
    "Verif.Props.C43_text_unsigned_iff",
    "Verif.Props.C43_int64_partial",
    "Verif.Props.C43_int64_unsigned_partial",
    "Verif.Props.C43_out_of_range_changed",
    "Verif.Props.C43_out_of_range_changed_unsigned"
   ],
   "note": "Holds for text; false for numbers: every number out of range is stored as another number."
  },
  {
   "property": "C44",
   "status": "proved",
   "theorems": [
    "Verif.Props.C44_scan_iff",
    "Verif.Props.C44_roundtrip"
   ],
   "note": "Exact characterisation in both modes, for value and pointer fields."
  },
  {
   "property": "C45",
   "status": "partial",
   "theorems": [
    "Verif.Props.C45_text_partial",
    "Verif.Props.C45_numbers_inverted",
    "Verif.Props.C45_others"
   ],
   "note": "Holds for text; for numbers the polarity is inverted."
  },
  {
   "property": "C46",
   "status": "partial",
   "theorems": [
    "Verif.Props.C46_scan_partial",
    "Verif.Props.C46_exact",
    "Verif.Props.C46_old_end_stays"
   ],
   "note": "Shorter values leave the end of the old value in place."
  },
  {
   "property": "C47",
   "status": "partial",
   "theorems": [
    "Verif.Props.C47_bytes",
    "Verif.Props.C47_ascii_partial",
    "Verif.Props.C47_string_differs",
    "Verif.Props.C47_null_keeps"
   ],
   "note": "Bytes are decoded; strings only if ASCII; NULL does not clear the field."
  },
  {
   "property": "C48",
   "status": "proved",
   "theorems": [
    "Verif.Props.C48_scalars",
    "Verif.Props.C48_text_partial",
    "Verif.Props.C48_text_nil_pointer",
    "Verif.Props.C48_scanner_partial",
    "Verif.Props.C48_scanner_nil_pointer",
    "Verif.Props.C48_stays_nil"
   ],
   "note": "C48_scalars is the property for the scalar scanners; the others are about types that read themselves."
  },
  {
   "property": "C49",
   "status": "proved",
   "theorems": [
    "Verif.Props.C49_text",
    "Verif.Props.C49_strict",
    "Verif.Props.C49_lenient"
   ],
   "note": ""
  },
  {
   "property": "C50",
   "status": "proved",
   "theorems": [
    "Verif.Props.C50_ints",
    "Verif.Props.C50_uints",
    "Verif.Props.C50_bools",
    "Verif.Props.C50_read_by_slices",
    "Verif.Props.C50_strings_json_iff"
   ],
   "note": "Beyond the property: lists of ASCII strings are JSON exactly if they contain no control characters other than those JSON can abbreviate the same way."
  },
  {
   "property": "C67",
   "status": "partial",
   "theorems": [
    "Verif.Props.C67_strings",
    "Verif.Props.C67_bytes_partial",
    "Verif.Props.C67_bytes_overwritten",
    "Verif.Props.C67_bytes_wrong"
   ],
   "note": "Strings are copied; []byte fields keep the buffer of the driver."
  },
  {
   "property": "C68",
   "status": "partial",
   "theorems": [
    "Verif.Props.C68_fits_iff_partial",
    "Verif.Props.C68_pg_int",
    "Verif.Props.C68_mysql_int64"
   ],
   "note": "Exact set of types whose columns are wide enough."
  },
  {
   "property": "C69",
   "status": "partial",
   "theorems": [
    "Verif.Props.C69_numbers_partial",
    "Verif.Props.C69_not_text"
   ],
   "note": "False for truth values: the method receives a byte 0 or 1."
  },
  {
   "property": "C70",
   "status": "partial",
   "theorems": [
    "Verif.Props.C70_rune_never_read_back",
    "Verif.Props.C70_digits"
   ],
   "note": "False for every rune: the text is parsed as a number."
  },
  {
   "property": "C71",
   "status": "partial",
   "theorems": [
    "Verif.Props.C71_runes_partial",
    "Verif.Props.C71_bytes",
    "Verif.Props.C71_string_too_long",
    "Verif.Props.C71_not_a_character"
   ],
   "note": "Proved for bytes, and for characters if the driver sends bytes; false for strings with characters outside ASCII and for runes that are no characters."
  },
  {
   "property": "C56",
   "status": "partial",
   "theorems": [
    "Verif.Props.C56_pg_actions_partial",
    "Verif.Props.C56_pg_none_iff",
    "Verif.Props.C56_pg_drop_only_missed",
    "Verif.Props.C56_mysql",
    "Verif.Props.C56_text",
    "Verif.Props.C56_clause"
   ],
   "note": "PostgreSQL: exact whenever a column is to be added or altered; a difference of dropped columns alone is never reported. MySQL: every existing column is dropped and nothing is added or altered."
  },
  {
   "property": "C72",
   "status": "partial",
   "theorems": [
    "Verif.Props.C72_pg_up_partial",
    "Verif.Props.C72_pg_nullability_stays",
    "Verif.Props.C72_pg_new_table_fails",
    "Verif.Props.C72_mysql_new_table_partial",
    "Verif.Props.C72_mysql_existing_table"
   ],
   "note": "Proved for existing PostgreSQL tables whose common columns have the right nullability, and for new MySQL tables. False otherwise: nullability is never changed, new PostgreSQL tables fail, existing MySQL tables lose every column."
  },
  {
   "property": "C73",
   "status": "partial",
   "theorems": [
    "Verif.Props.C73_pg_down_partial",
    "Verif.Props.C73_dropped_not_restored"
   ],
   "note": "Proved when no column is dropped; a dropped column is added without a type, which the database rejects."
  },
  {
   "property": "C74",
   "status": "partial",
   "theorems": [
    "Verif.Props.C74_settled_iff_partial",
    "Verif.Props.C74_bigint_never_settles"
   ],
   "note": "Holds exactly for types the catalogue spells as the model does."
  },
  {
   "property": "C55",
   "status": "partial",
   "theorems": [
    "Verif.Props.C55_mysql_iff",
    "Verif.Props.C55_pg_iff",
    "Verif.Props.C55_tag_names",
    "Verif.Props.C55_accepted_partial",
    "Verif.Props.C55_snake",
    "Verif.Props.C55_camel_empty"
   ],
   "note": "Exact characterisation per dialect; holds for all names from tags and all names made by snake_case. False for camelCase and PascalCase: Go names without ASCII letters or digits become the empty name. strconv.IsPrint is assumed to hold for letters, digits and the underscore."
  },
  {
   "property": "C75",
   "status": "partial",
   "theorems": [
    "Verif.Props.C75_mysql_iff_partial",
    "Verif.Props.C75_pg_iff_partial",
    "Verif.Props.C75_not_ascii"
   ],
   "note": "Exact characterisation; false for every text with a character outside of ASCII (only the first byte of each character is written)."
  },
  {
   "property": "C51",
   "status": "partial",
   "theorems": [
    "Verif.Props.C51_search_ends",
    "Verif.Props.C51_names_partial",
    "Verif.Props.C51_again",
    "Verif.Props.C51_own_name",
    "Verif.Props.C51_load_failure",
    "Verif.Props.C51_line_iff",
    "Verif.Props.C51_bare_line_wrong"
   ],
   "note": "Proved for packages that can be loaded. False otherwise: a package that cannot be loaded is given the name asked for, even if another has it, and is not imported. The import line names the package exactly if the alias is written or the last part of the path is the package name."
  },
  {
   "property": "C52",
   "status": "partial",
   "theorems": [
    "Verif.Props.C52_required",
    "Verif.Props.C52_wins_partial",
    "Verif.Props.C52_keeps_partial",
    "Verif.Props.C52_idempotent",
    "Verif.Props.C52_ignored",
    "Verif.Props.C52_quote_lost",
    "Verif.Props.C52_database_reset"
   ],
   "note": "Proved for the settings that are merged. False for read_only, omit_getters and source_map (ignored), quote_identifier (always overwritten) and the settings of the database (giving one resets the others)."
  },
  {
   "property": "C53",
   "status": "partial",
   "theorems": [
    "Verif.Props.C53_folder_iff",
    "Verif.Props.C53_folder_partial",
    "Verif.Props.C53_dotdot_nothing",
    "Verif.Props.C53_parent_skipped",
    "Verif.Props.C53_hidden_skipped",
    "Verif.Props.C53_file_partial",
    "Verif.Props.C53_below_partial",
    "Verif.Props.C53_below_sources",
    "Verif.Props.C53_plus_plus_panics",
    "Verif.Props.C53_plus_nothing",
    "Verif.Props.C53_capital_left_out",
    "Verif.Props.C53_star_iff",
    "Verif.Props.C53_star_too_many",
    "Verif.Props.C53_star_elsewhere"
   ],
   "note": "Exact for folders and files whose path has no dot parts. False for paths with `..` (nothing is selected), for `../x` and `.hidden` (resolved wrongly), for a `+` in a path, for directories with capital letters below `**` and for patterns with one star below directories with one-letter names."
  },
  {
   "property": "C76",
   "status": "partial",
   "theorems": [
    "Verif.Props.C76_last_source",
    "Verif.Props.C76_partial",
    "Verif.Props.C76_lost",
    "Verif.Props.C76_removed",
    "Verif.Props.C76_failed"
   ],
   "note": "Exact characterisation: the last source that reads a directory decides. False for two sources in one directory (code for what only the first selects is lost) and for runs that fail (the generated file is gone)."
  },
  {
   "property": "C77",
   "status": "partial",
   "theorems": [
    "Verif.Props.C77_found_iff",
    "Verif.Props.C77_partial",
    "Verif.Props.C77_lost",
    "Verif.Props.C77_lost_struct",
    "Verif.Props.C77_local",
    "Verif.Props.C77_order",
    "Verif.Props.C77_files_order"
   ],
   "note": "Exact characterisation. False for grouped declarations with a plain type before a struct (the struct is lost) and for types declared in functions (they are found)."
  },
  {
   "property": "C78",
   "status": "partial",
   "theorems": [
    "Verif.Props.C78_first",
    "Verif.Props.C78_partial",
    "Verif.Props.C78_second",
    "Verif.Props.C78_digit",
    "Verif.Props.C78_field_changed"
   ],
   "note": "Proved for one package whose path elements start with letters. False for a second package in a type, for path elements that start with a digit, and for field paths that have the package path in them as a text."
  },
  {
   "property": "C79",
   "status": "partial",
   "theorems": [
    "Verif.Props.C79_plain_partial",
    "Verif.Props.C79_pointer_partial",
    "Verif.Props.C79_pointer_named",
    "Verif.Props.C79_pointer_named_written",
    "Verif.Props.C79_pointer_array",
    "Verif.Props.C79_value_only",
    "Verif.Props.C79_config_pointer"
   ],
   "note": "Proved for types without pointers at the top and without methods or configuration, and for pointers to predeclared types, slices and structs. False for pointers to defined types that are no structs (read as JSON), pointers to byte and rune arrays, types with Value but no Scan, and pointer types in the configuration."
  },
  {
   "property": "C80",
   "status": "partial",
   "theorems": [
    "Verif.Props.C80_slice_iff",
    "Verif.Props.C80_pointer_slice",
    "Verif.Props.C80_named_array",
    "Verif.Props.C80_alias_array",
    "Verif.Props.C80_array_iff",
    "Verif.Props.C80_pointer_array_value"
   ],
   "note": "Exact for slices (only slices that are written out) and arrays (only non-empty ones that are written out). False for defined and aliased slice and array types and for pointers to them."
  },
  {
   "property": "C81",
   "status": "partial",
   "theorems": [
    "Verif.Props.C81_ends_partial",
    "Verif.Props.C81_self_ends",
    "Verif.Props.C81_mutual_hangs"
   ],
   "note": "Proved for all declarations that are not recursive, and for slices of themselves. False for types that are slices of each other: the search never ends."
  },
  {
   "property": "C82",
   "status": "partial",
   "theorems": [
    "Verif.Props.C82_insert_partial",
    "Verif.Props.C82_update_partial",
    "Verif.Props.C82_nothing_effect",
    "Verif.Props.C82_nothing_misassigns",
    "Verif.Props.C82_nothing_pair",
    "Verif.Props.C82_nothing_suffix_partial",
    "Verif.Props.C82_failure_is_silent",
    "Verif.Props.C82_panic_iff",
    "Verif.Props.C82_success_iff",
    "Verif.Props.C82_one",
    "Verif.Props.C82_one_nothing_fails"
   ],
   "note": "Proved for Insert and for Upsert with updates when all rows are delivered. False for DO NOTHING: the rows of later records are read into records that were passed over, and UpsertOne reports an error. False for answers that break off: success is reported. RETURNING is taken to give rows in the order of the records."
  },
  {
   "property": "C83",
   "status": "partial",
   "theorems": [
    "Verif.Props.C83_selector_iff",
    "Verif.Props.C83_insert_iff_partial",
    "Verif.Props.C83_string_never",
    "Verif.Props.C83_shadowed",
    "Verif.Props.C83_upsert_partial",
    "Verif.Props.C83_upsert_narrow_iff_partial",
    "Verif.Props.C83_ignored_zero",
    "Verif.Props.C83_ignored_wrong",
    "Verif.Props.C83_upsert_other_fails",
    "Verif.Props.C83_insert_many",
    "Verif.Props.C83_insert_success_iff",
    "Verif.Props.C83_upsert_success_iff",
    "Verif.Props.C83_insert_many_success_iff"
   ],
   "note": "Exact for InsertOne and integer keys. False for numbers the type does not have (wrapped), string keys, keys shadowed by a field of the same name, records that INSERT IGNORE passes over (the key becomes 0), and batches (keys are never set). Floating point keys are not modelled."
  },
  {
   "property": "C84",
   "status": "partial",
   "theorems": [
    "Verif.Props.C84_panics_iff",
    "Verif.Props.C84_valuer",
    "Verif.Props.C84_null",
    "Verif.Props.C84_bool",
    "Verif.Props.C84_int",
    "Verif.Props.C84_uint",
    "Verif.Props.C84_text_pg",
    "Verif.Props.C84_text_mysql_iff_partial",
    "Verif.Props.C84_mysql_nul",
    "Verif.Props.C84_text_sqlite_iff_partial",
    "Verif.Props.C84_bytes_pg_iff_partial",
    "Verif.Props.C84_float_iff_partial",
    "Verif.Props.C84_small_float",
    "Verif.Props.C84_time_pg",
    "Verif.Props.C84_time_fraction"
   ],
   "note": "Proved for null, truth values, integers and PostgreSQL texts; exact conditions for MySQL and SQLite texts, PostgreSQL byte strings, and floating point numbers. False for times, for pointers and composite types (panic). Texts are valid UTF-8, numbers finite."
  },
  {
   "property": "C85",
   "status": "partial",
   "theorems": [
    "Verif.Props.C85_iff_partial",
    "Verif.Props.C85_fresh_partial",
    "Verif.Props.C85_used_partial",
    "Verif.Props.C85_map_leftover",
    "Verif.Props.C85_bad_text",
    "Verif.Props.C85_null",
    "Verif.Props.C85_json_null_keeps",
    "Verif.Props.C85_error_iff",
    "Verif.Props.C85_reads_iff",
    "Verif.Props.C85_text_alike",
    "Verif.Props.C85_reordered_iff"
   ],
   "note": "Exact condition. Proved for new records whose fields are all written, and for used records without maps. False for maps in used records (entries stay), for fields that are not written or left out, pointers to nil, strings that are not UTF-8, and JSON null. Types are not recursive; encoding/json is specified on JSON values; that its text is read as the value it was written for is an assumption here, and proved in C87."
  },
  {
   "property": "C86",
   "status": "partial",
   "theorems": [
    "Verif.Props.C86_own_iff_partial",
    "Verif.Props.C86_promoted",
    "Verif.Props.C86_wrong_is_silent",
    "Verif.Props.C86_plain",
    "Verif.Props.C86_enough",
    "Verif.Props.C86_all_own_partial",
    "Verif.Props.C86_only_required",
    "Verif.Props.C86_strict_stops",
    "Verif.Props.C86_embedded_model"
   ],
   "note": "Exact condition for one method; proved for structs where nothing they have or embed carries the names. False for structs that embed a model: its methods are promoted, nothing is written and no error is reported, in strict mode too. False for methods of another signature or receiver unless the mode is strict. A field with the name of a method is C66."
  },
  {
   "property": "C87",
   "status": "partial",
   "theorems": [
    "Verif.Props.C87_written",
    "Verif.Props.C87_read",
    "Verif.Props.C87_back_iff_partial",
    "Verif.Props.C87_database_iff_partial",
    "Verif.Props.C87_only_json",
    "Verif.Props.C87_too_deep",
    "Verif.Props.C87_deep_lost"
   ],
   "note": "The text of JSON is modelled, so that C85 holds without an assumption about it, for types whose values are nested at most 10000 deep. False for deeper values: they are written and cannot be read. Whether a value comes back is decided by the conditions of C85. Text after the first value is ignored. Strings that are not UTF-8 and halves of surrogate pairs have no meaning in the spec."
  },
  {
   "property": "C88",
   "status": "partial",
   "theorems": [
    "Verif.Props.C88_iff",
    "Verif.Props.C88_bytes",
    "Verif.Props.C88_unique",
    "Verif.Props.C88_every_iff",
    "Verif.Props.C88_day_unique",
    "Verif.Props.C88_wall",
    "Verif.Props.C88_wall_iff_partial",
    "Verif.Props.C88_space_zone_never",
    "Verif.Props.C88_no_day_never",
    "Verif.Props.C88_number",
    "Verif.Props.C88_time"
   ],
   "note": "Exactly which texts are read and as which instants; the calendar is counted day by day. False for texts of drivers: without a zone the text is taken as UTC, so times from a driver set to another zone are off by its distance, and a text with a space and a zone, which the SQLite driver writes for a time, is never read; nor is a day that is not in the calendar, such as 0000-00-00. time.Parse of Go 1.24 is modelled for the four layouts in use; the zone attached to a time is not."
  },
  {
   "property": "C89",
   "status": "partial",
   "theorems": [
    "Verif.Props.C89_insert",
    "Verif.Props.C89_find",
    "Verif.Props.C89_update_partial",
    "Verif.Props.C89_delete_partial",
    "Verif.Props.C89_delete_iff",
    "Verif.Props.C89_reserved_never",
    "Verif.Props.C89_other_table"
   ],
   "note": "The generated statements quote names and are read as intended for all names without the quote character. The DELETE of the helpers has names without quotes unless configured otherwise: C89_delete_iff says exactly when it means the same table; false for reserved words (C89_reserved_never: refused) and for names with capital letters in PostgreSQL (C89_other_table: another table). UPDATE only as far as C22 goes; columns without SQL templates."
  },
  {
   "property": "C90",
   "status": "partial",
   "theorems": [
    "Verif.Props.C90_empty",
    "Verif.Props.C90_keyed_store",
    "Verif.Props.C90_made_up_keys",
    "Verif.Props.C90_reads_back",
    "Verif.Props.C90_reserved_never",
    "Verif.Props.C90_other_table"
   ],
   "note": "By simulation between the database running the generated statements and a map, for sequences of any length. Assumes columns that are written back unchanged by their codings, no read-only columns and no SQL templates, names as in C89, and that made-up keys are new. Refuted for tables named by a reserved word, or with capital letters in PostgreSQL."
  },
  {
   "property": "C91",
   "status": "partial",
   "theorems": [
    "Verif.Props.C91_insert",
    "Verif.Props.C91_upsert_replace",
    "Verif.Props.C91_upsert_repeated",
    "Verif.Props.C91_upsert_keep_partial",
    "Verif.Props.C91_keep_overwrites",
    "Verif.Props.C91_upsert_one",
    "Verif.Props.C91_sqlite_upsert_never",
    "Verif.Props.C91_nothing_to_replace",
    "Verif.Props.C91_composite_one_never",
    "Verif.Props.C91_reserved_never"
   ],
   "note": "By parsing and executing the statements of the helpers on a database. Proved for Insert, Upsert and UpsertOne in PostgreSQL and MySQL, all records and contents. Refuted: with do-nothing in PostgreSQL the first record in memory is overwritten with another one (C91_keep_overwrites); no upsert works in SQLite (C91_sqlite_upsert_never), with nothing to replace (C91_nothing_to_replace), or one at a time with composite keys outside PostgreSQL (C91_composite_one_never); no batch insert works with a reserved word as column name unless quoting is configured (C91_reserved_never). Assumptions as in C90; keys given by the program; composite keys only without configured quoting; conflict columns given by the caller are left out."
  },
  {
   "property": "C92",
   "status": "partial",
   "theorems": [
    "Verif.Props.C92_query_partial",
    "Verif.Props.C92_query_one_partial",
    "Verif.Props.C92_update_partial",
    "Verif.Props.C92_delete_partial",
    "Verif.Props.C92_plain",
    "Verif.Props.C92_found_plain",
    "Verif.Props.C92_groups",
    "Verif.Props.C92_nil",
    "Verif.Props.C92_not_in_nil",
    "Verif.Props.C92_nil_record",
    "Verif.Props.C92_hollow",
    "Verif.Props.C92_not_allowed",
    "Verif.Props.C92_offset_alone",
    "Verif.Props.C92_no_set",
    "Verif.Props.C92_select_count",
    "Verif.Props.C92_select_order",
    "Verif.Props.C92_reserved"
   ],
   "note": "By parsing and executing the statements on a database with three-valued logic. Proved for all nested conditions without empty groups and lists, all columns or none selected; conditions mean what they say wherever nothing compared is nil (C92_plain, C92_found_plain). Refuted: comparisons with nil find nothing, not even inequality (C92_nil, C92_not_in_nil, C92_nil_record); an empty group or list anywhere makes every statement fail or panic (C92_hollow); orders and limits in updates and deletes fail outside MySQL (C92_not_allowed), offsets without limit outside PostgreSQL (C92_offset_alone), updates that set nothing (C92_no_set); selecting fewer columns fails and selecting them in another order fills the wrong fields (C92_select_count, C92_select_order); reserved words as column names without quoting (C92_reserved). Left out: GroupBy, FromTable, raw text in Select, hand-written WhereClause functions, new values for key columns."
  },
  {
   "property": "C93",
   "status": "partial",
   "theorems": [
    "Verif.Props.C93_pages_partial",
    "Verif.Props.C93_static_partial",
    "Verif.Props.C93_stop",
    "Verif.Props.C93_missing",
    "Verif.Props.C93_filter",
    "Verif.Props.C93_filter_cursor",
    "Verif.Props.C93_nothing",
    "Verif.Props.C93_order",
    "Verif.Props.C93_composite",
    "Verif.Props.C93_limit_65535"
   ],
   "note": "By parsing and executing the statements on a database that others change between any two of them. Proved for listings from a given record on without filter and order columns: C93_pages_partial (under all changes by others), C93_static_partial (without changes: exactly the stored records from the given one on), C93_missing, C93_stop. Refuted, each for all inputs of its kind: with a filter every listing of more than one page ends in an error after the first page (C93_filter), and in an error at once with a start record (C93_filter_cursor); without filter and start record there is an error (C93_nothing); with order columns no page is ever delivered, and if the database makes up the key, ordering by the last column panics (C93_order); keys of several columns fail outside PostgreSQL (C93_composite); pages of 65535 are empty (C93_limit_65535). Models may have read-only columns; C93_order has the exact range of columns that panic. Left out: conditions with empty groups or lists."
  },
  {
   "property": "C94",
   "status": "partial",
   "theorems": [
    "Verif.Props.C94_number",
    "Verif.Props.C94_bits",
    "Verif.Props.C94_text",
    "Verif.Props.C94_text_unique",
    "Verif.Props.C94_wide_text",
    "Verif.Props.C94_printed",
    "Verif.Props.C94_shortest",
    "Verif.Props.C94_string",
    "Verif.Props.C94_int_iff_partial",
    "Verif.Props.C94_narrow_iff_partial",
    "Verif.Props.C94_narrow_infinite",
    "Verif.Props.C94_list",
    "Verif.Props.C94_list_json_iff_partial",
    "Verif.Props.C94_list_mysql",
    "Verif.Props.C94_marshal_iff_partial",
    "Verif.Props.C94_marshal_zeros",
    "Verif.Props.C94_column_partial",
    "Verif.Props.C94_column_mysql_iff"
   ],
   "note": "Proved: round trips of fields (C94_number) and lists (C94_list), reading of texts as an if and only if (C94_text, C94_text_unique), also of texts printed for the wider type (C94_wide_text). Refuted: MySQL columns for float64 are FLOAT and hold exactly the float32 numbers (C94_column_mysql_iff); numbers of 2^128 or more become infinity in float32 fields without an error (C94_narrow_infinite; exactly C94_narrow_iff_partial, for whole numbers C94_int_iff_partial); lists are JSON if and only if all values are finite (C94_list_json_iff_partial); lists of two or more cannot be read from a JSON column of MySQL (C94_list_mysql); without a precision numbers are rounded to whole ones (C94_marshal_iff_partial, C94_marshal_zeros). Left open: texts with underscores or the letter x, longer texts, and how databases print numbers."
  },
  {
   "property": "C95",
   "status": "partial",
   "theorems": [
    "Verif.Props.C95_file",
    "Verif.Props.C95_builtin",
    "Verif.Props.C95_source",
    "Verif.Props.C95_flag_partial",
    "Verif.Props.C95_flag_mixed",
    "Verif.Props.C95_flag_lost",
    "Verif.Props.C95_flag_error",
    "Verif.Props.C95_broken",
    "Verif.Props.C95_init",
    "Verif.Props.C95_init_keeps"
   ],
   "note": "Proved for runs without -c, for init, and with -c in a directory without configuration file. Refuted: with -c, what the file of the directory turns on stays on, and its data types and migrations are used too (C95_flag_mixed); read_only, omit_getters and source_map of the given file are never used (C95_flag_lost); if the file of the directory cannot be read, every run panics, also with -c and when init is to replace it (C95_broken). YAML is left open; for C95_init it is assumed that what is written is read back."
  },
  {
   "property": "C96",
   "status": "partial",
   "theorems": [
    "Verif.Props.C96_field",
    "Verif.Props.C96_store_partial",
    "Verif.Props.C96_reads_back_partial",
    "Verif.Props.C96_made_up_keys_partial",
    "Verif.Props.C96_query_partial",
    "Verif.Props.C96_update_partial",
    "Verif.Props.C96_delete_partial",
    "Verif.Props.C96_pages_partial",
    "Verif.Props.C96_pages_changing_partial",
    "Verif.Props.C96_insert_partial",
    "Verif.Props.C96_upsert_partial",
    "Verif.Props.C96_upsert_keep_partial",
    "Verif.Props.C96_upkeep_partial",
    "Verif.Props.C96_large_unsigned",
    "Verif.Props.C96_mysql_float64",
    "Verif.Props.C96_programs_partial",
    "Verif.Props.C96_stores_iff"
   ],
   "note": "Proved for all values that fit the columns which the dialect declares, for records and conditions; keys are not pointers, and the restrictions of C90, C91, C92, C93 and C97 apply; batches and upserts (as in C91), read-only columns (as in C97) and pages while the table changes (as in C93) included. Refuted: unsigned numbers of 2^63 or more are stored as negative ones by PostgreSQL (uint64) and SQLite (uint), are not read back from texts and are found in the wrong place (C96_large_unsigned); on MySQL float64 fields keep single precision only (C96_mysql_float64). Assumed of databases and drivers: spec Cell (what a column keeps of a parameter that fits, and in which forms a driver hands it over), and comparison of numbers by size and of texts by bytes, that is, with a binary collation. Left out: NaN, infinities, negative zero, runes, bytes, times, pointers to defined types (C79), arrays and JSON."
  },
  {
   "property": "C97",
   "status": "partial",
   "theorems": [
    "Verif.Props.C97_upkeep_partial",
    "Verif.Props.C97_insert_then_find",
    "Verif.Props.C97_never_overwritten_partial",
    "Verif.Props.C97_update_never",
    "Verif.Props.C97_insert_stale"
   ],
   "note": "Proved for every database that fills in read-only columns as a function of the time, the row before and the new row, and may forbid writing them: C97_upkeep_partial (all sequences of operations, keys given or made up), C97_never_overwritten_partial (a column set on insert, such as the time, keeps its value). Missing there: updates of models with one key where parameters are numbered. Refuted: for these UpdateByPK fails, whatever the database and the record (C97_update_never, from C22); after InsertOne in MySQL and SQLite the record does not have what the database filled in (C97_insert_stale, C97_insert_then_find); after UpdateByPK it never has. Left out: templates, multi-row inserts."
  },
  {
   "property": "C98",
   "status": "partial",
   "theorems": [
    "Verif.Props.C98_serial_partial",
    "Verif.Props.C98_undisturbed_partial",
    "Verif.Props.C98_one_winner_partial",
    "Verif.Props.C98_lost_update"
   ],
   "note": "Proved for all clients and orders of calls (C98_serial_partial), with what follows for a record that nobody else writes and for inserts under one key. What is asked of calls is asked only of those that clients come to make. Each call sends one statement, which the database runs as a whole. The helpers take a *sql.DB, so no call is part of a transaction of the program. Missing: Paginate (C93), upserts on SQLite; connections that fail are in C103, and the restrictions of C90 to C92 (every column written; batches with keys that the program gives). Nothing is said of the records in memory after an upsert on PostgreSQL that keeps rows (C91_keep_overwrites). Refuted, beyond the property: two clients that find a record, set different fields and update it lose the change of the first, for every model and record, since UpdateByPK writes all columns (C98_lost_update)."
  },
  {
   "property": "C99",
   "status": "partial",
   "theorems": [
    "Verif.Props.C99_field",
    "Verif.Props.C99_stores_iff",
    "Verif.Props.C99_store_partial",
    "Verif.Props.C99_reads_back_partial",
    "Verif.Props.C99_insert_partial",
    "Verif.Props.C99_upsert_partial",
    "Verif.Props.C99_upsert_keep_partial",
    "Verif.Props.C99_upkeep_partial",
    "Verif.Props.C99_query_partial",
    "Verif.Props.C99_update_partial",
    "Verif.Props.C99_delete_partial",
    "Verif.Props.C99_pages_partial",
    "Verif.Props.C99_programs_partial",
    "Verif.Props.C99_postgres_no_column",
    "Verif.Props.C99_postgres_large_elements",
    "Verif.Props.C99_mysql_json",
    "Verif.Props.C99_mysql_numbers",
    "Verif.Props.C99_mysql_texts",
    "Verif.Props.C99_text_times"
   ],
   "note": "Proved for every database and driver that does what is documented (Spec.Rich.Behaves), for all values that fit; C99_stores_iff says which these are, by dialect and type. Missing: pointers to lists, lists of lists, arrays with a given size, types with methods of their own, times as keys of tables on MySQL without parseTime; comparisons of lists and LIKE are those of the database, whatever they are; and the restrictions of C90 to C93, C97 and C98. Refuted where values do not fit: on PostgreSQL []byte and lists of floating point numbers get column types that do not exist (C99_postgres_no_column), and lists of int, uint and uint32 get arrays of 32 bits, which keep exactly the lists whose elements fit (C99_postgres_large_elements); on MySQL, whose JSON columns print a space after each comma, no list of two or more numbers is read back and lists of truth values are no JSON (C99_mysql_numbers), and lists of two or more texts are read without an error as other texts (C99_mysql_texts); times in text columns, as on SQLite, are never read into time.Time (C99_text_times)."
  },
  {
   "property": "C100",
   "status": "partial",
   "theorems": [
    "Verif.Props.C100_insert_read",
    "Verif.Props.C100_keyed_store",
    "Verif.Props.C100_made_up_keys",
    "Verif.Props.C100_wrapped_key_lost",
    "Verif.Props.C100_batch_raw",
    "Verif.Props.C100_batch_misread",
    "Verif.Props.C100_batch_lost"
   ],
   "note": "Proved for keys without templates, given or made up by the database, and templates that are expressions of function calls, numbers and texts around one place for the value (numbered placeholders: one or more); columns take whatever the functions give. Refuted for a key of one column with a template for values: records are inserted under what the function makes of the key but looked up under the key itself, so that no find finds anything and no delete deletes (C100_wrapped_key_lost); and for Insert of several records other than on PostgreSQL, which writes the values without the functions (C100_batch_raw), so that reads give what the other function makes of raw values, or fail (C100_batch_misread, C100_batch_lost; a database whose columns have types may refuse the batch instead). Missing: Insert with templates on PostgreSQL, UpdateByPK with a wrapped key, conditions on wrapped columns (they compare unwrapped), operators and casts in templates."
  },
  {
   "property": "C101",
   "status": "partial",
   "theorems": [
    "Verif.Props.C101_column",
    "Verif.Props.C101_types",
    "Verif.Props.C101_null_iff",
    "Verif.Props.C101_field_iff_partial",
    "Verif.Props.C101_field",
    "Verif.Props.C101_store_partial",
    "Verif.Props.C101_reads_back_partial",
    "Verif.Props.C101_insert_partial",
    "Verif.Props.C101_upsert_partial",
    "Verif.Props.C101_upsert_keep_partial",
    "Verif.Props.C101_upkeep_partial",
    "Verif.Props.C101_query_partial",
    "Verif.Props.C101_update_partial",
    "Verif.Props.C101_delete_partial",
    "Verif.Props.C101_pages_partial",
    "Verif.Props.C101_programs_partial",
    "Verif.Props.C101_map_leftover",
    "Verif.Props.C101_unwritten",
    "Verif.Props.C101_deep_lost"
   ],
   "note": "Proved for document types without maps of which all fields are written, for values whose texts are made of characters and whose pointers do not point to something nil, with keys of the types of C99; MySQL keeps JSON values of at most 100 levels, PostgreSQL and SQLite texts. One field exactly: what is read is what was stored if and only if the conditions of C85 hold, which depend on what the field had before (C101_field_iff_partial). Refuted for maps, where entries of the record that is read into stay (C101_map_leftover); for fields of structs that are not exported, have the tag json:\"-\", or are empty and have omitempty (C101_unwritten); and for documents nested deeper than 10000, which are stored and cannot be read (C101_deep_lost). The column is NULL exactly for nil pointers: lists and maps that are nil are JSON's null (C101_null_iff). What comparisons of documents give is left to the database; PostgreSQL has none for its type json, where such conditions fail. Missing: floating point numbers, interfaces, byte strings and types with their own MarshalJSON in documents, keys made up by the database, maps read into new records."
  },
  {
   "property": "C102",
   "status": "partial",
   "theorems": [
    "Verif.Props.C102_arguments",
    "Verif.Props.C102_addrs",
    "Verif.Props.C102_steps",
    "Verif.Props.C102_records_partial",
    "Verif.Props.C102_parsed",
    "Verif.Props.C102_declared",
    "Verif.Props.C102_never_nil",
    "Verif.Props.C102_unreadable",
    "Verif.Props.C102_key_panics",
    "Verif.Props.C102_find_or_create",
    "Verif.Props.C102_null_read",
    "Verif.Props.C102_typed"
   ],
   "note": "Proved for all structs and all choices of nil pointers: what the arguments are (C102_arguments), what Addrs leaves (C102_addrs), and exactly what every sequence of calls does with the rows and with the structs (C102_steps, from the declaration C102_declared); with no embedded pointer nil, calls are operations on a map from keys to records (C102_records_partial). For fields of predeclared types, types defined from them and pointers: a struct that was inserted is found later if and only if no field behind a nil pointer is a string, bool, int64 or float64; the fields behind nil pointers are then zero (C102_typed). Refuted for nil embedded pointers: after FindByPK none is nil, whatever was stored (C102_never_nil); if a field behind one does not accept NULL the inserted row cannot be read, and on PostgreSQL InsertOne returns an error with the row stored (C102_unreadable); where the key is made up by the database and is behind a nil pointer InsertOne panics with the row stored (C102_key_panics); FindByPK without a row allocates the pointers, so that a following InsertOne stores zero values instead of NULLs (C102_find_or_create). Missing: read-only columns and columns with functions of the database, batches, upserts and queries with such structs."
  },
  {
   "property": "C103",
   "status": "partial",
   "theorems": [
    "Verif.Props.C103_once_partial",
    "Verif.Props.C103_serial_partial",
    "Verif.Props.C103_insist_partial",
    "Verif.Props.C103_twice",
    "Verif.Props.C103_query_short",
    "Verif.Props.C103_insert_silent",
    "Verif.Props.C103_upsert_silent",
    "Verif.Props.C103_not_once",
    "Verif.Props.C103_pages_prefix",
    "Verif.Props.C103_pages_fine",
    "Verif.Props.C103_pages_partial",
    "Verif.Props.C103_pages_short",
    "Verif.Props.C103_pages_missing"
   ],
   "note": "Proved for all calls, for statements that do not arrive and for answers that are lost (C103_once_partial), for all clients and orders (C103_serial_partial), and for a client that makes a call for one record again and again while the others keep away from the record (C103_insist_partial). Refuted where an answer ends with an error after some rows while a helper goes through them, since rows.Err is never asked: QueryStmt returns the rows so far as all there are (C103_query_short), and Insert and Upsert on PostgreSQL return no error though the statement is undone and nothing is stored, even if all rows have arrived, as when a commit fails (C103_insert_silent, C103_upsert_silent, C103_not_once). Refuted for keys that the database makes up: a call of InsertOne whose answer is lost, made again, stores the record twice (C103_twice). Pagination: the iteration goes as over connections that work, or yields the first of those pages and then an error (C103_pages_prefix, C103_pages_partial), unless the answer to a page query is cut: then what has arrived is yielded as the last page, without an error, so that any number of the last records of a listing can be left out (C103_pages_short, C103_pages_missing). Missing: the restrictions of C98, for pagination those of C93."
  },
  {
   "property": "C104",
   "status": "partial",
   "theorems": [
    "Verif.Props.C104_methods",
    "Verif.Props.C104_field",
    "Verif.Props.C104_field_iff_partial",
    "Verif.Props.C104_nil",
    "Verif.Props.C104_store_partial",
    "Verif.Props.C104_reads_back_partial",
    "Verif.Props.C104_insert_partial",
    "Verif.Props.C104_upsert_partial",
    "Verif.Props.C104_upsert_keep_partial",
    "Verif.Props.C104_upkeep_partial",
    "Verif.Props.C104_query_partial",
    "Verif.Props.C104_update_partial",
    "Verif.Props.C104_delete_partial",
    "Verif.Props.C104_pages_partial",
    "Verif.Props.C104_programs_partial",
    "Verif.Props.C104_nil_value",
    "Verif.Props.C104_receiver",
    "Verif.Props.C104_scan_only",
    "Verif.Props.C104_value_only",
    "Verif.Props.C104_text_pointer"
   ],
   "note": "Proved for defined types with Value and Scan and pointers to them, for structs and maps with MarshalText and UnmarshalText and pointers to such structs, and for types of JSON documents with any methods for JSON, for values that their methods give back from what the column hands over. Exact for one field (C104_field_iff_partial). Refuted: a pointer to a value for which Value gives nil is nil afterwards (C104_nil_value); a struct of which only the pointer has MarshalText is written as JSON and read with UnmarshalText (C104_receiver), one with Scan and without Value is written as text or JSON and read with Scan (C104_scan_only), one with Value and without Scan is not read at all if Value gives a number, a time or a truth value (C104_value_only); a pointer to a map with MarshalText and UnmarshalText is written as text and read as JSON (C104_text_pointer). Missing: methods that fail, JSON columns that do not keep the text (MySQL, PostgreSQL jsonb) for types with methods, keys that the database makes up, the restrictions of C91, C92, C93, C97, C98."
  },
  {
   "property": "C105",
   "status": "partial",
   "theorems": [
    "Verif.Props.C105_insert_partial",
    "Verif.Props.C105_upsert_partial",
    "Verif.Props.C105_upsert_one_partial",
    "Verif.Props.C105_query_partial",
    "Verif.Props.C105_query_one_partial",
    "Verif.Props.C105_update_partial",
    "Verif.Props.C105_delete_partial",
    "Verif.Props.C105_moves_partial",
    "Verif.Props.C105_records_insert_partial",
    "Verif.Props.C105_records_upsert_partial",
    "Verif.Props.C105_records_query_partial",
    "Verif.Props.C105_query_iff",
    "Verif.Props.C105_poison",
    "Verif.Props.C105_insert_poisons"
   ],
   "note": "Proved for structs without nil embedded pointers (C105_records_insert_partial, C105_records_upsert_partial, C105_records_query_partial). What happens with any structs is described exactly, for all sequences of calls (C105_moves_partial): NULL is stored for fields that cannot be reached, no call panics, and reading back is decided by what the fields accept. Refuted beyond: a query fails if and only if one of the rows that it gives cannot be read (C105_query_iff), and then gives none of the others (C105_poison); a batch with a nil embedded pointer, and a field behind it that does not accept NULL, is stored as a whole, with an error on PostgreSQL and silently elsewhere, and from then on a query for all records fails (C105_insert_poisons). Missing: keys that the database makes up, structs of a batch that share what they point to, pagination, the restrictions of C91 and C92."
  },
  {
   "property": "C106",
   "status": "partial",
   "theorems": [
    "Verif.Props.C106_reads_partial",
    "Verif.Props.C106_way_back_iff",
    "Verif.Props.C106_no_way_back",
    "Verif.Props.C106_mysql_new_partial",
    "Verif.Props.C106_mysql_no_way_back",
    "Verif.Props.C106_text_default_iff",
    "Verif.Props.C106_plain_default",
    "Verif.Props.C106_bytes_default",
    "Verif.Props.C106_same_key_refused",
    "Verif.Props.C106_second_script_refused"
   ],
   "note": "Proved for all scripts whose names have no quotes and whose types and defaults can be read by themselves: the script is read as its statements and clauses, both ways (C106_reads_partial); for PostgreSQL with the scripts that Migrate writes (C106_way_back_iff), for MySQL with new tables (C106_mysql_new_partial). Refuted beyond: the way back is read exactly if no column is dropped, as it has no types for them (C106_way_back_iff, C106_no_way_back), and never for a table that exists on MySQL (C106_mysql_no_way_back); a default that is a text is read as that text if and only if it has no quote and on MySQL no backslash (C106_text_default_iff; numbers and truth values always are, C106_plain_default), and a default of bytes panics (C106_bytes_default); the name of a key comes from its columns alone, so in a schema of PostgreSQL the second table with the same key columns is refused (C106_same_key_refused, C106_second_script_refused). Missing: queries to the catalogue, expressions in defaults beyond their symbols, whether the types exist, rows."
  },
  {
   "property": "C107",
   "status": "partial",
   "theorems": [
    "Verif.Props.C107_ends_iff_partial",
    "Verif.Props.C107_once_partial",
    "Verif.Props.C107_type_stays_iff",
    "Verif.Props.C107_type_missing_iff",
    "Verif.Props.C107_serial_iff",
    "Verif.Props.C107_forever_type",
    "Verif.Props.C107_forever_null",
    "Verif.Props.C107_serial_rejected",
    "Verif.Props.C107_missing_rejected"
   ],
   "note": "Proved for columns that do not count up and whose types exist: migrating again and again ends exactly if the catalogue shows all types as they were written and nullability was right (C107_ends_iff_partial), and then after one round (C107_once_partial). For every Go type and size it is settled which ones these are (C107_type_stays_iff) and whose SQL types do not exist: []byte, []float32, []float64, arrays of strings and of truth values, texts that are too long (C107_type_missing_iff). Refuted beyond: int64, uint64, byte, rune, floats and lists are changed again in every round, without end (C107_forever_type), so are columns with another nullability (C107_forever_null); once a column that counts up exists, every migration is rejected (C107_serial_rejected), and so is every one with a type that does not exist (C107_missing_rejected); int64 never counts up (C107_serial_iff). Missing: types that users configure, rows whose values cannot be converted."
  },
  {
   "property": "C108",
   "status": "partial",
   "theorems": [
    "Verif.Props.C108_mysql",
    "Verif.Props.C108_pg_partial",
    "Verif.Props.C108_pg_foreign_column",
    "Verif.Props.C108_pg_overlooked"
   ],
   "note": "Proved for MySQL for all databases (C108_mysql), for PostgreSQL if no other schema has a table of that name (C108_pg_partial). Refuted for PostgreSQL otherwise, as the query names no schema: columns of the other table are dropped from the table, which is rejected (C108_pg_foreign_column), and columns the table lacks are overlooked (C108_pg_overlooked). Missing: columns the user may not see, folding of names of tables on MySQL."
  },
  {
   "property": "C109",
   "status": "partial",
   "theorems": [
    "Verif.Props.C109_field",
    "Verif.Props.C109_bytes_iff_partial",
    "Verif.Props.C109_runes_iff_partial",
    "Verif.Props.C109_bytes_kept_iff",
    "Verif.Props.C109_store_partial",
    "Verif.Props.C109_reads_back_partial",
    "Verif.Props.C109_insert_partial",
    "Verif.Props.C109_upsert_partial",
    "Verif.Props.C109_upsert_keep_partial",
    "Verif.Props.C109_upkeep_partial",
    "Verif.Props.C109_query_partial",
    "Verif.Props.C109_update_partial",
    "Verif.Props.C109_delete_partial",
    "Verif.Props.C109_pages_partial",
    "Verif.Props.C109_programs_partial",
    "Verif.Props.C109_spaces",
    "Verif.Props.C109_too_small_runes",
    "Verif.Props.C109_no_size_bytes",
    "Verif.Props.C109_postgres_zero",
    "Verif.Props.C109_sqlite_bytes",
    "Verif.Props.C109_sqlite_runes"
   ],
   "note": "Proved next to the types of C104 for arrays that their columns keep: all bytes on SQLite (C109_sqlite_bytes); elsewhere bytes that are UTF-8 of at most as many characters as the size in the tag (C109_bytes_kept_iff), without NUL on PostgreSQL and without a space at the end on MySQL; characters where the driver hands over bytes, or if they are ASCII. Exact for one field (C109_bytes_iff_partial, C109_runes_iff_partial). Refuted: on MySQL spaces at the end are lost, and what was in the record that is read into stays there (C109_spaces); on PostgreSQL arrays with a zero, the zero value among them, cannot be stored (C109_postgres_zero); without a size in the tag, or for characters with a size below the length, MySQL and PostgreSQL keep none (C109_no_size_bytes, C109_too_small_runes); characters outside ASCII are not read from drivers that hand over strings (C109_runes_iff_partial). Missing: arrays of defined element types and of strings and truth values on PostgreSQL, defined array types, for which the generator panics, keys that the database makes up, the restrictions of C91, C92, C93, C97, C98."
  },
  {
   "property": "C110",
   "status": "partial",
   "theorems": [
    "Verif.Props.C110_mysql_reads",
    "Verif.Props.C110_mysql_made",
    "Verif.Props.C110_mysql_once",
    "Verif.Props.C110_pg_made",
    "Verif.Props.C110_pg_int64_never",
    "Verif.Props.C110_pg_counts_partial",
    "Verif.Props.C110_pg_width"
   ],
   "note": "Proved on PostgreSQL for columns of all integer types but int64 (C110_pg_made, C110_pg_counts_partial), which keep their width (C110_pg_width), in tables that have the columns; the script itself does not make tables there (C72_pg_new_table_fails). Refuted for int64, whose type does not count: no InsertOne ever stores anything (C110_pg_int64_never). Refuted for MySQL: all scripts for new tables are read there (C110_mysql_reads), but keys of all integer types have the default false, which is 0, instead of counting (C110_mysql_made), so that of all records ever inserted one is stored, and the others are duplicates (C110_mysql_once). byte is not taken: on MySQL it is a character."
  },
  {
   "property": "C111",
   "status": "partial",
   "theorems": [
    "Verif.Props.C111_makes_iff",
    "Verif.Props.C111_plain_partial",
    "Verif.Props.C111_too_long",
    "Verif.Props.C111_default",
    "Verif.Props.C111_key",
    "Verif.Props.C111_long_key",
    "Verif.Props.C111_long_row"
   ],
   "note": "Proved exactly (C111_makes_iff): MySQL makes the table if and only if every field fits into a column of its kind, defaults are right, names differ, and row and key are not too long; in particular for numbers, truth values, times, characters and texts of at most 255 characters, up to 64 fields with up to three of them in the key (C111_plain_partial). Refuted for all models with sizes that are too large (C111_too_long), with defaults for documents or bytes that are neither NULL nor in parentheses (C111_default), with keys that are documents, bytes or arrays without a size (C111_key), with four texts in the key (C111_long_key) and with 65 texts in a record (C111_long_row), where no sizes are given. Names and defaults of which the texts can be read, as in C106."
  },
  {
   "property": "C112",
   "status": "partial",
   "theorems": [
    "Verif.Props.C112_mysql_behaves",
    "Verif.Props.C112_mysql_store_partial",
    "Verif.Props.C112_pg_behaves",
    "Verif.Props.C112_pg_store_partial"
   ],
   "note": "Proved for MySQL (C112_mysql_behaves, C112_mysql_store_partial): if the script makes the table (exactly when: C111) and the database keeps in each column, as it is read from the script, what its type is for, then all sequences of calls give what they would on an empty map, for values that fit (C96_stores_iff says which) and keys that the program chooses. On PostgreSQL the script for a new table is refused (C72), so the columns are taken as Migrate declares them (C112_pg_behaves, C112_pg_store_partial). Missing: keys that count up (C110: they do not on MySQL), values that do not fit (C96), fields of other types, sqlite, and that the names in the script are those of the statements (C89, C106 treat names by themselves)."
  },
  {
   "property": "C113",
   "status": "partial",
   "theorems": [
    "Verif.Props.C113_partial",
    "Verif.Props.C113_same_iff",
    "Verif.Props.C113_kept"
   ],
   "note": "False as stated. Proved: the text is always a JSON array of one string for each time (C113_partial); a string stands for its time exactly when that is in whole seconds, its zone in whole minutes and less than 25 hours away, and clocks in its zone show one of the years 0 to 9999 (C113_same_iff). Otherwise fractions are dropped, seconds of the zone are added, and strings of other years and zones stand for no time; nothing more is lost (C113_kept). No part of the statement is left open."
  },
  {
   "property": "C114",
   "status": "partial",
   "theorems": [
    "Verif.Props.C114_other_options_never",
    "Verif.Props.C114_option_more",
    "Verif.Props.C114_documented_never",
    "Verif.Props.C114_case_never"
   ],
   "note": "False: what the parser makes of a package depends on the names in tags and on auto_increment, pk, primary_key and readonly in lower case only (C114_other_options_never), so size, binary, encode and decode, with any value, and options in any other case make no difference (C114_documented_never, C114_case_never). The effect of the four is C37. The parser does not set the size of columns (compiler.go:110): it is 0 everywhere, and the theorems about columns hold for all sizes."
  },
  {
   "property": "C115",
   "status": "partial",
   "theorems": [
    "Verif.Props.C115_blob",
    "Verif.Props.C115_text_partial",
    "Verif.Props.C115_spaces",
    "Verif.Props.C115_only_bytes",
    "Verif.Props.C115_nil_never",
    "Verif.Props.C115_fails"
   ],
   "note": "Proved for columns of bytes (C115_blob), exactly what may be read. From columns of text: exactly when the driver hands over bytes and not a string (C115_text_partial), if spaces at the end are kept (C115_spaces). False of values whose bytes are a nil slice: they become NULL, which is refused (C115_nil_never). Missing: variables that UnmarshalBinary changed before it failed."
  },
  {
   "property": "C116",
   "status": "partial",
   "theorems": [
    "Verif.Props.C116_made_iff_partial",
    "Verif.Props.C116_same_key_never"
   ],
   "note": "False as stated: the name of a key is made of the names of its columns only, and PostgreSQL gives its index that name in the schema. Two models whose keys have the same columns, as all with a single column id, never get both of their tables, whatever the schema (C116_same_key_never). Proved exactly when the statements that make the tables are all accepted: the keys are of different columns and none has the name of one that is there (C116_made_iff_partial), for scripts that are read (C106), names of columns without commas, tables not named as keys are, and no two keys with the same MD5 sum. Missing: the statements after CREATE TABLE in the scripts (C72, C106), and sequences, whose names PostgreSQL chooses freely."
  }
 ]
}