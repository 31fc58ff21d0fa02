{
 "claims": [
  {
   "property": "C01",
   "status": "proved",
   "theorems": [
    "Verif.CharClass.C01_charclass_is_set",
    "Verif.CharClass.C01_subtract_self_violation"
   ],
   "note": "All histories with class arguments that are other objects; x.subtract_class(x) violates the claim (theorem with witness)."
  },
  {
   "property": "C02",
   "status": "proved",
   "theorems": [
    "Verif.CharClass.C02_eq_iff_same_set",
    "Verif.CharClass.C02_canonical"
   ],
   "note": ""
  },
  {
   "property": "C03",
   "status": "proved",
   "theorems": [
    "Verif.CharClass.C03_cache_invisible",
    "Verif.CharClass.C03_test_keeps_ranges",
    "Verif.CharClass.C03_ranges_ignore_tests"
   ],
   "note": ""
  },
  {
   "property": "C04",
   "status": "partial",
   "theorems": [
    "Verif.CharClass.Heap.C04_violation",
    "Verif.CharClass.Heap.C04_violation_membership",
    "Verif.CharClass.Heap.C04_additive_calls_partial",
    "Verif.CharClass.Heap.C04_no_copy_partial"
   ],
   "note": "The code violates C04 (witness proved in a heap model). Proved: adding calls and negate never affect other objects; programs without copies behave as independent values."
  },
  {
   "property": "C05",
   "status": "proved",
   "theorems": [
    "Verif.Parser.C05_parse",
    "Verif.Parser.C05_parse_insensitive",
    "Verif.Parser.C05_parse_one",
    "Verif.Parser.C05_parse_digits",
    "Verif.Parser.C05_run_longest",
    "Verif.Parser.C05_parse_production",
    "Verif.Parser.C05_parse_until"
   ],
   "note": ""
  },
  {
   "property": "C06",
   "status": "proved",
   "theorems": [
    "Verif.Parser.C06_parse_integer_exact",
    "Verif.Parser.C06_parse_integer_bad_args",
    "Verif.Parser.C06_print_parse"
   ],
   "note": ""
  },
  {
   "property": "C35",
   "status": "proved",
   "theorems": [
    "Verif.Parser.C35_error_position"
   ],
   "note": ""
  },
  {
   "property": "C07",
   "status": "proved",
   "theorems": [
    "Verif.Iso.C07_absolute_day_bijection",
    "Verif.Iso.C07_complete_dates",
    "Verif.Iso.C07_last_day",
    "Verif.Iso.C07_zero_violation"
   ],
   "note": "Day number 0 is accepted as 0001-01-01 (theorem with witness); all other numbers outside the range raise."
  },
  {
   "property": "C08",
   "status": "proved",
   "theorems": [
    "Verif.Iso.C08_days_count_and_order",
    "Verif.Iso.C08_comparison"
   ],
   "note": ""
  },
  {
   "property": "C09",
   "status": "proved",
   "theorems": [
    "Verif.Iso.C09_day_of_week"
   ],
   "note": ""
  },
  {
   "property": "C10",
   "status": "proved",
   "theorems": [
    "Verif.Iso.C10_week_round_trip",
    "Verif.Iso.C10_week_dates",
    "Verif.Iso.C10_week_count"
   ],
   "note": ""
  },
  {
   "property": "C11",
   "status": "proved",
   "theorems": [
    "Verif.Iso.C11_ordinal",
    "Verif.Iso.C11_ordinal_constructor",
    "Verif.Iso.C11_julian",
    "Verif.Iso.C11_ordinal_zero_violation",
    "Verif.Iso.C11_julian_zero_violation"
   ],
   "note": ""
  },
  {
   "property": "C12",
   "status": "proved",
   "theorems": [
    "Verif.Iso.C12_offset_days",
    "Verif.Iso.C12_offset_compose",
    "Verif.Iso.C12_offset_months",
    "Verif.Iso.C12_offset_years",
    "Verif.Iso.C12_offset_weeks",
    "Verif.Iso.C12_offset_violation"
   ],
   "note": "Except for an offset landing on day number 0, where the code returns 0001-01-01 instead of raising (witness proved)."
  },
  {
   "property": "C36",
   "status": "proved",
   "theorems": [
    "Verif.Iso.C36_day",
    "Verif.Iso.C36_month_day",
    "Verif.Iso.C36_year_month_day",
    "Verif.Iso.C36_ordinal",
    "Verif.Iso.C36_year_ordinal",
    "Verif.Iso.C36_weekday",
    "Verif.Iso.C36_week_weekday",
    "Verif.Iso.C36_decade_year_week_weekday",
    "Verif.Iso.C36_century_year_week_weekday"
   ],
   "note": ""
  },
  {
   "property": "C37",
   "status": "proved",
   "theorems": [
    "Verif.Iso.C37_calendar",
    "Verif.Iso.C37_week_precision",
    "Verif.Iso.C37_week_too_large",
    "Verif.Iso.C37_violations"
   ],
   "note": "Week 0 is accepted by the code (theorem with witness); everything else is exact."
  },
  {
   "property": "C13",
   "status": "proved",
   "theorems": [
    "Verif.Iso.C13_offset",
    "Verif.Iso.C13_total_seconds",
    "Verif.Iso.C13_midnight_violation"
   ],
   "note": "Integer components. 24:00:00, the only valid time left out, violates the claim (witness)."
  },
  {
   "property": "C14",
   "status": "proved",
   "theorems": [
    "Verif.Iso.C14_same_instant",
    "Verif.Iso.C14_returns",
    "Verif.Iso.C14_to_utc",
    "Verif.Iso.C14_violations"
   ],
   "note": "For local times not before the calendar starts; just before it the code returns a wrong day (witness), and zones more than a day apart raise (witness)."
  },
  {
   "property": "C15",
   "status": "proved",
   "theorems": [
    "Verif.Iso.C15_compare",
    "Verif.Iso.C15_local",
    "Verif.Iso.C15_mixed",
    "Verif.Iso.C15_midnight_violation"
   ],
   "note": "__eq__ and __lt__; hash is hash of the same key."
  },
  {
   "property": "C16",
   "status": "proved",
   "theorems": [
    "Verif.Iso.C16_round_trip",
    "Verif.Iso.C16_unixtime",
    "Verif.Iso.C16_violation"
   ],
   "note": "Within the calendar; the second before it starts violates the claim (witness)."
  },
  {
   "property": "C38",
   "status": "proved",
   "theorems": [
    "Verif.Iso.C38_extend",
    "Verif.Iso.C38_minute_violation"
   ],
   "note": "With seconds given; a truncated minute alone equal to the base's minute raises TypeError (witness)."
  },
  {
   "property": "C17",
   "status": "proved",
   "theorems": [
    "Verif.Iso.C17_date_round_trip",
    "Verif.Iso.C17_reduced_round_trip",
    "Verif.Iso.C17_truncated",
    "Verif.Iso.C17_time_round_trip",
    "Verif.Iso.C17_reduced_time_round_trip",
    "Verif.Iso.C17_truncated_time",
    "Verif.Iso.C17_time_point_round_trip",
    "Verif.Iso.C17_trailing_garbage"
   ],
   "note": "Also reduced precision, truncated forms, times with zones and time points (integer seconds). from_str ignores trailing text (witness)."
  },
  {
   "property": "C40",
   "status": "proved",
   "theorems": [
    "Verif.Iso.C40_same_zone",
    "Verif.Iso.C40_other_zone"
   ],
   "note": ""
  },
  {
   "property": "C41",
   "status": "proved",
   "theorems": [
    "Verif.Iso.C41_complete",
    "Verif.Iso.C41_reduced",
    "Verif.Iso.C41_violations"
   ],
   "note": "For non-negative zone components; negative zone offsets, zone minutes over 59 and seconds without minutes are accepted (witnesses)."
  },
  {
   "property": "C18",
   "status": "proved",
   "theorems": [
    "Verif.Uri.C18_round_trip",
    "Verif.Uri.C18_items",
    "Verif.Uri.C18_parse_uric",
    "Verif.Uri.C18_hex_digits"
   ],
   "note": ""
  },
  {
   "property": "C39",
   "status": "proved",
   "theorems": [
    "Verif.Uri.C39_parse_uric_run",
    "Verif.Uri.C39_parse_uric_longest"
   ],
   "note": ""
  },
  {
   "property": "C19",
   "status": "proved",
   "theorems": [
    "Verif.Uri.C19_canonicalize",
    "Verif.Uri.C19_default",
    "Verif.Uri.C19_unreserved_escape",
    "Verif.Uri.C19_malformed_violation"
   ],
   "note": "Well formed escapes; with malformed ones (%+1) the claim fails (witness)."
  },
  {
   "property": "C20",
   "status": "proved",
   "theorems": [
    "Verif.Uri.C20_normalize",
    "Verif.Uri.C20_normalize_nil",
    "Verif.Uri.C20_normal_form",
    "Verif.Uri.C20_meaning",
    "Verif.Uri.C20_idempotent"
   ],
   "note": ""
  },
  {
   "property": "C23",
   "status": "proved",
   "theorems": [
    "Verif.Uri.C23_split_server",
    "Verif.Uri.C23_parts"
   ],
   "note": ""
  },
  {
   "property": "C21",
   "status": "proved",
   "theorems": [
    "Verif.Uri.C21_accepts",
    "Verif.Uri.C21_lossless",
    "Verif.Uri.C21_components",
    "Verif.Uri.C21_components_relative",
    "Verif.Uri.C21_empty_scheme"
   ],
   "note": "Plain URI objects and ASCII text; the code also accepts an empty scheme (witness)."
  },
  {
   "property": "C22",
   "status": "partial",
   "theorems": [
    "Verif.Uri.C22_relative_resolve_partial",
    "Verif.Uri.C22_other_scheme",
    "Verif.Uri.C22_other_authority",
    "Verif.Uri.C22_violations"
   ],
   "note": "Proved under explicit conditions (no ':' in and no inner empty segments, path not a proper prefix of the base's, queries with equal paths); the code violates the claim otherwise, with a witness for each condition."
  },
  {
   "property": "C42",
   "status": "proved",
   "theorems": [
    "Verif.Uri.C42_resolve",
    "Verif.Uri.C42_absolute",
    "Verif.Uri.C42_same_document",
    "Verif.Uri.C42_no_path_violation",
    "Verif.Uri.C42_double_slash_violation"
   ],
   "note": "Bases with an absolute path. A base without path violates the claim (witness)."
  },
  {
   "property": "C43",
   "status": "proved",
   "theorems": [
    "Verif.Uri.C43_canonicalize",
    "Verif.Uri.C43_addr",
    "Verif.Uri.C43_violations"
   ],
   "note": "Hosts without '@' that do not end in ':' and digits, no opaque part; otherwise the claim fails (witnesses)."
  },
  {
   "property": "C24",
   "status": "proved",
   "theorems": [
    "Verif.Uri.C24_round_trip",
    "Verif.Uri.C24_zero"
   ],
   "note": "Text of Unicode scalar values; surrogates raise."
  },
  {
   "property": "C44",
   "status": "proved",
   "theorems": [
    "Verif.Uri.C44_accepts",
    "Verif.Uri.C44_canonicalize",
    "Verif.Uri.C44_lenient"
   ],
   "note": "The code also accepts one character NIDs and an empty NSS (witness)."
  },
  {
   "property": "C25",
   "status": "proved",
   "theorems": [
    "Verif.Http.C26_token_chars",
    "Verif.Http.C25_decode_quote",
    "Verif.Http.C25_one_word",
    "Verif.Http.C25_noforce",
    "Verif.Http.C25_empty_violation",
    "Verif.Http.C25_unterminated_violation"
   ],
   "note": "The empty string without force and unterminated strings violate the claim (witnesses)."
  },
  {
   "property": "C26",
   "status": "proved",
   "theorems": [
    "Verif.Http.C26_token_chars",
    "Verif.Http.C26_media_type",
    "Verif.Http.C26_transfer_encoding",
    "Verif.Http.C26_chunk",
    "Verif.Http.C26_entity_tag",
    "Verif.Http.C26_http_version",
    "Verif.Http.C26_product_token",
    "Verif.Http.C26_language_tag",
    "Verif.Http.C26_media_type_reparse",
    "Verif.Http.C26_chunk_reparse",
    "Verif.Http.C26_entity_tag_reparse",
    "Verif.Http.C26_empty_value_violation",
    "Verif.Http.C26_empty_value_parsed",
    "Verif.Http.C26_latin1_name_violation"
   ],
   "note": "Values with non-empty parameter values and ASCII tokens; the others violate the claim (witnesses)."
  },
  {
   "property": "C45",
   "status": "partial",
   "theorems": [
    "Verif.Http.C45_only_value_errors",
    "Verif.Http.C45_chunk_violation",
    "Verif.Http.C45_date_violation"
   ],
   "note": "Proved for all formats except chunk headers and dates, which violate the claim (witnesses)."
  },
  {
   "property": "C27",
   "status": "proved",
   "theorems": [
    "Verif.Http.C27_round_trip",
    "Verif.Http.C27_formats",
    "Verif.Http.C27_sound"
   ],
   "note": "Integer seconds; instants within the calendar. All three formats of RFC 2616 are proved to be read."
  },
  {
   "property": "C28",
   "status": "proved",
   "theorems": [
    "Verif.Streams.C28_in_order",
    "Verif.Streams.C28_nothing_lost",
    "Verif.Streams.C28_readall",
    "Verif.Streams.C28_empty_violation"
   ],
   "note": "Schedules of atomic attempts (each holds the pipe's lock); nothing_lost without close and without writing an empty bytearray, which violates the claim (witness)."
  },
  {
   "property": "C29",
   "status": "proved",
   "theorems": [
    "Verif.Streams.C29_exact",
    "Verif.Streams.C29_safe",
    "Verif.Streams.C29_readmatch_violation"
   ],
   "note": "Exact without readmatch, which violates the claim (witness); one-sided bounds for every schedule."
  },
  {
   "property": "C30",
   "status": "proved",
   "theorems": [
    "Verif.Streams.C30_transparent",
    "Verif.Streams.C30_peek",
    "Verif.Streams.C30_random_access",
    "Verif.Streams.C30_new",
    "Verif.Streams.C30_fits",
    "Verif.Streams.C30_overflow",
    "Verif.Streams.C30_failed_seek_violation"
   ],
   "note": "A failed seek violates the claim (witness)."
  },
  {
   "property": "C46",
   "status": "proved",
   "theorems": [
    "Verif.Streams.C46_readmatch"
   ],
   "note": ""
  },
  {
   "property": "C47",
   "status": "proved",
   "theorems": [
    "Verif.Streams.C47_modes",
    "Verif.Streams.C47_readall_violation"
   ],
   "note": "readall violates the claim (witness)."
  },
  {
   "property": "C31",
   "status": "proved",
   "theorems": [
    "Verif.Blocks.C31_file",
    "Verif.Blocks.C31_beyond_violation",
    "Verif.Blocks.C31_truncate_violation"
   ],
   "note": "Seeks within the last block's reach; a later seek and opening a non-empty stream with 'w' raise (witness theorems for every such stream). Negative seeks are not modelled."
  },
  {
   "property": "C48",
   "status": "proved",
   "theorems": [
    "Verif.Blocks.C48_digest",
    "Verif.Blocks.C48_sequential"
   ],
   "note": "The digest is modelled by the content it is the digest of."
  },
  {
   "property": "C33",
   "status": "proved",
   "theorems": [
    "Verif.Blocks.Lock.C33_exclusive",
    "Verif.Blocks.Lock.C33_fresh",
    "Verif.Blocks.Lock.C33_stale_unlock",
    "Verif.Blocks.Lock.C33_recovers",
    "Verif.Blocks.Lock.C33_release",
    "Verif.Blocks.Lock.C33_slow_violation",
    "Verif.Blocks.Lock.C33_memory_violation"
   ],
   "note": "Entity sets that enforce optimistic concurrency (SQL) and unlocks whose delete follows the check within a second; slow unlocks and the in-memory entity set violate the claim (witnesses)."
  },
  {
   "property": "C32",
   "status": "proved",
   "theorems": [
    "Verif.Blocks.Store.C32_never_lost",
    "Verif.Blocks.Store.C32_content",
    "Verif.Blocks.Store.C32_all_present",
    "Verif.Blocks.Store.C32_last_written",
    "Verif.Blocks.Store.C32_no_orphans",
    "Verif.Blocks.Store.C32_locks_released",
    "Verif.Blocks.Store.C32_too_large_violation",
    "Verif.Blocks.Store.C32_stale_update_violation"
   ],
   "note": "All interleavings and crash points of any number of threads; no_orphans for one thread per block with up to date entities and without crashes; the block store keeps locks while threads run (C33). BlockSize after the insertion and stale copies violate the claim (witnesses)."
  },
  {
   "property": "C34",
   "status": "proved",
   "theorems": [
    "Verif.Xsd.C34_collapse",
    "Verif.Xsd.C34_collapsed",
    "Verif.Xsd.C34_idempotent",
    "Verif.Xsd.C34_replace",
    "Verif.Xsd.C34_leading_violation"
   ],
   "note": "Strings that do not start with white space keep their words; a leading white space splits the first word (theorem for every such string)."
  },
  {
   "property": "C49",
   "status": "proved",
   "theorems": [
    "Verif.Xsd.C49_integer",
    "Verif.Xsd.C49_integer_round_trip",
    "Verif.Xsd.C49_decimal",
    "Verif.Xsd.C49_boolean",
    "Verif.Xsd.C49_boolean_round_trip"
   ],
   "note": "float() is modelled by the exact rational it rounds."
  },
  {
   "property": "C50",
   "status": "proved",
   "theorems": [
    "Verif.Http.C50_received",
    "Verif.Http.C50_prefix",
    "Verif.Http.C50_flush_violation",
    "Verif.Http.C50_eof_violation"
   ],
   "note": "Finite blocking; no gzip codings, no multipart/byteranges. A flush that blocks at the end of a chunked body and bodies delimited by close violate the claim (witnesses)."
  },
  {
   "property": "C51",
   "status": "partial",
   "theorems": [
    "Verif.Http.C51_pipelined_partial",
    "Verif.Http.C51_each_read_partial",
    "Verif.Http.C51_pipelined_violation"
   ],
   "note": "Order and integrity are proved for every segmentation; promptness fails when two responses arrive in one read (witness)."
  },
  {
   "property": "C52",
   "status": "proved",
   "theorems": [
    "Verif.Http.C52_fields",
    "Verif.Http.C52_no_body",
    "Verif.Http.C52_chunked",
    "Verif.Http.C52_codings",
    "Verif.Http.C52_length",
    "Verif.Http.C52_injection_violation",
    "Verif.Http.C52_negative_violation"
   ],
   "note": "Values with line breaks and negative lengths violate the claim (witnesses)."
  },
  {
   "property": "C53",
   "status": "proved",
   "theorems": [
    "Verif.Http.C53_sent",
    "Verif.Http.C53_end_to_end",
    "Verif.Http.C53_short_violation"
   ],
   "note": "Reason phrases of tokens and single spaces; header fields as in C52 without Transfer-Encoding set by the application. A body shorter than its declared length violates the claim (witness)."
  },
  {
   "property": "C54",
   "status": "proved",
   "theorems": [
    "Verif.Http.C54_waiting",
    "Verif.Http.C54_complete",
    "Verif.Http.C54_frame",
    "Verif.Http.C54_next_violation"
   ],
   "note": "Bytes after the boundary in the same read are discarded (witness)."
  },
  {
   "property": "C55",
   "status": "proved",
   "theorems": [
    "Verif.Http.C55_chunked"
   ],
   "note": "Reads of the source are short only at its end (BufferedReader)."
  },
  {
   "property": "C56",
   "status": "proved",
   "theorems": [
    "Verif.Http.C56_input",
    "Verif.Http.C56_all",
    "Verif.Http.C56_far_violation",
    "Verif.Http.C56_past_violation"
   ],
   "note": "Seeks beyond the buffer violate the claim (witnesses). No transfer encoding (C55)."
  },
  {
   "property": "C57",
   "status": "partial",
   "theorems": [
    "Verif.Cookie.C57_search_partial",
    "Verif.Cookie.C57_set",
    "Verif.Cookie.C57_safe",
    "Verif.Cookie.C57_default_path",
    "Verif.Cookie.C57_expired",
    "Verif.Cookie.C57_domain_names",
    "Verif.Cookie.C57_path_violation",
    "Verif.Cookie.C57_address_violation",
    "Verif.Cookie.C57_host_violation"
   ],
   "note": "Exact for all histories up to the path match, which leaves out identical paths (witness); IP addresses and hosts with other characters violate the claim (witnesses). Wildcards only at the front of public rules; punycode is any function; paths are not empty."
  },
  {
   "property": "C58",
   "status": "partial",
   "theorems": [
    "Verif.Cookie.C58_private",
    "Verif.Cookie.C58_public",
    "Verif.Cookie.C58_only_partial",
    "Verif.Cookie.C58_registered",
    "Verif.Cookie.C58_parent_violation"
   ],
   "note": "Exact up to parents of rules, which can be public (witness)."
  },
  {
   "property": "C59",
   "status": "proved",
   "theorems": [
    "Verif.Cookie.C59_date",
    "Verif.Cookie.C59_formats"
   ],
   "note": ""
  },
  {
   "property": "C60",
   "status": "partial",
   "theorems": [
    "Verif.Cookie.C60_ignored",
    "Verif.Cookie.C60_attributes_partial",
    "Verif.Cookie.C60_values",
    "Verif.Cookie.C60_secure_violation"
   ],
   "note": "All but the trimming of attributes without '=', because of which Secure and HttpOnly after '; ' are not recognised (theorem for every such header)."
  },
  {
   "property": "C61",
   "status": "partial",
   "theorems": [
    "Verif.OData.C61_uri_literal_round_trip",
    "Verif.OData.C61_empty_binary_violation",
    "Verif.OData.C61_exponent_plus_violation"
   ],
   "note": "All values with whole seconds except empty Binary values (witness) and floating point numbers, which are not modelled beyond their literals (witness for 1e+16D)."
  },
  {
   "property": "C62",
   "status": "partial",
   "theorems": [
    "Verif.OData.C62_parser_implements_grammar",
    "Verif.OData.C62_unambiguous",
    "Verif.OData.C62_expression_round_trip_partial",
    "Verif.OData.C62_right_operand_violation",
    "Verif.OData.C62_unary_chain_violation",
    "Verif.OData.C62_negate_name_violation",
    "Verif.OData.C62_parameter_violation",
    "Verif.OData.C62_reserved_name_violation"
   ],
   "note": "Every text of the grammar (in which unary operators are not chained) is parsed right; the round trip holds for faithful expressions. The remaining cases violate the claim (witnesses)."
  },
  {
   "property": "C64",
   "status": "partial",
   "theorems": [
    "Verif.OData.C64_promotion",
    "Verif.OData.C64_promotion_comm",
    "Verif.OData.C64_promotion_assoc",
    "Verif.OData.C64_sbyte_violation",
    "Verif.OData.C64_narrow_violation"
   ],
   "note": "All pairs but SByte; narrow types cannot be compared (theorems for all values)."
  },
  {
   "property": "C65",
   "status": "partial",
   "theorems": [
    "Verif.OData.C65_integer_arithmetic_partial",
    "Verif.OData.C65_null_arithmetic",
    "Verif.OData.C65_negate",
    "Verif.OData.C65_int64_division_violation"
   ],
   "note": "Exact for all integers, div and mod for operands below 2^53; beyond, division is inexact (witness, with IEEE rounding modelled)."
  },
  {
   "property": "C66",
   "status": "partial",
   "theorems": [
    "Verif.OData.C66_filter_logic",
    "Verif.OData.C66_comparison_two_valued",
    "Verif.OData.C66_integer_comparison",
    "Verif.OData.C66_null_comparison",
    "Verif.OData.C66_string_comparison",
    "Verif.OData.C66_string_null_violation",
    "Verif.OData.C66_or_null_violation"
   ],
   "note": "Formulas over parts that are true or false. The exceptions are witnessed. member, cast and isof expressions are not modelled."
  },
  {
   "property": "C67",
   "status": "partial",
   "theorems": [
    "Verif.OData.C67_string_methods",
    "Verif.OData.C67_indexof",
    "Verif.OData.C67_substring_partial",
    "Verif.OData.C67_null_argument",
    "Verif.OData.C67_replace",
    "Verif.OData.C67_trim",
    "Verif.OData.C67_case",
    "Verif.OData.C67_negative_start_violation"
   ],
   "note": "Everything but negative positions (witness). str.lower, str.upper and which characters are white space are parameters; replace with an empty search string is not in the theorem."
  },
  {
   "property": "C68",
   "status": "partial",
   "theorems": [
    "Verif.OData.C68_key_predicate_round_trip_partial",
    "Verif.OData.C68_single_key_round_trip_partial",
    "Verif.OData.C68_percent_violation",
    "Verif.OData.C68_non_ascii_violation"
   ],
   "note": "Keys whose Strings are ASCII and have no percent sign; the others violate the claim (witnesses). Types as in C61."
  },
  {
   "property": "C63",
   "status": "proved",
   "theorems": [
    "Verif.OData.Paging.C63_pages",
    "Verif.OData.Paging.C63_each_entity_once",
    "Verif.OData.Paging.C63_ends",
    "Verif.OData.Paging.C63_unlimited"
   ],
   "note": "Collections whose content does not change between pages; the sequence of entities is that of C70."
  },
  {
   "property": "C69",
   "status": "partial",
   "theorems": [
    "Verif.OData.Paging.C69_page",
    "Verif.OData.Paging.C69_small_top",
    "Verif.OData.Paging.C69_links_consecutive",
    "Verif.OData.Paging.C69_client_complete",
    "Verif.OData.Paging.C69_violation_links_never_end",
    "Verif.OData.Paging.C69_violation_top_exceeded"
   ],
   "note": "Completeness and order of the links are proved; ending (theorem for every collection) and the total for $top above the limit (witness) are violated."
  },
  {
   "property": "C70",
   "status": "partial",
   "theorems": [
    "Verif.OData.OrderBy.C70_rearranges",
    "Verif.OData.OrderBy.C70_sorted_paging",
    "Verif.OData.OrderBy.C70_sorted_stable",
    "Verif.OData.OrderBy.C70_paging_deterministic",
    "Verif.OData.OrderBy.C70_null_order_key",
    "Verif.OData.OrderBy.C70_violation_null",
    "Verif.OData.OrderBy.C70_pages_fixed_sequence"
   ],
   "note": "Exact except for null order values, for which ordering fails (characterised exactly by C70_null_order_key). Entities with unique keys compared by a total order."
  },
  {
   "property": "C71",
   "status": "proved",
   "theorems": [
    "Verif.MemDs.C71_links_from",
    "Verif.MemDs.C71_links_to",
    "Verif.MemDs.C71_no_duplicates",
    "Verif.MemDs.C71_delete_complete",
    "Verif.MemDs.C71_rdelete_complete"
   ],
   "note": ""
  },
  {
   "property": "C72",
   "status": "partial",
   "theorems": [
    "Verif.MemDs.C72_links_partial",
    "Verif.MemDs.C72_multiplicity_partial",
    "Verif.MemDs.C72_streams_partial",
    "Verif.MemDs.C72_violation_stale_source",
    "Verif.MemDs.C72_violation_replace_missing",
    "Verif.MemDs.C72_violation_replace_steals",
    "Verif.MemDs.C72_violation_failed_insert"
   ],
   "note": "Histories in which navigation starts from existing entities and replace names a free existing entity (Fresh); the other cases violate the claim (witnesses)."
  },
  {
   "property": "C73",
   "status": "partial",
   "theorems": [
    "Verif.MemDs.C73_deleted",
    "Verif.MemDs.C73_only_removes",
    "Verif.MemDs.C73_only_dependents_partial",
    "Verif.MemDs.C73_leaf_deletes",
    "Verif.MemDs.C73_no_orphans_partial",
    "Verif.MemDs.C73_violation_half_deleted",
    "Verif.MemDs.C73_violation_wrong_direction"
   ],
   "note": "Dependents: schemas without associations of a set with itself, for which the wrong end is deleted (witness). Failing deletions are not atomic (witness)."
  },
  {
   "property": "C74",
   "status": "proved",
   "theorems": [
    "Verif.MemDs.Row.C74_read_back",
    "Verif.MemDs.Row.C74_exists"
   ],
   "note": "Simple values are opaque; entities passed have the declared type."
  },
  {
   "property": "C75",
   "status": "proved",
   "theorems": [
    "Verif.Xml.C75_accepts",
    "Verif.Xml.C75_prompt",
    "Verif.Xml.C75_expected",
    "Verif.Xml.C75_refused",
    "Verif.Xml.C75_mixed"
   ],
   "note": "Particles of a model are different objects; choices are not empty; mixed content has the shape the parser gives it."
  },
  {
   "property": "C76",
   "status": "proved",
   "theorems": [
    "Verif.Xml.C76_deterministic"
   ],
   "note": "As in C75."
  },
  {
   "property": "C77",
   "status": "partial",
   "theorems": [
    "Verif.Xml.C77_checked_partial",
    "Verif.Xml.C77_valid_accepted",
    "Verif.Xml.C77_valid_partial",
    "Verif.Xml.C77_empty_tag_violated",
    "Verif.Xml.C77_empty_child_raises"
   ],
   "note": "Empty-element tags are not checked against required children (witness). Attributes and SGML options are not modelled."
  },
  {
   "property": "C78",
   "status": "partial",
   "theorems": [
    "Verif.Xml.C78_characters",
    "Verif.Xml.C78_lines",
    "Verif.Xml.C78_column_violated"
   ],
   "note": "Characters and line numbers are exact; the position in the line is wrong after CR LF (witness). Pieces are not empty; decoding is not modelled."
  },
  {
   "property": "C79",
   "status": "partial",
   "theorems": [
    "Verif.Xml.C79_accepted",
    "Verif.Xml.C79_complete_partial",
    "Verif.Xml.C79_unique",
    "Verif.Xml.C79_sound_partial",
    "Verif.Xml.C79_terminates_partial",
    "Verif.Xml.C79_hang_violated",
    "Verif.Xml.C79_pi_violated",
    "Verif.Xml.C79_open_violated",
    "Verif.Xml.C79_comment_violated"
   ],
   "note": "The accepted language and its trees are characterised exactly; the differences to XML 1.0 have witnesses. Character ranges are not checked by the parser in data. No DTD, no namespaces, default options."
  },
  {
   "property": "C80",
   "status": "partial",
   "theorems": [
    "Verif.Xml.C80_roundtrip_partial",
    "Verif.Xml.C80_roundtrip7_partial",
    "Verif.Xml.C80_escape7_ascii",
    "Verif.Xml.C80_value",
    "Verif.Xml.C80_space_preserved",
    "Verif.Xml.C80_space_ignored",
    "Verif.Xml.C80_cdsect_partial",
    "Verif.Xml.C80_tab_violated",
    "Verif.Xml.C80_empty_violated",
    "Verif.Xml.C80_cdsect_violated"
   ],
   "note": "All trees without empty data and without tabs and line feeds in attribute values, for which there are witnesses. Base class Element (mixed content)."
  },
  {
   "property": "C81",
   "status": "partial",
   "theorems": [
    "Verif.Auth.C81_scope_partial",
    "Verif.Auth.C81_records",
    "Verif.Auth.C81_empty_path_is_root",
    "Verif.Auth.C81_most_general",
    "Verif.Auth.C81_empty_folder_violation",
    "Verif.Auth.C81_empty_path_violation"
   ],
   "note": "Exact for documents without empty folder names and for paths that are not empty; the other cases violate the claim (witnesses)."
  },
  {
   "property": "C82",
   "status": "partial",
   "theorems": [
    "Verif.Auth.C82_own_space",
    "Verif.Auth.C82_user_header",
    "Verif.Auth.C82_preemptive",
    "Verif.Auth.C82_refusals",
    "Verif.Auth.C82_new_request",
    "Verif.Auth.C82_no_redirect",
    "Verif.Auth.C82_remove_partial",
    "Verif.Auth.C82_remove_absent",
    "Verif.Auth.C82_none_header_violation",
    "Verif.Auth.C82_remove_violation",
    "Verif.Auth.C82_realm_violation",
    "Verif.Auth.C82_redirect_loop_violation"
   ],
   "note": "The safety part holds for every history; the violations have witnesses. One request at a time."
  },
  {
   "property": "C83",
   "status": "partial",
   "theorems": [
    "Verif.Auth.C83_credentials_partial",
    "Verif.Auth.C83_colon_violation",
    "Verif.Auth.C83_challenge_partial",
    "Verif.Auth.C83_lookup",
    "Verif.Auth.C83_lookup_exact",
    "Verif.Auth.C83_realm",
    "Verif.Auth.C83_one_challenge",
    "Verif.Auth.C83_list_violation",
    "Verif.Auth.C83_scheme_violation",
    "Verif.Auth.C83_from_str_violation"
   ],
   "note": "Userids and passwords without colon, single Basic challenges; the other cases violate the claim."
  },
  {
   "property": "C84",
   "status": "partial",
   "theorems": [
    "Verif.Sql.C84_meaning_partial",
    "Verif.Sql.C84_meaning_indexed_partial",
    "Verif.Sql.C84_violation_nested_sub",
    "Verif.Sql.C84_violation_nested_eq",
    "Verif.Sql.C84_violation_unsupported"
   ],
   "note": "For expressions without the nestings that the translation writes without brackets (witnesses). The spelling of operators is not modelled."
  },
  {
   "property": "C85",
   "status": "proved",
   "theorems": [
    "Verif.Sql.C85_text_ignores_values",
    "Verif.Sql.C85_same_text",
    "Verif.Sql.C85_one_value_per_placeholder",
    "Verif.Sql.C85_styles_agree"
   ],
   "note": ""
  },
  {
   "property": "C86",
   "status": "partial",
   "theorems": [
    "Verif.Sql.C86_filter_partial",
    "Verif.Sql.C86_translated",
    "Verif.Sql.C86_violation_eq_null",
    "Verif.Sql.C86_violation_ne"
   ],
   "note": "Integer, string and Boolean expressions with arithmetic, comparisons, and, or; null in eq and ne violates the claim (witnesses)."
  },
  {
   "property": "C87",
   "status": "partial",
   "theorems": [
    "Verif.Sql.C87_startswith_partial",
    "Verif.Sql.C87_endswith_partial",
    "Verif.Sql.C87_substringof_partial",
    "Verif.Sql.C87_violation_wildcard",
    "Verif.Sql.C87_violation_case",
    "Verif.Sql.C87_violation_indexof"
   ],
   "note": "Patterns without wildcards and up to the case of ASCII letters (witnesses)."
  },
  {
   "property": "C88",
   "status": "partial",
   "theorems": [
    "Verif.Sql.C88_clause_partial",
    "Verif.Sql.C88_violation_null",
    "Verif.Sql.C88_violation_boolean"
   ],
   "note": "Order values that are integers or texts and not null, order expressions that are not comparisons (witnesses)."
  },
  {
   "property": "C89",
   "status": "partial",
   "theorems": [
    "Verif.Sql.C89_pages_partial",
    "Verif.Sql.C89_pages_joined_partial",
    "Verif.Sql.C89_next_token_partial",
    "Verif.Sql.C89_violation_long_token",
    "Verif.Sql.C89_violation_long_token_repeats",
    "Verif.Sql.C89_violation_skip"
   ],
   "note": "Tokens of at most 512 characters, a page size that is not zero (witnesses). The table does not change."
  },
  {
   "property": "C90",
   "status": "partial",
   "theorems": [
    "Verif.Sql.C90_token_round_trip_partial",
    "Verif.Sql.C90_page_after_text_partial"
   ],
   "note": "The values of C61 (no floating point)."
  },
  {
   "property": "C91",
   "status": "partial",
   "theorems": [
    "Verif.Qti.C91_evaluate_wf",
    "Verif.Qti.C91_evaluate_type",
    "Verif.Qti.C91_container_card",
    "Verif.Qti.C91_record_set",
    "Verif.Qti.C91_record_set_value",
    "Verif.Qti.C91_violation_empty_record",
    "Verif.Qti.C91_violation_literal",
    "Verif.Qti.C91_violation_overflow",
    "Verif.Qti.C91_violation_template_ref",
    "Verif.Qti.C91_violation_delete"
   ],
   "note": "Well-typedness is proved for trees whose literals match their types; the kinds of exception and out-of-range literals violate the claim (witnesses)."
  },
  {
   "property": "C92",
   "status": "partial",
   "theorems": [
    "Verif.Qti.C92_and",
    "Verif.Qti.C92_or",
    "Verif.Qti.C92_not",
    "Verif.Qti.C92_anyN_partial",
    "Verif.Qti.C92_violation_anyN",
    "Verif.Qti.C92_operands"
   ],
   "note": "anyN for min not above max (witness)."
  },
  {
   "property": "C93",
   "status": "partial",
   "theorems": [
    "Verif.Qti.C93_multiple",
    "Verif.Qti.C93_ordered",
    "Verif.Qti.C93_container_size",
    "Verif.Qti.C93_is_null",
    "Verif.Qti.C93_match_multiple",
    "Verif.Qti.C93_match_ordered",
    "Verif.Qti.C93_match_single",
    "Verif.Qti.C93_match_null",
    "Verif.Qti.C93_member",
    "Verif.Qti.C93_delete",
    "Verif.Qti.C93_contains_ordered",
    "Verif.Qti.C93_contains_multiple",
    "Verif.Qti.C93_index",
    "Verif.Qti.C93_random",
    "Verif.Qti.C93_random_all",
    "Verif.Qti.C93_violation_record"
   ],
   "note": "All operators; records are dropped instead of refused (witness)."
  },
  {
   "property": "C94",
   "status": "partial",
   "theorems": [
    "Verif.Qti.C94_sum",
    "Verif.Qti.C94_product",
    "Verif.Qti.C94_subtract",
    "Verif.Qti.C94_divide",
    "Verif.Qti.C94_compare",
    "Verif.Qti.C94_integer_division",
    "Verif.Qti.C94_equal_exact",
    "Verif.Qti.C94_equal_tolerance",
    "Verif.Qti.C94_equal_relative_partial",
    "Verif.Qti.C94_violation_equal_relative",
    "Verif.Qti.C94_truncate",
    "Verif.Qti.C94_round",
    "Verif.Qti.C94_integer_to_float",
    "Verif.Qti.C94_duration",
    "Verif.Qti.C94_random_integer",
    "Verif.Qti.C94_random_integer_all",
    "Verif.Qti.C94_random_float"
   ],
   "note": "Floats are modelled as rationals; a relative tolerance about a negative number violates the claim (witness)."
  },
  {
   "property": "C95",
   "status": "proved",
   "theorems": [
    "Verif.Qti.C95_map",
    "Verif.Qti.C95_map_null",
    "Verif.Qti.C95_bounds_inverted",
    "Verif.Qti.C95_area_map",
    "Verif.Qti.C95_match_table",
    "Verif.Qti.C95_interpolation_table"
   ],
   "note": ""
  },
  {
   "property": "C96",
   "status": "partial",
   "theorems": [
    "Verif.Qti.C96_response",
    "Verif.Qti.C96_template",
    "Verif.Qti.C96_branch",
    "Verif.Qti.C96_condition",
    "Verif.Qti.C96_exit",
    "Verif.Qti.C96_exit_nested",
    "Verif.Qti.C96_set_partial",
    "Verif.Qti.C96_violation_multiplicity",
    "Verif.Qti.C96_violation_name_clash"
   ],
   "note": "The set rule up to multiplicities (witness); names with '.' can clash (witness)."
  },
  {
   "property": "C97",
   "status": "partial",
   "theorems": [
    "Verif.Qti.C97_init",
    "Verif.Qti.C97_begin_session",
    "Verif.Qti.C97_begin_attempt",
    "Verif.Qti.C97_submit",
    "Verif.Qti.C97_outcomes_forgotten",
    "Verif.Qti.C97_refused",
    "Verif.Qti.C97_history",
    "Verif.Qti.C97_life",
    "Verif.Qti.C97_violation_multiplicity",
    "Verif.Qti.C97_violation_ordered",
    "Verif.Qti.C97_violation_dot",
    "Verif.Qti.C97_violation_not_begun"
   ],
   "note": "Items whose identifiers hold no '.'; single and multiple responses; a submitted value is taken over without multiplicities (witnesses)."
  },
  {
   "property": "C98",
   "status": "partial",
   "theorems": [
    "Verif.Html.C98_length_parse",
    "Verif.Html.C98_length_round_trip",
    "Verif.Html.C98_length_stable",
    "Verif.Html.C98_violation_negative",
    "Verif.Html.C98_resolve",
    "Verif.Html.C98_coords_round_trip",
    "Verif.Html.C98_color_round_trip",
    "Verif.Html.C98_color_case",
    "Verif.Html.C98_color_names",
    "Verif.Html.C98_media_names",
    "Verif.Html.C98_media_ops",
    "Verif.Html.C98_media_round_trip",
    "Verif.Html.C98_media_parse"
   ],
   "note": "Negative lengths cannot be read back (witness)."
  },
  {
   "property": "C99",
   "status": "proved",
   "theorems": [
    "Verif.Html.C99_poly",
    "Verif.Html.C99_poly_total",
    "Verif.Html.C99_closed",
    "Verif.Html.C99_reverse",
    "Verif.Html.C99_rotate",
    "Verif.Html.C99_cut",
    "Verif.Html.C99_rect",
    "Verif.Html.C99_triangle",
    "Verif.Html.C99_circle",
    "Verif.Html.C99_rect_corners"
   ],
   "note": ""
  },
  {
   "property": "C100",
   "status": "partial",
   "theorems": [
    "Verif.Sql.C100_atomic_partial",
    "Verif.Sql.C100_succeeds",
    "Verif.Sql.C100_violation_cascade",
    "Verif.Sql.C100_violation_stream",
    "Verif.Sql.C100_violation_stream_lost"
   ],
   "note": "Proved for methods that pass their transaction on; calls without it and the stream methods violate the claim (witnesses)."
  },
  {
   "property": "C101",
   "status": "partial",
   "theorems": [
    "Verif.Sql.C101_update_ok_partial",
    "Verif.Sql.C101_update_conflict",
    "Verif.Sql.C101_update_missing_partial",
    "Verif.Sql.C101_violation_nothing",
    "Verif.Sql.C101_violation_null_token",
    "Verif.Sql.C101_no_lost_update_partial",
    "Verif.Sql.C101_violation_retry"
   ],
   "note": "Histories in which clients read again after a refused update; set tokens; updates that write at least one column (witnesses for the rest)."
  },
  {
   "property": "C102",
   "status": "partial",
   "theorems": [
    "Verif.Sql.C102_exclusive",
    "Verif.Sql.C102_held",
    "Verif.Sql.C102_bound",
    "Verif.Sql.C102_depth",
    "Verif.Sql.C102_same",
    "Verif.Sql.C102_wait_partial",
    "Verif.Sql.C102_violation_leak"
   ],
   "note": "Waiting only when all connections are held: as long as no thread dies with a connection (witness)."
  },
  {
   "property": "C103",
   "status": "partial",
   "theorems": [
    "Verif.Sql.C103_literal",
    "Verif.Sql.C103_literal_sqlite",
    "Verif.Sql.C103_name_safe",
    "Verif.Sql.C103_columns_partial",
    "Verif.Sql.C103_tables",
    "Verif.Sql.C103_violation_columns",
    "Verif.Sql.C103_params",
    "Verif.Sql.C103_violation_percent"
   ],
   "note": "Distinct columns for names without the joining character (witness); default literals are not escaped for % formatting (witness)."
  },
  {
   "property": "C104",
   "status": "partial",
   "theorems": [
    "Verif.Vfs.C104_norm_rel",
    "Verif.Vfs.C104_norm_meaning",
    "Verif.Vfs.C104_norm_abs_partial",
    "Verif.Vfs.C104_norm_unique",
    "Verif.Vfs.C104_norm_idem",
    "Verif.Vfs.C104_join",
    "Verif.Vfs.C104_parts_partial",
    "Verif.Vfs.C104_abspath",
    "Verif.Vfs.C104_split",
    "Verif.Vfs.C104_dirlike",
    "Verif.Vfs.C104_splitext",
    "Verif.Vfs.C104_root",
    "Verif.Vfs.C104_violation_double",
    "Verif.Vfs.C104_violation_parts",
    "Verif.Vfs.C104_violation_splitext"
   ],
   "note": "Absolute paths without '//' for the shape of the normal form (witness). No drives and no UNC paths."
  },
  {
   "property": "C105",
   "status": "partial",
   "theorems": [
    "Verif.Vfs.C105_tests",
    "Verif.Vfs.C105_mkdir",
    "Verif.Vfs.C105_makedirs",
    "Verif.Vfs.C105_listdir",
    "Verif.Vfs.C105_remove",
    "Verif.Vfs.C105_rmtree_partial",
    "Verif.Vfs.C105_open",
    "Verif.Vfs.C105_write",
    "Verif.Vfs.C105_update",
    "Verif.Vfs.C105_read",
    "Verif.Vfs.C105_ok",
    "Verif.Vfs.C105_history",
    "Verif.Vfs.C105_tree_step",
    "Verif.Vfs.C105_tree_partial",
    "Verif.Vfs.C105_violation_rmtree",
    "Verif.Vfs.C105_violation_open",
    "Verif.Vfs.C105_violation_mkdir"
   ],
   "note": "Paths without '//'. The directory given to rmtree stays; the tree invariant needs care that the code does not enforce (witnesses)."
  },
  {
   "property": "C106",
   "status": "partial",
   "theorems": [
    "Verif.Web.C106_sound",
    "Verif.Web.C106_named",
    "Verif.Web.C106_longest_partial",
    "Verif.Web.C106_complete_partial",
    "Verif.Web.C106_violation_backtrack",
    "Verif.Web.C106_static",
    "Verif.Web.C106_static_served",
    "Verif.Web.C106_violation_ascii"
   ],
   "note": "Longest match and completeness for patterns with stars at the end only (witness for the rest)."
  },
  {
   "property": "C107",
   "status": "partial",
   "theorems": [
    "Verif.Web.C107_decrypt",
    "Verif.Web.C107_too_old",
    "Verif.Web.C107_changeover",
    "Verif.Web.C107_ends",
    "Verif.Web.C107_sign",
    "Verif.Web.C107_ascii_sign_partial",
    "Verif.Web.C107_accept",
    "Verif.Web.C107_no_other_message",
    "Verif.Web.C107_violation_two_changes",
    "Verif.Web.C107_violation_reused_number",
    "Verif.Web.C107_violation_boundary",
    "Verif.Web.C107_violation_empty",
    "Verif.Web.C107_violation_empty_asked",
    "Verif.Web.C107_violation_unknown_key",
    "Verif.Web.C107_violation_aes",
    "Verif.Web.C107_violation_empty_key",
    "Verif.Web.C107_violation_when"
   ],
   "note": "Key numbers all different, keys not empty, messages of ascii_sign not empty (witnesses). The cipher is any with a round trip."
  },
  {
   "property": "C108",
   "status": "partial",
   "theorems": [
    "Verif.Web.C108_text",
    "Verif.Web.C108_continues",
    "Verif.Web.C108_establishes",
    "Verif.Web.C108_session",
    "Verif.Web.C108_page",
    "Verif.Web.C108_csrf",
    "Verif.Web.C108_test_new",
    "Verif.Web.C108_ctest",
    "Verif.Web.C108_wlaunch",
    "Verif.Web.C108_cookie",
    "Verif.Web.C108_violation_forgery",
    "Verif.Web.C108_violation_late_post",
    "Verif.Web.C108_violation_ctest",
    "Verif.Web.C108_violation_bad_cookie"
   ],
   "note": "All but the authenticity of cookies, which is violated (a forgery is constructed); late forms and error handling (witnesses)."
  },
  {
   "property": "C109",
   "status": "partial",
   "theorems": [
    "Verif.Lti.C109_accepts",
    "Verif.Lti.C109_replay",
    "Verif.Lti.C109_first_use",
    "Verif.Lti.C109_concurrent_partial",
    "Verif.Lti.C109_shared",
    "Verif.Lti.C109_race"
   ],
   "note": "Requests one after the other: proved; concurrent requests only if the nonce is new (witness for the rest); keys of the same length for the first use (witness)."
  },
  {
   "property": "C110",
   "status": "partial",
   "theorems": [
    "Verif.Lti.C110_permissions_partial",
    "Verif.Lti.C110_list",
    "Verif.Lti.C110_no_roles",
    "Verif.Lti.C110_unknown_roles"
   ],
   "note": "Exact, but a role that is not known makes the launch fail (witness). ASCII roles."
  },
  {
   "property": "C111",
   "status": "proved",
   "theorems": [
    "Verif.Lti.C111_access",
    "Verif.Lti.C111_unknown_resource",
    "Verif.Lti.C111_one_user",
    "Verif.Lti.C111_stranger"
   ],
   "note": "Calls are atomic; merge_session, which always raises AttributeError (CookieSession has no attribute session), is not modelled."
  },
  {
   "property": "C112",
   "status": "partial",
   "theorems": [
    "Verif.Lti.C112_resources_users",
    "Verif.Lti.C112_contexts_partial",
    "Verif.Lti.C112_clash"
   ],
   "note": "Contexts: only if the keys of the consumers have the same length (witness)."
  },
  {
   "property": "C113",
   "status": "partial",
   "theorems": [
    "Verif.Form.C113_form_legal",
    "Verif.Form.C113_form_nested",
    "Verif.Form.C113_form_total",
    "Verif.Form.C113_impossible_selection",
    "Verif.Form.C113_document_order",
    "Verif.Form.C113_shuffled_section_violated",
    "Verif.Form.C113_free_slot_violated",
    "Verif.Form.C113_hollow_index_error"
   ],
   "note": "Tests without hollow mixed sections; success where shuffled sections hold no sub-section that may move (witnesses for the rest)."
  },
  {
   "property": "C114",
   "status": "partial",
   "theorems": [
    "Verif.Form.C114_key_check",
    "Verif.Form.C114_key_chain",
    "Verif.Form.C114_key_once",
    "Verif.Form.C114_same_tick_violated"
   ],
   "note": "Once only if the clock advances between events (witness); time in microseconds."
  },
  {
   "property": "C115",
   "status": "partial",
   "theorems": [
    "Verif.Form.C115_terminates",
    "Verif.Form.C115_forward",
    "Verif.Form.C115_session_ends",
    "Verif.Form.C115_linear_order",
    "Verif.Form.C115_branch_to_identifier",
    "Verif.Form.C115_exit_testpart",
    "Verif.Form.C115_exit_section_partial",
    "Verif.Form.C115_exit_section_violated",
    "Verif.Form.C115_section_precondition_violated",
    "Verif.Form.C115_nonlinear_violated"
   ],
   "note": "EXIT_SECTION only where no sub-section lies ahead (witness); section preConditions and non-linear parts violate the claim (witnesses)."
  },
  {
   "property": "C116",
   "status": "proved",
   "theorems": [
    "Verif.Form.C116_durations",
    "Verif.Form.C116_finished"
   ],
   "note": "Time in microseconds."
  },
  {
   "property": "C117",
   "status": "partial",
   "theorems": [
    "Verif.Ns.C117_names_partial",
    "Verif.Ns.C117_made",
    "Verif.Ns.C117_read",
    "Verif.Ns.C117_written",
    "Verif.Ns.C117_lost_attribute",
    "Verif.Ns.C117_wrong_element",
    "Verif.Ns.C117_cannot_write",
    "Verif.Ns.C117_dropped_attribute",
    "Verif.Ns.C117_undeclared_default",
    "Verif.Ns.C117_unbound_prefix"
   ],
   "note": "Proved under the stated conditions; the rest is violated (witnesses). Base class NSElement; escaping and text content are the subject of other claims."
  },
  {
   "property": "C118",
   "status": "proved",
   "theorems": [
    "Verif.Ns.C118_again"
   ],
   "note": "For the trees of C117."
  },
  {
   "property": "C119",
   "status": "proved",
   "theorems": [
    "Verif.Ns.C119_new_prefix",
    "Verif.Ns.C119_prefix_in_force"
   ],
   "note": ""
  },
  {
   "property": "C120",
   "status": "partial",
   "theorems": [
    "Verif.Pkg.C120_contained",
    "Verif.Pkg.C120_origin",
    "Verif.Pkg.C120_success",
    "Verif.Pkg.C120_refused",
    "Verif.Pkg.C120_violation_flags"
   ],
   "note": "Containment, origin, success and refusal hold in full; names declared as UTF-8 are decoded twice if another flag is set (witness). File system in memory, no links."
  },
  {
   "property": "C121",
   "status": "proved",
   "theorems": [
    "Verif.Pkg.C121_round_trip"
   ],
   "note": "Files not open; the recoding of names keeps ASCII."
  },
  {
   "property": "C122",
   "status": "partial",
   "theorems": [
    "Verif.Pkg.C122_inside",
    "Verif.Pkg.C122_ends",
    "Verif.Pkg.C122_unique_partial",
    "Verif.Pkg.C122_violation_taken",
    "Verif.Pkg.C122_violation_extension",
    "Verif.Pkg.C122_violation_root"
   ],
   "note": "Uniqueness only if the suggested path is free or hashes agree (witness). path_in_path for absolute paths without double separators."
  },
  {
   "property": "C123",
   "status": "proved",
   "theorems": [
    "Verif.Pkg.C123_files",
    "Verif.Pkg.C123_refs"
   ],
   "note": "A directory named imsmanifest.xml at the root is skipped like the manifest."
  },
  {
   "property": "C124",
   "status": "partial",
   "theorems": [
    "Verif.Neg.C124_select_type_partial",
    "Verif.Neg.C124_violation_case",
    "Verif.Neg.C124_violation_tilde",
    "Verif.Neg.C124_violation_star"
   ],
   "note": "For ranges in lower case with * as the type only in */*, and names not starting with ~ (witnesses for the rest). Reading the header is not modelled."
  },
  {
   "property": "C125",
   "status": "partial",
   "theorems": [
    "Verif.Neg.C125_token_partial",
    "Verif.Neg.C125_charset_partial",
    "Verif.Neg.C125_encoding_partial",
    "Verif.Neg.C125_language",
    "Verif.Neg.C125_violation_none",
    "Verif.Neg.C125_violation_tilde"
   ],
   "note": "Tokens: names not starting with ~ (witness). Languages in full."
  },
  {
   "property": "C126",
   "status": "partial",
   "theorems": [
    "Verif.Dom.C126_ids_partial",
    "Verif.Dom.C126_tree",
    "Verif.Dom.C126_no_key_error",
    "Verif.Dom.C126_clash",
    "Verif.Dom.C126_failed",
    "Verif.Dom.C126_add",
    "Verif.Dom.C126_remove",
    "Verif.Dom.C126_reset",
    "Verif.Dom.C126_set_id",
    "Verif.Dom.C126_violation_clash",
    "Verif.Dom.C126_violation_document"
   ],
   "note": "Histories in which no call fails with XMLIDClashError or AttributeError (witnesses for those). Classes with the default content model."
  },
  {
   "property": "C127",
   "status": "partial",
   "theorems": [
    "Verif.Dom.C127_unique_id_partial",
    "Verif.Dom.C127_violation_digit"
   ],
   "note": "Valid names only if a name is suggested (witness)."
  },
  {
   "property": "C128",
   "status": "partial",
   "theorems": [
    "Verif.Dom.C128_find_partial",
    "Verif.Dom.C128_outer_partial",
    "Verif.Dom.C128_violation_depth",
    "Verif.Dom.C128_violation_sub",
    "Verif.Dom.C128_violation_order"
   ],
   "note": "max_depth 1 or unlimited; sub_match (witnesses for the rest)."
  },
  {
   "property": "C129",
   "status": "proved",
   "theorems": [
    "Verif.Dom.C129_text",
    "Verif.Dom.C129_set_value"
   ],
   "note": "Elements with mixed content."
  },
  {
   "property": "C130",
   "status": "partial",
   "theorems": [
    "Verif.OUri.C130_decodes",
    "Verif.OUri.C130_refuses",
    "Verif.OUri.C130_no_query",
    "Verif.OUri.C130_separators",
    "Verif.OUri.C130_segments_survive",
    "Verif.OUri.C130_unpaired_quote"
   ],
   "note": "Segments with paired quotes (witness for the rest)."
  },
  {
   "property": "C131",
   "status": "proved",
   "theorems": [
    "Verif.OUri.C131_expand",
    "Verif.OUri.C131_select"
   ],
   "note": ""
  },
  {
   "property": "C132",
   "status": "partial",
   "theorems": [
    "Verif.OUri.C132_expand_round_trip",
    "Verif.OUri.C132_select_round_trip",
    "Verif.OUri.C132_canonical",
    "Verif.OUri.C132_normal_form",
    "Verif.OUri.C132_empty_violation"
   ],
   "note": "All but the empty tree (witness)."
  },
  {
   "property": "C133",
   "status": "partial",
   "theorems": [
    "Verif.OUri.C133_orderby_read",
    "Verif.OUri.C133_unambiguous",
    "Verif.OUri.C133_orderby_round_trip_partial",
    "Verif.OUri.C133_empty_violation"
   ],
   "note": "Round trip for expressions covered by C64; the empty list is a witness."
  },
  {
   "property": "C134",
   "status": "partial",
   "theorems": [
    "Verif.OUri.C134_path_shape",
    "Verif.OUri.C134_one_option",
    "Verif.OUri.C134_misplaced_option_violation"
   ],
   "note": "The exact set of accepted paths and their reading are proved; it is larger than it should be (witness)."
  },
  {
   "property": "C135",
   "status": "partial",
   "theorems": [
    "Verif.OUri.C135_accepted",
    "Verif.OUri.C135_last_wins",
    "Verif.OUri.C135_custom",
    "Verif.OUri.C135_parameter",
    "Verif.OUri.C135_allowed",
    "Verif.OUri.C135_numbers",
    "Verif.OUri.C135_prefix_violation"
   ],
   "note": "The parsing of $format is a parameter. Prefix: witness."
  },
  {
   "property": "C136",
   "status": "partial",
   "theorems": [
    "Verif.Srv.C136_found",
    "Verif.Srv.C136_not_found"
   ],
   "note": "Both directions, for paths that do not start with a function import."
  },
  {
   "property": "C137",
   "status": "partial",
   "theorems": [
    "Verif.Srv.C137_safe",
    "Verif.Srv.C137_read_only",
    "Verif.Srv.C137_request",
    "Verif.Srv.C137_function_violation"
   ],
   "note": "All requests but those whose path starts with a function import (witness)."
  },
  {
   "property": "C138",
   "status": "partial",
   "theorems": [
    "Verif.Srv.C138_errors_change_nothing_partial",
    "Verif.Srv.C138_status",
    "Verif.Srv.C138_not_acceptable_violation"
   ],
   "note": "What follows the change must not fail (witness), no function imports."
  },
  {
   "property": "C139",
   "status": "partial",
   "theorems": [
    "Verif.Srv.C139_served",
    "Verif.Srv.C139_lenient_violation"
   ],
   "note": "Exact description of what is answered without error, for requests without function imports; the lenient cases are witnesses."
  },
  {
   "property": "C140",
   "status": "partial",
   "theorems": [
    "Verif.Srv.C140_negotiation",
    "Verif.Srv.C140_only",
    "Verif.Srv.C140_zero_violation"
   ],
   "note": "User agents that are readable as HTTP words in DataServiceVersion, any in MaxDataServiceVersion; a maximum below 1.0 is a witness."
  },
  {
   "property": "C141",
   "status": "partial",
   "theorems": [
    "Verif.Cli.C141_pool_partial",
    "Verif.Cli.C141_pool_no_cleanup",
    "Verif.Cli.C141_overtaken_violation"
   ],
   "note": "All histories in which no thread finishes with a connection it was deprived of by active_cleanup while it has a new one; in particular all histories without active_cleanup. The remaining case is a violation (witness)."
  },
  {
   "property": "C142",
   "status": "partial",
   "theorems": [
    "Verif.Cli.C142_choice",
    "Verif.Cli.C142_right_connection"
   ],
   "note": "For the histories of C141."
  },
  {
   "property": "C143",
   "status": "partial",
   "theorems": [
    "Verif.Cli.C143_no_lost_wakeup_partial",
    "Verif.Cli.C143_no_request_lost",
    "Verif.Cli.C143_upgrade_violation",
    "Verif.Cli.C143_self_deadlock_violation",
    "Verif.Cli.C143_close_violation"
   ],
   "note": "Histories without upgrades while a request waits; upgrade, self-deadlock and close are witnesses of violations."
  },
  {
   "property": "C144",
   "status": "partial",
   "theorems": [
    "Verif.Cli.C144_at_most_once",
    "Verif.Cli.C144_bounded",
    "Verif.Cli.C144_nothing_lost",
    "Verif.Cli.C144_exactly_once_partial",
    "Verif.Cli.C144_early_success_violation",
    "Verif.Cli.C144_truncated_violation",
    "Verif.Cli.C144_stale_violation"
   ],
   "note": "At most once, bounded and nothing lost for all histories; exactly once if no response arrives before the request has been sent; the rest are witnesses of violations."
  },
  {
   "property": "C145",
   "status": "partial",
   "theorems": [
    "Verif.Cli.C145_in_order",
    "Verif.Cli.C145_not_pipelined",
    "Verif.Cli.C145_wire_partial",
    "Verif.Cli.C145_matched_partial",
    "Verif.Cli.C145_order_violation",
    "Verif.Cli.C145_hole_violation"
   ],
   "note": "Order and no pipelining of other requests for all histories; the bytes if no response arrives before the request has been sent; witnesses of the violations."
  },
  {
   "property": "C146",
   "status": "partial",
   "theorems": [
    "Verif.Csdl.C146_lookup",
    "Verif.Csdl.C146_unambiguous",
    "Verif.Csdl.C146_keys",
    "Verif.Csdl.C146_declare",
    "Verif.Csdl.C146_undeclare",
    "Verif.Csdl.C146_undeclare_other_violation"
   ],
   "note": "All proved but undeclaring a value that was refused (witness)."
  },
  {
   "property": "C147",
   "status": "partial",
   "theorems": [
    "Verif.Text.C147_bom",
    "Verif.Text.C147_utf8",
    "Verif.Text.C147_no_bom",
    "Verif.Text.C147_detect",
    "Verif.Text.C147_detect_utf8",
    "Verif.Text.C147_detect_bom",
    "Verif.Text.C147_ebcdic_violation",
    "Verif.Text.C147_detect_violation"
   ],
   "note": "EBCDIC and short or non-Latin UTF-16 texts are witnesses of violations."
  },
  {
   "property": "C148",
   "status": "partial",
   "theorems": [
    "Verif.Iso.Dur.C148_sound",
    "Verif.Iso.Dur.C148_exact",
    "Verif.Iso.Dur.C148_round_trip",
    "Verif.Iso.Dur.C148_round_trip_frac",
    "Verif.Iso.Dur.C148_xsd_round_trip",
    "Verif.Iso.Dur.C148_lenient_violation",
    "Verif.Iso.Dur.C148_write_violation",
    "Verif.Iso.Dur.C148_sign_violation"
   ],
   "note": "Floats are modelled by exact decimal fractions; the violations are witnesses."
  },
  {
   "property": "C149",
   "status": "partial",
   "theorems": [
    "Verif.Xml.Attrs.C149_first_declaration",
    "Verif.Xml.Attrs.C149_seen",
    "Verif.Xml.Attrs.C149_valid_partial",
    "Verif.Xml.Attrs.C149_fixed_violation"
   ],
   "note": "Validity for documents in which fixed attributes are written, normalised; the rest is a violation (witness)."
  },
  {
   "property": "C150",
   "status": "proved",
   "theorems": [
    "Verif.Json.C150_entity_json",
    "Verif.Json.C150_page_json",
    "Verif.Json.C150_property_json"
   ],
   "note": "Single and Double values and fractions of a second are not modelled."
  },
  {
   "property": "C151",
   "status": "partial",
   "theorems": [
    "Verif.Json.C151_values_read_back",
    "Verif.Json.C151_complex_read_back",
    "Verif.Json.C151_entity_read_back",
    "Verif.Json.C151_before_1970_violation",
    "Verif.Json.C151_before_1970_offset_violation",
    "Verif.Json.C151_leap_second_violation",
    "Verif.Json.C151_complex_violation"
   ],
   "note": "Proved for the values named by Plain; dates before 1970, leap seconds and complex properties that are not selected or NULL are violations."
  },
  {
   "property": "C152",
   "status": "partial",
   "theorems": [
    "Verif.Json.C152_new_entity_partial",
    "Verif.Json.C152_single_valued_violation",
    "Verif.Json.C152_single_valued_witness"
   ],
   "note": "Proved for bindings of collections; a binding of a single-valued navigation property is never read back (violation)."
  },
  {
   "property": "C153",
   "status": "proved",
   "theorems": [
    "Verif.Http.C153_reads",
    "Verif.Http.C153_only",
    "Verif.Http.C153_round_trip",
    "Verif.Http.C153_stable",
    "Verif.Http.C153_valid",
    "Verif.Http.C153_invalid_read",
    "Verif.Http.C153_round_trip_violation"
   ],
   "note": "Reading (both directions), writing, is_valid and len for all inputs. The witnesses show what lies outside: ranges that can be read but are not valid, and constructor arguments that are not content ranges of HTTP (negative positions, a last position without a first)."
  },
  {
   "property": "C154",
   "status": "proved",
   "theorems": [
    "Verif.Http.C154_allow_reads",
    "Verif.Http.C154_allow_round_trip",
    "Verif.Http.C154_is_allowed",
    "Verif.Http.C154_allow_eq",
    "Verif.Http.C154_ranges_round_trip",
    "Verif.Http.C154_ranges_none",
    "Verif.Http.C154_ranges_reads",
    "Verif.Http.C154_ranges_eq",
    "Verif.Http.C154_no_comma"
   ],
   "note": "Commas are optional between tokens (C154_no_comma): a leniency of the list reader."
  },
  {
   "property": "C155",
   "status": "partial",
   "theorems": [
    "Verif.Http.C155_lookup_partial",
    "Verif.Http.C155_make",
    "Verif.Http.C155_written_partial",
    "Verif.Http.C155_never_read_violation",
    "Verif.Http.C155_no_cache_violation",
    "Verif.Http.C155_repeated_violation"
   ],
   "note": "from_str calls a parser method that does not exist, so no header can be read (violation); a repeated directive is written twice with its last value (violation). Proved: construction, lookup, membership and that different directives are written readably."
  },
  {
   "property": "C156",
   "status": "partial",
   "theorems": [
    "Verif.CharClass.C156_class_text_partial",
    "Verif.CharClass.C156_history_text_partial",
    "Verif.CharClass.C156_full_violation",
    "Verif.CharClass.C156_backslash_violation"
   ],
   "note": "All classes but two: all characters, and all characters but the backslash (witnesses of the violations)."
  },
  {
   "property": "C157",
   "status": "partial",
   "theorems": [
    "Verif.Xsd.C157_sound_partial",
    "Verif.Xsd.C157_some_way",
    "Verif.Xsd.C157_prefix_free_partial",
    "Verif.Xsd.C157_simple",
    "Verif.Xsd.C157_alternative_violation",
    "Verif.Xsd.C157_greedy_violation",
    "Verif.Xsd.C157_full_class_violation",
    "Verif.Xsd.C157_backslash_class_violation"
   ],
   "note": "True is right for every expression whose classes are not the two of C156; false is right when no proper beginning of the text is described, and for expressions that vary only in the last repetition. The violations are witnesses."
  },
  {
   "property": "C158",
   "status": "partial",
   "theorems": [
    "Verif.Xsd.C158_accepts_partial",
    "Verif.Xsd.C158_match_partial",
    "Verif.Xsd.C158_trailing_violation"
   ],
   "note": "Every expression of the grammar is accepted with its meaning. That nothing else is accepted is false (witness). A hyphen at the beginning of a class is not in the grammar of the theorem."
  },
  {
   "property": "C159",
   "status": "partial",
   "theorems": [
    "Verif.Xsd.Enum.C159_strip",
    "Verif.Xsd.Enum.C159_decode",
    "Verif.Xsd.Enum.C159_encode",
    "Verif.Xsd.Enum.C159_list_round_trip",
    "Verif.Xsd.Enum.C159_dict",
    "Verif.Xsd.Enum.C159_no_case",
    "Verif.Xsd.Enum.C159_dict_from_str_violation",
    "Verif.Xsd.Enum.C159_dict_from_str_empty_violation",
    "Verif.Xsd.Enum.C159_dict_from_str_partial"
   ],
   "note": "Decoding, encoding, lists and the writing of dictionaries are proved; dict_from_str keeps only the last word and fails for no word (witnesses), right for one word."
  },
  {
   "property": "C160",
   "status": "proved",
   "theorems": [
    "Verif.Http.C160_total_order",
    "Verif.Http.C160_explode",
    "Verif.Http.C160_dotted",
    "Verif.Http.C160_modifiers",
    "Verif.Http.C160_equal_versions"
   ],
   "note": "Versions with empty components (1..2) are covered only by C160_total_order."
  },
  {
   "property": "C161",
   "status": "proved",
   "theorems": [
    "Verif.OData.C161_floor_ceiling",
    "Verif.OData.C161_round",
    "Verif.OData.C161_integers",
    "Verif.OData.C161_date_parts"
   ],
   "note": "Decimals (exact rationals) and integers; Single and Double arguments and fractions of a second are not modelled."
  },
  {
   "property": "C162",
   "status": "proved",
   "theorems": [
    "Verif.Qti.Region.C162_valid",
    "Verif.Qti.Region.C162_unchanged",
    "Verif.Qti.Region.C162_places",
    "Verif.Qti.Region.C162_clash_violation"
   ],
   "note": "Uniqueness is not promised; C162_clash_violation shows that it fails."
  },
  {
   "property": "C163",
   "status": "partial",
   "theorems": [
    "Verif.Qti.Region.C163_bounds_partial",
    "Verif.Qti.Region.C163_offset_partial",
    "Verif.Qti.Region.C163_poly_bounds_violation",
    "Verif.Qti.Region.C163_poly_offset_violation",
    "Verif.Qti.Region.C163_bounds_violation"
   ],
   "note": "Circles, ellipses and rectangles with positive radii and ordered corners; polygons and the degenerate cases violate the claim."
  },
  {
   "property": "C164",
   "status": "partial",
   "theorems": [
    "Verif.Http.Srv.C164_split_socket",
    "Verif.Http.Srv.C164_split_socket1",
    "Verif.Http.Srv.C164_integrity",
    "Verif.Http.Srv.C164_request",
    "Verif.Http.Srv.C164_blank_line",
    "Verif.Http.Srv.C164_pipeline_partial",
    "Verif.Http.Srv.C164_chunked_partial",
    "Verif.Http.Srv.C164_chunked_violation",
    "Verif.Http.Srv.C164_pipeline_violation",
    "Verif.Http.Srv.C164_witness",
    "Verif.Http.Srv.C164_pipeline_witness"
   ],
   "note": "Requests with a Content-Length or no body in any division into pieces; chunked requests and several requests on a connection only if pieces end at certain places, the other cases violate the claim. Timeouts, Expect: 100-continue and a blocked application are not modelled."
  },
  {
   "property": "C165",
   "status": "proved",
   "theorems": [
    "Verif.Compat.C165_make_attr_name",
    "Verif.Compat.C165_no_upper",
    "Verif.Compat.C165_fixed",
    "Verif.Compat.C165_getattr"
   ],
   "note": "For every table of cases in which no character has two and lower-casing leaves no upper case."
  },
  {
   "property": "C166",
   "status": "partial",
   "theorems": [
    "Verif.Compat.C166_new_class",
    "Verif.Compat.C166_lookup",
    "Verif.Compat.C166_override",
    "Verif.Compat.C166_accepted",
    "Verif.Compat.C166_refused",
    "Verif.Compat.C166_mixin_violation"
   ],
   "note": "Renamed methods that are declared in a base or in the class itself; C166_mixin_violation shows the case that is left out."
  },
  {
   "property": "C167",
   "status": "proved",
   "theorems": [
    "Verif.Qti1.C167_migrated_rules",
    "Verif.Qti1.C167_response_processing",
    "Verif.Qti1.C167_stops",
    "Verif.Qti1.C167_fixups"
   ],
   "note": "For all lists of conditions whose tests and actions have been migrated. The content of humanrater extensions is not modelled."
  },
  {
   "property": "C168",
   "status": "partial",
   "theorems": [
    "Verif.Qti1.C168_positive_partial",
    "Verif.Qti1.C168_answered_partial",
    "Verif.Qti1.C168_violation_not",
    "Verif.Qti1.C168_violation_index",
    "Verif.Qti1.C168_violation_case"
   ],
   "note": "Conditions without not in all sessions, and all conditions if the responses are answered; without indexes into ordered responses and caseless tests of containers of strings. The rest violates the claim. varinside is not modelled."
  },
  {
   "property": "C169",
   "status": "partial",
   "theorems": [
    "Verif.Qti1.C169_set",
    "Verif.Qti1.C169_integer_partial",
    "Verif.Qti1.C169_float",
    "Verif.Qti1.C169_null",
    "Verif.Qti1.C169_feedback_partial",
    "Verif.Qti1.C169_violation_divide",
    "Verif.Qti1.C169_violation_feedback"
   ],
   "note": "All actions except Divide on integers, results within 32 bits, feedback names that are identifiers; the rest violates the claim."
  },
  {
   "property": "C170",
   "status": "partial",
   "theorems": [
    "Verif.Qti1.Area.C170_numbers_partial",
    "Verif.Qti1.Area.C170_rectangle_partial",
    "Verif.Qti1.Area.C170_circle",
    "Verif.Qti1.Area.C170_ellipse_partial",
    "Verif.Qti1.Area.C170_padding",
    "Verif.Qti1.Area.C170_bounded",
    "Verif.Qti1.Area.C170_yn_round_trip",
    "Verif.Qti1.Area.C170_leading_violation",
    "Verif.Qti1.Area.C170_rectangle_violation",
    "Verif.Qti1.Area.C170_empty_rectangle_violation",
    "Verif.Qti1.Area.C170_ellipse_violation",
    "Verif.Qti1.Area.C170_yn_violation"
   ],
   "note": "Texts that begin with a number; rectangles of at least one pixel (contained, not equal); ellipses with diameters of two or more. The rest violates the claim. int(float(s)) is a parameter."
  },
  {
   "property": "C171",
   "status": "partial",
   "theorems": [
    "Verif.Dom.Inherit.C171_lang_partial",
    "Verif.Dom.Inherit.C171_set_lang",
    "Verif.Dom.Inherit.C171_space_partial",
    "Verif.Dom.Inherit.C171_base_none",
    "Verif.Dom.Inherit.C171_base_document",
    "Verif.Dom.Inherit.C171_base_absolute_partial",
    "Verif.Dom.Inherit.C171_base_relative_partial",
    "Verif.Dom.Inherit.C171_base_chain_partial",
    "Verif.Dom.Inherit.C171_uri",
    "Verif.Dom.Inherit.C171_uri_absolute",
    "Verif.Dom.Inherit.C171_lang_violation",
    "Verif.Dom.Inherit.C171_space_violation",
    "Verif.Dom.Inherit.C171_base_violation"
   ],
   "note": "Languages that are not empty; xml:space given somewhere or no document; bases: absolute, one relative reference below an absolute one, or any number of relative paths without dot segments below an absolute one. The rest violates the claim, except bases with queries, colons or inner dot segments, for which it is not proved."
  },
  {
   "property": "C172",
   "status": "partial",
   "theorems": [
    "Verif.Dom.Canon.C172_content_partial",
    "Verif.Dom.Canon.C172_equal_partial",
    "Verif.Dom.Canon.C172_preserve",
    "Verif.Dom.Canon.C172_adjacent_partial",
    "Verif.Dom.Canon.C172_two_blanks_violation",
    "Verif.Dom.Canon.C172_idempotent_partial",
    "Verif.Dom.Canon.C172_lone_violation",
    "Verif.Dom.Canon.C172_blank_violation",
    "Verif.Dom.Canon.C172_empty_violation"
   ],
   "note": "For all children as elements keep them (texts joined, not empty), except elements with one text and nothing else; the rest violates the claim. Elements are abstract, compared by ==."
  },
  {
   "property": "C173",
   "status": "partial",
   "theorems": [
    "Verif.Web.Context.C173_url_partial",
    "Verif.Web.Context.C173_url_violation",
    "Verif.Web.Context.C173_root",
    "Verif.Web.Context.C173_port",
    "Verif.Web.Context.C173_content",
    "Verif.Web.Context.C173_limits",
    "Verif.Web.Context.C173_length_violation"
   ],
   "note": "URL for paths in ASCII; other bytes violate the claim. get_query, get_form and cookies are not modelled; the result is the text given to URI.from_octets."
  },
  {
   "property": "C174",
   "status": "partial",
   "theorems": [
    "Verif.Http.Target.C174_target",
    "Verif.Http.Target.C174_host",
    "Verif.Http.Target.C174_accepts",
    "Verif.Http.Target.C174_wait",
    "Verif.Http.Target.C174_growth",
    "Verif.Http.Target.C174_refused_violation",
    "Verif.Http.Target.C174_nohost_violation"
   ],
   "note": "That a refused URL is refused with HTTPException and leaves the request as it was is violated; the rest is proved. Host: for names without a colon. Times are exact rationals."
  }
 ]
}