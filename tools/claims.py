P = "Verif.CharClass."
c("C01", "proved", [P+"C01_charclass_is_set", P+"C01_subtract_self_violation"],
  "All histories with class arguments that are other objects; x.subtract_class(x) violates the claim (theorem with witness).")
c("C02", "proved", [P+"C02_eq_iff_same_set", P+"C02_canonical"])
c("C03", "proved", [P+"C03_cache_invisible", P+"C03_test_keeps_ranges", P+"C03_ranges_ignore_tests"])
c("C04", "partial", [P+"Heap.C04_violation", P+"Heap.C04_violation_membership", P+"Heap.C04_additive_calls_partial", P+"Heap.C04_no_copy_partial"],
  "The code violates C04 (witness proved in a heap model). Proved: adding calls and negate never affect other objects; programs without copies behave as independent values.")
P = "Verif.Parser."
c("C05", "proved", [P+"C05_parse", P+"C05_parse_insensitive", P+"C05_parse_one", P+"C05_parse_digits", P+"C05_run_longest", P+"C05_parse_production", P+"C05_parse_until"])
c("C06", "proved", [P+"C06_parse_integer_exact", P+"C06_parse_integer_bad_args", P+"C06_print_parse"])
c("C35", "proved", [P+"C35_error_position"])
P = "Verif.Iso."
c("C07", "proved", [P+"C07_absolute_day_bijection", P+"C07_complete_dates", P+"C07_last_day", P+"C07_zero_violation"], "Day number 0 is accepted as 0001-01-01 (theorem with witness); all other numbers outside the range raise.")
c("C08", "proved", [P+"C08_days_count_and_order", P+"C08_comparison"])
c("C09", "proved", [P+"C09_day_of_week"])
c("C10", "proved", [P+"C10_week_round_trip", P+"C10_week_dates", P+"C10_week_count"])
c("C11", "proved", [P+"C11_ordinal", P+"C11_ordinal_constructor", P+"C11_julian", P+"C11_ordinal_zero_violation", P+"C11_julian_zero_violation"])
c("C12", "proved", [P+"C12_offset_days", P+"C12_offset_compose", P+"C12_offset_months", P+"C12_offset_years", P+"C12_offset_weeks", P+"C12_offset_violation"], "Except for an offset landing on day number 0, where the code returns 0001-01-01 instead of raising (witness proved).")
c("C36", "proved", [P+"C36_day", P+"C36_month_day", P+"C36_year_month_day", P+"C36_ordinal", P+"C36_year_ordinal", P+"C36_weekday", P+"C36_week_weekday", P+"C36_decade_year_week_weekday", P+"C36_century_year_week_weekday"])
c("C37", "proved", [P+"C37_calendar", P+"C37_week_precision", P+"C37_week_too_large", P+"C37_violations"], "Week 0 is accepted by the code (theorem with witness); everything else is exact.")
c("C13", "proved", [P+"C13_offset", P+"C13_total_seconds", P+"C13_midnight_violation"], "Integer components. 24:00:00, the only valid time left out, violates the claim (witness).")
c("C14", "proved", [P+"C14_same_instant", P+"C14_returns", P+"C14_to_utc", P+"C14_violations"], "For local times not before the calendar starts; just before it the code returns a wrong day (witness), and zones more than a day apart raise (witness).")
c("C15", "proved", [P+"C15_compare", P+"C15_local", P+"C15_mixed", P+"C15_midnight_violation"], "__eq__ and __lt__; hash is hash of the same key.")
c("C16", "proved", [P+"C16_round_trip", P+"C16_unixtime", P+"C16_violation"], "Within the calendar; the second before it starts violates the claim (witness).")
c("C38", "proved", [P+"C38_extend", P+"C38_minute_violation"], "With seconds given; a truncated minute alone equal to the base's minute raises TypeError (witness).")
c("C17", "proved", [P+"C17_date_round_trip", P+"C17_reduced_round_trip", P+"C17_truncated", P+"C17_time_round_trip", P+"C17_reduced_time_round_trip", P+"C17_truncated_time", P+"C17_time_point_round_trip", P+"C17_trailing_garbage"], "Also reduced precision, truncated forms, times with zones and time points (integer seconds). from_str ignores trailing text (witness).")
c("C40", "proved", [P+"C40_same_zone", P+"C40_other_zone"])
c("C41", "proved", [P+"C41_complete", P+"C41_reduced", P+"C41_violations"], "For non-negative zone components; negative zone offsets, zone minutes over 59 and seconds without minutes are accepted (witnesses).")
P = "Verif.Uri."
c("C18", "proved", [P+"C18_round_trip", P+"C18_items", P+"C18_parse_uric", P+"C18_hex_digits"])
c("C39", "proved", [P+"C39_parse_uric_run", P+"C39_parse_uric_longest"])
c("C19", "proved", [P+"C19_canonicalize", P+"C19_default", P+"C19_unreserved_escape", P+"C19_malformed_violation"], "Well formed escapes; with malformed ones (%+1) the claim fails (witness).")
c("C20", "proved", [P+"C20_normalize", P+"C20_normalize_nil", P+"C20_normal_form", P+"C20_meaning", P+"C20_idempotent"])
c("C23", "proved", [P+"C23_split_server", P+"C23_parts"])
c("C21", "proved", [P+"C21_accepts", P+"C21_lossless", P+"C21_components", P+"C21_components_relative", P+"C21_empty_scheme"], "Plain URI objects and ASCII text; the code also accepts an empty scheme (witness).")
c("C22", "partial", [P+"C22_relative_resolve_partial", P+"C22_other_scheme", P+"C22_other_authority", P+"C22_violations"], "Proved under explicit conditions (no ':' in and no inner empty segments, path not a proper prefix of the base's, queries with equal paths); the code violates the claim otherwise, with a witness for each condition.")
c("C42", "proved", [P+"C42_resolve", P+"C42_absolute", P+"C42_same_document", P+"C42_no_path_violation", P+"C42_double_slash_violation"], "Bases with an absolute path. A base without path violates the claim (witness).")
c("C43", "proved", [P+"C43_canonicalize", P+"C43_addr", P+"C43_violations"], "Hosts without '@' that do not end in ':' and digits, no opaque part; otherwise the claim fails (witnesses).")
c("C24", "proved", [P+"C24_round_trip", P+"C24_zero"], "Text of Unicode scalar values; surrogates raise.")
c("C44", "proved", [P+"C44_accepts", P+"C44_canonicalize", P+"C44_lenient"], "The code also accepts one character NIDs and an empty NSS (witness).")
P = "Verif.Http."
c("C25", "proved", [P+"C26_token_chars", P+"C25_decode_quote", P+"C25_one_word", P+"C25_noforce", P+"C25_empty_violation", P+"C25_unterminated_violation"], "The empty string without force and unterminated strings violate the claim (witnesses).")
c("C26", "proved", [P+"C26_token_chars", P+"C26_media_type", P+"C26_transfer_encoding", P+"C26_chunk", P+"C26_entity_tag", P+"C26_http_version", P+"C26_product_token", P+"C26_language_tag", P+"C26_media_type_reparse", P+"C26_chunk_reparse", P+"C26_entity_tag_reparse", P+"C26_empty_value_violation", P+"C26_empty_value_parsed", P+"C26_latin1_name_violation"], "Values with non-empty parameter values and ASCII tokens; the others violate the claim (witnesses).")
c("C45", "partial", [P+"C45_only_value_errors", P+"C45_chunk_violation", P+"C45_date_violation"], "Proved for all formats except chunk headers and dates, which violate the claim (witnesses).")
c("C27", "proved", [P+"C27_round_trip", P+"C27_formats", P+"C27_sound"], "Integer seconds; instants within the calendar. All three formats of RFC 2616 are proved to be read.")
P = "Verif.Streams."
c("C28", "proved", [P+"C28_in_order", P+"C28_nothing_lost", P+"C28_readall", P+"C28_empty_violation"], "Schedules of atomic attempts (each holds the pipe's lock); nothing_lost without close and without writing an empty bytearray, which violates the claim (witness).")
c("C29", "proved", [P+"C29_exact", P+"C29_safe", P+"C29_readmatch_violation"], "Exact without readmatch, which violates the claim (witness); one-sided bounds for every schedule.")
c("C30", "proved", [P+"C30_transparent", P+"C30_peek", P+"C30_random_access", P+"C30_new", P+"C30_fits", P+"C30_overflow", P+"C30_failed_seek_violation"], "A failed seek violates the claim (witness).")
c("C46", "proved", [P+"C46_readmatch"])
c("C47", "proved", [P+"C47_modes", P+"C47_readall_violation"], "readall violates the claim (witness).")
P = "Verif.Blocks."
c("C31", "proved", [P+"C31_file", P+"C31_beyond_violation", P+"C31_truncate_violation"], "Seeks within the last block's reach; a later seek and opening a non-empty stream with 'w' raise (witness theorems for every such stream). Negative seeks are not modelled.")
c("C48", "proved", [P+"C48_digest", P+"C48_sequential"], "The digest is modelled by the content it is the digest of.")
c("C33", "proved", [P+"Lock.C33_exclusive", P+"Lock.C33_fresh", P+"Lock.C33_stale_unlock", P+"Lock.C33_recovers", P+"Lock.C33_release", P+"Lock.C33_slow_violation", P+"Lock.C33_memory_violation"], "Entity sets that enforce optimistic concurrency (SQL) and unlocks whose delete follows the check within a second; slow unlocks and the in-memory entity set violate the claim (witnesses).")
c("C32", "proved", [P+"Store.C32_never_lost", P+"Store.C32_content", P+"Store.C32_all_present", P+"Store.C32_last_written", P+"Store.C32_no_orphans", P+"Store.C32_locks_released", P+"Store.C32_too_large_violation", P+"Store.C32_stale_update_violation"], "All interleavings and crash points of any number of threads; no_orphans for one thread per block with up to date entities and without crashes; the block store keeps locks while threads run (C33). BlockSize after the insertion and stale copies violate the claim (witnesses).")
P = "Verif.Xsd."
c("C34", "proved", [P+"C34_collapse", P+"C34_collapsed", P+"C34_idempotent", P+"C34_replace", P+"C34_leading_violation"], "Strings that do not start with white space keep their words; a leading white space splits the first word (theorem for every such string).")
c("C49", "proved", [P+"C49_integer", P+"C49_integer_round_trip", P+"C49_decimal", P+"C49_boolean", P+"C49_boolean_round_trip"], "float() is modelled by the exact rational it rounds.")
P = "Verif.Http."
c("C50", "proved", [P+"C50_received", P+"C50_prefix", P+"C50_flush_violation", P+"C50_eof_violation"], "Finite blocking; no gzip codings, no multipart/byteranges. A flush that blocks at the end of a chunked body and bodies delimited by close violate the claim (witnesses).")
c("C51", "partial", [P+"C51_pipelined_partial", P+"C51_each_read_partial", P+"C51_pipelined_violation"], "Order and integrity are proved for every segmentation; promptness fails when two responses arrive in one read (witness).")
c("C52", "proved", [P+"C52_fields", P+"C52_no_body", P+"C52_chunked", P+"C52_codings", P+"C52_length", P+"C52_injection_violation", P+"C52_negative_violation"], "Values with line breaks and negative lengths violate the claim (witnesses).")
c("C53", "proved", [P+"C53_sent", P+"C53_end_to_end", P+"C53_short_violation"], "Reason phrases of tokens and single spaces; header fields as in C52 without Transfer-Encoding set by the application. A body shorter than its declared length violates the claim (witness).")
c("C54", "proved", [P+"C54_waiting", P+"C54_complete", P+"C54_frame", P+"C54_next_violation"], "Bytes after the boundary in the same read are discarded (witness).")
c("C55", "proved", [P+"C55_chunked"], "Reads of the source are short only at its end (BufferedReader).")
c("C56", "proved", [P+"C56_input", P+"C56_all", P+"C56_far_violation", P+"C56_past_violation"], "Seeks beyond the buffer violate the claim (witnesses). No transfer encoding (C55).")
P = "Verif.Cookie."
c("C57", "partial", [P+"C57_search_partial", P+"C57_set", P+"C57_safe", P+"C57_default_path", P+"C57_expired", P+"C57_domain_names", P+"C57_path_violation", P+"C57_address_violation", P+"C57_host_violation"], "Exact for all histories up to the path match, which leaves out identical paths (witness); IP addresses and hosts with other characters violate the claim (witnesses). Wildcards only at the front of public rules; punycode is any function; paths are not empty.")
c("C58", "partial", [P+"C58_private", P+"C58_public", P+"C58_only_partial", P+"C58_registered", P+"C58_parent_violation"], "Exact up to parents of rules, which can be public (witness).")
c("C59", "proved", [P+"C59_date", P+"C59_formats"], "")
c("C60", "partial", [P+"C60_ignored", P+"C60_attributes_partial", P+"C60_values", P+"C60_secure_violation"], "All but the trimming of attributes without '=', because of which Secure and HttpOnly after '; ' are not recognised (theorem for every such header).")
P = "Verif.OData."
c("C61", "partial", [P+"C61_uri_literal_round_trip", P+"C61_empty_binary_violation", P+"C61_exponent_plus_violation"], "All values with whole seconds except empty Binary values (witness) and floating point numbers, which are not modelled beyond their literals (witness for 1e+16D).")
c("C62", "partial", [P+"C62_parser_implements_grammar", P+"C62_unambiguous", P+"C62_expression_round_trip_partial", P+"C62_right_operand_violation", P+"C62_unary_chain_violation", P+"C62_negate_name_violation", P+"C62_parameter_violation", P+"C62_reserved_name_violation"], "Every text of the grammar (in which unary operators are not chained) is parsed right; the round trip holds for faithful expressions. The remaining cases violate the claim (witnesses).")
c("C64", "partial", [P+"C64_promotion", P+"C64_promotion_comm", P+"C64_promotion_assoc", P+"C64_sbyte_violation", P+"C64_narrow_violation"], "All pairs but SByte; narrow types cannot be compared (theorems for all values).")
c("C65", "partial", [P+"C65_integer_arithmetic_partial", P+"C65_null_arithmetic", P+"C65_negate", P+"C65_int64_division_violation"], "Exact for all integers, div and mod for operands below 2^53; beyond, division is inexact (witness, with IEEE rounding modelled).")
c("C66", "partial", [P+"C66_filter_logic", P+"C66_comparison_two_valued", P+"C66_integer_comparison", P+"C66_null_comparison", P+"C66_string_comparison", P+"C66_string_null_violation", P+"C66_or_null_violation"], "Formulas over parts that are true or false. The exceptions are witnessed. member, cast and isof expressions are not modelled.")
c("C67", "partial", [P+"C67_string_methods", P+"C67_indexof", P+"C67_substring_partial", P+"C67_null_argument", P+"C67_replace", P+"C67_trim", P+"C67_case", P+"C67_negative_start_violation"], "Everything but negative positions (witness). str.lower, str.upper and which characters are white space are parameters; replace with an empty search string is not in the theorem.")
c("C68", "partial", [P+"C68_key_predicate_round_trip_partial", P+"C68_single_key_round_trip_partial", P+"C68_percent_violation", P+"C68_non_ascii_violation"], "Keys whose Strings are ASCII and have no percent sign; the others violate the claim (witnesses). Types as in C61.")
P = "Verif.OData.Paging."
c("C63", "proved", [P+"C63_pages", P+"C63_each_entity_once", P+"C63_ends", P+"C63_unlimited"], "Collections whose content does not change between pages; the sequence of entities is that of C70.")
c("C69", "partial", [P+"C69_page", P+"C69_small_top", P+"C69_links_consecutive", P+"C69_client_complete", P+"C69_violation_links_never_end", P+"C69_violation_top_exceeded"], "Completeness and order of the links are proved; ending (theorem for every collection) and the total for $top above the limit (witness) are violated.")
P = "Verif.OData.OrderBy."
c("C70", "partial", [P+"C70_rearranges", P+"C70_sorted_paging", P+"C70_sorted_stable", P+"C70_paging_deterministic", P+"C70_null_order_key", P+"C70_violation_null", P+"C70_pages_fixed_sequence"], "Exact except for null order values, for which ordering fails (characterised exactly by C70_null_order_key). Entities with unique keys compared by a total order.")
P = "Verif.MemDs."
c("C71", "proved", [P+"C71_links_from", P+"C71_links_to", P+"C71_no_duplicates", P+"C71_delete_complete", P+"C71_rdelete_complete"], "")
c("C72", "partial", [P+"C72_links_partial", P+"C72_multiplicity_partial", P+"C72_streams_partial", P+"C72_violation_stale_source", P+"C72_violation_replace_missing", P+"C72_violation_replace_steals", P+"C72_violation_failed_insert"], "Histories in which navigation starts from existing entities and replace names a free existing entity (Fresh); the other cases violate the claim (witnesses).")
c("C73", "partial", [P+"C73_deleted", P+"C73_only_removes", P+"C73_only_dependents_partial", P+"C73_leaf_deletes", P+"C73_no_orphans_partial", P+"C73_violation_half_deleted", P+"C73_violation_wrong_direction"], "Dependents: schemas without associations of a set with itself, for which the wrong end is deleted (witness). Failing deletions are not atomic (witness).")
P = "Verif.MemDs.Row."
c("C74", "proved", [P+"C74_read_back", P+"C74_exists"], "Simple values are opaque; entities passed have the declared type.")
P = "Verif.Xml."
c("C75", "proved", [P+"C75_accepts", P+"C75_prompt", P+"C75_expected", P+"C75_refused", P+"C75_mixed"], "Particles of a model are different objects; choices are not empty; mixed content has the shape the parser gives it.")
c("C76", "proved", [P+"C76_deterministic"], "As in C75.")
c("C77", "partial", [P+"C77_checked_partial", P+"C77_valid_accepted", P+"C77_valid_partial", P+"C77_empty_tag_violated", P+"C77_empty_child_raises"], "Empty-element tags are not checked against required children (witness). Attributes and SGML options are not modelled.")
c("C78", "partial", [P+"C78_characters", P+"C78_lines", P+"C78_column_violated"], "Characters and line numbers are exact; the position in the line is wrong after CR LF (witness). Pieces are not empty; decoding is not modelled.")
c("C79", "partial", [P+"C79_accepted", P+"C79_complete_partial", P+"C79_unique", P+"C79_sound_partial", P+"C79_terminates_partial", P+"C79_hang_violated", P+"C79_pi_violated", P+"C79_open_violated", P+"C79_comment_violated"], "The accepted language and its trees are characterised exactly; the differences to XML 1.0 have witnesses. Character ranges are not checked by the parser in data. No DTD, no namespaces, default options.")
c("C80", "partial", [P+"C80_roundtrip_partial", P+"C80_roundtrip7_partial", P+"C80_escape7_ascii", P+"C80_value", P+"C80_space_preserved", P+"C80_space_ignored", P+"C80_cdsect_partial", P+"C80_tab_violated", P+"C80_empty_violated", P+"C80_cdsect_violated"], "All trees without empty data and without tabs and line feeds in attribute values, for which there are witnesses. Base class Element (mixed content).")
P = "Verif.Auth."
c("C81", "partial", [P+"C81_scope_partial", P+"C81_records", P+"C81_empty_path_is_root", P+"C81_most_general", P+"C81_empty_folder_violation", P+"C81_empty_path_violation"], "Exact for documents without empty folder names and for paths that are not empty; the other cases violate the claim (witnesses).")
c("C82", "partial", [P+"C82_own_space", P+"C82_user_header", P+"C82_preemptive", P+"C82_refusals", P+"C82_new_request", P+"C82_no_redirect", P+"C82_remove_partial", P+"C82_remove_absent", P+"C82_none_header_violation", P+"C82_remove_violation", P+"C82_realm_violation", P+"C82_redirect_loop_violation"], "The safety part holds for every history; the violations have witnesses. One request at a time.")
c("C83", "partial", [P+"C83_credentials_partial", P+"C83_colon_violation", P+"C83_challenge_partial", P+"C83_lookup", P+"C83_lookup_exact", P+"C83_realm", P+"C83_one_challenge", P+"C83_list_violation", P+"C83_scheme_violation", P+"C83_from_str_violation"], "Userids and passwords without colon, single Basic challenges; the other cases violate the claim.")
P = "Verif.Sql."
c("C84", "partial", [P+"C84_meaning_partial", P+"C84_meaning_indexed_partial", P+"C84_violation_nested_sub", P+"C84_violation_nested_eq", P+"C84_violation_unsupported"], "For expressions without the nestings that the translation writes without brackets (witnesses). The spelling of operators is not modelled.")
c("C85", "proved", [P+"C85_text_ignores_values", P+"C85_same_text", P+"C85_one_value_per_placeholder", P+"C85_styles_agree"], "")
c("C86", "partial", [P+"C86_filter_partial", P+"C86_translated", P+"C86_violation_eq_null", P+"C86_violation_ne"], "Integer, string and Boolean expressions with arithmetic, comparisons, and, or; null in eq and ne violates the claim (witnesses).")
c("C87", "partial", [P+"C87_startswith_partial", P+"C87_endswith_partial", P+"C87_substringof_partial", P+"C87_violation_wildcard", P+"C87_violation_case", P+"C87_violation_indexof"], "Patterns without wildcards and up to the case of ASCII letters (witnesses).")
c("C88", "partial", [P+"C88_clause_partial", P+"C88_violation_null", P+"C88_violation_boolean"], "Order values that are integers or texts and not null, order expressions that are not comparisons (witnesses).")
c("C89", "partial", [P+"C89_pages_partial", P+"C89_pages_joined_partial", P+"C89_next_token_partial", P+"C89_violation_long_token", P+"C89_violation_long_token_repeats", P+"C89_violation_skip"], "Tokens of at most 512 characters, a page size that is not zero (witnesses). The table does not change.")
c("C90", "partial", [P+"C90_token_round_trip_partial", P+"C90_page_after_text_partial"], "The values of C61 (no floating point).")

P = "Verif.Qti."
c("C91", "partial", [P+x for x in "C91_evaluate_wf C91_evaluate_type C91_container_card C91_record_set C91_record_set_value C91_violation_empty_record C91_violation_literal C91_violation_overflow C91_violation_template_ref C91_violation_delete".split()], "Well-typedness is proved for trees whose literals match their types; the kinds of exception and out-of-range literals violate the claim (witnesses).")
c("C92", "partial", [P+x for x in "C92_and C92_or C92_not C92_anyN_partial C92_violation_anyN C92_operands".split()], "anyN for min not above max (witness).")
c("C93", "partial", [P+x for x in "C93_multiple C93_ordered C93_container_size C93_is_null C93_match_multiple C93_match_ordered C93_match_single C93_match_null C93_member C93_delete C93_contains_ordered C93_contains_multiple C93_index C93_random C93_random_all C93_violation_record".split()], "All operators; records are dropped instead of refused (witness).")
c("C94", "partial", [P+x for x in "C94_sum C94_product C94_subtract C94_divide C94_compare C94_integer_division C94_equal_exact C94_equal_tolerance C94_equal_relative_partial C94_violation_equal_relative C94_truncate C94_round C94_integer_to_float C94_duration C94_random_integer C94_random_integer_all C94_random_float".split()], "Floats are modelled as rationals; a relative tolerance about a negative number violates the claim (witness).")
c("C95", "proved", [P+x for x in "C95_map C95_map_null C95_bounds_inverted C95_area_map C95_match_table C95_interpolation_table".split()], "")
c("C96", "partial", [P+x for x in "C96_response C96_template C96_branch C96_condition C96_exit C96_exit_nested C96_set_partial C96_violation_multiplicity C96_violation_name_clash".split()], "The set rule up to multiplicities (witness); names with '.' can clash (witness).")
c("C97", "partial", [P+x for x in "C97_init C97_begin_session C97_begin_attempt C97_submit C97_outcomes_forgotten C97_refused C97_history C97_life C97_violation_multiplicity C97_violation_ordered C97_violation_dot C97_violation_not_begun".split()], "Items whose identifiers hold no '.'; single and multiple responses; a submitted value is taken over without multiplicities (witnesses).")

P = "Verif.Html."
c("C98", "partial", [P+x for x in "C98_length_parse C98_length_round_trip C98_length_stable C98_violation_negative C98_resolve C98_coords_round_trip C98_color_round_trip C98_color_case C98_color_names C98_media_names C98_media_ops C98_media_round_trip C98_media_parse".split()], "Negative lengths cannot be read back (witness).")
c("C99", "proved", [P+x for x in "C99_poly C99_poly_total C99_closed C99_reverse C99_rotate C99_cut C99_rect C99_triangle C99_circle C99_rect_corners".split()], "")

P = "Verif.Sql."
c("C100", "partial", [P+x for x in "C100_atomic_partial C100_succeeds C100_violation_cascade C100_violation_stream C100_violation_stream_lost".split()], "Proved for methods that pass their transaction on; calls without it and the stream methods violate the claim (witnesses).")
c("C101", "partial", [P+x for x in "C101_update_ok_partial C101_update_conflict C101_update_missing_partial C101_violation_nothing C101_violation_null_token C101_no_lost_update_partial C101_violation_retry".split()], "Histories in which clients read again after a refused update; set tokens; updates that write at least one column (witnesses for the rest).")
c("C102", "partial", [P+x for x in "C102_exclusive C102_held C102_bound C102_depth C102_same C102_wait_partial C102_violation_leak".split()], "Waiting only when all connections are held: as long as no thread dies with a connection (witness).")
c("C103", "partial", [P+x for x in "C103_literal C103_literal_sqlite C103_name_safe C103_columns_partial C103_tables C103_violation_columns C103_params C103_violation_percent".split()], "Distinct columns for names without the joining character (witness); default literals are not escaped for % formatting (witness).")

P = "Verif.Vfs."
c("C104", "partial", [P+x for x in "C104_norm_rel C104_norm_meaning C104_norm_abs_partial C104_norm_unique C104_norm_idem C104_join C104_parts_partial C104_abspath C104_split C104_dirlike C104_splitext C104_root C104_violation_double C104_violation_parts C104_violation_splitext".split()], "Absolute paths without '//' for the shape of the normal form (witness). No drives and no UNC paths.")
c("C105", "partial", [P+x for x in "C105_tests C105_mkdir C105_makedirs C105_listdir C105_remove C105_rmtree_partial C105_open C105_write C105_update C105_read C105_ok C105_history C105_tree_step C105_tree_partial C105_violation_rmtree C105_violation_open C105_violation_mkdir".split()], "Paths without '//'. The directory given to rmtree stays; the tree invariant needs care that the code does not enforce (witnesses).")

P = "Verif.Web."
c("C106", "partial", [P+x for x in "C106_sound C106_named C106_longest_partial C106_complete_partial C106_violation_backtrack C106_static C106_static_served C106_violation_ascii".split()], "Longest match and completeness for patterns with stars at the end only (witness for the rest).")
c("C107", "partial", [P+x for x in "C107_decrypt C107_too_old C107_changeover C107_ends C107_sign C107_ascii_sign_partial C107_accept C107_no_other_message C107_violation_two_changes C107_violation_reused_number C107_violation_boundary C107_violation_empty C107_violation_empty_asked C107_violation_unknown_key C107_violation_aes C107_violation_empty_key C107_violation_when".split()], "Key numbers all different, keys not empty, messages of ascii_sign not empty (witnesses). The cipher is any with a round trip.")
c("C108", "partial", [P+x for x in "C108_text C108_continues C108_establishes C108_session C108_page C108_csrf C108_test_new C108_ctest C108_wlaunch C108_cookie C108_violation_forgery C108_violation_late_post C108_violation_ctest C108_violation_bad_cookie".split()], "All but the authenticity of cookies, which is violated (a forgery is constructed); late forms and error handling (witnesses).")

P = "Verif.Lti."
c("C109", "partial", [P+x for x in "C109_accepts C109_replay C109_first_use C109_concurrent_partial C109_shared C109_race".split()], "Requests one after the other: proved; concurrent requests only if the nonce is new (witness for the rest); keys of the same length for the first use (witness).")
c("C110", "partial", [P+x for x in "C110_permissions_partial C110_list C110_no_roles C110_unknown_roles".split()], "Exact, but a role that is not known makes the launch fail (witness). ASCII roles.")
c("C111", "proved", [P+x for x in "C111_access C111_unknown_resource C111_one_user C111_stranger".split()], "Calls are atomic; merge_session, which always raises AttributeError (CookieSession has no attribute session), is not modelled.")
c("C112", "partial", [P+x for x in "C112_resources_users C112_contexts_partial C112_clash".split()], "Contexts: only if the keys of the consumers have the same length (witness).")

P = "Verif.Form."
c("C113", "partial", [P+x for x in "C113_form_legal C113_form_nested C113_form_total C113_impossible_selection C113_document_order C113_shuffled_section_violated C113_free_slot_violated C113_hollow_index_error".split()], "Tests without hollow mixed sections; success where shuffled sections hold no sub-section that may move (witnesses for the rest).")
c("C114", "partial", [P+x for x in "C114_key_check C114_key_chain C114_key_once C114_same_tick_violated".split()], "Once only if the clock advances between events (witness); time in microseconds.")
c("C115", "partial", [P+x for x in "C115_terminates C115_forward C115_session_ends C115_linear_order C115_branch_to_identifier C115_exit_testpart C115_exit_section_partial C115_exit_section_violated C115_section_precondition_violated C115_nonlinear_violated".split()], "EXIT_SECTION only where no sub-section lies ahead (witness); section preConditions and non-linear parts violate the claim (witnesses).")
c("C116", "proved", [P+x for x in "C116_durations C116_finished".split()], "Time in microseconds.")

P = "Verif.Ns."
c("C117", "partial", [P+x for x in "C117_names_partial C117_made C117_read C117_written C117_lost_attribute C117_wrong_element C117_cannot_write C117_dropped_attribute C117_undeclared_default C117_unbound_prefix".split()], "Proved under the stated conditions; the rest is violated (witnesses). Base class NSElement; escaping and text content are the subject of other claims.")
c("C118", "proved", [P+x for x in "C118_again".split()], "For the trees of C117.")
c("C119", "proved", [P+x for x in "C119_new_prefix C119_prefix_in_force".split()], "")

P = "Verif.Pkg."
c("C120", "partial", [P+x for x in "C120_contained C120_origin C120_success C120_refused C120_violation_flags".split()], "Containment, origin, success and refusal hold in full; names declared as UTF-8 are decoded twice if another flag is set (witness). File system in memory, no links.")
c("C121", "proved", [P+x for x in "C121_round_trip".split()], "Files not open; the recoding of names keeps ASCII.")
c("C122", "partial", [P+x for x in "C122_inside C122_ends C122_unique_partial C122_violation_taken C122_violation_extension C122_violation_root".split()], "Uniqueness only if the suggested path is free or hashes agree (witness). path_in_path for absolute paths without double separators.")
c("C123", "proved", [P+x for x in "C123_files C123_refs".split()], "A directory named imsmanifest.xml at the root is skipped like the manifest.")

P = "Verif.Neg."
c("C124", "partial", [P+x for x in "C124_select_type_partial C124_violation_case C124_violation_tilde C124_violation_star".split()], "For ranges in lower case with * as the type only in */*, and names not starting with ~ (witnesses for the rest). Reading the header is not modelled.")
c("C125", "partial", [P+x for x in "C125_token_partial C125_charset_partial C125_encoding_partial C125_language C125_violation_none C125_violation_tilde".split()], "Tokens: names not starting with ~ (witness). Languages in full.")

P = "Verif.Dom."
c("C126", "partial", [P+x for x in "C126_ids_partial C126_tree C126_no_key_error C126_clash C126_failed C126_add C126_remove C126_reset C126_set_id C126_violation_clash C126_violation_document".split()], "Histories in which no call fails with XMLIDClashError or AttributeError (witnesses for those). Classes with the default content model.")
c("C127", "partial", [P+x for x in "C127_unique_id_partial C127_violation_digit".split()], "Valid names only if a name is suggested (witness).")
c("C128", "partial", [P+x for x in "C128_find_partial C128_outer_partial C128_violation_depth C128_violation_sub C128_violation_order".split()], "max_depth 1 or unlimited; sub_match (witnesses for the rest).")
c("C129", "proved", [P+x for x in "C129_text C129_set_value".split()], "Elements with mixed content.")

P = "Verif.OUri."
c("C130", "partial", [P+x for x in "C130_decodes C130_refuses C130_no_query C130_separators C130_segments_survive C130_unpaired_quote".split()], "Segments with paired quotes (witness for the rest).")
c("C131", "proved", [P+x for x in "C131_expand C131_select".split()], "")
c("C132", "partial", [P+x for x in "C132_expand_round_trip C132_select_round_trip C132_canonical C132_normal_form C132_empty_violation".split()], "All but the empty tree (witness).")
c("C133", "partial", [P+x for x in "C133_orderby_read C133_unambiguous C133_orderby_round_trip_partial C133_empty_violation".split()], "Round trip for expressions covered by C64; the empty list is a witness.")
c("C134", "partial", [P+x for x in "C134_path_shape C134_one_option C134_misplaced_option_violation".split()], "The exact set of accepted paths and their reading are proved; it is larger than it should be (witness).")
c("C135", "partial", [P+x for x in "C135_accepted C135_last_wins C135_custom C135_parameter C135_allowed C135_numbers C135_prefix_violation".split()], "The parsing of $format is a parameter. Prefix: witness.")

P = "Verif.Srv."
c("C136", "partial", [P+x for x in "C136_found C136_not_found".split()], "Both directions, for paths that do not start with a function import.")
c("C137", "partial", [P+x for x in "C137_safe C137_read_only C137_request C137_function_violation".split()], "All requests but those whose path starts with a function import (witness).")
c("C138", "partial", [P+x for x in "C138_errors_change_nothing_partial C138_status C138_not_acceptable_violation".split()], "What follows the change must not fail (witness), no function imports.")
c("C139", "partial", [P+x for x in "C139_served C139_lenient_violation".split()], "Exact description of what is answered without error, for requests without function imports; the lenient cases are witnesses.")
c("C140", "partial", [P+x for x in "C140_negotiation C140_only C140_zero_violation".split()], "User agents that are readable as HTTP words in DataServiceVersion, any in MaxDataServiceVersion; a maximum below 1.0 is a witness.")
P = "Verif.Cli."
c("C141", "partial", [P+x for x in "C141_pool_partial C141_pool_no_cleanup C141_overtaken_violation".split()], "All histories in which no thread finishes with a connection it was deprived of by active_cleanup while it has a new one; in particular all histories without active_cleanup. The remaining case is a violation (witness).")
c("C142", "partial", [P+x for x in "C142_choice C142_right_connection".split()], "For the histories of C141.")
c("C143", "partial", [P+x for x in "C143_no_lost_wakeup_partial C143_no_request_lost C143_upgrade_violation C143_self_deadlock_violation C143_close_violation".split()], "Histories without upgrades while a request waits; upgrade, self-deadlock and close are witnesses of violations.")
c("C144", "partial", [P+x for x in "C144_at_most_once C144_bounded C144_nothing_lost C144_exactly_once_partial C144_early_success_violation C144_truncated_violation C144_stale_violation".split()], "At most once, bounded and nothing lost for all histories; exactly once if no response arrives before the request has been sent; the rest are witnesses of violations.")
c("C145", "partial", [P+x for x in "C145_in_order C145_not_pipelined C145_wire_partial C145_matched_partial C145_order_violation C145_hole_violation".split()], "Order and no pipelining of other requests for all histories; the bytes if no response arrives before the request has been sent; witnesses of the violations.")
P = "Verif.Csdl."
c("C146", "partial", [P+x for x in "C146_lookup C146_unambiguous C146_keys C146_declare C146_undeclare C146_undeclare_other_violation".split()], "All proved but undeclaring a value that was refused (witness).")
P = "Verif.Text."
c("C147", "partial", [P+x for x in "C147_bom C147_utf8 C147_no_bom C147_detect C147_detect_utf8 C147_detect_bom C147_ebcdic_violation C147_detect_violation".split()], "EBCDIC and short or non-Latin UTF-16 texts are witnesses of violations.")
P = "Verif.Iso.Dur."
c("C148", "partial", [P+x for x in "C148_sound C148_exact C148_round_trip C148_round_trip_frac C148_xsd_round_trip C148_lenient_violation C148_write_violation C148_sign_violation".split()], "Floats are modelled by exact decimal fractions; the violations are witnesses.")
P = "Verif.Xml.Attrs."
c("C149", "partial", [P+x for x in "C149_first_declaration C149_seen C149_valid_partial C149_fixed_violation".split()], "Validity for documents in which fixed attributes are written, normalised; the rest is a violation (witness).")
P = "Verif.Json."
c("C150", "proved", [P+x for x in "C150_entity_json C150_page_json C150_property_json".split()], "Single and Double values and fractions of a second are not modelled.")
c("C151", "partial", [P+x for x in "C151_values_read_back C151_complex_read_back C151_entity_read_back C151_before_1970_violation C151_before_1970_offset_violation C151_leap_second_violation C151_complex_violation".split()], "Proved for the values named by Plain; dates before 1970, leap seconds and complex properties that are not selected or NULL are violations.")
c("C152", "partial", [P+x for x in "C152_new_entity_partial C152_single_valued_violation C152_single_valued_witness".split()], "Proved for bindings of collections; a binding of a single-valued navigation property is never read back (violation).")
P = "Verif.Http."
c("C153","proved",[P+x for x in "C153_reads C153_only C153_round_trip C153_stable C153_valid C153_invalid_read C153_round_trip_violation".split()],
  "Reading (both directions), writing, is_valid and len for all inputs. The witnesses show what lies outside: ranges that can be read but are not valid, and constructor arguments that are not content ranges of HTTP (negative positions, a last position without a first).")
c("C154","proved",[P+x for x in "C154_allow_reads C154_allow_round_trip C154_is_allowed C154_allow_eq C154_ranges_round_trip C154_ranges_none C154_ranges_reads C154_ranges_eq C154_no_comma".split()],
  "Commas are optional between tokens (C154_no_comma): a leniency of the list reader.")
c("C155","partial",[P+x for x in "C155_lookup_partial C155_make C155_written_partial C155_never_read_violation C155_no_cache_violation C155_repeated_violation".split()],
  "from_str calls a parser method that does not exist, so no header can be read (violation); a repeated directive is written twice with its last value (violation). Proved: construction, lookup, membership and that different directives are written readably.")
P = "Verif.CharClass."
c("C156","partial",[P+x for x in "C156_class_text_partial C156_history_text_partial C156_full_violation C156_backslash_violation".split()],
  "All classes but two: all characters, and all characters but the backslash (witnesses of the violations).")
P = "Verif.Xsd."
c("C157","partial",[P+x for x in "C157_sound_partial C157_some_way C157_prefix_free_partial C157_simple C157_alternative_violation C157_greedy_violation C157_full_class_violation C157_backslash_class_violation".split()],
  "True is right for every expression whose classes are not the two of C156; false is right when no proper beginning of the text is described, and for expressions that vary only in the last repetition. The violations are witnesses.")
c("C158","partial",[P+x for x in "C158_accepts_partial C158_match_partial C158_trailing_violation".split()],
  "Every expression of the grammar is accepted with its meaning. That nothing else is accepted is false (witness). A hyphen at the beginning of a class is not in the grammar of the theorem.")
P = "Verif.Xsd.Enum."
c("C159","partial",[P+x for x in "C159_strip C159_decode C159_encode C159_list_round_trip C159_dict C159_no_case C159_dict_from_str_violation C159_dict_from_str_empty_violation C159_dict_from_str_partial".split()],
  "Decoding, encoding, lists and the writing of dictionaries are proved; dict_from_str keeps only the last word and fails for no word (witnesses), right for one word.")
P = "Verif.Http."
c("C160","proved",[P+x for x in "C160_total_order C160_explode C160_dotted C160_modifiers C160_equal_versions".split()],
  "Versions with empty components (1..2) are covered only by C160_total_order.")
P = "Verif.OData."
c("C161","proved",[P+x for x in "C161_floor_ceiling C161_round C161_integers C161_date_parts".split()],
  "Decimals (exact rationals) and integers; Single and Double arguments and fractions of a second are not modelled.")
P = "Verif.Qti.Region."
c("C162","proved",[P+x for x in "C162_valid C162_unchanged C162_places C162_clash_violation".split()],
  "Uniqueness is not promised; C162_clash_violation shows that it fails.")
c("C163","partial",[P+x for x in "C163_bounds_partial C163_offset_partial C163_poly_bounds_violation C163_poly_offset_violation C163_bounds_violation".split()],
  "Circles, ellipses and rectangles with positive radii and ordered corners; polygons and the degenerate cases violate the claim.")
P = "Verif.Http.Srv."
c("C164","partial",[P+x for x in "C164_split_socket C164_split_socket1 C164_integrity C164_request C164_blank_line C164_pipeline_partial C164_chunked_partial C164_chunked_violation C164_pipeline_violation C164_witness C164_pipeline_witness".split()],
  "Requests with a Content-Length or no body in any division into pieces; chunked requests and several requests on a connection only if pieces end at certain places, the other cases violate the claim. Timeouts, Expect: 100-continue and a blocked application are not modelled.")
P = "Verif.Compat."
c("C165","proved",[P+x for x in "C165_make_attr_name C165_no_upper C165_fixed C165_getattr".split()],
  "For every table of cases in which no character has two and lower-casing leaves no upper case.")
c("C166","partial",[P+x for x in "C166_new_class C166_lookup C166_override C166_accepted C166_refused C166_mixin_violation".split()],
  "Renamed methods that are declared in a base or in the class itself; C166_mixin_violation shows the case that is left out.")
P = "Verif.Qti1."
c("C167","proved",[P+x for x in "C167_migrated_rules C167_response_processing C167_stops C167_fixups".split()],
  "For all lists of conditions whose tests and actions have been migrated. The content of humanrater extensions is not modelled.")
c("C168","partial",[P+x for x in "C168_positive_partial C168_answered_partial C168_violation_not C168_violation_index C168_violation_case".split()],
  "Conditions without not in all sessions, and all conditions if the responses are answered; without indexes into ordered responses and caseless tests of containers of strings. The rest violates the claim. varinside is not modelled.")
c("C169","partial",[P+x for x in "C169_set C169_integer_partial C169_float C169_null C169_feedback_partial C169_violation_divide C169_violation_feedback".split()],
  "All actions except Divide on integers, results within 32 bits, feedback names that are identifiers; the rest violates the claim.")
P = "Verif.Qti1.Area."
c("C170","partial",[P+x for x in "C170_numbers_partial C170_rectangle_partial C170_circle C170_ellipse_partial C170_padding C170_bounded C170_yn_round_trip C170_leading_violation C170_rectangle_violation C170_empty_rectangle_violation C170_ellipse_violation C170_yn_violation".split()],
  "Texts that begin with a number; rectangles of at least one pixel (contained, not equal); ellipses with diameters of two or more. The rest violates the claim. int(float(s)) is a parameter.")
P = "Verif.Dom.Inherit."
c("C171","partial",[P+x for x in "C171_lang_partial C171_set_lang C171_space_partial C171_base_none C171_base_document C171_base_absolute_partial C171_base_relative_partial C171_base_chain_partial C171_uri C171_uri_absolute C171_lang_violation C171_space_violation C171_base_violation".split()],
  "Languages that are not empty; xml:space given somewhere or no document; bases: absolute, one relative reference below an absolute one, or any number of relative paths without dot segments below an absolute one. The rest violates the claim, except bases with queries, colons or inner dot segments, for which it is not proved.")
P = "Verif.Dom.Canon."
c("C172","partial",[P+x for x in "C172_content_partial C172_equal_partial C172_preserve C172_adjacent_partial C172_two_blanks_violation C172_idempotent_partial C172_lone_violation C172_blank_violation C172_empty_violation".split()],
  "For all children as elements keep them (texts joined, not empty), except elements with one text and nothing else; the rest violates the claim. Elements are abstract, compared by ==.")
P = "Verif.Web.Context."
c("C173","partial",[P+x for x in "C173_url_partial C173_url_violation C173_root C173_port C173_content C173_limits C173_length_violation".split()],
  "URL for paths in ASCII; other bytes violate the claim. get_query, get_form and cookies are not modelled; the result is the text given to URI.from_octets.")
P = "Verif.Http.Target."
c("C174","partial",[P+x for x in "C174_target C174_host C174_accepts C174_wait C174_growth C174_refused_violation C174_nohost_violation".split()],
  "That a refused URL is refused with HTTPException and leaves the request as it was is violated; the rest is proved. Host: for names without a colon. Times are exact rationals.")
