import Verif.CharClass.Props
import Verif.Parser.Props
import Verif.Iso.DateProps
import Verif.Iso.Truncated
import Verif.Iso.Checks
import Verif.Iso.TimeProps
import Verif.Iso.StringProps
import Verif.Iso.TimeChecks
import Verif.Uri.EscapeProps
import Verif.Uri.PathProps
import Verif.Uri.UriProps
import Verif.Uri.Resolve
import Verif.Uri.Server
import Verif.Uri.Urn
import Verif.Http.Reparse
import Verif.Http.DateProps
import Verif.Streams.PipeClaims
import Verif.Streams.WrapperProps
import Verif.Blocks.Digest
import Verif.Blocks.Lock
import Verif.Blocks.StoreClaims
import Verif.Xsd.Lexical
import Verif.Http.Send
import Verif.Http.ByteRanges
import Verif.Http.Wrapper
import Verif.Cookie.Suffix
import Verif.Cookie.ParseProps
import Verif.OData.C62
import Verif.OData.FilterProps
import Verif.OData.Key
import Verif.OData.PagingProps
import Verif.OData.OrderBy
import Verif.MemDs.Orphans
import Verif.MemDs.Row
import Verif.Xml.Valid
import Verif.Xml.GenClaims
import Verif.Auth.Client
import Verif.Auth.Text
import Verif.Sql.Like
import Verif.Sql.Token
import Verif.Qti.Val
import Verif.Qti.Map
import Verif.Qti.Expr
import Verif.Qti.Types
import Verif.Qti.C91
import Verif.Qti.Logic
import Verif.Qti.Containers
import Verif.Qti.Numeric
import Verif.Qti.Numeric2
import Verif.Qti.Tables
import Verif.Qti.Process
import Verif.Qti.C96
import Verif.Qti.Session
import Verif.Qti.C97
import Verif.Qti.C97b
import Verif.Qti.C97c
import Verif.Html.Attr
import Verif.Sql.Tx
import Verif.Sql.Update
import Verif.Sql.Pool
import Verif.Sql.Literal
import Verif.Vfs.C105b
import Verif.Web.Static
import Verif.Web.Sign
import Verif.Web.Forge
import Verif.Lti.Roles
import Verif.Lti.C111
import Verif.Lti.Details
import Verif.Form.C113
import Verif.Form.Keys
import Verif.Form.Nav
import Verif.Form.Duration
import Verif.Ns.C118
import Verif.Pkg.C122
import Verif.Neg.C125
import Verif.Dom.Effects
import Verif.Dom.Find
import Verif.OUri.PathInfo
import Verif.OUri.C131
import Verif.OUri.C135
import Verif.Srv.Version
import Verif.Cli.C141
import Verif.Cli.C144
import Verif.Csdl.C146
import Verif.Text.C147
import Verif.Iso.C148
import Verif.Xml.C149
import Verif.Json.C150
import Verif.Http.TokenLists
import Verif.Xsd.RegexGrammar
import Verif.Xsd.Enum
import Verif.Http.Version
import Verif.OData.Methods
import Verif.Qti.Region
import Verif.Http.ServerRead
import Verif.Compat.AttrName
import Verif.Compat.Migrate
import Verif.Qti1.RespProc
import Verif.Qti1.Cond
import Verif.Qti1.SetVar
import Verif.Qti1.Area
import Verif.Dom.Inherit
import Verif.Dom.Canon
import Verif.Web.Context
import Verif.Http.Target

/-! The axioms of every property theorem (written by tools/audit.py). -/

#print axioms Verif.CharClass.C01_charclass_is_set
#print axioms Verif.CharClass.C01_subtract_self_violation
#print axioms Verif.CharClass.C02_eq_iff_same_set
#print axioms Verif.CharClass.C02_canonical
#print axioms Verif.CharClass.C03_cache_invisible
#print axioms Verif.CharClass.C03_test_keeps_ranges
#print axioms Verif.CharClass.C03_ranges_ignore_tests
#print axioms Verif.CharClass.Heap.C04_violation
#print axioms Verif.CharClass.Heap.C04_violation_membership
#print axioms Verif.CharClass.Heap.C04_additive_calls_partial
#print axioms Verif.CharClass.Heap.C04_no_copy_partial
#print axioms Verif.Parser.C05_parse
#print axioms Verif.Parser.C05_parse_insensitive
#print axioms Verif.Parser.C05_parse_one
#print axioms Verif.Parser.C05_parse_digits
#print axioms Verif.Parser.C05_run_longest
#print axioms Verif.Parser.C05_parse_production
#print axioms Verif.Parser.C05_parse_until
#print axioms Verif.Parser.C06_parse_integer_exact
#print axioms Verif.Parser.C06_parse_integer_bad_args
#print axioms Verif.Parser.C06_print_parse
#print axioms Verif.Parser.C35_error_position
#print axioms Verif.Iso.C07_absolute_day_bijection
#print axioms Verif.Iso.C07_complete_dates
#print axioms Verif.Iso.C07_last_day
#print axioms Verif.Iso.C07_zero_violation
#print axioms Verif.Iso.C08_days_count_and_order
#print axioms Verif.Iso.C08_comparison
#print axioms Verif.Iso.C09_day_of_week
#print axioms Verif.Iso.C10_week_round_trip
#print axioms Verif.Iso.C10_week_dates
#print axioms Verif.Iso.C10_week_count
#print axioms Verif.Iso.C11_ordinal
#print axioms Verif.Iso.C11_ordinal_constructor
#print axioms Verif.Iso.C11_julian
#print axioms Verif.Iso.C11_ordinal_zero_violation
#print axioms Verif.Iso.C11_julian_zero_violation
#print axioms Verif.Iso.C12_offset_days
#print axioms Verif.Iso.C12_offset_compose
#print axioms Verif.Iso.C12_offset_months
#print axioms Verif.Iso.C12_offset_years
#print axioms Verif.Iso.C12_offset_weeks
#print axioms Verif.Iso.C12_offset_violation
#print axioms Verif.Iso.C36_day
#print axioms Verif.Iso.C36_month_day
#print axioms Verif.Iso.C36_year_month_day
#print axioms Verif.Iso.C36_ordinal
#print axioms Verif.Iso.C36_year_ordinal
#print axioms Verif.Iso.C36_weekday
#print axioms Verif.Iso.C36_week_weekday
#print axioms Verif.Iso.C36_decade_year_week_weekday
#print axioms Verif.Iso.C36_century_year_week_weekday
#print axioms Verif.Iso.C37_calendar
#print axioms Verif.Iso.C37_week_precision
#print axioms Verif.Iso.C37_week_too_large
#print axioms Verif.Iso.C37_violations
#print axioms Verif.Iso.C13_offset
#print axioms Verif.Iso.C13_total_seconds
#print axioms Verif.Iso.C13_midnight_violation
#print axioms Verif.Iso.C14_same_instant
#print axioms Verif.Iso.C14_returns
#print axioms Verif.Iso.C14_to_utc
#print axioms Verif.Iso.C14_violations
#print axioms Verif.Iso.C15_compare
#print axioms Verif.Iso.C15_local
#print axioms Verif.Iso.C15_mixed
#print axioms Verif.Iso.C15_midnight_violation
#print axioms Verif.Iso.C16_round_trip
#print axioms Verif.Iso.C16_unixtime
#print axioms Verif.Iso.C16_violation
#print axioms Verif.Iso.C38_extend
#print axioms Verif.Iso.C38_minute_violation
#print axioms Verif.Iso.C17_date_round_trip
#print axioms Verif.Iso.C17_reduced_round_trip
#print axioms Verif.Iso.C17_truncated
#print axioms Verif.Iso.C17_time_round_trip
#print axioms Verif.Iso.C17_reduced_time_round_trip
#print axioms Verif.Iso.C17_truncated_time
#print axioms Verif.Iso.C17_time_point_round_trip
#print axioms Verif.Iso.C17_trailing_garbage
#print axioms Verif.Iso.C40_same_zone
#print axioms Verif.Iso.C40_other_zone
#print axioms Verif.Iso.C41_complete
#print axioms Verif.Iso.C41_reduced
#print axioms Verif.Iso.C41_violations
#print axioms Verif.Uri.C18_round_trip
#print axioms Verif.Uri.C18_items
#print axioms Verif.Uri.C18_parse_uric
#print axioms Verif.Uri.C18_hex_digits
#print axioms Verif.Uri.C39_parse_uric_run
#print axioms Verif.Uri.C39_parse_uric_longest
#print axioms Verif.Uri.C19_canonicalize
#print axioms Verif.Uri.C19_default
#print axioms Verif.Uri.C19_unreserved_escape
#print axioms Verif.Uri.C19_malformed_violation
#print axioms Verif.Uri.C20_normalize
#print axioms Verif.Uri.C20_normalize_nil
#print axioms Verif.Uri.C20_normal_form
#print axioms Verif.Uri.C20_meaning
#print axioms Verif.Uri.C20_idempotent
#print axioms Verif.Uri.C23_split_server
#print axioms Verif.Uri.C23_parts
#print axioms Verif.Uri.C21_accepts
#print axioms Verif.Uri.C21_lossless
#print axioms Verif.Uri.C21_components
#print axioms Verif.Uri.C21_components_relative
#print axioms Verif.Uri.C21_empty_scheme
#print axioms Verif.Uri.C22_relative_resolve_partial
#print axioms Verif.Uri.C22_other_scheme
#print axioms Verif.Uri.C22_other_authority
#print axioms Verif.Uri.C22_violations
#print axioms Verif.Uri.C42_resolve
#print axioms Verif.Uri.C42_absolute
#print axioms Verif.Uri.C42_same_document
#print axioms Verif.Uri.C42_no_path_violation
#print axioms Verif.Uri.C42_double_slash_violation
#print axioms Verif.Uri.C43_canonicalize
#print axioms Verif.Uri.C43_addr
#print axioms Verif.Uri.C43_violations
#print axioms Verif.Uri.C24_round_trip
#print axioms Verif.Uri.C24_zero
#print axioms Verif.Uri.C44_accepts
#print axioms Verif.Uri.C44_canonicalize
#print axioms Verif.Uri.C44_lenient
#print axioms Verif.Http.C26_token_chars
#print axioms Verif.Http.C25_decode_quote
#print axioms Verif.Http.C25_one_word
#print axioms Verif.Http.C25_noforce
#print axioms Verif.Http.C25_empty_violation
#print axioms Verif.Http.C25_unterminated_violation
#print axioms Verif.Http.C26_media_type
#print axioms Verif.Http.C26_transfer_encoding
#print axioms Verif.Http.C26_chunk
#print axioms Verif.Http.C26_entity_tag
#print axioms Verif.Http.C26_http_version
#print axioms Verif.Http.C26_product_token
#print axioms Verif.Http.C26_language_tag
#print axioms Verif.Http.C26_media_type_reparse
#print axioms Verif.Http.C26_chunk_reparse
#print axioms Verif.Http.C26_entity_tag_reparse
#print axioms Verif.Http.C26_empty_value_violation
#print axioms Verif.Http.C26_empty_value_parsed
#print axioms Verif.Http.C26_latin1_name_violation
#print axioms Verif.Http.C45_only_value_errors
#print axioms Verif.Http.C45_chunk_violation
#print axioms Verif.Http.C45_date_violation
#print axioms Verif.Http.C27_round_trip
#print axioms Verif.Http.C27_formats
#print axioms Verif.Http.C27_sound
#print axioms Verif.Streams.C28_in_order
#print axioms Verif.Streams.C28_nothing_lost
#print axioms Verif.Streams.C28_readall
#print axioms Verif.Streams.C28_empty_violation
#print axioms Verif.Streams.C29_exact
#print axioms Verif.Streams.C29_safe
#print axioms Verif.Streams.C29_readmatch_violation
#print axioms Verif.Streams.C30_transparent
#print axioms Verif.Streams.C30_peek
#print axioms Verif.Streams.C30_random_access
#print axioms Verif.Streams.C30_new
#print axioms Verif.Streams.C30_fits
#print axioms Verif.Streams.C30_overflow
#print axioms Verif.Streams.C30_failed_seek_violation
#print axioms Verif.Streams.C46_readmatch
#print axioms Verif.Streams.C47_modes
#print axioms Verif.Streams.C47_readall_violation
#print axioms Verif.Blocks.C31_file
#print axioms Verif.Blocks.C31_beyond_violation
#print axioms Verif.Blocks.C31_truncate_violation
#print axioms Verif.Blocks.C48_digest
#print axioms Verif.Blocks.C48_sequential
#print axioms Verif.Blocks.Lock.C33_exclusive
#print axioms Verif.Blocks.Lock.C33_fresh
#print axioms Verif.Blocks.Lock.C33_stale_unlock
#print axioms Verif.Blocks.Lock.C33_recovers
#print axioms Verif.Blocks.Lock.C33_release
#print axioms Verif.Blocks.Lock.C33_slow_violation
#print axioms Verif.Blocks.Lock.C33_memory_violation
#print axioms Verif.Blocks.Store.C32_never_lost
#print axioms Verif.Blocks.Store.C32_content
#print axioms Verif.Blocks.Store.C32_all_present
#print axioms Verif.Blocks.Store.C32_last_written
#print axioms Verif.Blocks.Store.C32_no_orphans
#print axioms Verif.Blocks.Store.C32_locks_released
#print axioms Verif.Blocks.Store.C32_too_large_violation
#print axioms Verif.Blocks.Store.C32_stale_update_violation
#print axioms Verif.Xsd.C34_collapse
#print axioms Verif.Xsd.C34_collapsed
#print axioms Verif.Xsd.C34_idempotent
#print axioms Verif.Xsd.C34_replace
#print axioms Verif.Xsd.C34_leading_violation
#print axioms Verif.Xsd.C49_integer
#print axioms Verif.Xsd.C49_integer_round_trip
#print axioms Verif.Xsd.C49_decimal
#print axioms Verif.Xsd.C49_boolean
#print axioms Verif.Xsd.C49_boolean_round_trip
#print axioms Verif.Http.C50_received
#print axioms Verif.Http.C50_prefix
#print axioms Verif.Http.C50_flush_violation
#print axioms Verif.Http.C50_eof_violation
#print axioms Verif.Http.C51_pipelined_partial
#print axioms Verif.Http.C51_each_read_partial
#print axioms Verif.Http.C51_pipelined_violation
#print axioms Verif.Http.C52_fields
#print axioms Verif.Http.C52_no_body
#print axioms Verif.Http.C52_chunked
#print axioms Verif.Http.C52_codings
#print axioms Verif.Http.C52_length
#print axioms Verif.Http.C52_injection_violation
#print axioms Verif.Http.C52_negative_violation
#print axioms Verif.Http.C53_sent
#print axioms Verif.Http.C53_end_to_end
#print axioms Verif.Http.C53_short_violation
#print axioms Verif.Http.C54_waiting
#print axioms Verif.Http.C54_complete
#print axioms Verif.Http.C54_frame
#print axioms Verif.Http.C54_next_violation
#print axioms Verif.Http.C55_chunked
#print axioms Verif.Http.C56_input
#print axioms Verif.Http.C56_all
#print axioms Verif.Http.C56_far_violation
#print axioms Verif.Http.C56_past_violation
#print axioms Verif.Cookie.C57_search_partial
#print axioms Verif.Cookie.C57_set
#print axioms Verif.Cookie.C57_safe
#print axioms Verif.Cookie.C57_default_path
#print axioms Verif.Cookie.C57_expired
#print axioms Verif.Cookie.C57_domain_names
#print axioms Verif.Cookie.C57_path_violation
#print axioms Verif.Cookie.C57_address_violation
#print axioms Verif.Cookie.C57_host_violation
#print axioms Verif.Cookie.C58_private
#print axioms Verif.Cookie.C58_public
#print axioms Verif.Cookie.C58_only_partial
#print axioms Verif.Cookie.C58_registered
#print axioms Verif.Cookie.C58_parent_violation
#print axioms Verif.Cookie.C59_date
#print axioms Verif.Cookie.C59_formats
#print axioms Verif.Cookie.C60_ignored
#print axioms Verif.Cookie.C60_attributes_partial
#print axioms Verif.Cookie.C60_values
#print axioms Verif.Cookie.C60_secure_violation
#print axioms Verif.OData.C61_uri_literal_round_trip
#print axioms Verif.OData.C61_empty_binary_violation
#print axioms Verif.OData.C61_exponent_plus_violation
#print axioms Verif.OData.C62_parser_implements_grammar
#print axioms Verif.OData.C62_unambiguous
#print axioms Verif.OData.C62_expression_round_trip_partial
#print axioms Verif.OData.C62_right_operand_violation
#print axioms Verif.OData.C62_unary_chain_violation
#print axioms Verif.OData.C62_negate_name_violation
#print axioms Verif.OData.C62_parameter_violation
#print axioms Verif.OData.C62_reserved_name_violation
#print axioms Verif.OData.C64_promotion
#print axioms Verif.OData.C64_promotion_comm
#print axioms Verif.OData.C64_promotion_assoc
#print axioms Verif.OData.C64_sbyte_violation
#print axioms Verif.OData.C64_narrow_violation
#print axioms Verif.OData.C65_integer_arithmetic_partial
#print axioms Verif.OData.C65_null_arithmetic
#print axioms Verif.OData.C65_negate
#print axioms Verif.OData.C65_int64_division_violation
#print axioms Verif.OData.C66_filter_logic
#print axioms Verif.OData.C66_comparison_two_valued
#print axioms Verif.OData.C66_integer_comparison
#print axioms Verif.OData.C66_null_comparison
#print axioms Verif.OData.C66_string_comparison
#print axioms Verif.OData.C66_string_null_violation
#print axioms Verif.OData.C66_or_null_violation
#print axioms Verif.OData.C67_string_methods
#print axioms Verif.OData.C67_indexof
#print axioms Verif.OData.C67_substring_partial
#print axioms Verif.OData.C67_null_argument
#print axioms Verif.OData.C67_replace
#print axioms Verif.OData.C67_trim
#print axioms Verif.OData.C67_case
#print axioms Verif.OData.C67_negative_start_violation
#print axioms Verif.OData.C68_key_predicate_round_trip_partial
#print axioms Verif.OData.C68_single_key_round_trip_partial
#print axioms Verif.OData.C68_percent_violation
#print axioms Verif.OData.C68_non_ascii_violation
#print axioms Verif.OData.Paging.C63_pages
#print axioms Verif.OData.Paging.C63_each_entity_once
#print axioms Verif.OData.Paging.C63_ends
#print axioms Verif.OData.Paging.C63_unlimited
#print axioms Verif.OData.Paging.C69_page
#print axioms Verif.OData.Paging.C69_small_top
#print axioms Verif.OData.Paging.C69_links_consecutive
#print axioms Verif.OData.Paging.C69_client_complete
#print axioms Verif.OData.Paging.C69_violation_links_never_end
#print axioms Verif.OData.Paging.C69_violation_top_exceeded
#print axioms Verif.OData.OrderBy.C70_rearranges
#print axioms Verif.OData.OrderBy.C70_sorted_paging
#print axioms Verif.OData.OrderBy.C70_sorted_stable
#print axioms Verif.OData.OrderBy.C70_paging_deterministic
#print axioms Verif.OData.OrderBy.C70_null_order_key
#print axioms Verif.OData.OrderBy.C70_violation_null
#print axioms Verif.OData.OrderBy.C70_pages_fixed_sequence
#print axioms Verif.MemDs.C71_links_from
#print axioms Verif.MemDs.C71_links_to
#print axioms Verif.MemDs.C71_no_duplicates
#print axioms Verif.MemDs.C71_delete_complete
#print axioms Verif.MemDs.C71_rdelete_complete
#print axioms Verif.MemDs.C72_links_partial
#print axioms Verif.MemDs.C72_multiplicity_partial
#print axioms Verif.MemDs.C72_streams_partial
#print axioms Verif.MemDs.C72_violation_stale_source
#print axioms Verif.MemDs.C72_violation_replace_missing
#print axioms Verif.MemDs.C72_violation_replace_steals
#print axioms Verif.MemDs.C72_violation_failed_insert
#print axioms Verif.MemDs.C73_deleted
#print axioms Verif.MemDs.C73_only_removes
#print axioms Verif.MemDs.C73_only_dependents_partial
#print axioms Verif.MemDs.C73_leaf_deletes
#print axioms Verif.MemDs.C73_no_orphans_partial
#print axioms Verif.MemDs.C73_violation_half_deleted
#print axioms Verif.MemDs.C73_violation_wrong_direction
#print axioms Verif.MemDs.Row.C74_read_back
#print axioms Verif.MemDs.Row.C74_exists
#print axioms Verif.Xml.C75_accepts
#print axioms Verif.Xml.C75_prompt
#print axioms Verif.Xml.C75_expected
#print axioms Verif.Xml.C75_refused
#print axioms Verif.Xml.C75_mixed
#print axioms Verif.Xml.C76_deterministic
#print axioms Verif.Xml.C77_checked_partial
#print axioms Verif.Xml.C77_valid_accepted
#print axioms Verif.Xml.C77_valid_partial
#print axioms Verif.Xml.C77_empty_tag_violated
#print axioms Verif.Xml.C77_empty_child_raises
#print axioms Verif.Xml.C78_characters
#print axioms Verif.Xml.C78_lines
#print axioms Verif.Xml.C78_column_violated
#print axioms Verif.Xml.C79_accepted
#print axioms Verif.Xml.C79_complete_partial
#print axioms Verif.Xml.C79_unique
#print axioms Verif.Xml.C79_sound_partial
#print axioms Verif.Xml.C79_terminates_partial
#print axioms Verif.Xml.C79_hang_violated
#print axioms Verif.Xml.C79_pi_violated
#print axioms Verif.Xml.C79_open_violated
#print axioms Verif.Xml.C79_comment_violated
#print axioms Verif.Xml.C80_roundtrip_partial
#print axioms Verif.Xml.C80_roundtrip7_partial
#print axioms Verif.Xml.C80_escape7_ascii
#print axioms Verif.Xml.C80_value
#print axioms Verif.Xml.C80_space_preserved
#print axioms Verif.Xml.C80_space_ignored
#print axioms Verif.Xml.C80_cdsect_partial
#print axioms Verif.Xml.C80_tab_violated
#print axioms Verif.Xml.C80_empty_violated
#print axioms Verif.Xml.C80_cdsect_violated
#print axioms Verif.Auth.C81_scope_partial
#print axioms Verif.Auth.C81_records
#print axioms Verif.Auth.C81_empty_path_is_root
#print axioms Verif.Auth.C81_most_general
#print axioms Verif.Auth.C81_empty_folder_violation
#print axioms Verif.Auth.C81_empty_path_violation
#print axioms Verif.Auth.C82_own_space
#print axioms Verif.Auth.C82_user_header
#print axioms Verif.Auth.C82_preemptive
#print axioms Verif.Auth.C82_refusals
#print axioms Verif.Auth.C82_new_request
#print axioms Verif.Auth.C82_no_redirect
#print axioms Verif.Auth.C82_remove_partial
#print axioms Verif.Auth.C82_remove_absent
#print axioms Verif.Auth.C82_none_header_violation
#print axioms Verif.Auth.C82_remove_violation
#print axioms Verif.Auth.C82_realm_violation
#print axioms Verif.Auth.C82_redirect_loop_violation
#print axioms Verif.Auth.C83_credentials_partial
#print axioms Verif.Auth.C83_colon_violation
#print axioms Verif.Auth.C83_challenge_partial
#print axioms Verif.Auth.C83_lookup
#print axioms Verif.Auth.C83_lookup_exact
#print axioms Verif.Auth.C83_realm
#print axioms Verif.Auth.C83_one_challenge
#print axioms Verif.Auth.C83_list_violation
#print axioms Verif.Auth.C83_scheme_violation
#print axioms Verif.Auth.C83_from_str_violation
#print axioms Verif.Sql.C84_meaning_partial
#print axioms Verif.Sql.C84_meaning_indexed_partial
#print axioms Verif.Sql.C84_violation_nested_sub
#print axioms Verif.Sql.C84_violation_nested_eq
#print axioms Verif.Sql.C84_violation_unsupported
#print axioms Verif.Sql.C85_text_ignores_values
#print axioms Verif.Sql.C85_same_text
#print axioms Verif.Sql.C85_one_value_per_placeholder
#print axioms Verif.Sql.C85_styles_agree
#print axioms Verif.Sql.C86_filter_partial
#print axioms Verif.Sql.C86_translated
#print axioms Verif.Sql.C86_violation_eq_null
#print axioms Verif.Sql.C86_violation_ne
#print axioms Verif.Sql.C87_startswith_partial
#print axioms Verif.Sql.C87_endswith_partial
#print axioms Verif.Sql.C87_substringof_partial
#print axioms Verif.Sql.C87_violation_wildcard
#print axioms Verif.Sql.C87_violation_case
#print axioms Verif.Sql.C87_violation_indexof
#print axioms Verif.Sql.C88_clause_partial
#print axioms Verif.Sql.C88_violation_null
#print axioms Verif.Sql.C88_violation_boolean
#print axioms Verif.Sql.C89_pages_partial
#print axioms Verif.Sql.C89_pages_joined_partial
#print axioms Verif.Sql.C89_next_token_partial
#print axioms Verif.Sql.C89_violation_long_token
#print axioms Verif.Sql.C89_violation_long_token_repeats
#print axioms Verif.Sql.C89_violation_skip
#print axioms Verif.Sql.C90_token_round_trip_partial
#print axioms Verif.Sql.C90_page_after_text_partial
#print axioms Verif.Qti.C91_evaluate_wf
#print axioms Verif.Qti.C91_evaluate_type
#print axioms Verif.Qti.C91_container_card
#print axioms Verif.Qti.C91_record_set
#print axioms Verif.Qti.C91_record_set_value
#print axioms Verif.Qti.C91_violation_empty_record
#print axioms Verif.Qti.C91_violation_literal
#print axioms Verif.Qti.C91_violation_overflow
#print axioms Verif.Qti.C91_violation_template_ref
#print axioms Verif.Qti.C91_violation_delete
#print axioms Verif.Qti.C92_and
#print axioms Verif.Qti.C92_or
#print axioms Verif.Qti.C92_not
#print axioms Verif.Qti.C92_anyN_partial
#print axioms Verif.Qti.C92_violation_anyN
#print axioms Verif.Qti.C92_operands
#print axioms Verif.Qti.C93_multiple
#print axioms Verif.Qti.C93_ordered
#print axioms Verif.Qti.C93_container_size
#print axioms Verif.Qti.C93_is_null
#print axioms Verif.Qti.C93_match_multiple
#print axioms Verif.Qti.C93_match_ordered
#print axioms Verif.Qti.C93_match_single
#print axioms Verif.Qti.C93_match_null
#print axioms Verif.Qti.C93_member
#print axioms Verif.Qti.C93_delete
#print axioms Verif.Qti.C93_contains_ordered
#print axioms Verif.Qti.C93_contains_multiple
#print axioms Verif.Qti.C93_index
#print axioms Verif.Qti.C93_random
#print axioms Verif.Qti.C93_random_all
#print axioms Verif.Qti.C93_violation_record
#print axioms Verif.Qti.C94_sum
#print axioms Verif.Qti.C94_product
#print axioms Verif.Qti.C94_subtract
#print axioms Verif.Qti.C94_divide
#print axioms Verif.Qti.C94_compare
#print axioms Verif.Qti.C94_integer_division
#print axioms Verif.Qti.C94_equal_exact
#print axioms Verif.Qti.C94_equal_tolerance
#print axioms Verif.Qti.C94_equal_relative_partial
#print axioms Verif.Qti.C94_violation_equal_relative
#print axioms Verif.Qti.C94_truncate
#print axioms Verif.Qti.C94_round
#print axioms Verif.Qti.C94_integer_to_float
#print axioms Verif.Qti.C94_duration
#print axioms Verif.Qti.C94_random_integer
#print axioms Verif.Qti.C94_random_integer_all
#print axioms Verif.Qti.C94_random_float
#print axioms Verif.Qti.C95_map
#print axioms Verif.Qti.C95_map_null
#print axioms Verif.Qti.C95_bounds_inverted
#print axioms Verif.Qti.C95_area_map
#print axioms Verif.Qti.C95_match_table
#print axioms Verif.Qti.C95_interpolation_table
#print axioms Verif.Qti.C96_response
#print axioms Verif.Qti.C96_template
#print axioms Verif.Qti.C96_branch
#print axioms Verif.Qti.C96_condition
#print axioms Verif.Qti.C96_exit
#print axioms Verif.Qti.C96_exit_nested
#print axioms Verif.Qti.C96_set_partial
#print axioms Verif.Qti.C96_violation_multiplicity
#print axioms Verif.Qti.C96_violation_name_clash
#print axioms Verif.Qti.C97_init
#print axioms Verif.Qti.C97_begin_session
#print axioms Verif.Qti.C97_begin_attempt
#print axioms Verif.Qti.C97_submit
#print axioms Verif.Qti.C97_outcomes_forgotten
#print axioms Verif.Qti.C97_refused
#print axioms Verif.Qti.C97_history
#print axioms Verif.Qti.C97_life
#print axioms Verif.Qti.C97_violation_multiplicity
#print axioms Verif.Qti.C97_violation_ordered
#print axioms Verif.Qti.C97_violation_dot
#print axioms Verif.Qti.C97_violation_not_begun
#print axioms Verif.Html.C98_length_parse
#print axioms Verif.Html.C98_length_round_trip
#print axioms Verif.Html.C98_length_stable
#print axioms Verif.Html.C98_violation_negative
#print axioms Verif.Html.C98_resolve
#print axioms Verif.Html.C98_coords_round_trip
#print axioms Verif.Html.C98_color_round_trip
#print axioms Verif.Html.C98_color_case
#print axioms Verif.Html.C98_color_names
#print axioms Verif.Html.C98_media_names
#print axioms Verif.Html.C98_media_ops
#print axioms Verif.Html.C98_media_round_trip
#print axioms Verif.Html.C98_media_parse
#print axioms Verif.Html.C99_poly
#print axioms Verif.Html.C99_poly_total
#print axioms Verif.Html.C99_closed
#print axioms Verif.Html.C99_reverse
#print axioms Verif.Html.C99_rotate
#print axioms Verif.Html.C99_cut
#print axioms Verif.Html.C99_rect
#print axioms Verif.Html.C99_triangle
#print axioms Verif.Html.C99_circle
#print axioms Verif.Html.C99_rect_corners
#print axioms Verif.Sql.C100_atomic_partial
#print axioms Verif.Sql.C100_succeeds
#print axioms Verif.Sql.C100_violation_cascade
#print axioms Verif.Sql.C100_violation_stream
#print axioms Verif.Sql.C100_violation_stream_lost
#print axioms Verif.Sql.C101_update_ok_partial
#print axioms Verif.Sql.C101_update_conflict
#print axioms Verif.Sql.C101_update_missing_partial
#print axioms Verif.Sql.C101_violation_nothing
#print axioms Verif.Sql.C101_violation_null_token
#print axioms Verif.Sql.C101_no_lost_update_partial
#print axioms Verif.Sql.C101_violation_retry
#print axioms Verif.Sql.C102_exclusive
#print axioms Verif.Sql.C102_held
#print axioms Verif.Sql.C102_bound
#print axioms Verif.Sql.C102_depth
#print axioms Verif.Sql.C102_same
#print axioms Verif.Sql.C102_wait_partial
#print axioms Verif.Sql.C102_violation_leak
#print axioms Verif.Sql.C103_literal
#print axioms Verif.Sql.C103_literal_sqlite
#print axioms Verif.Sql.C103_name_safe
#print axioms Verif.Sql.C103_columns_partial
#print axioms Verif.Sql.C103_tables
#print axioms Verif.Sql.C103_violation_columns
#print axioms Verif.Sql.C103_params
#print axioms Verif.Sql.C103_violation_percent
#print axioms Verif.Vfs.C104_norm_rel
#print axioms Verif.Vfs.C104_norm_meaning
#print axioms Verif.Vfs.C104_norm_abs_partial
#print axioms Verif.Vfs.C104_norm_unique
#print axioms Verif.Vfs.C104_norm_idem
#print axioms Verif.Vfs.C104_join
#print axioms Verif.Vfs.C104_parts_partial
#print axioms Verif.Vfs.C104_abspath
#print axioms Verif.Vfs.C104_split
#print axioms Verif.Vfs.C104_dirlike
#print axioms Verif.Vfs.C104_splitext
#print axioms Verif.Vfs.C104_root
#print axioms Verif.Vfs.C104_violation_double
#print axioms Verif.Vfs.C104_violation_parts
#print axioms Verif.Vfs.C104_violation_splitext
#print axioms Verif.Vfs.C105_tests
#print axioms Verif.Vfs.C105_mkdir
#print axioms Verif.Vfs.C105_makedirs
#print axioms Verif.Vfs.C105_listdir
#print axioms Verif.Vfs.C105_remove
#print axioms Verif.Vfs.C105_rmtree_partial
#print axioms Verif.Vfs.C105_open
#print axioms Verif.Vfs.C105_write
#print axioms Verif.Vfs.C105_update
#print axioms Verif.Vfs.C105_read
#print axioms Verif.Vfs.C105_ok
#print axioms Verif.Vfs.C105_history
#print axioms Verif.Vfs.C105_tree_step
#print axioms Verif.Vfs.C105_tree_partial
#print axioms Verif.Vfs.C105_violation_rmtree
#print axioms Verif.Vfs.C105_violation_open
#print axioms Verif.Vfs.C105_violation_mkdir
#print axioms Verif.Web.C106_sound
#print axioms Verif.Web.C106_named
#print axioms Verif.Web.C106_longest_partial
#print axioms Verif.Web.C106_complete_partial
#print axioms Verif.Web.C106_violation_backtrack
#print axioms Verif.Web.C106_static
#print axioms Verif.Web.C106_static_served
#print axioms Verif.Web.C106_violation_ascii
#print axioms Verif.Web.C107_decrypt
#print axioms Verif.Web.C107_too_old
#print axioms Verif.Web.C107_changeover
#print axioms Verif.Web.C107_ends
#print axioms Verif.Web.C107_sign
#print axioms Verif.Web.C107_ascii_sign_partial
#print axioms Verif.Web.C107_accept
#print axioms Verif.Web.C107_no_other_message
#print axioms Verif.Web.C107_violation_two_changes
#print axioms Verif.Web.C107_violation_reused_number
#print axioms Verif.Web.C107_violation_boundary
#print axioms Verif.Web.C107_violation_empty
#print axioms Verif.Web.C107_violation_empty_asked
#print axioms Verif.Web.C107_violation_unknown_key
#print axioms Verif.Web.C107_violation_aes
#print axioms Verif.Web.C107_violation_empty_key
#print axioms Verif.Web.C107_violation_when
#print axioms Verif.Web.C108_text
#print axioms Verif.Web.C108_continues
#print axioms Verif.Web.C108_establishes
#print axioms Verif.Web.C108_session
#print axioms Verif.Web.C108_page
#print axioms Verif.Web.C108_csrf
#print axioms Verif.Web.C108_test_new
#print axioms Verif.Web.C108_ctest
#print axioms Verif.Web.C108_wlaunch
#print axioms Verif.Web.C108_cookie
#print axioms Verif.Web.C108_violation_forgery
#print axioms Verif.Web.C108_violation_late_post
#print axioms Verif.Web.C108_violation_ctest
#print axioms Verif.Web.C108_violation_bad_cookie
#print axioms Verif.Lti.C109_accepts
#print axioms Verif.Lti.C109_replay
#print axioms Verif.Lti.C109_first_use
#print axioms Verif.Lti.C109_concurrent_partial
#print axioms Verif.Lti.C109_shared
#print axioms Verif.Lti.C109_race
#print axioms Verif.Lti.C110_permissions_partial
#print axioms Verif.Lti.C110_list
#print axioms Verif.Lti.C110_no_roles
#print axioms Verif.Lti.C110_unknown_roles
#print axioms Verif.Lti.C111_access
#print axioms Verif.Lti.C111_unknown_resource
#print axioms Verif.Lti.C111_one_user
#print axioms Verif.Lti.C111_stranger
#print axioms Verif.Lti.C112_resources_users
#print axioms Verif.Lti.C112_contexts_partial
#print axioms Verif.Lti.C112_clash
#print axioms Verif.Form.C113_form_legal
#print axioms Verif.Form.C113_form_nested
#print axioms Verif.Form.C113_form_total
#print axioms Verif.Form.C113_impossible_selection
#print axioms Verif.Form.C113_document_order
#print axioms Verif.Form.C113_shuffled_section_violated
#print axioms Verif.Form.C113_free_slot_violated
#print axioms Verif.Form.C113_hollow_index_error
#print axioms Verif.Form.C114_key_check
#print axioms Verif.Form.C114_key_chain
#print axioms Verif.Form.C114_key_once
#print axioms Verif.Form.C114_same_tick_violated
#print axioms Verif.Form.C115_terminates
#print axioms Verif.Form.C115_forward
#print axioms Verif.Form.C115_session_ends
#print axioms Verif.Form.C115_linear_order
#print axioms Verif.Form.C115_branch_to_identifier
#print axioms Verif.Form.C115_exit_testpart
#print axioms Verif.Form.C115_exit_section_partial
#print axioms Verif.Form.C115_exit_section_violated
#print axioms Verif.Form.C115_section_precondition_violated
#print axioms Verif.Form.C115_nonlinear_violated
#print axioms Verif.Form.C116_durations
#print axioms Verif.Form.C116_finished
#print axioms Verif.Ns.C117_names_partial
#print axioms Verif.Ns.C117_made
#print axioms Verif.Ns.C117_read
#print axioms Verif.Ns.C117_written
#print axioms Verif.Ns.C117_lost_attribute
#print axioms Verif.Ns.C117_wrong_element
#print axioms Verif.Ns.C117_cannot_write
#print axioms Verif.Ns.C117_dropped_attribute
#print axioms Verif.Ns.C117_undeclared_default
#print axioms Verif.Ns.C117_unbound_prefix
#print axioms Verif.Ns.C118_again
#print axioms Verif.Ns.C119_new_prefix
#print axioms Verif.Ns.C119_prefix_in_force
#print axioms Verif.Pkg.C120_contained
#print axioms Verif.Pkg.C120_origin
#print axioms Verif.Pkg.C120_success
#print axioms Verif.Pkg.C120_refused
#print axioms Verif.Pkg.C120_violation_flags
#print axioms Verif.Pkg.C121_round_trip
#print axioms Verif.Pkg.C122_inside
#print axioms Verif.Pkg.C122_ends
#print axioms Verif.Pkg.C122_unique_partial
#print axioms Verif.Pkg.C122_violation_taken
#print axioms Verif.Pkg.C122_violation_extension
#print axioms Verif.Pkg.C122_violation_root
#print axioms Verif.Pkg.C123_files
#print axioms Verif.Pkg.C123_refs
#print axioms Verif.Neg.C124_select_type_partial
#print axioms Verif.Neg.C124_violation_case
#print axioms Verif.Neg.C124_violation_tilde
#print axioms Verif.Neg.C124_violation_star
#print axioms Verif.Neg.C125_token_partial
#print axioms Verif.Neg.C125_charset_partial
#print axioms Verif.Neg.C125_encoding_partial
#print axioms Verif.Neg.C125_language
#print axioms Verif.Neg.C125_violation_none
#print axioms Verif.Neg.C125_violation_tilde
#print axioms Verif.Dom.C126_ids_partial
#print axioms Verif.Dom.C126_tree
#print axioms Verif.Dom.C126_no_key_error
#print axioms Verif.Dom.C126_clash
#print axioms Verif.Dom.C126_failed
#print axioms Verif.Dom.C126_add
#print axioms Verif.Dom.C126_remove
#print axioms Verif.Dom.C126_reset
#print axioms Verif.Dom.C126_set_id
#print axioms Verif.Dom.C126_violation_clash
#print axioms Verif.Dom.C126_violation_document
#print axioms Verif.Dom.C127_unique_id_partial
#print axioms Verif.Dom.C127_violation_digit
#print axioms Verif.Dom.C128_find_partial
#print axioms Verif.Dom.C128_outer_partial
#print axioms Verif.Dom.C128_violation_depth
#print axioms Verif.Dom.C128_violation_sub
#print axioms Verif.Dom.C128_violation_order
#print axioms Verif.Dom.C129_text
#print axioms Verif.Dom.C129_set_value
#print axioms Verif.OUri.C130_decodes
#print axioms Verif.OUri.C130_refuses
#print axioms Verif.OUri.C130_no_query
#print axioms Verif.OUri.C130_separators
#print axioms Verif.OUri.C130_segments_survive
#print axioms Verif.OUri.C130_unpaired_quote
#print axioms Verif.OUri.C131_expand
#print axioms Verif.OUri.C131_select
#print axioms Verif.OUri.C132_expand_round_trip
#print axioms Verif.OUri.C132_select_round_trip
#print axioms Verif.OUri.C132_canonical
#print axioms Verif.OUri.C132_normal_form
#print axioms Verif.OUri.C132_empty_violation
#print axioms Verif.OUri.C133_orderby_read
#print axioms Verif.OUri.C133_unambiguous
#print axioms Verif.OUri.C133_orderby_round_trip_partial
#print axioms Verif.OUri.C133_empty_violation
#print axioms Verif.OUri.C134_path_shape
#print axioms Verif.OUri.C134_one_option
#print axioms Verif.OUri.C134_misplaced_option_violation
#print axioms Verif.OUri.C135_accepted
#print axioms Verif.OUri.C135_last_wins
#print axioms Verif.OUri.C135_custom
#print axioms Verif.OUri.C135_parameter
#print axioms Verif.OUri.C135_allowed
#print axioms Verif.OUri.C135_numbers
#print axioms Verif.OUri.C135_prefix_violation
#print axioms Verif.Srv.C136_found
#print axioms Verif.Srv.C136_not_found
#print axioms Verif.Srv.C137_safe
#print axioms Verif.Srv.C137_read_only
#print axioms Verif.Srv.C137_request
#print axioms Verif.Srv.C137_function_violation
#print axioms Verif.Srv.C138_errors_change_nothing_partial
#print axioms Verif.Srv.C138_status
#print axioms Verif.Srv.C138_not_acceptable_violation
#print axioms Verif.Srv.C139_served
#print axioms Verif.Srv.C139_lenient_violation
#print axioms Verif.Srv.C140_negotiation
#print axioms Verif.Srv.C140_only
#print axioms Verif.Srv.C140_zero_violation
#print axioms Verif.Cli.C141_pool_partial
#print axioms Verif.Cli.C141_pool_no_cleanup
#print axioms Verif.Cli.C141_overtaken_violation
#print axioms Verif.Cli.C142_choice
#print axioms Verif.Cli.C142_right_connection
#print axioms Verif.Cli.C143_no_lost_wakeup_partial
#print axioms Verif.Cli.C143_no_request_lost
#print axioms Verif.Cli.C143_upgrade_violation
#print axioms Verif.Cli.C143_self_deadlock_violation
#print axioms Verif.Cli.C143_close_violation
#print axioms Verif.Cli.C144_at_most_once
#print axioms Verif.Cli.C144_bounded
#print axioms Verif.Cli.C144_nothing_lost
#print axioms Verif.Cli.C144_exactly_once_partial
#print axioms Verif.Cli.C144_early_success_violation
#print axioms Verif.Cli.C144_truncated_violation
#print axioms Verif.Cli.C144_stale_violation
#print axioms Verif.Cli.C145_in_order
#print axioms Verif.Cli.C145_not_pipelined
#print axioms Verif.Cli.C145_wire_partial
#print axioms Verif.Cli.C145_matched_partial
#print axioms Verif.Cli.C145_order_violation
#print axioms Verif.Cli.C145_hole_violation
#print axioms Verif.Csdl.C146_lookup
#print axioms Verif.Csdl.C146_unambiguous
#print axioms Verif.Csdl.C146_keys
#print axioms Verif.Csdl.C146_declare
#print axioms Verif.Csdl.C146_undeclare
#print axioms Verif.Csdl.C146_undeclare_other_violation
#print axioms Verif.Text.C147_bom
#print axioms Verif.Text.C147_utf8
#print axioms Verif.Text.C147_no_bom
#print axioms Verif.Text.C147_detect
#print axioms Verif.Text.C147_detect_utf8
#print axioms Verif.Text.C147_detect_bom
#print axioms Verif.Text.C147_ebcdic_violation
#print axioms Verif.Text.C147_detect_violation
#print axioms Verif.Iso.Dur.C148_sound
#print axioms Verif.Iso.Dur.C148_exact
#print axioms Verif.Iso.Dur.C148_round_trip
#print axioms Verif.Iso.Dur.C148_round_trip_frac
#print axioms Verif.Iso.Dur.C148_xsd_round_trip
#print axioms Verif.Iso.Dur.C148_lenient_violation
#print axioms Verif.Iso.Dur.C148_write_violation
#print axioms Verif.Iso.Dur.C148_sign_violation
#print axioms Verif.Xml.Attrs.C149_first_declaration
#print axioms Verif.Xml.Attrs.C149_seen
#print axioms Verif.Xml.Attrs.C149_valid_partial
#print axioms Verif.Xml.Attrs.C149_fixed_violation
#print axioms Verif.Json.C150_entity_json
#print axioms Verif.Json.C150_page_json
#print axioms Verif.Json.C150_property_json
#print axioms Verif.Json.C151_values_read_back
#print axioms Verif.Json.C151_complex_read_back
#print axioms Verif.Json.C151_entity_read_back
#print axioms Verif.Json.C151_before_1970_violation
#print axioms Verif.Json.C151_before_1970_offset_violation
#print axioms Verif.Json.C151_leap_second_violation
#print axioms Verif.Json.C151_complex_violation
#print axioms Verif.Json.C152_new_entity_partial
#print axioms Verif.Json.C152_single_valued_violation
#print axioms Verif.Json.C152_single_valued_witness
#print axioms Verif.Http.C153_reads
#print axioms Verif.Http.C153_only
#print axioms Verif.Http.C153_round_trip
#print axioms Verif.Http.C153_stable
#print axioms Verif.Http.C153_valid
#print axioms Verif.Http.C153_invalid_read
#print axioms Verif.Http.C153_round_trip_violation
#print axioms Verif.Http.C154_allow_reads
#print axioms Verif.Http.C154_allow_round_trip
#print axioms Verif.Http.C154_is_allowed
#print axioms Verif.Http.C154_allow_eq
#print axioms Verif.Http.C154_ranges_round_trip
#print axioms Verif.Http.C154_ranges_none
#print axioms Verif.Http.C154_ranges_reads
#print axioms Verif.Http.C154_ranges_eq
#print axioms Verif.Http.C154_no_comma
#print axioms Verif.Http.C155_lookup_partial
#print axioms Verif.Http.C155_make
#print axioms Verif.Http.C155_written_partial
#print axioms Verif.Http.C155_never_read_violation
#print axioms Verif.Http.C155_no_cache_violation
#print axioms Verif.Http.C155_repeated_violation
#print axioms Verif.CharClass.C156_class_text_partial
#print axioms Verif.CharClass.C156_history_text_partial
#print axioms Verif.CharClass.C156_full_violation
#print axioms Verif.CharClass.C156_backslash_violation
#print axioms Verif.Xsd.C157_sound_partial
#print axioms Verif.Xsd.C157_some_way
#print axioms Verif.Xsd.C157_prefix_free_partial
#print axioms Verif.Xsd.C157_simple
#print axioms Verif.Xsd.C157_alternative_violation
#print axioms Verif.Xsd.C157_greedy_violation
#print axioms Verif.Xsd.C157_full_class_violation
#print axioms Verif.Xsd.C157_backslash_class_violation
#print axioms Verif.Xsd.C158_accepts_partial
#print axioms Verif.Xsd.C158_match_partial
#print axioms Verif.Xsd.C158_trailing_violation
#print axioms Verif.Xsd.Enum.C159_strip
#print axioms Verif.Xsd.Enum.C159_decode
#print axioms Verif.Xsd.Enum.C159_encode
#print axioms Verif.Xsd.Enum.C159_list_round_trip
#print axioms Verif.Xsd.Enum.C159_dict
#print axioms Verif.Xsd.Enum.C159_no_case
#print axioms Verif.Xsd.Enum.C159_dict_from_str_violation
#print axioms Verif.Xsd.Enum.C159_dict_from_str_empty_violation
#print axioms Verif.Xsd.Enum.C159_dict_from_str_partial
#print axioms Verif.Http.C160_total_order
#print axioms Verif.Http.C160_explode
#print axioms Verif.Http.C160_dotted
#print axioms Verif.Http.C160_modifiers
#print axioms Verif.Http.C160_equal_versions
#print axioms Verif.OData.C161_floor_ceiling
#print axioms Verif.OData.C161_round
#print axioms Verif.OData.C161_integers
#print axioms Verif.OData.C161_date_parts
#print axioms Verif.Qti.Region.C162_valid
#print axioms Verif.Qti.Region.C162_unchanged
#print axioms Verif.Qti.Region.C162_places
#print axioms Verif.Qti.Region.C162_clash_violation
#print axioms Verif.Qti.Region.C163_bounds_partial
#print axioms Verif.Qti.Region.C163_offset_partial
#print axioms Verif.Qti.Region.C163_poly_bounds_violation
#print axioms Verif.Qti.Region.C163_poly_offset_violation
#print axioms Verif.Qti.Region.C163_bounds_violation
#print axioms Verif.Http.Srv.C164_split_socket
#print axioms Verif.Http.Srv.C164_split_socket1
#print axioms Verif.Http.Srv.C164_integrity
#print axioms Verif.Http.Srv.C164_request
#print axioms Verif.Http.Srv.C164_blank_line
#print axioms Verif.Http.Srv.C164_pipeline_partial
#print axioms Verif.Http.Srv.C164_chunked_partial
#print axioms Verif.Http.Srv.C164_chunked_violation
#print axioms Verif.Http.Srv.C164_pipeline_violation
#print axioms Verif.Http.Srv.C164_witness
#print axioms Verif.Http.Srv.C164_pipeline_witness
#print axioms Verif.Compat.C165_make_attr_name
#print axioms Verif.Compat.C165_no_upper
#print axioms Verif.Compat.C165_fixed
#print axioms Verif.Compat.C165_getattr
#print axioms Verif.Compat.C166_new_class
#print axioms Verif.Compat.C166_lookup
#print axioms Verif.Compat.C166_override
#print axioms Verif.Compat.C166_accepted
#print axioms Verif.Compat.C166_refused
#print axioms Verif.Compat.C166_mixin_violation
#print axioms Verif.Qti1.C167_migrated_rules
#print axioms Verif.Qti1.C167_response_processing
#print axioms Verif.Qti1.C167_stops
#print axioms Verif.Qti1.C167_fixups
#print axioms Verif.Qti1.C168_positive_partial
#print axioms Verif.Qti1.C168_answered_partial
#print axioms Verif.Qti1.C168_violation_not
#print axioms Verif.Qti1.C168_violation_index
#print axioms Verif.Qti1.C168_violation_case
#print axioms Verif.Qti1.C169_set
#print axioms Verif.Qti1.C169_integer_partial
#print axioms Verif.Qti1.C169_float
#print axioms Verif.Qti1.C169_null
#print axioms Verif.Qti1.C169_feedback_partial
#print axioms Verif.Qti1.C169_violation_divide
#print axioms Verif.Qti1.C169_violation_feedback
#print axioms Verif.Qti1.Area.C170_numbers_partial
#print axioms Verif.Qti1.Area.C170_rectangle_partial
#print axioms Verif.Qti1.Area.C170_circle
#print axioms Verif.Qti1.Area.C170_ellipse_partial
#print axioms Verif.Qti1.Area.C170_padding
#print axioms Verif.Qti1.Area.C170_bounded
#print axioms Verif.Qti1.Area.C170_yn_round_trip
#print axioms Verif.Qti1.Area.C170_leading_violation
#print axioms Verif.Qti1.Area.C170_rectangle_violation
#print axioms Verif.Qti1.Area.C170_empty_rectangle_violation
#print axioms Verif.Qti1.Area.C170_ellipse_violation
#print axioms Verif.Qti1.Area.C170_yn_violation
#print axioms Verif.Dom.Inherit.C171_lang_partial
#print axioms Verif.Dom.Inherit.C171_set_lang
#print axioms Verif.Dom.Inherit.C171_space_partial
#print axioms Verif.Dom.Inherit.C171_base_none
#print axioms Verif.Dom.Inherit.C171_base_document
#print axioms Verif.Dom.Inherit.C171_base_absolute_partial
#print axioms Verif.Dom.Inherit.C171_base_relative_partial
#print axioms Verif.Dom.Inherit.C171_base_chain_partial
#print axioms Verif.Dom.Inherit.C171_uri
#print axioms Verif.Dom.Inherit.C171_uri_absolute
#print axioms Verif.Dom.Inherit.C171_lang_violation
#print axioms Verif.Dom.Inherit.C171_space_violation
#print axioms Verif.Dom.Inherit.C171_base_violation
#print axioms Verif.Dom.Canon.C172_content_partial
#print axioms Verif.Dom.Canon.C172_equal_partial
#print axioms Verif.Dom.Canon.C172_preserve
#print axioms Verif.Dom.Canon.C172_adjacent_partial
#print axioms Verif.Dom.Canon.C172_two_blanks_violation
#print axioms Verif.Dom.Canon.C172_idempotent_partial
#print axioms Verif.Dom.Canon.C172_lone_violation
#print axioms Verif.Dom.Canon.C172_blank_violation
#print axioms Verif.Dom.Canon.C172_empty_violation
#print axioms Verif.Web.Context.C173_url_partial
#print axioms Verif.Web.Context.C173_url_violation
#print axioms Verif.Web.Context.C173_root
#print axioms Verif.Web.Context.C173_port
#print axioms Verif.Web.Context.C173_content
#print axioms Verif.Web.Context.C173_limits
#print axioms Verif.Web.Context.C173_length_violation
#print axioms Verif.Http.Target.C174_target
#print axioms Verif.Http.Target.C174_host
#print axioms Verif.Http.Target.C174_accepts
#print axioms Verif.Http.Target.C174_wait
#print axioms Verif.Http.Target.C174_growth
#print axioms Verif.Http.Target.C174_refused_violation
#print axioms Verif.Http.Target.C174_nohost_violation
