{
 "claims": [
  {
   "property": "C01",
   "status": "proved",
   "theorems": [
    "Vital.Config.C01_set_then_get"
   ],
   "note": "all reachable heaps, all aliases through nested views"
  },
  {
   "property": "C02",
   "status": "proved",
   "theorems": [
    "Vital.Config.C02_refines_map"
   ],
   "note": "refinement with outcomes of every call"
  },
  {
   "property": "C03",
   "status": "proved",
   "theorems": [
    "Vital.Config.C03_read_only_forever",
    "Vital.Config.C03_merge"
   ],
   "note": "any later API history"
  },
  {
   "property": "C04",
   "status": "partial",
   "theorems": [
    "Vital.Config.C04_refuted",
    "Vital.Config.C04_partial"
   ],
   "note": "the code violates the property: m_ro_list is local to the view; refutation with witness, plus what does hold"
  },
  {
   "property": "C05",
   "status": "proved",
   "theorems": [
    "Vital.Config.C05_unset_removes",
    "Vital.Config.C05_unset_fails"
   ],
   "note": ""
  },
  {
   "property": "C06",
   "status": "proved",
   "theorems": [
    "Vital.Config.C06_value_iff_description",
    "Vital.Config.C06_no_undefined_behaviour"
   ],
   "note": ""
  },
  {
   "property": "C07",
   "status": "proved",
   "theorems": [
    "Vital.Config.C07_description_rule"
   ],
   "note": ""
  },
  {
   "property": "C08",
   "status": "proved",
   "theorems": [
    "Vital.Config.C08_view_is_alias"
   ],
   "note": "after any later history"
  },
  {
   "property": "C09",
   "status": "proved",
   "theorems": [
    "Vital.Config.C09_subblock_copies",
    "Vital.Config.C09_subblock_exact",
    "Vital.Config.C09_noninterference",
    "Vital.Config.C09_detached"
   ],
   "note": "_global: collisions characterised exactly"
  },
  {
   "property": "C10",
   "status": "proved",
   "theorems": [
    "Vital.Config.C10_available_root",
    "Vital.Config.C10_available_complete",
    "Vital.Config.C10_available_view_exact",
    "Vital.Config.C10_view_lists_unreadable_key"
   ],
   "note": ""
  },
  {
   "property": "C11",
   "status": "proved",
   "theorems": [
    "Vital.Config.C11_merge",
    "Vital.Config.C11_merge_no_conflict",
    "Vital.Config.C11_root_source_readable"
   ],
   "note": "for blocks not sharing storage"
  },
  {
   "property": "C12",
   "status": "proved",
   "theorems": [
    "Vital.Config.C12_default_never_throws"
   ],
   "note": ""
  },
  {
   "property": "C13",
   "status": "proved",
   "theorems": [
    "Vital.Config.C13_bool_table",
    "Vital.Config.C13_bool_roundtrip"
   ],
   "note": ""
  },
  {
   "property": "C14",
   "status": "proved",
   "theorems": [
    "Vital.Config.C14_int_roundtrip",
    "Vital.Config.C14_int_accepts",
    "Vital.Config.C14_int_rejects"
   ],
   "note": ""
  },
  {
   "property": "C15",
   "status": "proved",
   "theorems": [
    "Vital.Expand.C15_no_token_unchanged"
   ],
   "note": ""
  },
  {
   "property": "C16",
   "status": "proved",
   "theorems": [
    "Vital.Expand.C16_expand_is_one_pass"
   ],
   "note": "the pattern's text is modelled by a scanner; the general regex engine is not used"
  },
  {
   "property": "C17",
   "status": "proved",
   "theorems": [
    "Vital.Expand.C17_every_token",
    "Vital.Expand.C17_unknown_type",
    "Vital.Expand.C17_unknown_name"
   ],
   "note": ""
  },
  {
   "property": "C18",
   "status": "proved",
   "theorems": [
    "Vital.Expand.C18_symtab"
   ],
   "note": ""
  },
  {
   "property": "C19",
   "status": "proved",
   "theorems": [
    "Vital.Parser.C19_comments_do_not_matter"
   ],
   "note": "for all files of the world at once; the line numbers of locations may differ"
  },
  {
   "property": "C20",
   "status": "proved",
   "theorems": [
    "Vital.Parser.C20_every_text",
    "Vital.Parser.C20_one_meaning",
    "Vital.Parser.C20_document",
    "Vital.Parser.C20_every_parse",
    "Vital.Parser.C20_nested_key",
    "Vital.Parser.C20_endblock_restores",
    "Vital.Parser.C20_bad_nesting"
   ],
   "note": "for every text: the line grammar of ParserSpec is total (C20_every_text)"
  },
  {
   "property": "C21",
   "status": "proved",
   "theorems": [
    "Vital.Parser.C21_error_read",
    "Vital.Parser.C21_bad_line",
    "Vital.Parser.C21_bad_flag",
    "Vital.Parser.C21_bad_included",
    "Vital.Parser.C21_others_entered"
   ],
   "note": "for every text and file system; lines after an exception are not read"
  },
  {
   "property": "C22",
   "status": "proved",
   "theorems": [
    "Vital.Parser.C22_value_kept",
    "Vital.Parser.C22_redefinition_throws"
   ],
   "note": "every text"
  },
  {
   "property": "C23",
   "status": "proved",
   "theorems": [
    "Vital.Parser.C23_last_definition_wins"
   ],
   "note": "every text; also for parses that end in an exception"
  },
  {
   "property": "C24",
   "status": "proved",
   "theorems": [
    "Vital.Parser.C24_tokens_see_earlier_definitions"
   ],
   "note": "every text"
  },
  {
   "property": "C25",
   "status": "proved",
   "theorems": [
    "Vital.Parser.C25_terminates",
    "Vital.Parser.C25_terminates_acyclic",
    "Vital.Parser.C25_diverges",
    "Vital.Parser.C25_self_include_diverges"
   ],
   "note": ""
  },
  {
   "property": "C26",
   "status": "proved",
   "theorems": [
    "Vital.Parser.C26_write_read",
    "Vital.Parser.C26_short_key_lost"
   ],
   "note": "the condition on keys is needed: C26_short_key_lost"
  },
  {
   "property": "C27",
   "status": "proved",
   "theorems": [
    "Vital.Config.C27_empty_refused",
    "Vital.Config.C27_sorted_entries",
    "Vital.Config.C27_deterministic"
   ],
   "note": "deterministic: two blocks with equal answers to all queries write the same text"
  },
  {
   "property": "C28",
   "status": "proved",
   "theorems": [
    "Vital.Config.C28_comment",
    "Vital.Config.C28_short_verbatim"
   ],
   "note": ""
  },
  {
   "property": "C29",
   "status": "proved",
   "theorems": [
    "Vital.Parser.C29_merge",
    "Vital.Parser.C29_conflict_throws",
    "Vital.Parser.C29_bad_file_throws",
    "Vital.Parser.C29_first_only",
    "Vital.Parser.C29_absolute",
    "Vital.Parser.C29_not_found"
   ],
   "note": "with merge, a later file that protects a key an earlier one defines makes the call throw (C29_conflict_throws)"
  },
  {
   "property": "C30",
   "status": "partial",
   "theorems": [
    "Vital.Parser.C30_refuted",
    "Vital.Parser.C30_reuse_partial",
    "Vital.Parser.C30_errors_lost",
    "Vital.Parser.C30_errors_stick",
    "Vital.Parser.C30_successful_calls"
   ],
   "note": "false after a call that threw while reading; holds if every earlier call returned or could not open its file"
  },
  {
   "property": "C31",
   "status": "proved",
   "theorems": [
    "Vital.Parser.C31_location_of_last_definition"
   ],
   "note": "every text; also for parses that end in an exception"
  },
  {
   "property": "C32",
   "status": "proved",
   "theorems": [
    "Vital.Tokenize.C32_tokenize_lossless",
    "Vital.Tokenize.C32_tokenize_join",
    "Vital.Tokenize.C32_tokenize_trim"
   ],
   "note": ""
  },
  {
   "property": "C33",
   "status": "proved",
   "theorems": [
    "Vital.Track.C33_ordered",
    "Vital.Track.C33_append_state",
    "Vital.Track.C33_append_track"
   ],
   "note": ""
  },
  {
   "property": "C34",
   "status": "proved",
   "theorems": [
    "Vital.Track.C34_find_exact"
   ],
   "note": "std::lower_bound modelled as binary search"
  },
  {
   "property": "C35",
   "status": "proved",
   "theorems": [
    "Vital.Track.C35_partition",
    "Vital.Track.C35_overflow"
   ],
   "note": "offsets whose arithmetic does not overflow int64 (OffsetOk)"
  },
  {
   "property": "C36",
   "status": "partial",
   "theorems": [
    "Vital.Track.C36_refuted",
    "Vital.Track.C36_partial"
   ],
   "note": "the code starts the running minimum at 0: false for positive frames"
  },
  {
   "property": "C37",
   "status": "proved",
   "theorems": [
    "Vital.Track.C37_last_frame"
   ],
   "note": ""
  },
  {
   "property": "C38",
   "status": "proved",
   "theorems": [
    "Vital.Timestamp.C38_operators",
    "Vital.Timestamp.C38_coherent"
   ],
   "note": ""
  },
  {
   "property": "C39",
   "status": "partial",
   "theorems": [
    "Vital.Timestamp.C39_refuted",
    "Vital.Timestamp.C39_partial"
   ],
   "note": "the code violates transitivity for mixed timestamps"
  },
  {
   "property": "C40",
   "status": "proved",
   "theorems": [
    "Vital.Image.C40_addresses",
    "Vital.Image.C40_overflow_unsafe"
   ],
   "note": "under w*h*d < 2^64; without it the size computation wraps and the claim fails (second theorem)"
  },
  {
   "property": "C41",
   "status": "partial",
   "theorems": [
    "Vital.Image.C41_throws_iff",
    "Vital.Image.C41_in_bounds_partial",
    "Vital.Image.C41_depth0_unsafe",
    "Vital.Image.C41_write"
   ],
   "note": "depth-0 images are read out of bounds by at(i,j) and operator()(i,j)"
  },
  {
   "property": "C42",
   "status": "proved",
   "theorems": [
    "Vital.Image.C42_copy_realloc",
    "Vital.Image.C42_copy_in_place",
    "Vital.Image.C42_overlap_unsafe"
   ],
   "note": "the last theorem shows why own memory is needed"
  },
  {
   "property": "C43",
   "status": "proved",
   "theorems": [
    "Vital.Image.C43_equal_content",
    "Vital.Image.C43_equivalence"
   ],
   "note": ""
  },
  {
   "property": "C44",
   "status": "proved",
   "theorems": [
    "Vital.Image.C44_transform"
   ],
   "note": ""
  },
  {
   "property": "C45",
   "status": "proved",
   "theorems": [
    "Vital.Algo.C45_create",
    "Vital.Algo.C45_create_def",
    "Vital.Algo.C45_register",
    "Vital.Algo.C45_clone_is_independent"
   ],
   "note": "the clone is taken of the registered object as it is at the time of create"
  },
  {
   "property": "C46",
   "status": "partial",
   "theorems": [
    "Vital.Algo.C46_get_then_set",
    "Vital.Algo.C46_get_frame",
    "Vital.Algo.C46_get_null",
    "Vital.Algo.C46_set_unknown",
    "Vital.Algo.C46_check",
    "Vital.Algo.C46_never_null_refuted",
    "Vital.Algo.C46_get_empty_type"
   ],
   "note": "holds for non-empty type names and implementation names without outer white space; with an empty type name the code follows a null pointer (refuted)"
  },
  {
   "property": "C47",
   "status": "proved",
   "theorems": [
    "Vital.CApi.C47_cache",
    "Vital.CApi.C47_null",
    "Vital.CApi.C47_balance"
   ],
   "note": ""
  },
  {
   "property": "C48",
   "status": "partial",
   "theorems": [
    "Vital.CApi.C48_refuted",
    "Vital.CApi.C48_partial"
   ],
   "note": "every caught exception overflows the message buffer by one byte"
  },
  {
   "property": "C49",
   "status": "proved",
   "theorems": [
    "Vital.Base64.C49_roundtrip",
    "Vital.Base64.C49_roundtrip_max",
    "Vital.Base64.C49_shape"
   ],
   "note": ""
  },
  {
   "property": "C50",
   "status": "partial",
   "theorems": [
    "Vital.Base64.C50_refuted",
    "Vital.Base64.C50_partial",
    "Vital.Base64.C50_exact"
   ],
   "note": "one extra zero byte for lengths divisible by 3"
  },
  {
   "property": "C51",
   "status": "proved",
   "theorems": [
    "Vital.Cov.C51_vector_index",
    "Vital.Cov.C51_from_matrix",
    "Vital.Cov.C51_to_matrix",
    "Vital.Cov.C51_set_entry",
    "Vital.Cov.C51_scalar"
   ],
   "note": ""
  },
  {
   "property": "C52",
   "status": "partial",
   "theorems": [
    "Vital.Cov.C52_refuted",
    "Vital.Cov.C52_partial"
   ],
   "note": "only N of N(N+1)/2 entries are converted"
  },
  {
   "property": "C53",
   "status": "partial",
   "theorems": [
    "Vital.IO.C53_partial",
    "Vital.IO.C53_refuted",
    "Vital.IO.C53_last_wins"
   ],
   "note": "the claim is false: one vertex line too many is read (refuted); proved: exactly the first n+1 non-blank data lines are used"
  },
  {
   "property": "C54",
   "status": "proved",
   "theorems": [
    "Vital.IO.C54_round_trip",
    "Vital.IO.C54_files"
   ],
   "note": "fewer than 2^32-1 landmarks, 64 bit ids; number formatting abstract (NumFmt.Lawful)"
  },
  {
   "property": "C55",
   "status": "proved",
   "theorems": [
    "Vital.IO.C55_round_trip",
    "Vital.IO.C55_files"
   ],
   "note": "64 bit ids and frames, frames ascending (C33); number formatting abstract (NumFmt.Lawful)"
  },
  {
   "property": "C56",
   "status": "partial",
   "theorems": [
    "Vital.IO.C56_partial",
    "Vital.IO.C56_partial_files",
    "Vital.IO.C56_intrinsics_partial",
    "Vital.IO.C56_refuted"
   ],
   "note": "the claim is false: the distortion is written but never read (refuted); proved: both matrices and the translation come back, the distortion is always empty, so cameras without distortion round trip"
  },
  {
   "property": "C57",
   "status": "partial",
   "theorems": [
    "Vital.Enum.C57_partial",
    "Vital.Enum.C57_refuted",
    "Vital.Enum.C57_equality"
   ],
   "note": "false for a matrix without outer vectors (0 columns), where the constructor reads past the index array (refuted); proved for all others"
  },
  {
   "property": "C58",
   "status": "proved",
   "theorems": [
    "Vital.Geo.C58_compose",
    "Vital.Geo.C58_inverse",
    "Vital.Geo.C58_unit",
    "Vital.Geo.C58_group",
    "Vital.Geo.C58_matrix_apply",
    "Vital.Geo.C58_matrix_compose"
   ],
   "note": "exact real arithmetic, unit quaternions"
  },
  {
   "property": "C59",
   "status": "proved",
   "theorems": [
    "Vital.Geo.C59_compose",
    "Vital.Geo.C59_inverse",
    "Vital.Geo.C59_assoc"
   ],
   "note": "exact real arithmetic; the inverse throws when the determinant is at most Eigen's threshold"
  },
  {
   "property": "C60",
   "status": "proved",
   "theorems": [
    "Vital.Geo.C60_calibration",
    "Vital.Geo.C60_unmap_map",
    "Vital.Geo.C60_matrix",
    "Vital.Geo.C60_round_trip",
    "Vital.Geo.C60_matrix_round_trip"
   ],
   "note": "exact real arithmetic"
  },
  {
   "property": "C61",
   "status": "partial",
   "theorems": [
    "Vital.Geo.C61_tangential",
    "Vital.Geo.C61_partial",
    "Vital.Geo.C61_refuted"
   ],
   "note": "false with tangential coefficients: the last term is added to J(0,0) instead of J(1,1) (refuted, and the correct matrix proved); proved where that term vanishes"
  },
  {
   "property": "C62",
   "status": "proved",
   "theorems": [
    "Vital.Sys.C62_dir_name",
    "Vital.Sys.C62_extensions"
   ],
   "note": "paths in slash normal form"
  },
  {
   "property": "C63",
   "status": "proved",
   "theorems": [
    "Vital.Log.C63_gating",
    "Vital.Log.C63_macro",
    "Vital.Log.C63_empty",
    "Vital.Log.C63_same_logger",
    "Vital.Log.C63_different_loggers",
    "Vital.Log.C63_set_level",
    "Vital.Log.C63_initial_level"
   ],
   "note": ""
  },
  {
   "property": "C64",
   "status": "partial",
   "theorems": [
    "Vital.Track.C64_refuted",
    "Vital.Track.C64_new_terminated_partial",
    "Vital.Track.C64_overflow"
   ],
   "note": "false for empty tracks at frame 0"
  },
  {
   "property": "C65",
   "status": "partial",
   "theorems": [
    "Vital.Track.C65_refuted",
    "Vital.Track.C65_last_frame_features_partial"
   ],
   "note": "undefined behaviour with an empty track and last frame 0"
  },
  {
   "property": "C66",
   "status": "proved",
   "theorems": [
    "Vital.Track.C66_frame_features"
   ],
   "note": ""
  },
  {
   "property": "C67",
   "status": "proved",
   "theorems": [
    "Vital.Track.C67_percentage"
   ],
   "note": "numerator and denominator; the double division is not modelled"
  },
  {
   "property": "C68",
   "status": "proved",
   "theorems": [
    "Vital.Track.C68_ids"
   ],
   "note": ""
  },
  {
   "property": "C69",
   "status": "partial",
   "theorems": [
    "Vital.Timestamp.C69_refuted",
    "Vital.Timestamp.C69_roundtrip_partial",
    "Vital.Timestamp.C69_undefined_iff"
   ],
   "note": "invalid or non-default-domain timestamps do not survive; texts without two fields read indeterminate values"
  },
  {
   "property": "C70",
   "status": "partial",
   "theorems": [
    "Vital.Base64.C70_refuted",
    "Vital.Base64.C70_partial",
    "Vital.Base64.C70_sharp"
   ],
   "note": "false below 14 (24) bytes"
  },
  {
   "property": "C71",
   "status": "partial",
   "theorems": [
    "Vital.CApi.C71_refuted",
    "Vital.CApi.C71_partial"
   ],
   "note": "every ordinary string overflows its buffer by one byte"
  },
  {
   "property": "C72",
   "status": "proved",
   "theorems": [
    "Vital.CApi.C72_string_new"
   ],
   "note": ""
  },
  {
   "property": "C73",
   "status": "proved",
   "theorems": [
    "Vital.Config.C73_set_location",
    "Vital.Config.C73_unset_forgets",
    "Vital.Config.C73_others_keep",
    "Vital.Config.C73_copies_have_none"
   ],
   "note": ""
  },
  {
   "property": "C74",
   "status": "proved",
   "theorems": [
    "Vital.Sys.C74_join_split",
    "Vital.Sys.C74_bare_tilde"
   ],
   "note": ""
  },
  {
   "property": "C75",
   "status": "partial",
   "theorems": [
    "Vital.Sys.C75_collapse_canonical_partial",
    "Vital.Sys.C75_up_cancels",
    "Vital.Sys.C75_refuted"
   ],
   "note": "names such as \"a:b\" are taken for drive letters and stay relative; otherwise complete"
  },
  {
   "property": "C76",
   "status": "partial",
   "theorems": [
    "Vital.Sys.C76_refuted",
    "Vital.Sys.C76_home_partial"
   ],
   "note": "false for HOME=/"
  },
  {
   "property": "C77",
   "status": "partial",
   "theorems": [
    "Vital.Sys.C77_refuted",
    "Vital.Sys.C77_split_terminates_partial"
   ],
   "note": "false for HOME=~"
  },
  {
   "property": "C78",
   "status": "partial",
   "theorems": [
    "Vital.Sys.C78_refuted",
    "Vital.Sys.C78_unix_slashes_partial"
   ],
   "note": "false for a backslash followed by a slash"
  },
  {
   "property": "C79",
   "status": "partial",
   "theorems": [
    "Vital.Sys.C79_refuted",
    "Vital.Sys.C79_find_file_partial"
   ],
   "note": "the code searches the system path first; a directory of that name ends the search"
  },
  {
   "property": "C80",
   "status": "proved",
   "theorems": [
    "Vital.Sys.C80_get_path"
   ],
   "note": ""
  },
  {
   "property": "C81",
   "status": "proved",
   "theorems": [
    "Vital.Parser.C81_include_path"
   ],
   "note": "the system search path really is searched first, see C79"
  },
  {
   "property": "C82",
   "status": "partial",
   "theorems": [
    "Vital.Parser.C82_refuted",
    "Vital.Parser.C82_protection_partial"
   ],
   "note": "false when merging: marks of all but the last file are lost"
  },
  {
   "property": "C83",
   "status": "proved",
   "theorems": [
    "Vital.Parser.C83_search_order"
   ],
   "note": "POSIX branches"
  },
  {
   "property": "C84",
   "status": "partial",
   "theorems": [
    "Vital.Parser.C84_refuted",
    "Vital.Parser.C84_write_read_partial"
   ],
   "note": "false when the stream cannot be opened, which goes unnoticed; holds otherwise"
  },
  {
   "property": "C85",
   "status": "partial",
   "theorems": [
    "Vital.Parser.C85_refuted",
    "Vital.Parser.C85_atomic_partial"
   ],
   "note": "false: an empty block truncates the file and then throws; holds for blocks with values"
  },
  {
   "property": "C86",
   "status": "proved",
   "theorems": [
    "Vital.Algo.C86_names"
   ],
   "note": ""
  },
  {
   "property": "C87",
   "status": "proved",
   "theorems": [
    "Vital.Algo.C87_type_names",
    "Vital.Algo.C87_registries_agree",
    "Vital.Algo.C87_colon_clash"
   ],
   "note": ""
  },
  {
   "property": "C88",
   "status": "proved",
   "theorems": [
    "Vital.Algo.C88_option_list"
   ],
   "note": "for non-empty type names; see C46 for the empty one"
  },
  {
   "property": "C89",
   "status": "proved",
   "theorems": [
    "Vital.Algo.C89_impl_configs"
   ],
   "note": "implementation names without ':'"
  },
  {
   "property": "C90",
   "status": "proved",
   "theorems": [
    "Vital.IO.C90_fields",
    "Vital.IO.C90_names"
   ],
   "note": ""
  },
  {
   "property": "C91",
   "status": "proved",
   "theorems": [
    "Vital.IO.C91_ply_throws",
    "Vital.IO.C91_ply_read",
    "Vital.IO.C91_track_throws",
    "Vital.IO.C91_track_read",
    "Vital.IO.C91_krtd_throws",
    "Vital.IO.C91_krtd_read"
   ],
   "note": "a file that exists but cannot be opened for writing is not reported"
  },
  {
   "property": "C92",
   "status": "proved",
   "theorems": [
    "Vital.IO.C92_color",
    "Vital.IO.C92_feature",
    "Vital.IO.C92_landmark",
    "Vital.IO.C92_rotation",
    "Vital.IO.C92_similarity",
    "Vital.Stream.C92_unsigned_fails"
   ],
   "note": "number formatting abstract (NumFmt.Lawful)"
  },
  {
   "property": "C93",
   "status": "proved",
   "theorems": [
    "Vital.IO.C93_groups"
   ],
   "note": ""
  },
  {
   "property": "C94",
   "status": "partial",
   "theorems": [
    "Vital.IO.C94_partial",
    "Vital.IO.C94_refuted",
    "Vital.IO.C94_blank_line",
    "Vital.IO.C94_errors"
   ],
   "note": "the claim is false for lines with fewer than ten fields, which store indeterminate values (refuted); proved for well-formed lines, blank lines and exceptions"
  },
  {
   "property": "C95",
   "status": "partial",
   "theorems": [
    "Vital.IO.C95_partial",
    "Vital.IO.C95_refuted",
    "Vital.IO.C95_null_entries",
    "Vital.IO.C95_broken",
    "Vital.IO.C95_path",
    "Vital.IO.C95_path_plain"
   ],
   "note": "proved for right-hand side first (C++17); with the other order, which C++11 allows, missing files leave null entries (refuted)"
  },
  {
   "property": "C96",
   "status": "proved",
   "theorems": [
    "Vital.Log.C96_always",
    "Vital.Log.C96_whole_messages",
    "Vital.Log.C96_progress"
   ],
   "note": "sequentially consistent interleavings of the modelled atomic actions"
  },
  {
   "property": "C97",
   "status": "partial",
   "theorems": [
    "Vital.Log.C97_one_manager",
    "Vital.Log.C97_progress",
    "Vital.Log.C97_refuted",
    "Vital.Log.C97_partial"
   ],
   "note": "the manager part is proved for all schedules; the logger part is false when two threads first ask for a name at once (refuted) and proved when such calls do not overlap"
  },
  {
   "property": "C98",
   "status": "partial",
   "theorems": [
    "Vital.Log.C98_refuted",
    "Vital.Log.C98_partial"
   ],
   "note": "false: milliseconds are printed without leading zeros (refuted); proved for stamps with the same number of digits"
  },
  {
   "property": "C99",
   "status": "proved",
   "theorems": [
    "Vital.Log.C99_member",
    "Vital.Log.C99_constructor",
    "Vital.Log.C99_function"
   ],
   "note": ""
  },
  {
   "property": "C100",
   "status": "proved",
   "theorems": [
    "Vital.Geo.C100_compose",
    "Vital.Geo.C100_inverse",
    "Vital.Geo.C100_matrix",
    "Vital.Geo.C100_isometry",
    "Vital.Geo.C100_group",
    "Vital.Geo.C100_matrix_compose",
    "Vital.Geo.C100_constructors",
    "Vital.Geo.C100_refuted"
   ],
   "note": "exact real arithmetic; C100_refuted: false without the unit hypothesis"
  },
  {
   "property": "C101",
   "status": "proved",
   "theorems": [
    "Vital.Geo.C101_from_matrix",
    "Vital.Geo.C101_to_matrix",
    "Vital.Geo.C101_same_action"
   ],
   "note": "exact real arithmetic"
  },
  {
   "property": "C102",
   "status": "proved",
   "theorems": [
    "Vital.Geo.C102_angle_axis",
    "Vital.Geo.C102_to_rodrigues",
    "Vital.Geo.C102_from_rodrigues",
    "Vital.Geo.C102_from_angle_axis"
   ],
   "note": "exact real arithmetic, LOCAL_PI = pi"
  },
  {
   "property": "C103",
   "status": "partial",
   "theorems": [
    "Vital.Geo.C103_from_ypr",
    "Vital.Geo.C103_partial",
    "Vital.Geo.C103_refuted"
   ],
   "note": "the second half is false at pitch +-pi/2 (refuted); proved for all other rotations"
  },
  {
   "property": "C104",
   "status": "proved",
   "theorems": [
    "Vital.Geo.C104_ends",
    "Vital.Geo.C104_even",
    "Vital.Geo.C104_steps"
   ],
   "note": "exact real arithmetic"
  },
  {
   "property": "C105",
   "status": "partial",
   "theorems": [
    "Vital.Geo.C105_partial",
    "Vital.Geo.C105_refuted",
    "Vital.Geo.C105_refused"
   ],
   "note": "the constructor leaves members uninitialised for other matrices (refuted); the round trip is proved"
  },
  {
   "property": "C106",
   "status": "partial",
   "theorems": [
    "Vital.Geo.C106_map",
    "Vital.Geo.C106_compose",
    "Vital.Geo.C106_inverse",
    "Vital.Geo.C106_normalize",
    "Vital.Geo.C106_refuted"
   ],
   "note": "the product may throw where both factors map, as the threshold is absolute (refuted); proved when it does not throw"
  },
  {
   "property": "C107",
   "status": "proved",
   "theorems": [
    "Vital.Geo.C107_translation",
    "Vital.Geo.C107_matrix",
    "Vital.Geo.C107_rays"
   ],
   "note": "exact real arithmetic"
  },
  {
   "property": "C108",
   "status": "proved",
   "theorems": [
    "Vital.Geo.C108_look_at"
   ],
   "note": "exact real arithmetic"
  },
  {
   "property": "C109",
   "status": "proved",
   "theorems": [
    "Vital.Geo.C109_epipolar",
    "Vital.Geo.C109_scale",
    "Vital.Geo.C109_twisted",
    "Vital.Geo.C109_from_matrix",
    "Vital.Geo.C109_closest"
   ],
   "note": "exact real arithmetic; Eigen's SVD is any that meets its specification"
  },
  {
   "property": "C110",
   "status": "proved",
   "theorems": [
    "Vital.Geo.C110_fundamental"
   ],
   "note": "exact real arithmetic; Eigen's SVD is any that meets its specification"
  },
  {
   "property": "C111",
   "status": "proved",
   "theorems": [
    "Vital.LatLon.C111_valid",
    "Vital.LatLon.C111_members"
   ],
   "note": "doubles are NaN or extended reals"
  },
  {
   "property": "C112",
   "status": "partial",
   "theorems": [
    "Vital.Geo.C112_radial",
    "Vital.Geo.C112_partial",
    "Vital.Geo.C112_refuted",
    "Vital.Geo.C112_polynomial_partial",
    "Vital.Geo.C112_rational_partial",
    "Vital.Geo.C112_unmap_partial"
   ],
   "note": "false with tangential coefficients because of C61 (refuted); proved for all models without tangential coefficients (with the rational terms: coefficients of at most 1/20)"
  },
  {
   "property": "C113",
   "status": "proved",
   "theorems": [
    "Vital.Wrap.C113_pairs",
    "Vital.Wrap.C113_unique"
   ],
   "note": "null cameras and landmarks are not modelled"
  },
  {
   "property": "C114",
   "status": "proved",
   "theorems": [
    "Vital.Wrap.C114_arguments",
    "Vital.Wrap.C114_throws"
   ],
   "note": "the optimizer is a function of its arguments"
  },
  {
   "property": "C115",
   "status": "proved",
   "theorems": [
    "Vital.Wrap.C115_filter"
   ],
   "note": ""
  },
  {
   "property": "C116",
   "status": "proved",
   "theorems": [
    "Vital.Wrap.C116_matches"
   ],
   "note": ""
  },
  {
   "property": "C117",
   "status": "proved",
   "theorems": [
    "Vital.ImageIo.C117_load",
    "Vital.ImageIo.C117_save"
   ],
   "note": "for paths whose collapsed form is an absolute path of plain names"
  },
  {
   "property": "C118",
   "status": "proved",
   "theorems": [
    "Vital.Regex.C118_compile_accepts",
    "Vital.Regex.C118_compile_refuses",
    "Vital.Regex.C118_one_meaning"
   ],
   "note": "model at the level of program bytes; expressions over 127 characters may be refused only for the size of their program"
  },
  {
   "property": "C119",
   "status": "proved",
   "theorems": [
    "Vital.Regex.C119_find_iff"
   ],
   "note": "texts without zero bytes; stack depth of the recursion is not modelled"
  },
  {
   "property": "C120",
   "status": "proved",
   "theorems": [
    "Vital.Regex.C120_find_leftmost"
   ],
   "note": ""
  },
  {
   "property": "C121",
   "status": "proved",
   "theorems": [
    "Vital.Regex.C121_groups"
   ],
   "note": ""
  },
  {
   "property": "C122",
   "status": "proved",
   "theorems": [
    "Vital.Regex.C122_history",
    "Vital.Regex.C122_compile",
    "Vital.Regex.C122_accessors",
    "Vital.Regex.C122_copy",
    "Vital.Regex.C122_stale_example",
    "Vital.Regex.C122_old_example"
   ],
   "note": "one thread; after a find that returned false, match(0) may still be an older match (C122_stale_example)"
  },
  {
   "property": "C123",
   "status": "proved",
   "theorems": [
    "Vital.Regex.C123_token",
    "Vital.Regex.C123_words"
   ],
   "note": "links the scanners in Verif/Config to the compiled patterns; the static objects are compiled once and used from one thread"
  },
  {
   "property": "C124",
   "status": "proved",
   "theorems": [
    "Vital.CApi.Cfg.C124_refines",
    "Vital.CApi.Cfg.C124_dead_handle",
    "Vital.CApi.Cfg.C124_life",
    "Vital.CApi.Cfg.C124_set_get"
   ],
   "note": "NULL key/value strings and memory exhaustion are not modelled; strings handed out end at the first NUL (C72), key lists overflow (C71)"
  },
  {
   "property": "C125",
   "status": "proved",
   "theorems": [
    "Vital.CApi.Cfg.C125_no_use_after_free",
    "Vital.CApi.Cfg.C125_view_keeps_parent"
   ],
   "note": ""
  },
  {
   "property": "C126",
   "status": "partial",
   "theorems": [
    "Vital.CApi.CfgFile.C126_refuted",
    "Vital.CApi.CfgFile.C126_partial"
   ],
   "note": "false of the code: every failure with code 1 or 3 is undefined behaviour, with a NULL handle (dereferenced) and with a real one (message buffer one byte short); proved: successful calls, and other exceptions with a NULL error handle"
  },
  {
   "property": "C127",
   "status": "partial",
   "theorems": [
    "Vital.CApi.ImageData.C127_refuted",
    "Vital.CApi.ImageData.C127_partial",
    "Vital.CApi.ImageData.C127_reversed"
   ],
   "note": "false of the code for a negative d_step (planes come out reversed); proved for the other cases"
  },
  {
   "property": "C128",
   "status": "proved",
   "theorems": [
    "Vital.CApi.Maps.C128_get_map",
    "Vital.CApi.Maps.C128_new_then_get",
    "Vital.CApi.Maps.C128_new_dead",
    "Vital.CApi.Maps.C128_new_null",
    "Vital.CApi.Maps.C128_destroy",
    "Vital.CApi.Maps.C128_trackset"
   ],
   "note": ""
  },
  {
   "property": "C129",
   "status": "proved",
   "theorems": [
    "Vital.CApi.Alg.C129_refines",
    "Vital.CApi.Alg.C129_refused",
    "Vital.CApi.Alg.C129_set_type",
    "Vital.CApi.Alg.C129_wrong_destroy"
   ],
   "note": "legal histories: a handle is destroyed with the function of its own class (C129_wrong_destroy shows what happens otherwise); type names distinct and without colon; the five functions of algorithm.cxx are modelled by their bodies, although they are defined in namespace kwiver and so do not define the C symbols of the header"
  },
  {
   "property": "C130",
   "status": "partial",
   "theorems": [
    "Vital.CApi.Alg.C130_refuted",
    "Vital.CApi.Alg.C130_partial"
   ],
   "note": "false of the code: the return statement is missing, the answer is always false; proved: effects and the false answers"
  },
  {
   "property": "C131",
   "status": "proved",
   "theorems": [
    "Vital.Plugin.C131_search_path",
    "Vital.Plugin.C131_split",
    "Vital.Plugin.C131_split_ret",
    "Vital.Plugin.pieces_unique"
   ],
   "note": "Pieces is the specification of cutting at separators and determines its result"
  },
  {
   "property": "C132",
   "status": "proved",
   "theorems": [
    "Vital.Plugin.C132_files",
    "Vital.Plugin.C132_nothing"
   ],
   "note": "directory entries contain no slash (POSIX)"
  },
  {
   "property": "C133",
   "status": "proved",
   "theorems": [
    "Vital.Plugin.C133_module_names",
    "Vital.Plugin.C133_outcome"
   ],
   "note": "a registration function that throws returns -1 (plugin shell) and so counts as registered"
  },
  {
   "property": "C134",
   "status": "partial",
   "theorems": [
    "Vital.Plugin.C134_by_name_partial",
    "Vital.Plugin.C134_dotted_name",
    "Vital.Plugin.C134_refuted"
   ],
   "note": "the code compares the part before the first dot, the documentation says file name minus suffix; refuted for \"foo.1\", proved for directories whose module names have no dot"
  },
  {
   "property": "C135",
   "status": "partial",
   "theorems": [
    "Vital.Plugin.C135_code_stays_partial",
    "Vital.Plugin.C135_refuted"
   ],
   "note": "refuted: a module that registers something and then reports a failure is unloaded; proved for modules that register all or nothing"
  },
  {
   "property": "C136",
   "status": "partial",
   "theorems": [
    "Vital.Plugin.C136_reload_partial",
    "Vital.Plugin.C136_answering",
    "Vital.Plugin.C136_refuted"
   ],
   "note": "refuted for modules still in memory (dlopen returns the old copy); proved for modules not in memory; C136_answering is the exact behaviour in all cases"
  },
  {
   "property": "C137",
   "status": "proved",
   "theorems": [
    "Vital.Plugin.C137_once",
    "Vital.Plugin.C137_exactly_one",
    "Vital.Plugin.C137_progress"
   ],
   "note": "sequentially consistent interleavings; instance() has the same shape as the logger manager's, see C97_one_manager"
  },
  {
   "property": "C138",
   "status": "partial",
   "theorems": [
    "Vital.Share.C138_unique_copy_partial",
    "Vital.Share.C138_made_from_partial",
    "Vital.Share.C138_copy_equal",
    "Vital.Share.C138_refuted"
   ],
   "note": "refuted: the implicit assignment operator shares the transformation; proved for all histories without assignment"
  },
  {
   "property": "C139",
   "status": "partial",
   "theorems": [
    "Vital.Share.C139_descriptors_partial",
    "Vital.Share.C139_views",
    "Vital.Share.C139_refuted"
   ],
   "note": "refuted: the implicit copy constructor of descriptor_dynamic shares the array, which is then deleted twice; proved for all histories without copies"
  },
  {
   "property": "C140",
   "status": "proved",
   "theorems": [
    "Vital.Share.C140_timer",
    "Vital.Share.C140_nonneg",
    "Vital.Share.C140_fresh"
   ],
   "note": "clock readings are rational seconds"
  },
  {
   "property": "C141",
   "status": "proved",
   "theorems": [
    "Vital.GetPaths.C141_executable_path",
    "Vital.GetPaths.C141_executable_fails"
   ],
   "note": "realpath is a parameter"
  },
  {
   "property": "C142",
   "status": "partial",
   "theorems": [
    "Vital.GetPaths.C142_always_undefined",
    "Vital.GetPaths.C142_refuted"
   ],
   "note": "refuted: the first call writes path[length] into an empty string (or reads an unterminated buffer), for every path"
  },
  {
   "property": "C143",
   "status": "proved",
   "theorems": [
    "Vital.CApi.Imgs.C143_handles",
    "Vital.CApi.Imgs.C143_views_stay",
    "Vital.CApi.Imgs.C143_steps"
   ],
   "note": "two-index reads only of images with at least one channel (C41) and dimensions whose product fits size_t (C40); error handles in C48"
  },
  {
   "property": "C144",
   "status": "proved",
   "theorems": [
    "Vital.Py.C144_python_objects",
    "Vital.Py.C144_flag"
   ],
   "note": "reference-counting collector without cycles (a VitalObject refers only to its parent); C side as a count of expected destroy calls per handle"
  },
  {
   "property": "C145",
   "status": "proved",
   "theorems": [
    "Vital.MD5.C145_md5",
    "Vital.MD5.Sine.const_eq"
   ],
   "note": "little-endian machine; Append lengths below 2^61 (size_t arithmetic)"
  },
  {
   "property": "C146",
   "status": "proved",
   "theorems": [
    "Vital.Command.C146_parse",
    "Vital.Command.C146_round_trip",
    "Vital.Command.C146_flags"
   ],
   "note": "command below 2^30 bytes (the buffer size is an int); memory exhaustion not modelled"
  },
  {
   "property": "C147",
   "status": "proved",
   "theorems": [
    "Vital.Glob.C147_accepted",
    "Vital.Glob.C147_matches",
    "Vital.Glob.C147_find",
    "Vital.Glob.C147_one_reading"
   ],
   "note": "bytes as numbers; case-sensitive build (KWSYS_GLOB_CASE_INDEPENDENT is for Windows, Apple, Cygwin)"
  },
  {
   "property": "C148",
   "status": "proved",
   "theorems": [
    "Vital.Glob.C148_files",
    "Vital.Glob.found_names",
    "Vital.Glob.apart_exists"
   ],
   "note": "file system as a parameter that does not change during the search; SetRelative not used; expressions without backslash (a backslash only counts when the leading path is looked for)"
  },
  {
   "property": "C149",
   "status": "proved",
   "theorems": [
    "Vital.Glob.C149_recursion",
    "Vital.Glob.C149_complete"
   ],
   "note": "finite file system, canonical paths exist; completeness for expressions with one part after the leading path and consistent file systems (two paths of a directory lead to the same things)"
  },
  {
   "property": "C150",
   "status": "partial",
   "theorems": [
    "Vital.Glob.C150_relative_partial",
    "Vital.Glob.C150_relative_refuted"
   ],
   "note": "proved for working directories whose name has no wildcard and no backslash; refuted otherwise: the name of the working directory is read as a pattern"
  },
  {
   "property": "C151",
   "status": "proved",
   "theorems": [
    "Vital.CmdLine.C151_parse",
    "Vital.CmdLine.C151_one_reading",
    "Vital.CmdLine.C151_effects",
    "Vital.CmdLine.C151_values",
    "Vital.CmdLine.C151_out_of_range"
   ],
   "note": "registered functions as parameters; doubles represented by the text handed to strtod"
  },
  {
   "property": "C152",
   "status": "partial",
   "theorems": [
    "Vital.CmdLine.C152_failed",
    "Vital.CmdLine.C152_last_partial",
    "Vital.CmdLine.C152_last_refuted",
    "Vital.CmdLine.C152_memory"
   ],
   "note": "after success refuted: when the last option has its value in the next argument, that value is reported as remaining; proved when the last argument is an option on its own and for every failure"
  },
  {
   "property": "C153",
   "status": "partial",
   "theorems": [
    "Vital.CmdLine.C153_flag_refuted",
    "Vital.CmdLine.C153_unknown_refuted",
    "Vital.CmdLine.C153_unknown_refuted_multi",
    "Vital.CmdLine.C153_unknown_partial",
    "Vital.CmdLine.C153_unknown_function"
   ],
   "note": "flag functions get a null pointer; an unknown argument that begins with the name of an `=` option or a multi-value option is taken for it; proved when no argument does"
  },
  {
   "property": "C154",
   "status": "partial",
   "theorems": [
    "Vital.CmdLine.C154_memory_partial",
    "Vital.CmdLine.C154_refuted_name",
    "Vital.CmdLine.C154_refuted_blank",
    "Vital.CmdLine.C154_refuted_width"
   ],
   "note": "refuted by a name of 77 characters (buffer[80]), by a text of one blank (read past the end), and by a line length equal to the width of the options; proved otherwise"
  },
  {
   "property": "C155",
   "status": "partial",
   "theorems": [
    "Vital.CmdLine.C155_groups_partial",
    "Vital.CmdLine.C155_help_partial",
    "Vital.CmdLine.C155_once_partial",
    "Vital.CmdLine.isBlank_iff",
    "Vital.CmdLine.C155_refuted"
   ],
   "note": "refuted by aliases of aliases (-c listed twice); proved when every option has its own text or names one that has"
  },
  {
   "property": "C156",
   "status": "partial",
   "theorems": [
    "Vital.CmdLine.C156_text",
    "Vital.CmdLine.C156_partial",
    "Vital.CmdLine.C156_refuted"
   ],
   "note": "refuted by an option whose text is its own name (endless loop); proved when no option leads back to itself"
  },
  {
   "property": "C157",
   "status": "proved",
   "theorems": [
    "Vital.Hash.C157_map",
    "Vital.Hash.C157_copy"
   ],
   "note": "keys compared by ==; memory allocation and copying do not fail"
  },
  {
   "property": "C158",
   "status": "proved",
   "theorems": [
    "Vital.Hash.C158_stays"
   ],
   "note": ""
  },
  {
   "property": "C159",
   "status": "partial",
   "theorems": [
    "Vital.Hash.C159_exact",
    "Vital.Hash.C159_refuted",
    "Vital.Hash.C159_first_partial"
   ],
   "note": "refuted: two elements in a bucket and the key of the earlier one passed by reference; C159_exact says when"
  },
  {
   "property": "C160",
   "status": "partial",
   "theorems": [
    "Vital.Hash.C160_equal_partial",
    "Vital.Hash.C160_refuted"
   ],
   "note": "refuted: same elements inserted in another order, or another bucket count"
  },
  {
   "property": "C161",
   "status": "proved",
   "theorems": [
    "Vital.Hash.C161_multimap",
    "Vital.Hash.C161_together"
   ],
   "note": ""
  },
  {
   "property": "C162",
   "status": "proved",
   "theorems": [
    "Vital.Hash.C162_range"
   ],
   "note": ""
  },
  {
   "property": "C163",
   "status": "proved",
   "theorems": [
    "Vital.Defaults.C163_geometry",
    "Vital.Defaults.C163_values",
    "Vital.Defaults.C163_image"
   ],
   "note": ""
  },
  {
   "property": "C164",
   "status": "partial",
   "theorems": [
    "Vital.Strs.C164_replace",
    "Vital.Strs.C164_empty",
    "Vital.Strs.C164_self",
    "Vital.Strs.C164_gone",
    "Vital.Strs.C164_nul_source",
    "Vital.Strs.C164_nul_refuted",
    "Vital.Strs.C164_double_slash"
   ],
   "note": "proved for texts without NUL; refuted for a search text with NUL (read beyond its end) and a source with NUL (cut)"
  },
  {
   "property": "C165",
   "status": "proved",
   "theorems": [
    "Vital.Strs.C165_lower_upper",
    "Vital.Strs.C165_capitalized",
    "Vital.Strs.C165_words",
    "Vital.Strs.C165_spaced",
    "Vital.Strs.C165_spaced_again"
   ],
   "note": ""
  },
  {
   "property": "C166",
   "status": "partial",
   "theorems": [
    "Vital.Strs.C166_pieces_partial",
    "Vital.Strs.C166_exact_partial",
    "Vital.Strs.C166_refuted"
   ],
   "note": "a separator at the beginning of a piece is not seen (refuted); everything else proved"
  },
  {
   "property": "C167",
   "status": "proved",
   "theorems": [
    "Vital.Strs.C167_crop"
   ],
   "note": ""
  },
  {
   "property": "C168",
   "status": "partial",
   "theorems": [
    "Vital.Strs.C168_escape",
    "Vital.Strs.C168_unescape",
    "Vital.Strs.C168_injective",
    "Vital.Strs.C168_unescape_refuted"
   ],
   "note": "reading back needs the escape character among the listed ones; otherwise refuted"
  },
  {
   "property": "C169",
   "status": "proved",
   "theorems": [
    "Vital.Strs.C169_starts",
    "Vital.Strs.C169_ends",
    "Vital.Strs.C169_null",
    "Vital.Strs.C169_last"
   ],
   "note": ""
  },
  {
   "property": "C170",
   "status": "proved",
   "theorems": [
    "Vital.Strs.C170_count",
    "Vital.Strs.C170_remove",
    "Vital.Strs.C170_replace",
    "Vital.Strs.C170_append"
   ],
   "note": ""
  },
  {
   "property": "C171",
   "status": "proved",
   "theorems": [
    "Vital.Strs.C171_identifier"
   ],
   "note": ""
  },
  {
   "property": "C172",
   "status": "proved",
   "theorems": [
    "Vital.Strs.C172_strucmp",
    "Vital.Strs.C172_order"
   ],
   "note": ""
  },
  {
   "property": "C173",
   "status": "partial",
   "theorems": [
    "Vital.Lines.C173_line_partial",
    "Vital.Lines.C173_last_partial",
    "Vital.Lines.C173_failed",
    "Vital.Lines.C173_text_partial",
    "Vital.Lines.C173_limit",
    "Vital.Lines.C173_cr_refuted",
    "Vital.Lines.C173_nul_refuted",
    "Vital.Lines.C173_limit_refuted"
   ],
   "note": "proved for lines of any length without NUL and without a carriage return at a buffer end; refuted otherwise and for size limits"
  },
  {
   "property": "C174",
   "status": "partial",
   "theorems": [
    "Vital.OutPath.C174_word_partial",
    "Vital.OutPath.C174_refuted",
    "Vital.OutPath.C174_again"
   ],
   "note": "proved for paths without backslash and NUL; refuted for those with"
  },
  {
   "property": "C175",
   "status": "proved",
   "theorems": [
    "Vital.OutPath.C175_windows",
    "Vital.OutPath.C175_again"
   ],
   "note": ""
  },
  {
   "property": "C176",
   "status": "partial",
   "theorems": [
    "Vital.Sys.C176_find",
    "Vital.Sys.C176_names",
    "Vital.Sys.C176_directory",
    "Vital.Sys.C176_refuted"
   ],
   "note": "the actual order (PATH first) is proved; the documented order is refuted, as is the meaning of an empty PATH entry"
  },
  {
   "property": "C177",
   "status": "partial",
   "theorems": [
    "Vital.Sys.C177_split_partial",
    "Vital.Sys.C177_endless_refuted",
    "Vital.Sys.C177_refuted"
   ],
   "note": "proved for command lines that do not begin with a blank; a leading blank may loop for ever, and the program given may not exist"
  },
  {
   "property": "C178",
   "status": "partial",
   "theorems": [
    "Vital.Sys.C178_exact",
    "Vital.Sys.C178_components_partial",
    "Vital.Sys.C178_refuted"
   ],
   "note": "nothing counts as below \"/\" (refuted); proved for every other directory"
  },
  {
   "property": "C179",
   "status": "partial",
   "theorems": [
    "Vital.Formats.C179_enough_partial",
    "Vital.Formats.C179_refuted"
   ],
   "note": "proved for formats without widths beyond 64 characters and null strings; refuted otherwise"
  },
  {
   "property": "C180",
   "status": "partial",
   "theorems": [
    "Vital.Formats.C180_date_partial",
    "Vital.Formats.C180_stamp_partial",
    "Vital.Formats.C180_refuted",
    "Vital.Formats.C180_refused"
   ],
   "note": "well formed dates proved; refuted: other texts are accepted or read beyond their end"
  },
  {
   "property": "C181",
   "status": "proved",
   "theorems": [
    "Vital.Timestamp.C181_setters",
    "Vital.Timestamp.C181_pretty",
    "Vital.Timestamp.C181_range"
   ],
   "note": "ctime and the conversion to seconds are parameters"
  },
  {
   "property": "C182",
   "status": "proved",
   "theorems": [
    "Vital.Regex.C182_protocol"
   ],
   "note": "for enough steps of the matcher"
  },
  {
   "property": "C183",
   "status": "partial",
   "theorems": [
    "Vital.Regex.C183_url_partial",
    "Vital.Regex.C183_none",
    "Vital.Regex.C183_refuted"
   ],
   "note": "proved unless an @ of the database can end a password (no user, a port, host of letters and digits only); refuted there"
  },
  {
   "property": "C184",
   "status": "proved",
   "theorems": [
    "Vital.Files.C184_differ"
   ],
   "note": "for the file system of Verif/Files/Tree"
  },
  {
   "property": "C185",
   "status": "partial",
   "theorems": [
    "Vital.Files.C185_only_adds",
    "Vital.Files.C185_make_partial",
    "Vital.Files.C185_refuted"
   ],
   "note": "\"true means a directory\" is proved for plain paths where a file standing at the path can be read, and refuted with a trailing slash or for an unreadable file; the other parts are proved"
  },
  {
   "property": "C186",
   "status": "partial",
   "theorems": [
    "Vital.Files.C186_remove_partial",
    "Vital.Files.C186_refuted",
    "Vital.Files.C186_backslash"
   ],
   "note": "proved for paths and names without a final backslash that are not themselves symbolic links; refuted for these two"
  },
  {
   "property": "C187",
   "status": "partial",
   "theorems": [
    "Vital.Files.C187_copy_partial",
    "Vital.Files.C187_refuted",
    "Vital.Files.C187_full"
   ],
   "note": "proved if a destination that is a link or the source itself can be unlinked; refuted where it can not (the source is emptied and true returned); plain destination paths without links above"
  },
  {
   "property": "C188",
   "status": "partial",
   "theorems": [
    "Vital.Files.C188_different_partial",
    "Vital.Files.C188_refuted"
   ],
   "note": "proved for a destination that is a regular file or not there; refuted for an empty directory of size 0 at the destination"
  },
  {
   "property": "C189",
   "status": "partial",
   "theorems": [
    "Vital.Files.C189_tree_partial",
    "Vital.Files.C189_refuted"
   ],
   "note": "proved for sources without links whose directories can be read; refuted for source directories that can not be read or do not exist (taken for empty, true returned)"
  },
  {
   "property": "C190",
   "status": "partial",
   "theorems": [
    "Vital.Sys.C190_relative_partial",
    "Vital.Sys.C190_refuted"
   ],
   "note": "proved for paths below one root \"/\" whose names do not begin with ~ or have a colon second; refuted for a name beginning with ~ and for a network path against an ordinary one"
  },
  {
   "property": "C191",
   "status": "proved",
   "theorems": [
    "Vital.Proc.C191_pipe_destinations",
    "Vital.Proc.Leads.unique"
   ],
   "note": "any history of configuration calls, any failing allocation"
  },
  {
   "property": "C192",
   "status": "proved",
   "theorems": [
    "Vital.Proc.C192_configuration",
    "Vital.Proc.C192_accepted"
   ],
   "note": "command lines below 1 GiB in the verbatim mode (C146)"
  },
  {
   "property": "C193",
   "status": "partial",
   "theorems": [
    "Vital.Proc.C193_refuted",
    "Vital.Proc.C193_refuted_memory",
    "Vital.Proc.C193_never_too_much",
    "Vital.Proc.C193_no_leak_partial"
   ],
   "note": "REFUTED as stated: a blank verbatim command line leaks the parsed array, a failing strdup leaks the argument array; never a double free; no leak otherwise"
  },
  {
   "property": "C194",
   "status": "partial",
   "theorems": [
    "Vital.Proc.C194_arithmetic",
    "Vital.Proc.C194_deadline",
    "Vital.Proc.C194_left",
    "Vital.Proc.C194_user_timeout",
    "Vital.Proc.C194_refuted",
    "Vital.Proc.C194_select_partial"
   ],
   "note": "all proved except the validity of the timeval given to select, which is REFUTED (usec = 1000000 when the microseconds add up to exactly one second)"
  },
  {
   "property": "C195",
   "status": "partial",
   "theorems": [
    "Vital.Proc.Table.C195_table",
    "Vital.Proc.Table.C195_members",
    "Vital.Proc.Table.C195_refuted",
    "Vital.Proc.Table.C195_refuted_what",
    "Vital.Proc.Table.C195_sigchld_partial",
    "Vital.Proc.Table.C195_defaults_partial"
   ],
   "note": "REFUTED for SIGINT/SIGTERM: the SIGTERM action is saved over the SIGINT one; the table and SIGCHLD are right, and so are applications with default SIGINT/SIGTERM"
  },
  {
   "property": "C196",
   "status": "proved",
   "theorems": [
    "Vital.Proc.Wait.C196_delivery"
   ],
   "note": "select variant; interrupted system calls are not repeated in the model"
  },
  {
   "property": "C197",
   "status": "proved",
   "theorems": [
    "Vital.Proc.Wait.C197_no_lost_wakeup",
    "Vital.Proc.Wait.hang_busy"
   ],
   "note": "also: the loop of WaitForData always ends or blocks in select (no fuel result)"
  },
  {
   "property": "C198",
   "status": "proved",
   "theorems": [
    "Vital.Proc.Wait.C198_exit_status",
    "Vital.Proc.Wait.C198_kill"
   ],
   "note": "not after a failing select, whose state is Error"
  },
  {
   "property": "C199",
   "status": "proved",
   "theorems": [
    "Vital.Proc.Wait.C199_descriptors"
   ],
   "note": ""
  },
  {
   "property": "C200",
   "status": "partial",
   "theorems": [
    "Vital.Proc.Wait.C200_refuted",
    "Vital.Proc.Wait.C200_timeout_then_kill",
    "Vital.Proc.Wait.C200_first_kill_partial"
   ],
   "note": "REFUTED as stated: ForkPIDs is not cleared by Kill, so a second Kill before WaitForExit (or Kill after a timeout) sends SIGKILL to reaped identifiers; the first Kill is clean"
  },
  {
   "property": "C201",
   "status": "proved",
   "theorems": [
    "Vital.Proc.KillTree.C201_parent"
   ],
   "note": ""
  },
  {
   "property": "C202",
   "status": "proved",
   "theorems": [
    "Vital.Proc.KillTree.C202_kill_tree",
    "Vital.Proc.KillTree.killTree_ok",
    "Vital.Proc.KillTree.desc_dead"
   ],
   "note": "processes do not exit on their own and identifiers are not reused during the call; /proc can be opened"
  },
  {
   "property": "C203",
   "status": "partial",
   "theorems": [
    "Vital.Proc.Exec.C203_failed_start_partial",
    "Vital.Proc.Exec.C203_leak_refuted",
    "Vital.Proc.Exec.C203_uninitialised_refuted",
    "Vital.Proc.Exec.execute_failed"
   ],
   "note": "the code violates it: the descriptor of an output file leaks when fcntl fails on it, and a failing getcwd leads to chdir with uninitialised memory; proved for all other failures"
  },
  {
   "property": "C204",
   "status": "proved",
   "theorems": [
    "Vital.Proc.Exec.C204_wiring",
    "Vital.Proc.Exec.execute_wiring"
   ],
   "note": "the standard descriptors are open, native pipes are open and above 2"
  },
  {
   "property": "C205",
   "status": "partial",
   "theorems": [
    "Vital.Proc.Exec.C205_signalled_partial",
    "Vital.Proc.Exec.C205_kill_all_refuted"
   ],
   "note": "the code violates it: after a failing fork, -1 is signalled, that is every process of the user; proved when no fork fails"
  },
  {
   "property": "C206",
   "status": "proved",
   "theorems": [
    "Vital.Proc.Exec.C206_started"
   ],
   "note": "the working directory provided going back to it works"
  },
  {
   "property": "C207",
   "status": "partial",
   "theorems": [
    "Vital.Proc.Exec.C207_merged_partial",
    "Vital.Proc.Exec.C207_shared_refuted"
   ],
   "note": "the code violates it: with output shared with the caller the error output of a command becomes input of the next one"
  },
  {
   "property": "C208",
   "status": "proved",
   "theorems": [
    "Vital.Py.Pic.C208_from_pil",
    "Vital.Py.Pic.C208_modes"
   ],
   "note": ""
  },
  {
   "property": "C209",
   "status": "partial",
   "theorems": [
    "Vital.Py.Pic.C209_partial",
    "Vital.Py.Pic.C209_refuted"
   ],
   "note": "the code violates it: no RGB image comes back, get_pil_image raises an exception for every one of them"
  },
  {
   "property": "C210",
   "status": "partial",
   "theorems": [
    "Vital.Py.Pic.C210_partial",
    "Vital.Py.Pic.C210_refuted"
   ],
   "note": "the code violates it for images whose rows are not packed: channel views show wrong pixels, negative channel steps read past the end, planar colour images are refused"
  },
  {
   "property": "C211",
   "status": "partial",
   "theorems": [
    "Vital.Py.CB.C211_partial",
    "Vital.Py.CB.C211_refuted"
   ],
   "note": "the code violates it for every allocator: get_description of a missing key raises ValueError where None is documented; the complete behaviour is C212"
  },
  {
   "property": "C212",
   "status": "proved",
   "theorems": [
    "Vital.Py.CB.C212_exact"
   ],
   "note": ""
  },
  {
   "property": "C213",
   "status": "proved",
   "theorems": [
    "Vital.Py.CB.C213_keys"
   ],
   "note": "a defect of the code, stated exactly"
  },
  {
   "property": "C214",
   "status": "proved",
   "theorems": [
    "Vital.Py.Alg.C214_refines"
   ],
   "note": ""
  },
  {
   "property": "C215",
   "status": "proved",
   "theorems": [
    "Vital.Py.Alg.C215_lifetime"
   ],
   "note": ""
  },
  {
   "property": "C216",
   "status": "proved",
   "theorems": [
    "Vital.Py.Alg.C216_copies"
   ],
   "note": ""
  },
  {
   "property": "C217",
   "status": "proved",
   "theorems": [
    "Vital.SysInfo.C217_sysenv",
    "Vital.SysInfo.C217_setup",
    "Vital.SysInfo.C217_no_overflow"
   ],
   "note": "Linux branches; system calls are inputs of the model (Machine); kernel 2.6-9 as in C222_partial; the provider cannot be set up exactly when /proc/cpuinfo is empty"
  },
  {
   "property": "C218",
   "status": "partial",
   "theorems": [
    "Vital.SysInfo.C218_partial",
    "Vital.SysInfo.C218_missing",
    "Vital.SysInfo.C218_refuted"
   ],
   "note": "the full statement is false of the code (refuted): a missing value yields the rest of the file, and a line after a value that contains the word is passed over; proved when, up to the first line with the key, no value contains the word and no other key ends in it"
  },
  {
   "property": "C219",
   "status": "proved",
   "theorems": [
    "Vital.SysInfo.C219_logical",
    "Vital.SysInfo.C219_empty"
   ],
   "note": "for files that end in an empty line as Linux writes them"
  },
  {
   "property": "C220",
   "status": "partial",
   "theorems": [
    "Vital.SysInfo.C220_partial",
    "Vital.SysInfo.C220_single",
    "Vital.SysInfo.C220_refuted"
   ],
   "note": "the full statement is false of the code (refuted): machines with one package are reported with 1 CPU; proved for two or more packages"
  },
  {
   "property": "C221",
   "status": "partial",
   "theorems": [
    "Vital.SysInfo.C221_partial",
    "Vital.SysInfo.C221_ignored",
    "Vital.SysInfo.C221_refuted"
   ],
   "note": "the full statement is false of the code (refuted): flags are ignored when there is neither stepping nor CPU revision; proved otherwise"
  },
  {
   "property": "C222",
   "status": "partial",
   "theorems": [
    "Vital.SysInfo.C222_partial",
    "Vital.SysInfo.C222_zero",
    "Vital.SysInfo.C222_refuted",
    "Vital.SysInfo.C222_old"
   ],
   "note": "the full statement is false of the code (refuted): only one digit of the release is looked at, kernels 10-29 are taken for old ones and all amounts are 0; proved for 2.6-2.9 and 3-9, and the old format for 2.0-2.5"
  },
  {
   "property": "C223",
   "status": "proved",
   "theorems": [
    "Vital.Py.Tool.C223_tracks"
   ],
   "note": "algorithms, files and environment are parameters; list files are arbitrary texts"
  },
  {
   "property": "C224",
   "status": "partial",
   "theorems": [
    "Vital.Py.Tool.C224_partial",
    "Vital.Py.Tool.C224_never",
    "Vital.Py.Tool.C224_refuted"
   ],
   "note": "the full statement is false of the code (refuted): track_images returns None on success, so the exit code is 2; without -o it is never 0"
  },
  {
   "property": "C225",
   "status": "partial",
   "theorems": [
    "Vital.Py.Tool.C225_partial",
    "Vital.Py.Tool.C225_emptied",
    "Vital.Py.Tool.C225_refuted"
   ],
   "note": "the full statement is false of the code (refuted): the output file is opened for writing before the first frame; proved for failures before that"
  },
  {
   "property": "C226",
   "status": "partial",
   "theorems": [
    "Vital.Py.Tool.C226_partial",
    "Vital.Py.Tool.norm_idem",
    "Vital.Py.Tool.abs_abs",
    "Vital.Py.Tool.getConfig_spec",
    "Vital.Py.Tool.C226_refuted"
   ],
   "note": "the full statement is false of the code (refuted): values are trimmed, a path that ends in a blank is not kept; proved for all other paths, with normalisation of any path idempotent"
  },
  {
   "property": "C227",
   "status": "partial",
   "theorems": [
    "Vital.Py.Tool.C227_partial",
    "Vital.Py.Tool.C227_ignored",
    "Vital.Py.Tool.C227_refuted"
   ],
   "note": "the full statement is false of the code (refuted): invert_masks and expect_multichannel_masks are read and written but never looked at; proved for tools without masks"
  },
  {
   "property": "C228",
   "status": "partial",
   "theorems": [
    "Vital.Sys.Real.C228_partial",
    "Vital.Sys.Real.C228_collapse_partial",
    "Vital.Sys.Real.C228_refuted"
   ],
   "note": "the full statement is false of the code (refuted): with a backslash in PWD a path is redirected; proved when no name in the tree has a backslash and PWD neither has one nor starts with a tilde, also after later AddKeepPath calls"
  },
  {
   "property": "C229",
   "status": "partial",
   "theorems": [
    "Vital.Sys.Real.C229_no_dots",
    "Vital.Sys.Real.C229_partial",
    "Vital.Sys.Real.C229_collapse_partial",
    "Vital.Sys.Real.C229_refuted"
   ],
   "note": "the full statement is false of the code (refuted): PWD=/home/./me makes /home/me into /home/./me and that into /home/././me; proved for tidy tables (canonical, not nested)"
  },
  {
   "property": "C230",
   "status": "partial",
   "theorems": [
    "Vital.Sys.Real.C230_partial",
    "Vital.Sys.Real.C230_refuted"
   ],
   "note": "the full statement is false of the code (refuted): PWD=/:/ with a link /: to the root loops forever; proved for PWD without colon, backslash and leading tilde"
  },
  {
   "property": "C231",
   "status": "proved",
   "theorems": [
    "Vital.Sys.Envr.C231_last_call_counts",
    "Vital.Sys.Envr.C231_result",
    "Vital.Sys.Envr.C231_no_name"
   ],
   "note": "names are non-empty and have no '='; strings without NUL (an environment cannot hold NULs); setenv, unsetenv, getenv as in glibc"
  },
  {
   "property": "C232",
   "status": "partial",
   "theorems": [
    "Vital.Sys.Envr.C232_partial",
    "Vital.Sys.Envr.C232_refuted"
   ],
   "note": "the full statement is false of the code (refuted): an entry without a name is only removed by editing environ; proved for all texts with a name and without NUL"
  },
  {
   "property": "C233",
   "status": "partial",
   "theorems": [
    "Vital.Sys.Envr.C233_partial",
    "Vital.Sys.Envr.same_key",
    "Vital.Sys.Envr.C233_refuted"
   ],
   "note": "the full statement is false of the code (refuted): \"A\" and \"A=x\" are equal, yet \"A\" < \"A1=y\" < \"A=x\"; proved for texts with '='"
  },
  {
   "property": "C234",
   "status": "partial",
   "theorems": [
    "Vital.Sys.Envr.C234_partial",
    "Vital.Sys.Envr.C234_refuted"
   ],
   "note": "the full statement is false of the code (refuted): UnPutEnv(\"=x\") frees a string that stays in environ; proved for all texts that do not start with '=', whatever the (badly ordered) set finds"
  },
  {
   "property": "C235",
   "status": "proved",
   "theorems": [
    "Vital.Sys.Loc.C235_split",
    "Vital.Sys.Loc.C235_unique"
   ],
   "note": "inductive relation between a text and its lines, shown to be functional"
  },
  {
   "property": "C236",
   "status": "partial",
   "theorems": [
    "Vital.Sys.Loc.C236_partial",
    "Vital.Sys.Loc.C236_refuted"
   ],
   "note": "the full statement is false of the code (refuted): a negative offset reads the start of the file; proved for offsets within the file or non-empty signatures"
  },
  {
   "property": "C237",
   "status": "partial",
   "theorems": [
    "Vital.Sys.Loc.C237_partial",
    "Vital.Sys.Loc.C237_unknown",
    "Vital.Sys.Loc.C237_threshold",
    "Vital.Sys.Loc.C237_refuted"
   ],
   "note": "the full statement is false of the code (refuted): 0x7F counts as text, the exact threshold as binary; proved otherwise, with rationals instead of doubles"
  },
  {
   "property": "C238",
   "status": "partial",
   "theorems": [
    "Vital.Sys.Loc.C238_exact",
    "Vital.Sys.Loc.C238_partial",
    "Vital.Sys.Loc.C238_refuted"
   ],
   "note": "the full statement is false of the code (refuted): asked for foo/bar/yo in /d it finds /d/foo/yo; exact behaviour and termination proved for all depths (names without special characters)"
  },
  {
   "property": "C239",
   "status": "partial",
   "theorems": [
    "Vital.Sys.Loc.C239_partial",
    "Vital.Sys.Loc.C239_refuted"
   ],
   "note": "the full statement is false of the code (refuted): \"/prog\" gives the empty directory; proved for all other paths of names without special characters"
  },
  {
   "property": "C240",
   "status": "partial",
   "theorems": [
    "Vital.Sys.Loc.C240_partial",
    "Vital.Sys.Loc.C240_message",
    "Vital.Sys.Loc.C240_refuted"
   ],
   "note": "the full statement is false of the code (refuted): a null exeName with a directory given is undefined behaviour; proved for all other arguments"
  },
  {
   "property": "C241",
   "status": "proved",
   "theorems": [
    "Vital.Sys.Loc.C241_sign",
    "Vital.Sys.Loc.C241_order"
   ],
   "note": "seconds and nanoseconds as stat gives them"
  },
  {
   "property": "C242",
   "status": "partial",
   "theorems": [
    "Vital.GetPaths.Maps.C242_partial",
    "Vital.GetPaths.Maps.C242_none",
    "Vital.GetPaths.Maps.C242_retry",
    "Vital.GetPaths.Maps.C242_edge",
    "Vital.GetPaths.Maps.C242_refuted"
   ],
   "note": "the full statement is false of the code (refuted): paths with blanks, and the first address after another mapping; proved for all other maps files whose lines fit the buffer"
  },
  {
   "property": "C243",
   "status": "partial",
   "theorems": [
    "Vital.Py.Lib.C243_exact",
    "Vital.Py.Lib.C243_partial",
    "Vital.Py.Lib.C243_refuted"
   ],
   "note": "the full statement is false of the code (refuted): a library directory without the library ends the search; exact behaviour and termination proved for all trees"
  },
  {
   "property": "C244",
   "status": "partial",
   "theorems": [
    "Vital.Py.Lib.C244_exact",
    "Vital.Py.Lib.C244_partial",
    "Vital.Py.Lib.C244_refuted"
   ],
   "note": "the full statement is false of the code (refuted): vital_c_source.zip is accepted; exactly the accepted names are characterised"
  },
  {
   "property": "C245",
   "status": "partial",
   "theorems": [
    "Vital.Py.Lib.C245_partial",
    "Vital.Py.Lib.C245_refuted"
   ],
   "note": "the full statement is false of the code (refuted): KeyError without LD_LIBRARY_PATH; proved whenever it is set"
  },
  {
   "property": "C246",
   "status": "proved",
   "theorems": [
    "Vital.Py.Lib.C246_once"
   ],
   "note": "any history of calls"
  },
  {
   "property": "C247",
   "status": "proved",
   "theorems": [
    "Vital.Sys.Auto.C247_ownership",
    "Vital.Sys.Auto.C247_no_leak",
    "Vital.Sys.Auto.C247_release_value"
   ],
   "note": "all histories; the program hands over only pointers it owns"
  },
  {
   "property": "C248",
   "status": "proved",
   "theorems": [
    "Vital.CApi.Life.C248_lifetimes",
    "Vital.CApi.Life.C248_handle_unique",
    "Vital.CApi.Life.C248_no_leak"
   ],
   "note": "all histories, also with stale handles; which handles a camera map keeps is C128"
  },
  {
   "property": "C249",
   "status": "partial",
   "theorems": [
    "Vital.Conv.C249_refuted",
    "Vital.Conv.C249_partial",
    "Vital.Conv.C249_round_trip",
    "Vital.Conv.C249_clone"
   ],
   "note": "the full statement is false of the code (refuted): the covariance of the new object is left unassigned; proved for every other attribute"
  },
  {
   "property": "C250",
   "status": "proved",
   "theorems": [
    "Vital.Conv.C250_feature",
    "Vital.Conv.C250_landmark"
   ],
   "note": "all histories of setter calls"
  },
  {
   "property": "C251",
   "status": "proved",
   "theorems": [
    "Vital.Conv.C251_never_null",
    "Vital.Conv.C251_own_copy",
    "Vital.Conv.C251_copy_shares"
   ],
   "note": "all histories"
  },
  {
   "property": "C252",
   "status": "partial",
   "theorems": [
    "Vital.Log.Fac.C252_refuted",
    "Vital.Log.Fac.C252_partial"
   ],
   "note": "the full statement is false of the code (refuted): an entry function returning null leaves no factory; proved otherwise"
  },
  {
   "property": "C253",
   "status": "partial",
   "theorems": [
    "Vital.Log.Fac.C253_refuted",
    "Vital.Log.Fac.C253_partial",
    "Vital.Log.Fac.C253_name"
   ],
   "note": "the full statement is false of the code (refuted): the pointer to a replaced and destroyed factory dangles; proved when replaced factories are kept; the name of a logger is right always"
  },
  {
   "property": "C254",
   "status": "proved",
   "theorems": [
    "Vital.Exc.C254_parts",
    "Vital.Exc.C254_io_silent",
    "Vital.Exc.C254_nul_cuts",
    "Vital.Exc.C254_c_string"
   ],
   "note": "all classes, all arguments; the NUL cut is shown for the key of no_such_configuration_value_exception"
  },
  {
   "property": "C255",
   "status": "proved",
   "theorems": [
    "Vital.Exc.C255_reads_back",
    "Vital.Exc.C255_ambiguous"
   ],
   "note": "with the counterexample when a path holds a quote"
  },
  {
   "property": "C256",
   "status": "proved",
   "theorems": [
    "Vital.Exc.C256_classes",
    "Vital.Exc.C256_twins",
    "Vital.Exc.C256_free_text"
   ],
   "note": "with the coinciding pairs"
  },
  {
   "property": "C257",
   "status": "partial",
   "theorems": [
    "Vital.Py.Cont.C257_refuted",
    "Vital.Py.Cont.C257_partial",
    "Vital.Py.Cont.C257_frames",
    "Vital.Py.Cont.C257_dead"
   ],
   "note": "the full statement is false of the code (refuted): frame numbers are cut to 32 bits without a check; proved for frames in range, and the exact frames in general"
  },
  {
   "property": "C258",
   "status": "partial",
   "theorems": [
    "Vital.Files.Mask.C258_refuted",
    "Vital.Files.Mask.C258_window",
    "Vital.Files.Mask.C258_apart_partial",
    "Vital.Files.Mask.C258_at_worst"
   ],
   "note": "False for concurrent callers: two overlapping calls can leave umask 0 for good, and a file created in the window gets no mask. Proved: true for all schedules in which nothing that uses the umask falls into another thread's window; for all schedules the mask is the original or 0 and each mode is the asked one with or without the mask."
  },
  {
   "property": "C259",
   "status": "partial",
   "theorems": [
    "Vital.Files.Tch.C259_refuted",
    "Vital.Files.Tch.C259_partial",
    "Vital.Files.Tch.C259_nothing_else",
    "Vital.Files.Tch.C259_succeeds"
   ],
   "note": "False for an existing file the process cannot read: FileExists tests R_OK, so Touch without create says true and does nothing. Proved for readable files; the frame conditions hold always."
  },
  {
   "property": "C260",
   "status": "proved",
   "theorems": [
    "Vital.Conv.Mat.C260_history",
    "Vital.Conv.Mat.C260_from_float",
    "Vital.Conv.Mat.C260_class",
    "Vital.Conv.Mat.C260_essential"
   ],
   "note": "the arithmetic of float and double is left open; float to double and back is taken to be the identity"
  },
  {
   "property": "C261",
   "status": "partial",
   "theorems": [
    "Vital.Log.Cxx.C261_refuted",
    "Vital.Log.Cxx.C261_set_partial",
    "Vital.Log.Cxx.C261_inherits",
    "Vital.Log.Cxx.C261_messages",
    "Vital.Log.Cxx.C261_defined"
   ],
   "note": "False where get_level answers the logger's own level: a logger that inherits its level says NONE although it passes on less than everything; and log_message with LEVEL_NONE goes through a null pointer. Proved for loggers whose level was set, for inheritance and for all messages; log4cxx itself is modelled by its documented behaviour."
  },
  {
   "property": "C262",
   "status": "proved",
   "theorems": [
    "Vital.Sys.Enc.C262_wide",
    "Vital.Sys.Enc.C262_narrow",
    "Vital.Sys.Enc.C262_round_trip",
    "Vital.Sys.Enc.C262_null",
    "Vital.Sys.Enc.C262_dup"
   ],
   "note": "the locale's encoding is a parameter; strings shorter than 2^64-1"
  },
  {
   "property": "C263",
   "status": "partial",
   "theorems": [
    "Vital.Sys.Enc.Args.C263_ownership",
    "Vital.Sys.Enc.Args.C263_refuted",
    "Vital.Sys.Enc.Args.C263_argv_partial"
   ],
   "note": "Ownership is proved for all histories. False that argv() has argc() strings: a wide argument that cannot be encoded leaves a null pointer before the end; proved when every wide argument can be encoded."
  },
  {
   "property": "C264",
   "status": "proved",
   "theorems": [
    "Vital.Sys.Mgr.C264_table",
    "Vital.Sys.Mgr.C264_static_objects"
   ],
   "note": "fewer than 2^32 units loaded at a time"
  },
  {
   "property": "C265",
   "status": "partial",
   "theorems": [
    "Vital.Sys.Term.C265_refuted",
    "Vital.Sys.Term.C265_columns_partial",
    "Vital.Sys.Term.C265_terminal",
    "Vital.Sys.Term.C265_range"
   ],
   "note": "False for numbers with a leading 0 (strtol with base 0 reads 0100 as 64). Proved for numbers without a leading 0, for all other contents of COLUMNS and all terminals."
  },
  {
   "property": "C266",
   "status": "proved",
   "theorems": [
    "Vital.Files.Lnk.C266_create",
    "Vital.Files.Lnk.C266_read",
    "Vital.Files.Lnk.C266_no_overwrite"
   ],
   "note": "link texts are shorter than PATH_MAX, as the system requires"
  },
  {
   "property": "C267",
   "status": "partial",
   "theorems": [
    "Vital.Files.Lnk.C267_refuted",
    "Vital.Files.Lnk.C267_refuted_backslash",
    "Vital.Files.Lnk.C267_cwd_partial",
    "Vital.Files.Lnk.C267_deep",
    "Vital.Files.Lnk.C267_result"
   ],
   "note": "False in directories whose path has 2048 characters or more (the answer is empty) and, with collapse, for names with a backslash. Proved for all others."
  },
  {
   "property": "C268",
   "status": "partial",
   "theorems": [
    "Vital.Py.Apm.C268_refuted",
    "Vital.Py.Apm.C268_names",
    "Vital.Py.Apm.C268_python_partial",
    "Vital.Py.Apm.C268_glibc",
    "Vital.Py.Apm.C268_empty_name"
   ],
   "note": "The full statement is false of the code (refuted): module names are copied one byte past their block. Proved for allocators with a spare byte and arguments without NUL; with glibc exactly the names of 24, 40, 56, ... characters fail"
  },
  {
   "property": "C269",
   "status": "partial",
   "theorems": [
    "Vital.Tools.Explorer.C269_refuted",
    "Vital.Tools.Explorer.C269_refused",
    "Vital.Tools.Explorer.C269_help",
    "Vital.Tools.Explorer.C269_explorer_partial",
    "Vital.Tools.Explorer.C269_config",
    "Vital.Tools.Explorer.C269_bad_names"
   ],
   "note": "False with --detail when a registered name has not exactly one colon; proved for all other command lines and names"
  },
  {
   "property": "C270",
   "status": "partial",
   "theorems": [
    "Vital.Files.DirObj.C270_refuted",
    "Vital.Files.DirObj.C270_directory_partial",
    "Vital.Files.DirObj.C270_read_error",
    "Vital.Files.DirObj.C270_empty",
    "Vital.Files.DirObj.C270_index"
   ],
   "note": "False when reading the directory fails half-way: the code takes the error for the end. Proved without read errors; what is shown after one is proved as well"
  },
  {
   "property": "C271",
   "status": "partial",
   "theorems": [
    "Vital.Py.Calls.C271_refuted",
    "Vital.Py.Calls.C271_calls_partial",
    "Vital.Py.Calls.C271_no_leak"
   ],
   "note": "False for allocators without a spare byte (exception texts are written one byte past their block); frame numbers are taken modulo 2^32"
  },
  {
   "property": "C272",
   "status": "proved",
   "theorems": [
    "Vital.Hash.Fun.C272_string",
    "Vital.Hash.Fun.C272_after_nul",
    "Vital.Hash.Fun.C272_collisions",
    "Vital.Hash.Fun.C272_integers",
    "Vital.Hash.Fun.C272_map"
   ],
   "note": "signed 8-bit char, 64-bit size_t"
  },
  {
   "property": "C273",
   "status": "partial",
   "theorems": [
    "Vital.Hash.Fun.C273_refuted",
    "Vital.Hash.Fun.C273_pointers_partial",
    "Vital.Hash.Fun.C273_other_pointer"
   ],
   "note": "The full statement is false of the code (refuted); proved: a finite map of addresses while the characters behind the keys stay"
  },
  {
   "property": "C274",
   "status": "partial",
   "theorems": [
    "Vital.Py.CBIo.C274_refuted",
    "Vital.Py.CBIo.C274_from_file_partial",
    "Vital.Py.CBIo.C274_read_partial"
   ],
   "note": "False of the code (refuted): reading a file that sets a read-only entry raises nothing and merges part of it. Proved with allocators that have a spare byte: the C++ merge_config is made, or the documented exception raised and nothing merged"
  },
  {
   "property": "C275",
   "status": "partial",
   "theorems": [
    "Vital.Py.CBIo.C275_refuted",
    "Vital.Py.CBIo.C275_write_partial"
   ],
   "note": "False for files that cannot be opened; proved for the others, with allocators that have a spare byte"
  },
  {
   "property": "C276",
   "status": "partial",
   "theorems": [
    "Vital.Py.CBIo.C276_refuted",
    "Vital.Py.CBIo.C276_as_string_partial",
    "Vital.Py.CBIo.C276_empty"
   ],
   "note": "False for blocks that cannot be written: file and descriptor stay. Proved for the others"
  },
  {
   "property": "C277",
   "status": "partial",
   "theorems": [
    "Vital.Py.Trk.C277_refuted",
    "Vital.Py.Trk.C277_values_partial",
    "Vital.Py.Trk.C277_no_leak"
   ],
   "note": "False for allocators without a spare byte (exception texts are written one byte past their block); proved for the others"
  },
  {
   "property": "C278",
   "status": "partial",
   "theorems": [
    "Vital.Py.Trk.C278_refuted",
    "Vital.Py.Trk.C278_round_trip_partial",
    "Vital.Py.Trk.C278_lost"
   ],
   "note": "False of the code (refuted): tracks without states are not written, and Python can only make such tracks; proved for tracks with states and distinct ids"
  },
  {
   "property": "C279",
   "status": "partial",
   "theorems": [
    "Vital.SysInfo.Lim.C279_refuted",
    "Vital.SysInfo.Lim.C279_partial",
    "Vital.SysInfo.Lim.C279_unreadable"
   ],
   "note": "False of the code for resource limits of 2^63 bytes and more (they count as negative); proved for the others"
  },
  {
   "property": "C280",
   "status": "partial",
   "theorems": [
    "Vital.SysInfo.Lim.C280_refuted",
    "Vital.SysInfo.Lim.C280_partial"
   ],
   "note": "False of the code for a process whose name contains VmRSS: ; proved for the other names"
  },
  {
   "property": "C281",
   "status": "proved",
   "theorems": [
    "Vital.SysInfo.Sig.C281_restored",
    "Vital.SysInfo.Sig.C281_installed",
    "Vital.SysInfo.Sig.C281_disabled",
    "Vital.SysInfo.Sig.C281_delivered"
   ],
   "note": "Calls to sigaction succeed"
  },
  {
   "property": "C282",
   "status": "proved",
   "theorems": [
    "Vital.SysInfo.Chip.C282_description"
   ],
   "note": "Text of the speed and the processor name are parameters"
  },
  {
   "property": "C283",
   "status": "proved",
   "theorems": [
    "Vital.SysInfo.Chip.C283_identity",
    "Vital.SysInfo.Chip.C283_makers",
    "Vital.SysInfo.Chip.C283_arm",
    "Vital.SysInfo.Chip.C283_parisc",
    "Vital.SysInfo.Chip.C283_unreadable"
   ],
   "note": "x86, ARM and PA-RISC files of Linux"
  },
  {
   "property": "C284",
   "status": "partial",
   "theorems": [
    "Vital.Py.Pics.C284_refuted",
    "Vital.Py.Pics.C284_pictures_partial",
    "Vital.Py.Pics.C284_no_leak"
   ],
   "note": "Refuted: Image.width() and the other dimensions and steps are read as C ints, so images of 2^31 columns answer negative numbers; proved whenever dimensions and steps are below 2^31"
  },
  {
   "property": "C285",
   "status": "partial",
   "theorems": [
    "Vital.Parser.Crash.C285_refuted",
    "Vital.Parser.Crash.C285_disk",
    "Vital.Parser.Crash.C285_read_partial"
   ],
   "note": "Refuted: the file is written in place and the stream never checked; a cut file reads without complaint with a cut value. Proved for every crash point: other files untouched, content old or a first part, and all keys before the last read have their values (keys beginning with include left out)"
  },
  {
   "property": "C286",
   "status": "partial",
   "theorems": [
    "Vital.IO.TrackCrash.C286_refuted",
    "Vital.IO.TrackCrash.C286_disk",
    "Vital.IO.TrackCrash.C286_read_partial",
    "Vital.IO.TrackCrash.C286_lines_partial"
   ],
   "note": "Refuted: a number cut off in the middle is read as another one. Proved for every crash point: other files untouched, complete lines are all read in order, at most one more observation (which may be wrong)"
  },
  {
   "property": "C287",
   "status": "partial",
   "theorems": [
    "Vital.IO.PlyCrash.C287_refuted",
    "Vital.IO.PlyCrash.C287_overwrites",
    "Vital.IO.PlyCrash.C287_disk",
    "Vital.IO.PlyCrash.C287_read_partial",
    "Vital.IO.PlyCrash.C287_lines_partial",
    "Vital.IO.PlyCrash.C287_files_partial"
   ],
   "note": "Refuted: a cut line is read as a landmark, and may replace a complete one. Proved for every crash point: other files untouched, reading succeeds, complete landmarks all read, at most one other put in"
  },
  {
   "property": "C288",
   "status": "partial",
   "theorems": [
    "Vital.IO.KrtdCrash.C288_refuted",
    "Vital.IO.KrtdCrash.C288_disk",
    "Vital.IO.KrtdCrash.C288_read_partial",
    "Vital.IO.KrtdCrash.C288_complete_partial",
    "Vital.IO.KrtdCrash.C288_files_partial"
   ],
   "note": "Refuted: the last number of the translation cut in the middle is read as another one. Proved for every crash point: other files untouched, invalid data or all but that number as written, and the complete result once the translation reached the file"
  }
 ]
}