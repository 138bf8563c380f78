# Axioms of every claimed theorem (output of `#print axioms`)

Generated by tools/gen.py.

* `Vital.Config.C01_set_then_get` — depends on axioms: [propext, Classical.choice, Quot.sound]
* `Vital.Config.C02_refines_map` — depends on axioms: [propext, Classical.choice, Quot.sound]
* `Vital.Config.C03_read_only_forever` — depends on axioms: [propext, Classical.choice, Quot.sound]
* `Vital.Config.C03_merge` — depends on axioms: [propext, Classical.choice, Quot.sound]
* `Vital.Config.C04_refuted` — depends on axioms: [propext, Classical.choice, Quot.sound]
* `Vital.Config.C04_partial` — depends on axioms: [propext, Classical.choice, Quot.sound]
* `Vital.Config.C05_unset_removes` — depends on axioms: [propext, Classical.choice, Quot.sound]
* `Vital.Config.C05_unset_fails` — depends on axioms: [propext, Classical.choice, Quot.sound]
* `Vital.Config.C06_value_iff_description` — depends on axioms: [propext, Classical.choice, Quot.sound]
* `Vital.Config.C06_no_undefined_behaviour` — depends on axioms: [propext, Classical.choice, Quot.sound]
* `Vital.Config.C07_description_rule` — depends on axioms: [propext, Classical.choice, Quot.sound]
* `Vital.Config.C08_view_is_alias` — depends on axioms: [propext, Classical.choice, Quot.sound]
* `Vital.Config.C09_subblock_copies` — depends on axioms: [propext, Classical.choice, Quot.sound]
* `Vital.Config.C09_subblock_exact` — depends on axioms: [propext, Classical.choice, Quot.sound]
* `Vital.Config.C09_noninterference` — depends on axioms: [propext, Classical.choice, Quot.sound]
* `Vital.Config.C09_detached` — depends on axioms: [propext, Classical.choice, Quot.sound]
* `Vital.Config.C10_available_root` — depends on axioms: [propext, Classical.choice, Quot.sound]
* `Vital.Config.C10_available_complete` — depends on axioms: [propext, Classical.choice, Quot.sound]
* `Vital.Config.C10_available_view_exact` — depends on axioms: [propext, Classical.choice, Quot.sound]
* `Vital.Config.C10_view_lists_unreadable_key` — depends on axioms: [propext, Classical.choice, Quot.sound]
* `Vital.Config.C11_merge` — depends on axioms: [propext, Classical.choice, Quot.sound]
* `Vital.Config.C11_merge_no_conflict` — depends on axioms: [propext, Classical.choice, Quot.sound]
* `Vital.Config.C11_root_source_readable` — depends on axioms: [propext, Classical.choice, Quot.sound]
* `Vital.Config.C12_default_never_throws` — depends on axioms: [propext, Classical.choice, Quot.sound]
* `Vital.Config.C13_bool_table` — depends on axioms: [propext, Quot.sound]
* `Vital.Config.C13_bool_roundtrip` — depends on axioms: [propext, Classical.choice, Quot.sound]
* `Vital.Config.C14_int_roundtrip` — depends on axioms: [propext, Classical.choice, Quot.sound]
* `Vital.Config.C14_int_accepts` — depends on axioms: [propext, Quot.sound]
* `Vital.Config.C14_int_rejects` — depends on axioms: [propext]
* `Vital.Expand.C15_no_token_unchanged` — depends on axioms: [propext, Quot.sound]
* `Vital.Expand.C16_expand_is_one_pass` — depends on axioms: [propext, Quot.sound]
* `Vital.Expand.C17_every_token` — depends on axioms: [propext, Quot.sound]
* `Vital.Expand.C17_unknown_type` — depends on axioms: [propext, Quot.sound]
* `Vital.Expand.C17_unknown_name` — depends on axioms: [propext, Quot.sound]
* `Vital.Expand.C18_symtab` — depends on axioms: [propext, Classical.choice, Quot.sound]
* `Vital.Parser.C19_comments_do_not_matter` — depends on axioms: [propext, Classical.choice, Quot.sound]
* `Vital.Parser.C20_every_text` — depends on axioms: [propext, Classical.choice, Quot.sound]
* `Vital.Parser.C20_one_meaning` — depends on axioms: [propext, Classical.choice, Quot.sound]
* `Vital.Parser.C20_document` — depends on axioms: [propext, Classical.choice, Quot.sound]
* `Vital.Parser.C20_every_parse` — depends on axioms: [propext, Classical.choice, Quot.sound]
* `Vital.Parser.C20_nested_key` — depends on axioms: [propext, Classical.choice, Quot.sound]
* `Vital.Parser.C20_endblock_restores` — depends on axioms: [propext, Quot.sound]
* `Vital.Parser.C20_bad_nesting` — depends on axioms: [propext, Classical.choice, Quot.sound]
* `Vital.Parser.C21_error_read` — depends on axioms: [propext, Classical.choice, Quot.sound]
* `Vital.Parser.C21_bad_line` — depends on axioms: [propext, Classical.choice, Quot.sound]
* `Vital.Parser.C21_bad_flag` — depends on axioms: [propext, Classical.choice, Quot.sound]
* `Vital.Parser.C21_bad_included` — depends on axioms: [propext, Classical.choice, Quot.sound]
* `Vital.Parser.C21_others_entered` — depends on axioms: [propext, Classical.choice, Quot.sound]
* `Vital.Parser.C22_value_kept` — depends on axioms: [propext, Classical.choice, Quot.sound]
* `Vital.Parser.C22_redefinition_throws` — depends on axioms: [propext, Classical.choice, Quot.sound]
* `Vital.Parser.C23_last_definition_wins` — depends on axioms: [propext, Classical.choice, Quot.sound]
* `Vital.Parser.C24_tokens_see_earlier_definitions` — depends on axioms: [propext, Classical.choice, Quot.sound]
* `Vital.Parser.C25_terminates` — depends on axioms: [propext, Classical.choice, Quot.sound]
* `Vital.Parser.C25_terminates_acyclic` — depends on axioms: [propext, Classical.choice, Quot.sound]
* `Vital.Parser.C25_diverges` — depends on axioms: [propext, Classical.choice, Quot.sound]
* `Vital.Parser.C25_self_include_diverges` — depends on axioms: [propext, Classical.choice, Quot.sound]
* `Vital.Parser.C26_write_read` — depends on axioms: [propext, Classical.choice, Quot.sound]
* `Vital.Parser.C26_short_key_lost` — depends on axioms: [propext, Classical.choice, Quot.sound]
* `Vital.Config.C27_empty_refused` — depends on axioms: [propext, Classical.choice, Quot.sound]
* `Vital.Config.C27_sorted_entries` — depends on axioms: [propext, Classical.choice, Quot.sound]
* `Vital.Config.C27_deterministic` — depends on axioms: [propext, Classical.choice, Quot.sound]
* `Vital.Config.C28_comment` — depends on axioms: [propext, Classical.choice, Quot.sound]
* `Vital.Config.C28_short_verbatim` — depends on axioms: [propext, Classical.choice, Quot.sound]
* `Vital.Parser.C29_merge` — depends on axioms: [propext, Classical.choice, Quot.sound]
* `Vital.Parser.C29_conflict_throws` — depends on axioms: [propext, Classical.choice, Quot.sound]
* `Vital.Parser.C29_bad_file_throws` — depends on axioms: [propext, Classical.choice, Quot.sound]
* `Vital.Parser.C29_first_only` — depends on axioms: [propext, Classical.choice, Quot.sound]
* `Vital.Parser.C29_absolute` — depends on axioms: [propext, Classical.choice, Quot.sound]
* `Vital.Parser.C29_not_found` — depends on axioms: [propext, Classical.choice, Quot.sound]
* `Vital.Parser.C30_refuted` — depends on axioms: [propext, Classical.choice, Quot.sound]
* `Vital.Parser.C30_reuse_partial` — depends on axioms: [propext, Classical.choice, Quot.sound]
* `Vital.Parser.C30_errors_lost` — depends on axioms: [propext, Classical.choice, Quot.sound]
* `Vital.Parser.C30_errors_stick` — depends on axioms: [propext, Classical.choice, Quot.sound]
* `Vital.Parser.C30_successful_calls` — depends on axioms: [propext, Classical.choice, Quot.sound]
* `Vital.Parser.C31_location_of_last_definition` — depends on axioms: [propext, Classical.choice, Quot.sound]
* `Vital.Tokenize.C32_tokenize_lossless` — depends on axioms: [propext, Classical.choice, Quot.sound]
* `Vital.Tokenize.C32_tokenize_join` — depends on axioms: [propext, Classical.choice, Quot.sound]
* `Vital.Tokenize.C32_tokenize_trim` — depends on axioms: [propext, Classical.choice, Quot.sound]
* `Vital.Track.C33_ordered` — depends on axioms: [propext, Quot.sound]
* `Vital.Track.C33_append_state` — depends on axioms: [propext, Quot.sound]
* `Vital.Track.C33_append_track` — depends on axioms: [propext, Quot.sound]
* `Vital.Track.C34_find_exact` — depends on axioms: [propext, Classical.choice, Quot.sound]
* `Vital.Track.C35_partition` — depends on axioms: [propext, Classical.choice, Quot.sound]
* `Vital.Track.C35_overflow` — depends on axioms: [propext, Classical.choice, Quot.sound]
* `Vital.Track.C36_refuted` — depends on axioms: [propext]
* `Vital.Track.C36_partial` — depends on axioms: [propext, Quot.sound]
* `Vital.Track.C37_last_frame` — depends on axioms: [propext, Quot.sound]
* `Vital.Timestamp.C38_operators` — depends on axioms: [propext]
* `Vital.Timestamp.C38_coherent` — depends on axioms: [propext, Classical.choice, Quot.sound]
* `Vital.Timestamp.C39_refuted` — does not depend on any axioms
* `Vital.Timestamp.C39_partial` — depends on axioms: [propext, Classical.choice, Quot.sound]
* `Vital.Image.C40_addresses` — depends on axioms: [propext, Classical.choice, Quot.sound]
* `Vital.Image.C40_overflow_unsafe` — depends on axioms: [propext, Quot.sound]
* `Vital.Image.C41_throws_iff` — depends on axioms: [propext, Classical.choice, Quot.sound]
* `Vital.Image.C41_in_bounds_partial` — depends on axioms: [propext, Quot.sound]
* `Vital.Image.C41_depth0_unsafe` — does not depend on any axioms
* `Vital.Image.C41_write` — depends on axioms: [propext, Quot.sound]
* `Vital.Image.C42_copy_realloc` — depends on axioms: [propext, Classical.choice, Quot.sound]
* `Vital.Image.C42_copy_in_place` — depends on axioms: [propext, Classical.choice, Quot.sound]
* `Vital.Image.C42_overlap_unsafe` — depends on axioms: [propext, Classical.choice, Quot.sound]
* `Vital.Image.C43_equal_content` — depends on axioms: [propext, Classical.choice, Quot.sound]
* `Vital.Image.C43_equivalence` — depends on axioms: [propext, Classical.choice, Quot.sound]
* `Vital.Image.C44_transform` — depends on axioms: [propext, Classical.choice, Quot.sound]
* `Vital.Algo.C45_create` — depends on axioms: [propext, Classical.choice, Quot.sound]
* `Vital.Algo.C45_create_def` — depends on axioms: [propext, Classical.choice, Quot.sound]
* `Vital.Algo.C45_register` — depends on axioms: [propext, Classical.choice, Quot.sound]
* `Vital.Algo.C45_clone_is_independent` — depends on axioms: [propext, Classical.choice, Quot.sound]
* `Vital.Algo.C46_get_then_set` — depends on axioms: [propext, Classical.choice, Quot.sound]
* `Vital.Algo.C46_get_frame` — depends on axioms: [propext, Classical.choice, Quot.sound]
* `Vital.Algo.C46_get_null` — depends on axioms: [propext, Classical.choice, Quot.sound]
* `Vital.Algo.C46_set_unknown` — depends on axioms: [propext]
* `Vital.Algo.C46_check` — depends on axioms: [propext, Classical.choice, Quot.sound]
* `Vital.Algo.C46_never_null_refuted` — depends on axioms: [propext, Classical.choice, Quot.sound]
* `Vital.Algo.C46_get_empty_type` — depends on axioms: [propext, Classical.choice, Quot.sound]
* `Vital.CApi.C47_cache` — depends on axioms: [propext, Classical.choice, Quot.sound]
* `Vital.CApi.C47_null` — depends on axioms: [propext, Quot.sound]
* `Vital.CApi.C47_balance` — depends on axioms: [propext, Quot.sound]
* `Vital.CApi.C48_refuted` — depends on axioms: [propext, Quot.sound]
* `Vital.CApi.C48_partial` — depends on axioms: [propext, Quot.sound]
* `Vital.Base64.C49_roundtrip` — depends on axioms: [propext, Quot.sound]
* `Vital.Base64.C49_roundtrip_max` — depends on axioms: [propext, Quot.sound]
* `Vital.Base64.C49_shape` — depends on axioms: [propext, Quot.sound]
* `Vital.Base64.C50_refuted` — depends on axioms: [propext, Quot.sound]
* `Vital.Base64.C50_partial` — depends on axioms: [propext, Quot.sound]
* `Vital.Base64.C50_exact` — depends on axioms: [propext, Quot.sound]
* `Vital.Cov.C51_vector_index` — depends on axioms: [propext, Classical.choice, Quot.sound]
* `Vital.Cov.C51_from_matrix` — depends on axioms: [propext, Quot.sound]
* `Vital.Cov.C51_to_matrix` — depends on axioms: [propext, Classical.choice, Quot.sound]
* `Vital.Cov.C51_set_entry` — depends on axioms: [propext, Classical.choice, Quot.sound]
* `Vital.Cov.C51_scalar` — depends on axioms: [propext, Quot.sound]
* `Vital.Cov.C52_refuted` — depends on axioms: [propext, Quot.sound]
* `Vital.Cov.C52_partial` — depends on axioms: [propext, Quot.sound]
* `Vital.IO.C53_partial` — depends on axioms: [propext, Quot.sound]
* `Vital.IO.C53_refuted` — depends on axioms: [propext, Quot.sound]
* `Vital.IO.C53_last_wins` — depends on axioms: [propext, Quot.sound]
* `Vital.IO.C54_round_trip` — depends on axioms: [propext, Quot.sound]
* `Vital.IO.C54_files` — depends on axioms: [propext, Quot.sound]
* `Vital.IO.C55_round_trip` — depends on axioms: [propext, Quot.sound]
* `Vital.IO.C55_files` — depends on axioms: [propext, Quot.sound]
* `Vital.IO.C56_partial` — depends on axioms: [propext, Quot.sound]
* `Vital.IO.C56_partial_files` — depends on axioms: [propext, Quot.sound]
* `Vital.IO.C56_intrinsics_partial` — depends on axioms: [propext, Quot.sound]
* `Vital.IO.C56_refuted` — depends on axioms: [propext, Quot.sound]
* `Vital.Enum.C57_partial` — depends on axioms: [propext, Classical.choice, Quot.sound]
* `Vital.Enum.C57_refuted` — depends on axioms: [propext, Quot.sound]
* `Vital.Enum.C57_equality` — depends on axioms: [propext, Quot.sound]
* `Vital.Geo.C58_compose` — depends on axioms: [propext, Classical.choice, Quot.sound]
* `Vital.Geo.C58_inverse` — depends on axioms: [propext, Classical.choice, Quot.sound]
* `Vital.Geo.C58_unit` — depends on axioms: [propext, Classical.choice, Quot.sound]
* `Vital.Geo.C58_group` — depends on axioms: [propext, Classical.choice, Quot.sound]
* `Vital.Geo.C58_matrix_apply` — depends on axioms: [propext, Classical.choice, Quot.sound]
* `Vital.Geo.C58_matrix_compose` — depends on axioms: [propext, Classical.choice, Quot.sound]
* `Vital.Geo.C59_compose` — depends on axioms: [propext, Classical.choice, Quot.sound]
* `Vital.Geo.C59_inverse` — depends on axioms: [propext, Classical.choice, Quot.sound]
* `Vital.Geo.C59_assoc` — depends on axioms: [propext, Classical.choice, Quot.sound]
* `Vital.Geo.C60_calibration` — depends on axioms: [propext, Classical.choice, Quot.sound]
* `Vital.Geo.C60_unmap_map` — depends on axioms: [propext, Classical.choice, Quot.sound]
* `Vital.Geo.C60_matrix` — depends on axioms: [propext, Classical.choice, Quot.sound]
* `Vital.Geo.C60_round_trip` — depends on axioms: [propext, Classical.choice, Quot.sound]
* `Vital.Geo.C60_matrix_round_trip` — depends on axioms: [propext, Classical.choice, Quot.sound]
* `Vital.Geo.C61_tangential` — depends on axioms: [propext, Classical.choice, Quot.sound]
* `Vital.Geo.C61_partial` — depends on axioms: [propext, Classical.choice, Quot.sound]
* `Vital.Geo.C61_refuted` — depends on axioms: [propext, Classical.choice, Quot.sound]
* `Vital.Sys.C62_dir_name` — depends on axioms: [propext, Quot.sound]
* `Vital.Sys.C62_extensions` — depends on axioms: [propext, Quot.sound]
* `Vital.Log.C63_gating` — depends on axioms: [propext]
* `Vital.Log.C63_macro` — does not depend on any axioms
* `Vital.Log.C63_empty` — does not depend on any axioms
* `Vital.Log.C63_same_logger` — depends on axioms: [propext, Classical.choice, Quot.sound]
* `Vital.Log.C63_different_loggers` — depends on axioms: [propext, Quot.sound]
* `Vital.Log.C63_set_level` — depends on axioms: [propext]
* `Vital.Log.C63_initial_level` — depends on axioms: [propext, Quot.sound]
* `Vital.Track.C64_refuted` — depends on axioms: [propext]
* `Vital.Track.C64_new_terminated_partial` — depends on axioms: [propext, Quot.sound]
* `Vital.Track.C64_overflow` — depends on axioms: [propext, Classical.choice, Quot.sound]
* `Vital.Track.C65_refuted` — does not depend on any axioms
* `Vital.Track.C65_last_frame_features_partial` — depends on axioms: [propext]
* `Vital.Track.C66_frame_features` — depends on axioms: [propext, Classical.choice, Quot.sound]
* `Vital.Track.C67_percentage` — depends on axioms: [propext, Classical.choice, Quot.sound]
* `Vital.Track.C68_ids` — depends on axioms: [propext, Quot.sound]
* `Vital.Timestamp.C69_refuted` — depends on axioms: [propext, Classical.choice, Quot.sound]
* `Vital.Timestamp.C69_roundtrip_partial` — depends on axioms: [propext, Classical.choice, Quot.sound]
* `Vital.Timestamp.C69_undefined_iff` — depends on axioms: [propext, Classical.choice, Quot.sound]
* `Vital.Base64.C70_refuted` — depends on axioms: [propext, Quot.sound]
* `Vital.Base64.C70_partial` — depends on axioms: [propext, Quot.sound]
* `Vital.Base64.C70_sharp` — depends on axioms: [propext, Quot.sound]
* `Vital.CApi.C71_refuted` — depends on axioms: [propext]
* `Vital.CApi.C71_partial` — depends on axioms: [propext, Quot.sound]
* `Vital.CApi.C72_string_new` — depends on axioms: [propext, Quot.sound]
* `Vital.Config.C73_set_location` — depends on axioms: [propext, Classical.choice, Quot.sound]
* `Vital.Config.C73_unset_forgets` — depends on axioms: [propext, Classical.choice, Quot.sound]
* `Vital.Config.C73_others_keep` — depends on axioms: [propext, Classical.choice, Quot.sound]
* `Vital.Config.C73_copies_have_none` — depends on axioms: [propext, Classical.choice, Quot.sound]
* `Vital.Sys.C74_join_split` — depends on axioms: [propext, Quot.sound]
* `Vital.Sys.C74_bare_tilde` — depends on axioms: [propext]
* `Vital.Sys.C75_collapse_canonical_partial` — depends on axioms: [propext, Classical.choice, Quot.sound]
* `Vital.Sys.C75_up_cancels` — depends on axioms: [propext, Classical.choice, Quot.sound]
* `Vital.Sys.C75_refuted` — depends on axioms: [propext]
* `Vital.Sys.C76_refuted` — depends on axioms: [propext]
* `Vital.Sys.C76_home_partial` — depends on axioms: [propext, Quot.sound]
* `Vital.Sys.C77_refuted` — depends on axioms: [propext]
* `Vital.Sys.C77_split_terminates_partial` — depends on axioms: [propext, Quot.sound]
* `Vital.Sys.C78_refuted` — depends on axioms: [propext]
* `Vital.Sys.C78_unix_slashes_partial` — depends on axioms: [propext, Quot.sound]
* `Vital.Sys.C79_refuted` — depends on axioms: [propext]
* `Vital.Sys.C79_find_file_partial` — depends on axioms: [propext, Quot.sound]
* `Vital.Sys.C80_get_path` — depends on axioms: [propext, Quot.sound]
* `Vital.Parser.C81_include_path` — depends on axioms: [propext, Quot.sound]
* `Vital.Parser.C82_refuted` — depends on axioms: [propext, Classical.choice, Quot.sound]
* `Vital.Parser.C82_protection_partial` — depends on axioms: [propext, Classical.choice, Quot.sound]
* `Vital.Parser.C83_search_order` — depends on axioms: [propext, Quot.sound]
* `Vital.Parser.C84_refuted` — depends on axioms: [propext, Classical.choice, Quot.sound]
* `Vital.Parser.C84_write_read_partial` — depends on axioms: [propext, Classical.choice, Quot.sound]
* `Vital.Parser.C85_refuted` — depends on axioms: [propext, Classical.choice, Quot.sound]
* `Vital.Parser.C85_atomic_partial` — depends on axioms: [propext, Classical.choice, Quot.sound]
* `Vital.Algo.C86_names` — depends on axioms: [propext, Classical.choice, Quot.sound]
* `Vital.Algo.C87_type_names` — depends on axioms: [propext]
* `Vital.Algo.C87_registries_agree` — depends on axioms: [propext, Classical.choice, Quot.sound]
* `Vital.Algo.C87_colon_clash` — depends on axioms: [propext, Classical.choice, Quot.sound]
* `Vital.Algo.C88_option_list` — depends on axioms: [propext, Classical.choice, Quot.sound]
* `Vital.Algo.C89_impl_configs` — depends on axioms: [propext, Classical.choice, Quot.sound]
* `Vital.IO.C90_fields` — depends on axioms: [propext, Quot.sound]
* `Vital.IO.C90_names` — depends on axioms: [propext, Classical.choice, Quot.sound]
* `Vital.IO.C91_ply_throws` — depends on axioms: [propext]
* `Vital.IO.C91_ply_read` — depends on axioms: [propext, Quot.sound]
* `Vital.IO.C91_track_throws` — depends on axioms: [propext]
* `Vital.IO.C91_track_read` — depends on axioms: [propext, Quot.sound]
* `Vital.IO.C91_krtd_throws` — depends on axioms: [propext]
* `Vital.IO.C91_krtd_read` — depends on axioms: [propext, Quot.sound]
* `Vital.IO.C92_color` — depends on axioms: [propext, Quot.sound]
* `Vital.IO.C92_feature` — depends on axioms: [propext, Quot.sound]
* `Vital.IO.C92_landmark` — depends on axioms: [propext, Quot.sound]
* `Vital.IO.C92_rotation` — depends on axioms: [propext, Quot.sound]
* `Vital.IO.C92_similarity` — depends on axioms: [propext, Quot.sound]
* `Vital.Stream.C92_unsigned_fails` — depends on axioms: [propext]
* `Vital.IO.C93_groups` — depends on axioms: [propext, Classical.choice, Quot.sound]
* `Vital.IO.C94_partial` — depends on axioms: [propext, Quot.sound]
* `Vital.IO.C94_refuted` — depends on axioms: [propext, Quot.sound]
* `Vital.IO.C94_blank_line` — depends on axioms: [propext, Quot.sound]
* `Vital.IO.C94_errors` — depends on axioms: [propext, Quot.sound]
* `Vital.IO.C95_partial` — depends on axioms: [propext, Quot.sound]
* `Vital.IO.C95_refuted` — depends on axioms: [propext]
* `Vital.IO.C95_null_entries` — depends on axioms: [propext, Quot.sound]
* `Vital.IO.C95_broken` — depends on axioms: [propext, Quot.sound]
* `Vital.IO.C95_path` — depends on axioms: [propext]
* `Vital.IO.C95_path_plain` — depends on axioms: [propext]
* `Vital.Log.C96_always` — depends on axioms: [propext, Quot.sound]
* `Vital.Log.C96_whole_messages` — depends on axioms: [propext, Quot.sound]
* `Vital.Log.C96_progress` — depends on axioms: [propext, Classical.choice, Quot.sound]
* `Vital.Log.C97_one_manager` — depends on axioms: [propext, Quot.sound]
* `Vital.Log.C97_progress` — depends on axioms: [propext, Quot.sound]
* `Vital.Log.C97_refuted` — does not depend on any axioms
* `Vital.Log.C97_partial` — depends on axioms: [propext, Quot.sound]
* `Vital.Log.C98_refuted` — depends on axioms: [propext, Quot.sound]
* `Vital.Log.C98_partial` — does not depend on any axioms
* `Vital.Log.C99_member` — depends on axioms: [propext]
* `Vital.Log.C99_constructor` — depends on axioms: [propext]
* `Vital.Log.C99_function` — depends on axioms: [propext, Quot.sound]
* `Vital.Geo.C100_compose` — depends on axioms: [propext, Classical.choice, Quot.sound]
* `Vital.Geo.C100_inverse` — depends on axioms: [propext, Classical.choice, Quot.sound]
* `Vital.Geo.C100_matrix` — depends on axioms: [propext, Classical.choice, Quot.sound]
* `Vital.Geo.C100_isometry` — depends on axioms: [propext, Classical.choice, Quot.sound]
* `Vital.Geo.C100_group` — depends on axioms: [propext, Classical.choice, Quot.sound]
* `Vital.Geo.C100_matrix_compose` — depends on axioms: [propext, Classical.choice, Quot.sound]
* `Vital.Geo.C100_constructors` — depends on axioms: [propext, Classical.choice, Quot.sound]
* `Vital.Geo.C100_refuted` — depends on axioms: [propext, Classical.choice, Quot.sound]
* `Vital.Geo.C101_from_matrix` — depends on axioms: [propext, Classical.choice, Quot.sound]
* `Vital.Geo.C101_to_matrix` — depends on axioms: [propext, Classical.choice, Quot.sound]
* `Vital.Geo.C101_same_action` — depends on axioms: [propext, Classical.choice, Quot.sound]
* `Vital.Geo.C102_angle_axis` — depends on axioms: [propext, Classical.choice, Quot.sound]
* `Vital.Geo.C102_to_rodrigues` — depends on axioms: [propext, Classical.choice, Quot.sound]
* `Vital.Geo.C102_from_rodrigues` — depends on axioms: [propext, Classical.choice, Quot.sound]
* `Vital.Geo.C102_from_angle_axis` — depends on axioms: [propext, Classical.choice, Quot.sound]
* `Vital.Geo.C103_from_ypr` — depends on axioms: [propext, Classical.choice, Quot.sound]
* `Vital.Geo.C103_partial` — depends on axioms: [propext, Classical.choice, Quot.sound]
* `Vital.Geo.C103_refuted` — depends on axioms: [propext, Classical.choice, Quot.sound]
* `Vital.Geo.C104_ends` — depends on axioms: [propext, Classical.choice, Quot.sound]
* `Vital.Geo.C104_even` — depends on axioms: [propext, Classical.choice, Quot.sound]
* `Vital.Geo.C104_steps` — depends on axioms: [propext, Classical.choice, Quot.sound]
* `Vital.Geo.C105_partial` — depends on axioms: [propext, Classical.choice, Quot.sound]
* `Vital.Geo.C105_refuted` — depends on axioms: [propext, Classical.choice, Quot.sound]
* `Vital.Geo.C105_refused` — depends on axioms: [propext, Classical.choice, Quot.sound]
* `Vital.Geo.C106_map` — depends on axioms: [propext, Classical.choice, Quot.sound]
* `Vital.Geo.C106_compose` — depends on axioms: [propext, Classical.choice, Quot.sound]
* `Vital.Geo.C106_inverse` — depends on axioms: [propext, Classical.choice, Quot.sound]
* `Vital.Geo.C106_normalize` — depends on axioms: [propext, Classical.choice, Quot.sound]
* `Vital.Geo.C106_refuted` — depends on axioms: [propext, Classical.choice, Quot.sound]
* `Vital.Geo.C107_translation` — depends on axioms: [propext, Classical.choice, Quot.sound]
* `Vital.Geo.C107_matrix` — depends on axioms: [propext, Classical.choice, Quot.sound]
* `Vital.Geo.C107_rays` — depends on axioms: [propext, Classical.choice, Quot.sound]
* `Vital.Geo.C108_look_at` — depends on axioms: [propext, Classical.choice, Quot.sound]
* `Vital.Geo.C109_epipolar` — depends on axioms: [propext, Classical.choice, Quot.sound]
* `Vital.Geo.C109_scale` — depends on axioms: [propext, Classical.choice, Quot.sound]
* `Vital.Geo.C109_twisted` — depends on axioms: [propext, Classical.choice, Quot.sound]
* `Vital.Geo.C109_from_matrix` — depends on axioms: [propext, Classical.choice, Quot.sound]
* `Vital.Geo.C109_closest` — depends on axioms: [propext, Classical.choice, Quot.sound]
* `Vital.Geo.C110_fundamental` — depends on axioms: [propext, Classical.choice, Quot.sound]
* `Vital.LatLon.C111_valid` — depends on axioms: [propext, Classical.choice, Quot.sound]
* `Vital.LatLon.C111_members` — depends on axioms: [propext, Classical.choice, Quot.sound]
* `Vital.Geo.C112_radial` — depends on axioms: [propext, Classical.choice, Quot.sound]
* `Vital.Geo.C112_partial` — depends on axioms: [propext, Classical.choice, Quot.sound]
* `Vital.Geo.C112_refuted` — depends on axioms: [propext, Classical.choice, Quot.sound]
* `Vital.Geo.C112_polynomial_partial` — depends on axioms: [propext, Classical.choice, Quot.sound]
* `Vital.Geo.C112_rational_partial` — depends on axioms: [propext, Classical.choice, Quot.sound]
* `Vital.Geo.C112_unmap_partial` — depends on axioms: [propext, Classical.choice, Quot.sound]
* `Vital.Wrap.C113_pairs` — depends on axioms: [propext, Classical.choice, Quot.sound]
* `Vital.Wrap.C113_unique` — depends on axioms: [propext, Classical.choice, Quot.sound]
* `Vital.Wrap.C114_arguments` — depends on axioms: [propext, Quot.sound]
* `Vital.Wrap.C114_throws` — depends on axioms: [propext, Quot.sound]
* `Vital.Wrap.C115_filter` — depends on axioms: [propext, Classical.choice, Quot.sound]
* `Vital.Wrap.C116_matches` — depends on axioms: [propext, Quot.sound]
* `Vital.ImageIo.C117_load` — depends on axioms: [propext, Quot.sound]
* `Vital.ImageIo.C117_save` — depends on axioms: [propext, Classical.choice, Quot.sound]
* `Vital.Regex.C118_compile_accepts` — depends on axioms: [propext, Classical.choice, Quot.sound]
* `Vital.Regex.C118_compile_refuses` — depends on axioms: [propext, Classical.choice, Quot.sound]
* `Vital.Regex.C118_one_meaning` — depends on axioms: [propext, Classical.choice, Quot.sound]
* `Vital.Regex.C119_find_iff` — depends on axioms: [propext, Classical.choice, Quot.sound]
* `Vital.Regex.C120_find_leftmost` — depends on axioms: [propext, Classical.choice, Quot.sound]
* `Vital.Regex.C121_groups` — depends on axioms: [propext, Classical.choice, Quot.sound]
* `Vital.Regex.C122_history` — depends on axioms: [propext, Classical.choice, Quot.sound]
* `Vital.Regex.C122_compile` — depends on axioms: [propext, Classical.choice, Quot.sound]
* `Vital.Regex.C122_accessors` — depends on axioms: [propext, Classical.choice, Quot.sound]
* `Vital.Regex.C122_copy` — depends on axioms: [propext, Quot.sound]
* `Vital.Regex.C122_stale_example` — depends on axioms: [propext, Classical.choice, Quot.sound]
* `Vital.Regex.C122_old_example` — depends on axioms: [propext, Classical.choice, Quot.sound]
* `Vital.Regex.C123_token` — depends on axioms: [propext, Classical.choice, Quot.sound]
* `Vital.Regex.C123_words` — depends on axioms: [propext, Classical.choice, Quot.sound]
* `Vital.CApi.Cfg.C124_refines` — depends on axioms: [propext, Classical.choice, Quot.sound]
* `Vital.CApi.Cfg.C124_dead_handle` — depends on axioms: [propext, Classical.choice, Quot.sound]
* `Vital.CApi.Cfg.C124_life` — depends on axioms: [propext, Classical.choice, Quot.sound]
* `Vital.CApi.Cfg.C124_set_get` — depends on axioms: [propext, Classical.choice, Quot.sound]
* `Vital.CApi.Cfg.C125_no_use_after_free` — depends on axioms: [propext, Classical.choice, Quot.sound]
* `Vital.CApi.Cfg.C125_view_keeps_parent` — depends on axioms: [propext, Classical.choice, Quot.sound]
* `Vital.CApi.CfgFile.C126_refuted` — depends on axioms: [propext, Classical.choice, Quot.sound]
* `Vital.CApi.CfgFile.C126_partial` — depends on axioms: [propext, Classical.choice, Quot.sound]
* `Vital.CApi.ImageData.C127_refuted` — depends on axioms: [propext, Classical.choice, Quot.sound]
* `Vital.CApi.ImageData.C127_partial` — depends on axioms: [propext, Classical.choice, Quot.sound]
* `Vital.CApi.ImageData.C127_reversed` — depends on axioms: [propext, Classical.choice, Quot.sound]
* `Vital.CApi.Maps.C128_get_map` — depends on axioms: [propext, Classical.choice, Quot.sound]
* `Vital.CApi.Maps.C128_new_then_get` — depends on axioms: [propext, Classical.choice, Quot.sound]
* `Vital.CApi.Maps.C128_new_dead` — depends on axioms: [propext, Quot.sound]
* `Vital.CApi.Maps.C128_new_null` — depends on axioms: [propext, Quot.sound]
* `Vital.CApi.Maps.C128_destroy` — depends on axioms: [propext, Classical.choice, Quot.sound]
* `Vital.CApi.Maps.C128_trackset` — depends on axioms: [propext, Quot.sound]
* `Vital.CApi.Alg.C129_refines` — depends on axioms: [propext, Classical.choice, Quot.sound]
* `Vital.CApi.Alg.C129_refused` — depends on axioms: [propext, Classical.choice, Quot.sound]
* `Vital.CApi.Alg.C129_set_type` — depends on axioms: [propext, Classical.choice, Quot.sound]
* `Vital.CApi.Alg.C129_wrong_destroy` — depends on axioms: [propext, Classical.choice, Quot.sound]
* `Vital.CApi.Alg.C130_refuted` — depends on axioms: [propext, Quot.sound]
* `Vital.CApi.Alg.C130_partial` — depends on axioms: [propext]
* `Vital.Plugin.C131_search_path` — depends on axioms: [propext, Classical.choice, Quot.sound]
* `Vital.Plugin.C131_split` — depends on axioms: [propext, Quot.sound]
* `Vital.Plugin.C131_split_ret` — depends on axioms: [propext, Classical.choice, Quot.sound]
* `Vital.Plugin.pieces_unique` — depends on axioms: [propext]
* `Vital.Plugin.C132_files` — depends on axioms: [propext, Classical.choice, Quot.sound]
* `Vital.Plugin.C132_nothing` — depends on axioms: [propext, Classical.choice, Quot.sound]
* `Vital.Plugin.C133_module_names` — depends on axioms: [propext, Classical.choice, Quot.sound]
* `Vital.Plugin.C133_outcome` — depends on axioms: [propext, Classical.choice, Quot.sound]
* `Vital.Plugin.C134_by_name_partial` — depends on axioms: [propext, Classical.choice, Quot.sound]
* `Vital.Plugin.C134_dotted_name` — depends on axioms: [propext, Classical.choice, Quot.sound]
* `Vital.Plugin.C134_refuted` — depends on axioms: [propext, Classical.choice, Quot.sound]
* `Vital.Plugin.C135_code_stays_partial` — depends on axioms: [propext, Classical.choice, Quot.sound]
* `Vital.Plugin.C135_refuted` — depends on axioms: [propext, Classical.choice, Quot.sound]
* `Vital.Plugin.C136_reload_partial` — depends on axioms: [propext, Classical.choice, Quot.sound]
* `Vital.Plugin.C136_answering` — depends on axioms: [propext, Classical.choice, Quot.sound]
* `Vital.Plugin.C136_refuted` — depends on axioms: [propext, Classical.choice, Quot.sound]
* `Vital.Plugin.C137_once` — depends on axioms: [propext, Classical.choice, Quot.sound]
* `Vital.Plugin.C137_exactly_one` — depends on axioms: [propext, Classical.choice, Quot.sound]
* `Vital.Plugin.C137_progress` — depends on axioms: [propext, Classical.choice, Quot.sound]
* `Vital.Share.C138_unique_copy_partial` — depends on axioms: [propext, Quot.sound]
* `Vital.Share.C138_made_from_partial` — depends on axioms: [propext, Classical.choice, Quot.sound]
* `Vital.Share.C138_copy_equal` — depends on axioms: [propext, Quot.sound]
* `Vital.Share.C138_refuted` — depends on axioms: [propext]
* `Vital.Share.C139_descriptors_partial` — depends on axioms: [propext, Quot.sound]
* `Vital.Share.C139_views` — depends on axioms: [propext, Quot.sound]
* `Vital.Share.C139_refuted` — depends on axioms: [propext]
* `Vital.Share.C140_timer` — depends on axioms: [propext, Classical.choice, Quot.sound]
* `Vital.Share.C140_nonneg` — depends on axioms: [propext, Classical.choice, Quot.sound]
* `Vital.Share.C140_fresh` — depends on axioms: [propext, Classical.choice, Quot.sound]
* `Vital.GetPaths.C141_executable_path` — depends on axioms: [propext, Quot.sound]
* `Vital.GetPaths.C141_executable_fails` — depends on axioms: [propext, Quot.sound]
* `Vital.GetPaths.C142_always_undefined` — depends on axioms: [propext, Quot.sound]
* `Vital.GetPaths.C142_refuted` — depends on axioms: [propext, Quot.sound]
* `Vital.CApi.Imgs.C143_handles` — depends on axioms: [propext, Classical.choice, Quot.sound]
* `Vital.CApi.Imgs.C143_views_stay` — depends on axioms: [propext, Quot.sound]
* `Vital.CApi.Imgs.C143_steps` — depends on axioms: [propext, Quot.sound]
* `Vital.Py.C144_python_objects` — depends on axioms: [propext, Classical.choice, Quot.sound]
* `Vital.Py.C144_flag` — depends on axioms: [propext]
* `Vital.MD5.C145_md5` — depends on axioms: [propext, Classical.choice, Quot.sound]
* `Vital.MD5.Sine.const_eq` — depends on axioms: [propext, Classical.choice, Quot.sound]
* `Vital.Command.C146_parse` — depends on axioms: [propext, Quot.sound]
* `Vital.Command.C146_round_trip` — depends on axioms: [propext, Quot.sound]
* `Vital.Command.C146_flags` — depends on axioms: [propext]
* `Vital.Glob.C147_accepted` — depends on axioms: [propext, Classical.choice, Quot.sound]
* `Vital.Glob.C147_matches` — depends on axioms: [propext, Classical.choice, Quot.sound]
* `Vital.Glob.C147_find` — depends on axioms: [propext, Classical.choice, Quot.sound]
* `Vital.Glob.C147_one_reading` — depends on axioms: [propext]
* `Vital.Glob.C148_files` — depends on axioms: [propext, Classical.choice, Quot.sound]
* `Vital.Glob.found_names` — depends on axioms: [propext, Quot.sound]
* `Vital.Glob.apart_exists` — depends on axioms: [propext, Quot.sound]
* `Vital.Glob.C149_recursion` — depends on axioms: [propext, Classical.choice, Quot.sound]
* `Vital.Glob.C149_complete` — depends on axioms: [propext, Classical.choice, Quot.sound]
* `Vital.Glob.C150_relative_partial` — depends on axioms: [propext, Classical.choice, Quot.sound]
* `Vital.Glob.C150_relative_refuted` — depends on axioms: [propext, Classical.choice, Quot.sound]
* `Vital.CmdLine.C151_parse` — depends on axioms: [propext, Classical.choice, Quot.sound]
* `Vital.CmdLine.C151_one_reading` — depends on axioms: [propext]
* `Vital.CmdLine.C151_effects` — depends on axioms: [propext]
* `Vital.CmdLine.C151_values` — depends on axioms: [propext, Quot.sound]
* `Vital.CmdLine.C151_out_of_range` — depends on axioms: [propext, Quot.sound]
* `Vital.CmdLine.C152_failed` — depends on axioms: [propext, Classical.choice, Quot.sound]
* `Vital.CmdLine.C152_last_partial` — depends on axioms: [propext, Classical.choice, Quot.sound]
* `Vital.CmdLine.C152_last_refuted` — depends on axioms: [propext, Classical.choice, Quot.sound]
* `Vital.CmdLine.C152_memory` — depends on axioms: [propext, Classical.choice, Quot.sound]
* `Vital.CmdLine.C153_flag_refuted` — depends on axioms: [propext, Classical.choice, Quot.sound]
* `Vital.CmdLine.C153_unknown_refuted` — depends on axioms: [propext, Classical.choice, Quot.sound]
* `Vital.CmdLine.C153_unknown_refuted_multi` — depends on axioms: [propext, Classical.choice, Quot.sound]
* `Vital.CmdLine.C153_unknown_partial` — depends on axioms: [propext, Classical.choice, Quot.sound]
* `Vital.CmdLine.C153_unknown_function` — depends on axioms: [propext, Classical.choice, Quot.sound]
* `Vital.CmdLine.C154_memory_partial` — depends on axioms: [propext, Classical.choice, Quot.sound]
* `Vital.CmdLine.C154_refuted_name` — depends on axioms: [propext, Classical.choice, Quot.sound]
* `Vital.CmdLine.C154_refuted_blank` — depends on axioms: [propext, Classical.choice, Quot.sound]
* `Vital.CmdLine.C154_refuted_width` — depends on axioms: [propext, Classical.choice, Quot.sound]
* `Vital.CmdLine.C155_groups_partial` — depends on axioms: [propext, Classical.choice, Quot.sound]
* `Vital.CmdLine.C155_help_partial` — depends on axioms: [propext, Classical.choice, Quot.sound]
* `Vital.CmdLine.C155_once_partial` — depends on axioms: [propext, Classical.choice, Quot.sound]
* `Vital.CmdLine.isBlank_iff` — depends on axioms: [propext]
* `Vital.CmdLine.C155_refuted` — depends on axioms: [propext, Classical.choice, Quot.sound]
* `Vital.CmdLine.C156_text` — depends on axioms: [propext, Quot.sound]
* `Vital.CmdLine.C156_partial` — depends on axioms: [propext, Classical.choice, Quot.sound]
* `Vital.CmdLine.C156_refuted` — depends on axioms: [propext, Classical.choice, Quot.sound]
* `Vital.Hash.C157_map` — depends on axioms: [propext, Classical.choice, Quot.sound]
* `Vital.Hash.C157_copy` — depends on axioms: [propext, Classical.choice, Quot.sound]
* `Vital.Hash.C158_stays` — depends on axioms: [propext, Classical.choice, Quot.sound]
* `Vital.Hash.C159_exact` — depends on axioms: [propext, Classical.choice, Quot.sound]
* `Vital.Hash.C159_refuted` — depends on axioms: [propext]
* `Vital.Hash.C159_first_partial` — depends on axioms: [propext, Classical.choice, Quot.sound]
* `Vital.Hash.C160_equal_partial` — depends on axioms: [propext, Classical.choice, Quot.sound]
* `Vital.Hash.C160_refuted` — depends on axioms: [propext, Classical.choice, Quot.sound]
* `Vital.Hash.C161_multimap` — depends on axioms: [propext, Classical.choice, Quot.sound]
* `Vital.Hash.C161_together` — depends on axioms: [propext, Classical.choice, Quot.sound]
* `Vital.Hash.C162_range` — depends on axioms: [propext, Classical.choice, Quot.sound]
* `Vital.Defaults.C163_geometry` — depends on axioms: [propext, Classical.choice, Quot.sound]
* `Vital.Defaults.C163_values` — does not depend on any axioms
* `Vital.Defaults.C163_image` — depends on axioms: [propext]
* `Vital.Strs.C164_replace` — depends on axioms: [propext, Quot.sound]
* `Vital.Strs.C164_empty` — does not depend on any axioms
* `Vital.Strs.C164_self` — depends on axioms: [propext, Quot.sound]
* `Vital.Strs.C164_gone` — depends on axioms: [propext, Quot.sound]
* `Vital.Strs.C164_nul_source` — depends on axioms: [propext, Quot.sound]
* `Vital.Strs.C164_nul_refuted` — does not depend on any axioms
* `Vital.Strs.C164_double_slash` — depends on axioms: [propext, Quot.sound]
* `Vital.Strs.C165_lower_upper` — depends on axioms: [propext, Quot.sound]
* `Vital.Strs.C165_capitalized` — depends on axioms: [propext, Quot.sound]
* `Vital.Strs.C165_words` — depends on axioms: [propext, Classical.choice, Quot.sound]
* `Vital.Strs.C165_spaced` — depends on axioms: [propext]
* `Vital.Strs.C165_spaced_again` — depends on axioms: [propext]
* `Vital.Strs.C166_pieces_partial` — depends on axioms: [propext, Classical.choice, Quot.sound]
* `Vital.Strs.C166_exact_partial` — depends on axioms: [propext, Quot.sound]
* `Vital.Strs.C166_refuted` — does not depend on any axioms
* `Vital.Strs.C167_crop` — depends on axioms: [propext, Classical.choice, Quot.sound]
* `Vital.Strs.C168_escape` — depends on axioms: [propext, Quot.sound]
* `Vital.Strs.C168_unescape` — depends on axioms: [propext]
* `Vital.Strs.C168_injective` — depends on axioms: [propext]
* `Vital.Strs.C168_unescape_refuted` — does not depend on any axioms
* `Vital.Strs.C169_starts` — depends on axioms: [propext, Quot.sound]
* `Vital.Strs.C169_ends` — depends on axioms: [propext, Classical.choice, Quot.sound]
* `Vital.Strs.C169_null` — depends on axioms: [propext]
* `Vital.Strs.C169_last` — depends on axioms: [propext, Quot.sound]
* `Vital.Strs.C170_count` — depends on axioms: [propext, Quot.sound]
* `Vital.Strs.C170_remove` — depends on axioms: [propext, Quot.sound]
* `Vital.Strs.C170_replace` — depends on axioms: [propext, Quot.sound]
* `Vital.Strs.C170_append` — depends on axioms: [propext]
* `Vital.Strs.C171_identifier` — depends on axioms: [propext, Classical.choice, Quot.sound]
* `Vital.Strs.C172_strucmp` — depends on axioms: [propext, Classical.choice, Quot.sound]
* `Vital.Strs.C172_order` — depends on axioms: [propext, Classical.choice, Quot.sound]
* `Vital.Lines.C173_line_partial` — depends on axioms: [propext, Classical.choice, Quot.sound]
* `Vital.Lines.C173_last_partial` — depends on axioms: [propext, Classical.choice, Quot.sound]
* `Vital.Lines.C173_failed` — does not depend on any axioms
* `Vital.Lines.C173_text_partial` — depends on axioms: [propext, Classical.choice, Quot.sound]
* `Vital.Lines.C173_limit` — depends on axioms: [propext, Quot.sound]
* `Vital.Lines.C173_cr_refuted` — depends on axioms: [propext]
* `Vital.Lines.C173_nul_refuted` — does not depend on any axioms
* `Vital.Lines.C173_limit_refuted` — does not depend on any axioms
* `Vital.OutPath.C174_word_partial` — depends on axioms: [propext, Classical.choice, Quot.sound]
* `Vital.OutPath.C174_refuted` — depends on axioms: [propext]
* `Vital.OutPath.C174_again` — depends on axioms: [propext, Classical.choice, Quot.sound]
* `Vital.OutPath.C175_windows` — depends on axioms: [propext, Classical.choice, Quot.sound]
* `Vital.OutPath.C175_again` — depends on axioms: [propext, Classical.choice, Quot.sound]
* `Vital.Sys.C176_find` — depends on axioms: [propext, Quot.sound]
* `Vital.Sys.C176_names` — depends on axioms: [propext, Quot.sound]
* `Vital.Sys.C176_directory` — depends on axioms: [propext]
* `Vital.Sys.C176_refuted` — depends on axioms: [propext]
* `Vital.Sys.C177_split_partial` — depends on axioms: [propext, Classical.choice, Quot.sound]
* `Vital.Sys.C177_endless_refuted` — depends on axioms: [propext, Quot.sound]
* `Vital.Sys.C177_refuted` — depends on axioms: [propext, Quot.sound]
* `Vital.Sys.C178_exact` — depends on axioms: [propext, Classical.choice, Quot.sound]
* `Vital.Sys.C178_components_partial` — depends on axioms: [propext, Classical.choice, Quot.sound]
* `Vital.Sys.C178_refuted` — depends on axioms: [propext]
* `Vital.Formats.C179_enough_partial` — depends on axioms: [propext, Quot.sound]
* `Vital.Formats.C179_refuted` — depends on axioms: [propext]
* `Vital.Formats.C180_date_partial` — depends on axioms: [propext, Classical.choice, Quot.sound]
* `Vital.Formats.C180_stamp_partial` — depends on axioms: [propext, Classical.choice, Quot.sound]
* `Vital.Formats.C180_refuted` — depends on axioms: [propext]
* `Vital.Formats.C180_refused` — depends on axioms: [propext]
* `Vital.Timestamp.C181_setters` — depends on axioms: [propext, Quot.sound]
* `Vital.Timestamp.C181_pretty` — depends on axioms: [propext, Classical.choice, Quot.sound]
* `Vital.Timestamp.C181_range` — depends on axioms: [propext, Quot.sound]
* `Vital.Regex.C182_protocol` — depends on axioms: [propext, Classical.choice, Quot.sound]
* `Vital.Regex.C183_url_partial` — depends on axioms: [propext, Classical.choice, Quot.sound]
* `Vital.Regex.C183_none` — depends on axioms: [propext, Classical.choice, Quot.sound]
* `Vital.Regex.C183_refuted` — depends on axioms: [propext, Classical.choice, Quot.sound]
* `Vital.Files.C184_differ` — depends on axioms: [propext, Quot.sound]
* `Vital.Files.C185_only_adds` — depends on axioms: [propext, Classical.choice, Quot.sound]
* `Vital.Files.C185_make_partial` — depends on axioms: [propext, Classical.choice, Quot.sound]
* `Vital.Files.C185_refuted` — depends on axioms: [propext]
* `Vital.Files.C186_remove_partial` — depends on axioms: [propext, Classical.choice, Quot.sound]
* `Vital.Files.C186_refuted` — depends on axioms: [propext]
* `Vital.Files.C186_backslash` — depends on axioms: [propext]
* `Vital.Files.C187_copy_partial` — depends on axioms: [propext, Classical.choice, Quot.sound]
* `Vital.Files.C187_refuted` — depends on axioms: [propext]
* `Vital.Files.C187_full` — depends on axioms: [propext]
* `Vital.Files.C188_different_partial` — depends on axioms: [propext, Classical.choice, Quot.sound]
* `Vital.Files.C188_refuted` — depends on axioms: [propext]
* `Vital.Files.C189_tree_partial` — depends on axioms: [propext, Classical.choice, Quot.sound]
* `Vital.Files.C189_refuted` — depends on axioms: [propext]
* `Vital.Sys.C190_relative_partial` — depends on axioms: [propext, Classical.choice, Quot.sound]
* `Vital.Sys.C190_refuted` — depends on axioms: [propext]
* `Vital.Proc.C191_pipe_destinations` — depends on axioms: [propext, Quot.sound]
* `Vital.Proc.Leads.unique` — depends on axioms: [propext, Quot.sound]
* `Vital.Proc.C192_configuration` — depends on axioms: [propext, Classical.choice, Quot.sound]
* `Vital.Proc.C192_accepted` — depends on axioms: [propext, Quot.sound]
* `Vital.Proc.C193_refuted` — depends on axioms: [propext, Quot.sound]
* `Vital.Proc.C193_refuted_memory` — depends on axioms: [propext, Quot.sound]
* `Vital.Proc.C193_never_too_much` — depends on axioms: [propext, Classical.choice, Quot.sound]
* `Vital.Proc.C193_no_leak_partial` — depends on axioms: [propext, Classical.choice, Quot.sound]
* `Vital.Proc.C194_arithmetic` — depends on axioms: [propext, Classical.choice, Quot.sound]
* `Vital.Proc.C194_deadline` — depends on axioms: [propext, Classical.choice, Quot.sound]
* `Vital.Proc.C194_left` — depends on axioms: [propext, Classical.choice, Quot.sound]
* `Vital.Proc.C194_user_timeout` — depends on axioms: [propext, Classical.choice, Quot.sound]
* `Vital.Proc.C194_refuted` — depends on axioms: [propext, Classical.choice, Quot.sound]
* `Vital.Proc.C194_select_partial` — depends on axioms: [propext, Classical.choice, Quot.sound]
* `Vital.Proc.Table.C195_table` — depends on axioms: [propext, Classical.choice, Quot.sound]
* `Vital.Proc.Table.C195_members` — depends on axioms: [propext, Classical.choice, Quot.sound]
* `Vital.Proc.Table.C195_refuted` — depends on axioms: [propext, Quot.sound]
* `Vital.Proc.Table.C195_refuted_what` — depends on axioms: [propext, Quot.sound]
* `Vital.Proc.Table.C195_sigchld_partial` — depends on axioms: [propext, Classical.choice, Quot.sound]
* `Vital.Proc.Table.C195_defaults_partial` — depends on axioms: [propext, Classical.choice, Quot.sound]
* `Vital.Proc.Wait.C196_delivery` — depends on axioms: [propext, Classical.choice, Quot.sound]
* `Vital.Proc.Wait.C197_no_lost_wakeup` — depends on axioms: [propext, Classical.choice, Quot.sound]
* `Vital.Proc.Wait.hang_busy` — depends on axioms: [propext, Classical.choice, Quot.sound]
* `Vital.Proc.Wait.C198_exit_status` — depends on axioms: [propext, Classical.choice, Quot.sound]
* `Vital.Proc.Wait.C198_kill` — depends on axioms: [propext, Classical.choice, Quot.sound]
* `Vital.Proc.Wait.C199_descriptors` — depends on axioms: [propext, Classical.choice, Quot.sound]
* `Vital.Proc.Wait.C200_refuted` — depends on axioms: [propext]
* `Vital.Proc.Wait.C200_timeout_then_kill` — depends on axioms: [propext]
* `Vital.Proc.Wait.C200_first_kill_partial` — depends on axioms: [propext, Classical.choice, Quot.sound]
* `Vital.Proc.KillTree.C201_parent` — depends on axioms: [propext, Quot.sound]
* `Vital.Proc.KillTree.C202_kill_tree` — depends on axioms: [propext, Classical.choice, Quot.sound]
* `Vital.Proc.KillTree.killTree_ok` — depends on axioms: [propext, Classical.choice, Quot.sound]
* `Vital.Proc.KillTree.desc_dead` — depends on axioms: [propext, Quot.sound]
* `Vital.Proc.Exec.C203_failed_start_partial` — depends on axioms: [propext, Classical.choice, Quot.sound]
* `Vital.Proc.Exec.C203_leak_refuted` — depends on axioms: [propext]
* `Vital.Proc.Exec.C203_uninitialised_refuted` — depends on axioms: [propext]
* `Vital.Proc.Exec.execute_failed` — depends on axioms: [propext, Classical.choice, Quot.sound]
* `Vital.Proc.Exec.C204_wiring` — depends on axioms: [propext, Classical.choice, Quot.sound]
* `Vital.Proc.Exec.execute_wiring` — depends on axioms: [propext, Classical.choice, Quot.sound]
* `Vital.Proc.Exec.C205_signalled_partial` — depends on axioms: [propext, Classical.choice, Quot.sound]
* `Vital.Proc.Exec.C205_kill_all_refuted` — depends on axioms: [propext]
* `Vital.Proc.Exec.C206_started` — depends on axioms: [propext, Classical.choice, Quot.sound]
* `Vital.Proc.Exec.C207_merged_partial` — depends on axioms: [propext, Classical.choice, Quot.sound]
* `Vital.Proc.Exec.C207_shared_refuted` — depends on axioms: [propext]
* `Vital.Py.Pic.C208_from_pil` — depends on axioms: [propext, Classical.choice, Quot.sound]
* `Vital.Py.Pic.C208_modes` — depends on axioms: [propext]
* `Vital.Py.Pic.C209_partial` — depends on axioms: [propext, Classical.choice, Quot.sound]
* `Vital.Py.Pic.C209_refuted` — depends on axioms: [propext, Classical.choice, Quot.sound]
* `Vital.Py.Pic.C210_partial` — depends on axioms: [propext, Classical.choice, Quot.sound]
* `Vital.Py.Pic.C210_refuted` — depends on axioms: [propext, Classical.choice, Quot.sound]
* `Vital.Py.CB.C211_partial` — depends on axioms: [propext, Classical.choice, Quot.sound]
* `Vital.Py.CB.C211_refuted` — depends on axioms: [propext, Classical.choice, Quot.sound]
* `Vital.Py.CB.C212_exact` — depends on axioms: [propext, Classical.choice, Quot.sound]
* `Vital.Py.CB.C213_keys` — depends on axioms: [propext, Classical.choice, Quot.sound]
* `Vital.Py.Alg.C214_refines` — depends on axioms: [propext, Classical.choice, Quot.sound]
* `Vital.Py.Alg.C215_lifetime` — depends on axioms: [propext, Classical.choice, Quot.sound]
* `Vital.Py.Alg.C216_copies` — depends on axioms: [propext, Classical.choice, Quot.sound]
* `Vital.SysInfo.C217_sysenv` — depends on axioms: [propext, Classical.choice, Quot.sound]
* `Vital.SysInfo.C217_setup` — depends on axioms: [propext, Quot.sound]
* `Vital.SysInfo.C217_no_overflow` — depends on axioms: [propext, Classical.choice, Quot.sound]
* `Vital.SysInfo.C218_partial` — depends on axioms: [propext, Classical.choice, Quot.sound]
* `Vital.SysInfo.C218_missing` — depends on axioms: [propext, Classical.choice, Quot.sound]
* `Vital.SysInfo.C218_refuted` — depends on axioms: [propext, Classical.choice, Quot.sound]
* `Vital.SysInfo.C219_logical` — depends on axioms: [propext, Classical.choice, Quot.sound]
* `Vital.SysInfo.C219_empty` — depends on axioms: [propext, Quot.sound]
* `Vital.SysInfo.C220_partial` — depends on axioms: [propext, Classical.choice, Quot.sound]
* `Vital.SysInfo.C220_single` — depends on axioms: [propext, Classical.choice, Quot.sound]
* `Vital.SysInfo.C220_refuted` — depends on axioms: [propext, Classical.choice, Quot.sound]
* `Vital.SysInfo.C221_partial` — depends on axioms: [propext, Classical.choice, Quot.sound]
* `Vital.SysInfo.C221_ignored` — depends on axioms: [propext, Classical.choice, Quot.sound]
* `Vital.SysInfo.C221_refuted` — depends on axioms: [propext, Classical.choice, Quot.sound]
* `Vital.SysInfo.C222_partial` — depends on axioms: [propext, Classical.choice, Quot.sound]
* `Vital.SysInfo.C222_zero` — depends on axioms: [propext, Classical.choice, Quot.sound]
* `Vital.SysInfo.C222_refuted` — depends on axioms: [propext, Classical.choice, Quot.sound]
* `Vital.SysInfo.C222_old` — depends on axioms: [propext, Classical.choice, Quot.sound]
* `Vital.Py.Tool.C223_tracks` — depends on axioms: [propext, Quot.sound]
* `Vital.Py.Tool.C224_partial` — depends on axioms: [propext]
* `Vital.Py.Tool.C224_never` — depends on axioms: [propext]
* `Vital.Py.Tool.C224_refuted` — depends on axioms: [propext]
* `Vital.Py.Tool.C225_partial` — depends on axioms: [propext, Quot.sound]
* `Vital.Py.Tool.C225_emptied` — depends on axioms: [propext, Quot.sound]
* `Vital.Py.Tool.C225_refuted` — depends on axioms: [propext, Quot.sound]
* `Vital.Py.Tool.C226_partial` — depends on axioms: [propext, Classical.choice, Quot.sound]
* `Vital.Py.Tool.norm_idem` — depends on axioms: [propext, Classical.choice, Quot.sound]
* `Vital.Py.Tool.abs_abs` — depends on axioms: [propext, Classical.choice, Quot.sound]
* `Vital.Py.Tool.getConfig_spec` — depends on axioms: [propext, Classical.choice, Quot.sound]
* `Vital.Py.Tool.C226_refuted` — depends on axioms: [propext, Classical.choice, Quot.sound]
* `Vital.Py.Tool.C227_partial` — depends on axioms: [propext, Quot.sound]
* `Vital.Py.Tool.C227_ignored` — depends on axioms: [propext]
* `Vital.Py.Tool.C227_refuted` — depends on axioms: [propext]
* `Vital.Sys.Real.C228_partial` — depends on axioms: [propext, Classical.choice, Quot.sound]
* `Vital.Sys.Real.C228_collapse_partial` — depends on axioms: [propext, Classical.choice, Quot.sound]
* `Vital.Sys.Real.C228_refuted` — depends on axioms: [propext, Classical.choice, Quot.sound]
* `Vital.Sys.Real.C229_no_dots` — depends on axioms: [propext, Classical.choice, Quot.sound]
* `Vital.Sys.Real.C229_partial` — depends on axioms: [propext, Classical.choice, Quot.sound]
* `Vital.Sys.Real.C229_collapse_partial` — depends on axioms: [propext, Classical.choice, Quot.sound]
* `Vital.Sys.Real.C229_refuted` — depends on axioms: [propext, Classical.choice, Quot.sound]
* `Vital.Sys.Real.C230_partial` — depends on axioms: [propext, Classical.choice, Quot.sound]
* `Vital.Sys.Real.C230_refuted` — depends on axioms: [propext, Classical.choice, Quot.sound]
* `Vital.Sys.Envr.C231_last_call_counts` — depends on axioms: [propext, Quot.sound]
* `Vital.Sys.Envr.C231_result` — does not depend on any axioms
* `Vital.Sys.Envr.C231_no_name` — depends on axioms: [propext]
* `Vital.Sys.Envr.C232_partial` — depends on axioms: [propext, Quot.sound]
* `Vital.Sys.Envr.C232_refuted` — depends on axioms: [propext]
* `Vital.Sys.Envr.C233_partial` — depends on axioms: [propext, Classical.choice, Quot.sound]
* `Vital.Sys.Envr.same_key` — depends on axioms: [propext, Classical.choice, Quot.sound]
* `Vital.Sys.Envr.C233_refuted` — depends on axioms: [propext]
* `Vital.Sys.Envr.C234_partial` — depends on axioms: [propext, Classical.choice, Quot.sound]
* `Vital.Sys.Envr.C234_refuted` — depends on axioms: [propext]
* `Vital.Sys.Loc.C235_split` — depends on axioms: [propext, Classical.choice, Quot.sound]
* `Vital.Sys.Loc.C235_unique` — depends on axioms: [propext]
* `Vital.Sys.Loc.C236_partial` — depends on axioms: [propext, Classical.choice, Quot.sound]
* `Vital.Sys.Loc.C236_refuted` — depends on axioms: [propext, Quot.sound]
* `Vital.Sys.Loc.C237_partial` — depends on axioms: [propext, Classical.choice, Quot.sound]
* `Vital.Sys.Loc.C237_unknown` — depends on axioms: [propext, Classical.choice, Quot.sound]
* `Vital.Sys.Loc.C237_threshold` — depends on axioms: [propext, Classical.choice, Quot.sound]
* `Vital.Sys.Loc.C237_refuted` — depends on axioms: [propext, Classical.choice, Quot.sound]
* `Vital.Sys.Loc.C238_exact` — depends on axioms: [propext, Quot.sound]
* `Vital.Sys.Loc.C238_partial` — depends on axioms: [propext, Quot.sound]
* `Vital.Sys.Loc.C238_refuted` — depends on axioms: [propext, Quot.sound]
* `Vital.Sys.Loc.C239_partial` — depends on axioms: [propext, Quot.sound]
* `Vital.Sys.Loc.C239_refuted` — depends on axioms: [propext, Quot.sound]
* `Vital.Sys.Loc.C240_partial` — depends on axioms: [propext, Quot.sound]
* `Vital.Sys.Loc.C240_message` — depends on axioms: [propext, Quot.sound]
* `Vital.Sys.Loc.C240_refuted` — depends on axioms: [propext]
* `Vital.Sys.Loc.C241_sign` — depends on axioms: [propext, Quot.sound]
* `Vital.Sys.Loc.C241_order` — depends on axioms: [propext, Quot.sound]
* `Vital.GetPaths.Maps.C242_partial` — depends on axioms: [propext, Quot.sound]
* `Vital.GetPaths.Maps.C242_none` — depends on axioms: [propext, Quot.sound]
* `Vital.GetPaths.Maps.C242_retry` — depends on axioms: [propext, Quot.sound]
* `Vital.GetPaths.Maps.C242_edge` — does not depend on any axioms
* `Vital.GetPaths.Maps.C242_refuted` — depends on axioms: [propext, Quot.sound]
* `Vital.Py.Lib.C243_exact` — depends on axioms: [propext, Classical.choice, Quot.sound]
* `Vital.Py.Lib.C243_partial` — depends on axioms: [propext, Classical.choice, Quot.sound]
* `Vital.Py.Lib.C243_refuted` — depends on axioms: [propext, Quot.sound]
* `Vital.Py.Lib.C244_exact` — depends on axioms: [propext, Quot.sound]
* `Vital.Py.Lib.C244_partial` — depends on axioms: [propext, Quot.sound]
* `Vital.Py.Lib.C244_refuted` — depends on axioms: [propext]
* `Vital.Py.Lib.C245_partial` — depends on axioms: [propext, Quot.sound]
* `Vital.Py.Lib.C245_refuted` — depends on axioms: [propext]
* `Vital.Py.Lib.C246_once` — depends on axioms: [propext, Quot.sound]
* `Vital.Sys.Auto.C247_ownership` — depends on axioms: [propext, Quot.sound]
* `Vital.Sys.Auto.C247_no_leak` — depends on axioms: [propext, Classical.choice, Quot.sound]
* `Vital.Sys.Auto.C247_release_value` — depends on axioms: [propext, Quot.sound]
* `Vital.CApi.Life.C248_lifetimes` — depends on axioms: [propext, Classical.choice, Quot.sound]
* `Vital.CApi.Life.C248_handle_unique` — depends on axioms: [propext, Classical.choice, Quot.sound]
* `Vital.CApi.Life.C248_no_leak` — depends on axioms: [propext, Classical.choice, Quot.sound]
* `Vital.Conv.C249_refuted` — does not depend on any axioms
* `Vital.Conv.C249_partial` — does not depend on any axioms
* `Vital.Conv.C249_round_trip` — depends on axioms: [propext]
* `Vital.Conv.C249_clone` — does not depend on any axioms
* `Vital.Conv.C250_feature` — depends on axioms: [propext]
* `Vital.Conv.C250_landmark` — depends on axioms: [propext]
* `Vital.Conv.C251_never_null` — depends on axioms: [propext, Quot.sound]
* `Vital.Conv.C251_own_copy` — depends on axioms: [propext, Quot.sound]
* `Vital.Conv.C251_copy_shares` — depends on axioms: [propext, Quot.sound]
* `Vital.Log.Fac.C252_refuted` — does not depend on any axioms
* `Vital.Log.Fac.C252_partial` — depends on axioms: [propext, Quot.sound]
* `Vital.Log.Fac.C253_refuted` — depends on axioms: [propext, Quot.sound]
* `Vital.Log.Fac.C253_partial` — depends on axioms: [propext, Quot.sound]
* `Vital.Log.Fac.C253_name` — depends on axioms: [propext, Quot.sound]
* `Vital.Exc.C254_parts` — depends on axioms: [propext, Quot.sound]
* `Vital.Exc.C254_io_silent` — does not depend on any axioms
* `Vital.Exc.C254_nul_cuts` — depends on axioms: [propext]
* `Vital.Exc.C254_c_string` — depends on axioms: [propext, Quot.sound]
* `Vital.Exc.C255_reads_back` — depends on axioms: [propext, Quot.sound]
* `Vital.Exc.C255_ambiguous` — depends on axioms: [propext]
* `Vital.Exc.C256_classes` — depends on axioms: [propext, Quot.sound]
* `Vital.Exc.C256_twins` — depends on axioms: [propext]
* `Vital.Exc.C256_free_text` — does not depend on any axioms
* `Vital.Py.Cont.C257_refuted` — depends on axioms: [propext, Quot.sound]
* `Vital.Py.Cont.C257_partial` — depends on axioms: [propext, Classical.choice, Quot.sound]
* `Vital.Py.Cont.C257_frames` — depends on axioms: [propext, Classical.choice, Quot.sound]
* `Vital.Py.Cont.C257_dead` — depends on axioms: [propext, Quot.sound]
* `Vital.Files.Mask.C258_refuted` — depends on axioms: [propext, Quot.sound]
* `Vital.Files.Mask.C258_window` — depends on axioms: [propext, Quot.sound]
* `Vital.Files.Mask.C258_apart_partial` — depends on axioms: [propext, Quot.sound]
* `Vital.Files.Mask.C258_at_worst` — depends on axioms: [propext, Classical.choice, Quot.sound]
* `Vital.Files.Tch.C259_refuted` — depends on axioms: [propext]
* `Vital.Files.Tch.C259_partial` — depends on axioms: [propext]
* `Vital.Files.Tch.C259_nothing_else` — depends on axioms: [propext, Quot.sound]
* `Vital.Files.Tch.C259_succeeds` — depends on axioms: [propext]
* `Vital.Conv.Mat.C260_history` — depends on axioms: [propext, Quot.sound]
* `Vital.Conv.Mat.C260_from_float` — depends on axioms: [propext, Quot.sound]
* `Vital.Conv.Mat.C260_class` — depends on axioms: [propext]
* `Vital.Conv.Mat.C260_essential` — depends on axioms: [propext, Quot.sound]
* `Vital.Log.Cxx.C261_refuted` — does not depend on any axioms
* `Vital.Log.Cxx.C261_set_partial` — depends on axioms: [propext, Quot.sound]
* `Vital.Log.Cxx.C261_inherits` — depends on axioms: [propext, Quot.sound]
* `Vital.Log.Cxx.C261_messages` — depends on axioms: [propext]
* `Vital.Log.Cxx.C261_defined` — depends on axioms: [propext, Quot.sound]
* `Vital.Sys.Enc.C262_wide` — depends on axioms: [propext, Quot.sound]
* `Vital.Sys.Enc.C262_narrow` — depends on axioms: [propext, Quot.sound]
* `Vital.Sys.Enc.C262_round_trip` — depends on axioms: [propext, Quot.sound]
* `Vital.Sys.Enc.C262_null` — does not depend on any axioms
* `Vital.Sys.Enc.C262_dup` — depends on axioms: [propext, Quot.sound]
* `Vital.Sys.Enc.Args.C263_ownership` — depends on axioms: [propext, Classical.choice, Quot.sound]
* `Vital.Sys.Enc.Args.C263_refuted` — depends on axioms: [propext, Quot.sound]
* `Vital.Sys.Enc.Args.C263_argv_partial` — depends on axioms: [propext, Classical.choice, Quot.sound]
* `Vital.Sys.Mgr.C264_table` — depends on axioms: [propext, Classical.choice, Quot.sound]
* `Vital.Sys.Mgr.C264_static_objects` — depends on axioms: [propext, Classical.choice, Quot.sound]
* `Vital.Sys.Term.C265_refuted` — depends on axioms: [propext]
* `Vital.Sys.Term.C265_columns_partial` — depends on axioms: [propext, Quot.sound]
* `Vital.Sys.Term.C265_terminal` — depends on axioms: [propext, Classical.choice, Quot.sound]
* `Vital.Sys.Term.C265_range` — depends on axioms: [propext, Quot.sound]
* `Vital.Files.Lnk.C266_create` — depends on axioms: [propext, Quot.sound]
* `Vital.Files.Lnk.C266_read` — depends on axioms: [propext, Quot.sound]
* `Vital.Files.Lnk.C266_no_overwrite` — depends on axioms: [propext, Quot.sound]
* `Vital.Files.Lnk.C267_refuted` — depends on axioms: [propext]
* `Vital.Files.Lnk.C267_refuted_backslash` — depends on axioms: [propext]
* `Vital.Files.Lnk.C267_cwd_partial` — depends on axioms: [propext, Classical.choice, Quot.sound]
* `Vital.Files.Lnk.C267_deep` — depends on axioms: [propext, Quot.sound]
* `Vital.Files.Lnk.C267_result` — depends on axioms: [propext, Quot.sound]
* `Vital.Py.Apm.C268_refuted` — depends on axioms: [propext, Classical.choice, Quot.sound]
* `Vital.Py.Apm.C268_names` — depends on axioms: [propext, Classical.choice, Quot.sound]
* `Vital.Py.Apm.C268_python_partial` — depends on axioms: [propext, Classical.choice, Quot.sound]
* `Vital.Py.Apm.C268_glibc` — depends on axioms: [propext, Classical.choice, Quot.sound]
* `Vital.Py.Apm.C268_empty_name` — depends on axioms: [propext, Classical.choice, Quot.sound]
* `Vital.Tools.Explorer.C269_refuted` — depends on axioms: [propext, Classical.choice, Quot.sound]
* `Vital.Tools.Explorer.C269_refused` — depends on axioms: [propext, Classical.choice, Quot.sound]
* `Vital.Tools.Explorer.C269_help` — depends on axioms: [propext, Classical.choice, Quot.sound]
* `Vital.Tools.Explorer.C269_explorer_partial` — depends on axioms: [propext, Classical.choice, Quot.sound]
* `Vital.Tools.Explorer.C269_config` — depends on axioms: [propext, Classical.choice, Quot.sound]
* `Vital.Tools.Explorer.C269_bad_names` — depends on axioms: [propext, Classical.choice, Quot.sound]
* `Vital.Files.DirObj.C270_refuted` — depends on axioms: [propext]
* `Vital.Files.DirObj.C270_directory_partial` — depends on axioms: [propext, Quot.sound]
* `Vital.Files.DirObj.C270_read_error` — depends on axioms: [propext, Quot.sound]
* `Vital.Files.DirObj.C270_empty` — depends on axioms: [propext, Quot.sound]
* `Vital.Files.DirObj.C270_index` — depends on axioms: [propext, Quot.sound]
* `Vital.Py.Calls.C271_refuted` — depends on axioms: [propext, Quot.sound]
* `Vital.Py.Calls.C271_calls_partial` — depends on axioms: [propext, Classical.choice, Quot.sound]
* `Vital.Py.Calls.C271_no_leak` — depends on axioms: [propext, Classical.choice, Quot.sound]
* `Vital.Hash.Fun.C272_string` — depends on axioms: [propext, Classical.choice, Quot.sound]
* `Vital.Hash.Fun.C272_after_nul` — depends on axioms: [propext]
* `Vital.Hash.Fun.C272_collisions` — depends on axioms: [propext, Quot.sound]
* `Vital.Hash.Fun.C272_integers` — depends on axioms: [propext, Classical.choice, Quot.sound]
* `Vital.Hash.Fun.C272_map` — depends on axioms: [propext, Classical.choice, Quot.sound]
* `Vital.Hash.Fun.C273_refuted` — depends on axioms: [propext, Quot.sound]
* `Vital.Hash.Fun.C273_pointers_partial` — depends on axioms: [propext, Classical.choice, Quot.sound]
* `Vital.Hash.Fun.C273_other_pointer` — depends on axioms: [propext, Classical.choice, Quot.sound]
* `Vital.Py.CBIo.C274_refuted` — depends on axioms: [propext, Classical.choice, Quot.sound]
* `Vital.Py.CBIo.C274_from_file_partial` — depends on axioms: [propext, Classical.choice, Quot.sound]
* `Vital.Py.CBIo.C274_read_partial` — depends on axioms: [propext, Classical.choice, Quot.sound]
* `Vital.Py.CBIo.C275_refuted` — depends on axioms: [propext, Classical.choice, Quot.sound]
* `Vital.Py.CBIo.C275_write_partial` — depends on axioms: [propext, Quot.sound]
* `Vital.Py.CBIo.C276_refuted` — depends on axioms: [propext, Classical.choice, Quot.sound]
* `Vital.Py.CBIo.C276_as_string_partial` — depends on axioms: [propext, Quot.sound]
* `Vital.Py.CBIo.C276_empty` — depends on axioms: [propext, Quot.sound]
* `Vital.Py.Trk.C277_refuted` — depends on axioms: [propext, Quot.sound]
* `Vital.Py.Trk.C277_values_partial` — depends on axioms: [propext, Classical.choice, Quot.sound]
* `Vital.Py.Trk.C277_no_leak` — depends on axioms: [propext, Classical.choice, Quot.sound]
* `Vital.Py.Trk.C278_refuted` — depends on axioms: [propext, Quot.sound]
* `Vital.Py.Trk.C278_round_trip_partial` — depends on axioms: [propext, Classical.choice, Quot.sound]
* `Vital.Py.Trk.C278_lost` — depends on axioms: [propext, Classical.choice, Quot.sound]
* `Vital.SysInfo.Lim.C279_refuted` — depends on axioms: [propext, Classical.choice, Quot.sound]
* `Vital.SysInfo.Lim.C279_partial` — depends on axioms: [propext, Classical.choice, Quot.sound]
* `Vital.SysInfo.Lim.C279_unreadable` — depends on axioms: [propext, Quot.sound]
* `Vital.SysInfo.Lim.C280_refuted` — depends on axioms: [propext, Classical.choice, Quot.sound]
* `Vital.SysInfo.Lim.C280_partial` — depends on axioms: [propext, Classical.choice, Quot.sound]
* `Vital.SysInfo.Sig.C281_restored` — depends on axioms: [propext, Quot.sound]
* `Vital.SysInfo.Sig.C281_installed` — depends on axioms: [propext, Quot.sound]
* `Vital.SysInfo.Sig.C281_disabled` — depends on axioms: [propext, Quot.sound]
* `Vital.SysInfo.Sig.C281_delivered` — depends on axioms: [propext, Quot.sound]
* `Vital.SysInfo.Chip.C282_description` — depends on axioms: [propext, Classical.choice, Quot.sound]
* `Vital.SysInfo.Chip.C283_identity` — depends on axioms: [propext, Classical.choice, Quot.sound]
* `Vital.SysInfo.Chip.C283_makers` — depends on axioms: [propext, Quot.sound]
* `Vital.SysInfo.Chip.C283_arm` — depends on axioms: [propext, Classical.choice, Quot.sound]
* `Vital.SysInfo.Chip.C283_parisc` — depends on axioms: [propext, Classical.choice, Quot.sound]
* `Vital.SysInfo.Chip.C283_unreadable` — depends on axioms: [propext]
* `Vital.Py.Pics.C284_refuted` — depends on axioms: [propext, Quot.sound]
* `Vital.Py.Pics.C284_pictures_partial` — depends on axioms: [propext, Classical.choice, Quot.sound]
* `Vital.Py.Pics.C284_no_leak` — depends on axioms: [propext, Classical.choice, Quot.sound]
* `Vital.Parser.Crash.C285_refuted` — depends on axioms: [propext, Classical.choice, Quot.sound]
* `Vital.Parser.Crash.C285_disk` — depends on axioms: [propext, Quot.sound]
* `Vital.Parser.Crash.C285_read_partial` — depends on axioms: [propext, Classical.choice, Quot.sound]
* `Vital.IO.TrackCrash.C286_refuted` — depends on axioms: [propext, Quot.sound]
* `Vital.IO.TrackCrash.C286_disk` — depends on axioms: [propext, Quot.sound]
* `Vital.IO.TrackCrash.C286_read_partial` — depends on axioms: [propext, Quot.sound]
* `Vital.IO.TrackCrash.C286_lines_partial` — depends on axioms: [propext, Quot.sound]
* `Vital.IO.PlyCrash.C287_refuted` — depends on axioms: [propext, Quot.sound]
* `Vital.IO.PlyCrash.C287_overwrites` — depends on axioms: [propext, Quot.sound]
* `Vital.IO.PlyCrash.C287_disk` — depends on axioms: [propext, Quot.sound]
* `Vital.IO.PlyCrash.C287_read_partial` — depends on axioms: [propext, Quot.sound]
* `Vital.IO.PlyCrash.C287_lines_partial` — depends on axioms: [propext, Classical.choice, Quot.sound]
* `Vital.IO.PlyCrash.C287_files_partial` — depends on axioms: [propext, Quot.sound]
* `Vital.IO.KrtdCrash.C288_refuted` — depends on axioms: [propext, Quot.sound]
* `Vital.IO.KrtdCrash.C288_disk` — depends on axioms: [propext, Quot.sound]
* `Vital.IO.KrtdCrash.C288_read_partial` — depends on axioms: [propext, Quot.sound]
* `Vital.IO.KrtdCrash.C288_complete_partial` — depends on axioms: [propext, Quot.sound]
* `Vital.IO.KrtdCrash.C288_files_partial` — depends on axioms: [propext, Quot.sound]
