import Verif.Props.AllTypes
import Verif.Props.AppendLens
import Verif.Props.AppendOnly
import Verif.Props.AppendOrder
import Verif.Props.Assign
import Verif.Props.AssignExact
import Verif.Props.AssignText
import Verif.Props.AssignTextExact
import Verif.Props.Bind
import Verif.Props.BindArg
import Verif.Props.BindReport
import Verif.Props.BindText
import Verif.Props.CliData
import Verif.Props.CliExact
import Verif.Props.CliGen
import Verif.Props.CliLoad
import Verif.Props.Commands
import Verif.Props.Comment
import Verif.Props.CommentExact
import Verif.Props.ConfigExact
import Verif.Props.Crd
import Verif.Props.CueArgs
import Verif.Props.Declare
import Verif.Props.ErrText
import Verif.Props.ErrTextExact
import Verif.Props.Exact
import Verif.Props.ExactIndex
import Verif.Props.Exemplars
import Verif.Props.ExemplarsAll
import Verif.Props.Fix
import Verif.Props.FixExact
import Verif.Props.FixFile
import Verif.Props.FixFileExact
import Verif.Props.FlatIdx
import Verif.Props.GenExact
import Verif.Props.GenRace
import Verif.Props.GoBindable
import Verif.Props.GoGen
import Verif.Props.GoJson
import Verif.Props.GoJsonAgain
import Verif.Props.GoJsonExact
import Verif.Props.GoNames
import Verif.Props.GoParts
import Verif.Props.GoRepeat
import Verif.Props.GoRewrite
import Verif.Props.GoStart
import Verif.Props.GoText
import Verif.Props.GoTypes
import Verif.Props.Grow
import Verif.Props.Guarantee
import Verif.Props.GuaranteeExact
import Verif.Props.Hops
import Verif.Props.Hydrate
import Verif.Props.HydrateExact
import Verif.Props.HydrateSem
import Verif.Props.Init
import Verif.Props.InitExact
import Verif.Props.InitFile
import Verif.Props.InstPtr
import Verif.Props.JSchema
import Verif.Props.JSchemaExact
import Verif.Props.LatestExact
import Verif.Props.LensErrors
import Verif.Props.LensText
import Verif.Props.LensTextTells
import Verif.Props.Load
import Verif.Props.LoadExact
import Verif.Props.Lock
import Verif.Props.LockExact
import Verif.Props.Migrate
import Verif.Props.ModRoot
import Verif.Props.Mux
import Verif.Props.MuxAgain
import Verif.Props.MuxExact
import Verif.Props.MuxGrow
import Verif.Props.Navigation
import Verif.Props.NeighbourInst
import Verif.Props.NestedTypes
import Verif.Props.OApi
import Verif.Props.OApiExact
import Verif.Props.OGen
import Verif.Props.OGenDefs
import Verif.Props.OGenFile
import Verif.Props.OGenOrder
import Verif.Props.OMerge
import Verif.Props.OSort
import Verif.Props.Options
import Verif.Props.OwnUnknown
import Verif.Props.Path
import Verif.Props.PathExact
import Verif.Props.PlainTypes
import Verif.Props.PrintfExact
import Verif.Props.Rewrite
import Verif.Props.RoundTrip
import Verif.Props.Runtime
import Verif.Props.Split
import Verif.Props.Steps
import Verif.Props.SubpathText
import Verif.Props.Surface
import Verif.Props.SurfaceExact
import Verif.Props.TranslateCue
import Verif.Props.TranslateGo
import Verif.Props.TsGen
import Verif.Props.Typed
import Verif.Props.TypedExact
import Verif.Props.Validate
import Verif.Props.ValidateExact
import Verif.Props.Version
import Verif.Props.VersionLists

/-! Axioms of every property theorem, printed at build time (generated by
`tools/mkmanifest.py`). -/

#print axioms Thema.Props.C01_less_strict_total_order
#print axioms Thema.Props.C01_cmpSV_agrees
#print axioms Thema.Props.C02_roundtrip_partial
#print axioms Thema.Props.C02_roundtrip_fails_above_2_32
#print axioms Thema.Props.C02_str_injective
#print axioms Thema.Props.C02_str_denotes
#print axioms Thema.Props.C03_parse_exact
#print axioms Thema.Props.C03_parse_rejects
#print axioms Thema.Props.C04_schema_lookup
#print axioms Thema.Props.C04_schemaP
#print axioms Thema.Props.C05_first_latest_all
#print axioms Thema.Props.C06_neighbours
#print axioms Thema.Props.C06_inverse
#print axioms Thema.Props.C06_no_version_between
#print axioms Thema.Props.C06_iteration
#print axioms Thema.Props.C07_predecessor_partial
#print axioms Thema.Props.C07_predecessor_panics
#print axioms Thema.Props.C07_predecessor_panics_witness
#print axioms Thema.Props.C08_latestInMajor_refuted
#print axioms Thema.Props.C08_latestInMajor_never_in_major
#print axioms Thema.Props.C08_latestVersionInSequence_refuted
#print axioms Thema.Props.C09_versions_sorted_partial
#print axioms Thema.Props.C09_out_of_order_rejected
#print axioms Thema.Props.C09_duplicates_accepted
#print axioms Thema.Props.C10_shape_partial
#print axioms Thema.Props.C10_gaps_accepted
#print axioms Thema.Props.C11_compat_enforced
#print axioms Thema.Props.C11_compatible_accepted
#print axioms Thema.Props.C11_violation_error
#print axioms Thema.Props.C12_validity_stable
#print axioms Thema.Props.C13_go_lenses_exact
#print axioms Thema.Props.C13_go_lenses_errors
#print axioms Thema.Props.C13_go_lenses_stored
#print axioms Thema.Props.C13_start_above_zero_rejected
#print axioms Thema.Props.C14_cue_lens_order
#print axioms Thema.Props.C15_cue_lenses_partial
#print axioms Thema.Props.C15_lenses_never_required
#print axioms Thema.Props.C15_wrong_lenses_accepted
#print axioms Thema.Props.C16_accepts_iff
#print axioms Thema.Props.C16_never_panics
#print axioms Thema.Props.C16_first_failure
#print axioms Thema.Props.C17_exactly_once_partial
#print axioms Thema.Props.C17_nothing_lost
#print axioms Thema.Props.C17_never_panics
#print axioms Thema.Props.C17_more_than_once
#print axioms Thema.Props.C18_duplicate_never_reported
#print axioms Thema.Props.C18_both_accepted
#print axioms Thema.Props.C19_validate_exact
#print axioms Thema.Props.C19_validate_error
#print axioms Thema.Props.C19_error_only_invalidData
#print axioms Thema.Props.C20_validateAny_partial
#print axioms Thema.Props.C20_validateAny_diverges
#print axioms Thema.Props.C20_validateAny_diverges_witness
#print axioms Thema.Props.C20_validateAny_misses_witness
#print axioms Thema.Props.C21_classification
#print axioms Thema.Props.C22_report_partial
#print axioms Thema.Props.C22_report_panics
#print axioms Thema.Props.C23_positions_partitioned
#print axioms Thema.Props.C52_splits
#print axioms Thema.Props.C52_no_repeats_nothing_dropped
#print axioms Thema.Props.C52_meaning_preserved
#print axioms Thema.Props.C53_all_reported_partial
#print axioms Thema.Props.C53_unknown_dropped
#print axioms Thema.Props.C54_class_sentinels_never_matched
#print axioms Thema.Props.C54_witness
#print axioms Thema.Props.C24_result_valid
#print axioms Thema.Props.C25_translate_partial
#print axioms Thema.Props.C25_up_wrong
#print axioms Thema.Props.C25_down_wrong
#print axioms Thema.Props.C25_wrong_witness
#print axioms Thema.Props.C26_index_partial
#print axioms Thema.Props.C26_index_exact
#print axioms Thema.Props.C26_index_wrong
#print axioms Thema.Props.C27_counts_partial
#print axioms Thema.Props.C27_counts_exact
#print axioms Thema.Props.C27_never_rejected_partial
#print axioms Thema.Props.C27_uniform_rejected
#print axioms Thema.Props.C27_five_majors_rejected
#print axioms Thema.Props.C28_lens_guards
#print axioms Thema.Props.C29_lacunas_partial
#print axioms Thema.Props.C29_never_returned
#print axioms Thema.Props.C29_lost_witness
#print axioms Thema.Props.C30_errors_partial
#print axioms Thema.Props.C30_other_errors
#print axioms Thema.Props.C30_go_errors
#print axioms Thema.Props.C31_own_version_partial
#print axioms Thema.Props.C31_own_version_go
#print axioms Thema.Props.C31_incomplete_data
#print axioms Thema.Props.C32_unknown_version_panics
#print axioms Thema.Props.C32_unknown_version_panics_witness
#print axioms Thema.Props.C32_go_unknown_version_fails
#print axioms Thema.Props.C32_go_unknown_version_panics_witness
#print axioms Thema.Props.C55_returns_partial
#print axioms Thema.Props.C55_panics_on_non_struct
#print axioms Thema.Props.C55_panics_witness
#print axioms Thema.Props.C33_go_walk
#print axioms Thema.Props.C33_reaches_target
#print axioms Thema.Props.C33_terminates
#print axioms Thema.Props.C33_stray_wrong_version
#print axioms Thema.Props.C34_result_valid_partial
#print axioms Thema.Props.C34_foreign_lineage
#print axioms Thema.Props.C35_composes
#print axioms Thema.Props.C36_go_forward_minor
#print axioms Thema.Props.C36_asSuccessor_minor
#print axioms Thema.Props.C36_cue_forward_minor_partial
#print axioms Thema.Props.C36_cue_refuted
#print axioms Thema.Props.C37_inner_partial
#print axioms Thema.Props.C37_successor_panics
#print axioms Thema.Props.C37_predecessor_panics
#print axioms Thema.Props.C37_ends_panic_witness
#print axioms Thema.Props.C38_obtainable_genuine_partial
#print axioms Thema.Props.C38_skipped_checks
#print axioms Thema.Props.C38_incomplete_example
#print axioms Thema.Props.C39_untyped_mux
#print axioms Thema.Props.C39_result_schema
#print axioms Thema.Props.C40_typed_mux_partial
#print axioms Thema.Props.C40_nested_panics
#print axioms Thema.Props.C40_unreachable_reached
#print axioms Thema.Props.C41_byte_mux
#print axioms Thema.Props.C41_value_mux
#print axioms Thema.Props.C56_construction_partial
#print axioms Thema.Props.C56_construction_panics
#print axioms Thema.Props.C56_construction_hangs
#print axioms Thema.Props.C56_construction_witnesses
#print axioms Thema.Props.C42_append_only_exact
#print axioms Thema.Props.C43_reflexive
#print axioms Thema.Props.C43_transitive
#print axioms Thema.Props.C43_history
#print axioms Thema.Props.C43_antisymmetric
#print axioms Thema.Props.C43_branches
#print axioms Thema.Props.C44_versions_keep_schemas
#print axioms Thema.Props.C48_schemas_in_order
#print axioms Thema.Props.C48_schema_at
#print axioms Thema.Props.C49_required_lenses
#print axioms Thema.Props.C49_lens_bodies
#print axioms Thema.Props.C49_empty_sequence
#print axioms Thema.Props.C50_paths_equal
#print axioms Thema.Props.C50_has_prefix
#print axioms Thema.Props.C50_replace_prefix
#print axioms Thema.Props.C50_trim_prefix_partial
#print axioms Thema.Props.C50_trim_overtrims
#print axioms Thema.Props.C50_last_selector
#print axioms Thema.Props.C51_exact
#print axioms Thema.Props.C51_noop
#print axioms Thema.Props.C57_positions_partial
#print axioms Thema.Props.C57_contract_refuted
#print axioms Thema.Props.C58_schema_relative
#print axioms Thema.Props.C59_refs_renamed_partial
#print axioms Thema.Props.C59_deep_refs_kept
#print axioms Thema.Props.C59_bare_refs_kept
#print axioms Thema.Props.C45_writers_exclusive
#print axioms Thema.Props.C45_bind_exclusive
#print axioms Thema.Props.C45_progress
#print axioms Thema.Props.C45_terminates
#print axioms Thema.Props.C46_no_eval_during_write_partial
#print axioms Thema.Props.C46_eval_during_write
#print axioms Thema.Props.C47_order_irrelevant
#print axioms Thema.Props.C47_outcome
#print axioms Thema.Props.C60_panics_release_partial
#print axioms Thema.Props.C60_stuck_for_ever
#print axioms Thema.Props.C60_panic_leaks
#print axioms Thema.Props.C60_panic_deadlocks
#print axioms Thema.Props.C61_accepts_partial
#print axioms Thema.Props.C61_sound
#print axioms Thema.Props.C61_single_element_list
#print axioms Thema.Props.C61_refuted
#print axioms Thema.Props.C61_number_and_null_accepted
#print axioms Thema.Props.C62_accepted_representable
#print axioms Thema.Props.C62_refuted_open_structs
#print axioms Thema.Props.C63_reports_partial
#print axioms Thema.Props.C63_nil_iff_no_discrepancy
#print axioms Thema.Props.C63_nested_excess_misreported
#print axioms Thema.Props.C63_refuted_merged
#print axioms Thema.Props.C64_returns
#print axioms Thema.Props.C64_verdict_unique
#print axioms Thema.Props.C65_arguments
#print axioms Thema.Props.C66_fields_kept_partial
#print axioms Thema.Props.C66_no_default_added
#print axioms Thema.Props.C66_definition_added
#print axioms Thema.Props.C66_returns
#print axioms Thema.Props.C67_nothing_removed_partial
#print axioms Thema.Props.C67_no_default_removed
#print axioms Thema.Props.C68_hydrated_invalid
#print axioms Thema.Props.C68_dehydrated_valid_partial
#print axioms Thema.Props.C68_never_errors
#print axioms Thema.Props.C69_components_equivalent_partial
#print axioms Thema.Props.C69_root_accepts_everything
#print axioms Thema.Props.C69_operators_untouched
#print axioms Thema.Props.C69_lost_under_operators
#print axioms Thema.Props.C69_lost_with_enum
#print axioms Thema.Props.C69_lost_without_type
#print axioms Thema.Props.C69_lost_without_type_witness
#print axioms Thema.Props.C69_data_rewritten
#print axioms Thema.Props.C70_only_openapi_changed
#print axioms Thema.Props.C70_keywords
#print axioms Thema.Props.C71_returns
#print axioms Thema.Props.C71_unknown_type
#print axioms Thema.Props.C72_schema_declared_partial
#print axioms Thema.Props.C72_refuted
#print axioms Thema.Props.C73_input_partial
#print axioms Thema.Props.C73_stdin_ignored
#print axioms Thema.Props.C73_redirected_stdin_refused
#print axioms Thema.Props.C74_format_respected
#print axioms Thema.Props.C74_format_refused
#print axioms Thema.Props.C74_stdin_unnamed
#print axioms Thema.Props.C75_validate_partial
#print axioms Thema.Props.C75_quiet_ignored
#print axioms Thema.Props.C76_validate_any_partial
#print axioms Thema.Props.C76_failure_not_silent
#print axioms Thema.Props.C77_version_partial
#print axioms Thema.Props.C77_only_latest
#print axioms Thema.Props.C78_translate
#print axioms Thema.Props.C78_version_required
#print axioms Thema.Props.C79_version_flag
#print axioms Thema.Props.C80_nearest_partial
#print axioms Thema.Props.C80_root_never_found
#print axioms Thema.Props.C80_root_module_differs
#print axioms Thema.Props.C81_import_path
#print axioms Thema.Props.C81_go_module_partial
#print axioms Thema.Props.C81_nameless_hides
#print axioms Thema.Props.C82_exactly_one
#print axioms Thema.Props.C82_first_error
#print axioms Thema.Props.C83_verbatim_partial
#print axioms Thema.Props.C83_percent_changed
#print axioms Thema.Props.C83_verbatim_iff
#print axioms Thema.Props.C172_printed
#print axioms Thema.Props.C84_default_partial
#print axioms Thema.Props.C84_given
#print axioms Thema.Props.C84_openapi_default
#print axioms Thema.Props.C85_failure_partial
#print axioms Thema.Props.C85_unknown_format
#print axioms Thema.Props.C86_destination_partial
#print axioms Thema.Props.C86_gotypes_stdout
#print axioms Thema.Props.C87_self_contained_partial
#print axioms Thema.Props.C87_fs_func_missing
#print axioms Thema.Props.C87_cli
#print axioms Thema.Props.C87_cli_undefined
#print axioms Thema.Props.C87_cli_stdout
#print axioms Thema.Props.C88_distinct
#print axioms Thema.Props.C88_exported
#print axioms Thema.Props.C88_convergent
#print axioms Thema.Props.C89_share_package_partial
#print axioms Thema.Props.C89_same_suffix
#print axioms Thema.Props.C90_identifiers_partial
#print axioms Thema.Props.C90_bad_name
#print axioms Thema.Props.C90_keyword
#print axioms Thema.Props.C91_literals_partial
#print axioms Thema.Props.C92_bindings
#print axioms Thema.Props.C92_types_partial
#print axioms Thema.Props.C92_types_default
#print axioms Thema.Props.C92_types_reused
#print axioms Thema.Props.C93_target_partial
#print axioms Thema.Props.C93_command_partial
#print axioms Thema.Props.C93_assignee
#print axioms Thema.Props.C93_unknown_version
#print axioms Thema.Props.C94_noop
#print axioms Thema.Props.C94_frame
#print axioms Thema.Props.C94_name_partial
#print axioms Thema.Props.C94_name_changed
#print axioms Thema.Props.C94_cue_mod_not_noop
#print axioms Thema.Props.C95_success_iff
#print axioms Thema.Props.C95_files_partial
#print axioms Thema.Props.C95_thema_module
#print axioms Thema.Props.C96_package
#print axioms Thema.Props.C96_dots
#print axioms Thema.Props.C97_disk_files_partial
#print axioms Thema.Props.C97_vendored_hidden
#print axioms Thema.Props.C98_subpath_partial
#print axioms Thema.Props.C98_nested_rejected
#print axioms Thema.Props.C99_root_partial
#print axioms Thema.Props.C99_not_titlecased
#print axioms Thema.Props.C100_definition_name
#print axioms Thema.Props.C100_clash
#print axioms Thema.Props.C176_unmarked
#print axioms Thema.Props.C176_path_text
#print axioms Thema.Props.C101_group_partial
#print axioms Thema.Props.C101_clash
#print axioms Thema.Props.C176_unmarked
#print axioms Thema.Props.C102_split_partial
#print axioms Thema.Props.C102_split_not_merged
#print axioms Thema.Props.C103_config_kept_partial
#print axioms Thema.Props.C103_config_overwritten
#print axioms Thema.Props.C103_reused_config
#print axioms Thema.Props.C104_only_pointers
#print axioms Thema.Props.C104_removed
#print axioms Thema.Props.C104_default
#print axioms Thema.Props.C104_recursive
#print axioms Thema.Props.C105_declared
#print axioms Thema.Props.C105_underscores_partial
#print axioms Thema.Props.C105_succeeds
#print axioms Thema.Props.C105_no_comment_panics
#print axioms Thema.Props.C105_clash
#print axioms Thema.Props.C105_forgotten
#print axioms Thema.Props.C106_raw_partial
#print axioms Thema.Props.C106_function_panics
#print axioms Thema.Props.C106_methods_lost
#print axioms Thema.Props.C106_dangling
#print axioms Thema.Props.C106_double_deletion
#print axioms Thema.Props.C106_use_lost
#print axioms Thema.Props.C106_alias_dangles
#print axioms Thema.Props.C107_names_partial
#print axioms Thema.Props.C107_empty
#print axioms Thema.Props.C107_unexported
#print axioms Thema.Props.C107_digit
#print axioms Thema.Props.C108_fields
#print axioms Thema.Props.C108_distinct_partial
#print axioms Thema.Props.C108_case_clash
#print axioms Thema.Props.C108_separator_clash
#print axioms Thema.Props.C108_refuted
#print axioms Thema.Props.C108_additional_clash
#print axioms Thema.Props.C109_only_allowed
#print axioms Thema.Props.C109_constants_partial
#print axioms Thema.Props.C109_numbered_partial
#print axioms Thema.Props.C109_value_lost
#print axioms Thema.Props.C109_unstable
#print axioms Thema.Props.C109_literal
#print axioms Thema.Props.C110_closed_partial
#print axioms Thema.Props.C110_definitions_partial
#print axioms Thema.Props.C110_nested_enum
#print axioms Thema.Props.C110_alternative_enum
#print axioms Thema.Props.C110_array_of_maps
#print axioms Thema.Props.C110_constants_without_type
#print axioms Thema.Props.C110_reference_dropped
#print axioms Thema.Props.C110_reference_dropped_file
#print axioms Thema.Props.C111_roundtrip_partial
#print axioms Thema.Props.C111_empty_array_lost
#print axioms Thema.Props.C111_empty_map_lost
#print axioms Thema.Props.C111_absent_becomes_null
#print axioms Thema.Props.C111_no_pointers_zero_lost
#print axioms Thema.Props.C111_no_pointers_struct_appears
#print axioms Thema.Props.C111_number_not_float32
#print axioms Thema.Props.C111_integer_too_large
#print axioms Thema.Props.C111_additional_lost
#print axioms Thema.Props.C111_alternatives_lost
#print axioms Thema.Props.C111_names_lost
#print axioms Thema.Props.C111_bytes_become_string
#print axioms Thema.Props.C112_text_partial
#print axioms Thema.Props.C112_literal_exact
#print axioms Thema.Props.C112_injection
#print axioms Thema.Props.C112_other_name
#print axioms Thema.Props.C113_empty_partial
#print axioms Thema.Props.C113_empty_succeeds
#print axioms Thema.Props.C113_document_partial
#print axioms Thema.Props.C113_package_missing
#print axioms Thema.Props.C113_no_package_ignored
#print axioms Thema.Props.C113_no_name
#print axioms Thema.Props.C114_no_panic_partial
#print axioms Thema.Props.C114_bad_json
#print axioms Thema.Props.C114_stdin
#print axioms Thema.Props.C115_in_place_partial
#print axioms Thema.Props.C115_other_field
#print axioms Thema.Props.C116_ends_partial
#print axioms Thema.Props.C116_schema_reported
#print axioms Thema.Props.C116_endless
#print axioms Thema.Props.C116_lacunas
#print axioms Thema.Props.C117_fields
#print axioms Thema.Props.C117_types_partial
#print axioms Thema.Props.C117_todo_lost
#print axioms Thema.Props.C117_space_panics
#print axioms Thema.Props.C118_documented
#print axioms Thema.Props.C118_several_partial
#print axioms Thema.Props.C118_reused
#print axioms Thema.Props.C119_written_partial
#print axioms Thema.Props.C119_counts
#print axioms Thema.Props.C119_field_order
#print axioms Thema.Props.C119_twice_lost
#print axioms Thema.Props.C119_underscore_lost
#print axioms Thema.Props.C119_map_lost
#print axioms Thema.Props.C119_name_lost
#print axioms Thema.Props.C111_roundtrip_partial
#print axioms Thema.Props.C120_roundtrip_partial
#print axioms Thema.Props.C120_fields_partial
#print axioms Thema.Props.C120_nested_lost
#print axioms Thema.Props.C120_nested_data_lost
#print axioms Thema.Props.C120_fails
#print axioms Thema.Props.C120_fails_additional
#print axioms Thema.Props.C120_items_lost
#print axioms Thema.Props.C120_free_lost
#print axioms Thema.Props.C120_free_data_lost
#print axioms Thema.Props.C120_type_lost
#print axioms Thema.Props.C121_pointer_partial
#print axioms Thema.Props.C121_accepted_assignable
#print axioms Thema.Props.C121_struct_rejected
#print axioms Thema.Props.C121_refuted
#print axioms Thema.Props.C122_refused_partial
#print axioms Thema.Props.C122_kept_partial
#print axioms Thema.Props.C122_overwritten
#print axioms Thema.Props.C122_cleared
#print axioms Thema.Props.C123_newT
#print axioms Thema.Props.C124_no_error
#print axioms Thema.Props.C124_value_partial
#print axioms Thema.Props.C124_optional_raw
#print axioms Thema.Props.C124_list_raw
#print axioms Thema.Props.C124_refuted_list
#print axioms Thema.Props.C124_refuted_optional
#print axioms Thema.Props.C124_refuted_stale
#print axioms Thema.Props.C125_all_examples
#print axioms Thema.Props.C125_name_partial
#print axioms Thema.Props.C125_quoted_name
#print axioms Thema.Props.C125_refuted
#print axioms Thema.Props.C126_version_partial
#print axioms Thema.Props.C126_validFor
#print axioms Thema.Props.C126_agrees_with_go
#print axioms Thema.Props.C126_data_lost
#print axioms Thema.Props.C126_refuted
#print axioms Thema.Props.C127_listed
#print axioms Thema.Props.C127_reason_partial
#print axioms Thema.Props.C127_minor_upgrade
#print axioms Thema.Props.C127_major_jump
#print axioms Thema.Props.C128_discovered_partial
#print axioms Thema.Props.C128_failures
#print axioms Thema.Props.C128_own_import_refused
#print axioms Thema.Props.C128_discovery_missed
#print axioms Thema.Props.C128_refuted
#print axioms Thema.Props.C129_bind
#print axioms Thema.Props.C129_same
#print axioms Thema.Props.C129_rename
#print axioms Thema.Props.C129_narrowing_partial
#print axioms Thema.Props.C129_lacuna_fatal
#print axioms Thema.Props.C129_defaultchange_fails
#print axioms Thema.Props.C129_defaultchange_fatal
#print axioms Thema.Props.C129_disjunct_down
#print axioms Thema.Props.C129_disjunct_partial
#print axioms Thema.Props.C129_expand_baz
#print axioms Thema.Props.C130_expand_partial
#print axioms Thema.Props.C130_rename
#print axioms Thema.Props.C130_narrowing
#print axioms Thema.Props.C130_expand_partial
#print axioms Thema.Props.C129_disjunct_partial
#print axioms Thema.Props.C130_defaultchange_partial
#print axioms Thema.Props.C130_defaultchange_lacuna
#print axioms Thema.Props.C131_comment
#print axioms Thema.Props.C131_code_partial
#print axioms Thema.Props.C131_reads_comment
#print axioms Thema.Props.C131_reads_literal
#print axioms Thema.Props.C131_names
#print axioms Thema.Props.C131_name_injection
#print axioms Thema.Props.C131_tag_injection
#print axioms Thema.Props.C131_refuted
#print axioms Thema.Props.C132_isolated_partial
#print axioms Thema.Props.C132_alone
#print axioms Thema.Props.C132_crash_cause
#print axioms Thema.Props.C132_serial
#print axioms Thema.Props.C132_refuted
#print axioms Thema.Props.C133_shows
#print axioms Thema.Props.C133_types
#print axioms Thema.Props.C133_readable
#print axioms Thema.Props.C133_path
#print axioms Thema.Props.C133_literal_changed
#print axioms Thema.Props.C133_path_ambiguous
#print axioms Thema.Props.C133_excess_value
#print axioms Thema.Props.C134_lens_partial
#print axioms Thema.Props.C134_binds_partial
#print axioms Thema.Props.C134_translates_partial
#print axioms Thema.Props.C134_unfinished
#print axioms Thema.Props.C134_deep_ignored
#print axioms Thema.Props.C134_captured
#print axioms Thema.Props.C135_determined
#print axioms Thema.Props.C135_forced
#print axioms Thema.Props.C135_skip_widens
#print axioms Thema.Props.C135_skip_exact
#print axioms Thema.Props.C135_skip_error
#print axioms Thema.Props.C135_lens_order
#print axioms Thema.Props.C135_same_behaviour
#print axioms Thema.Props.C136_schemas
#print axioms Thema.Props.C136_validate
#print axioms Thema.Props.C136_validateAny
#print axioms Thema.Props.C136_translate_cue
#print axioms Thema.Props.C136_translate_cue_kept
#print axioms Thema.Props.C136_translate_go
#print axioms Thema.Props.C136_shorter_binds
#print axioms Thema.Props.C136_append_only
#print axioms Thema.Props.C137_there_and_back_up
#print axioms Thema.Props.C137_there_and_back_down
#print axioms Thema.Props.C137_nothing_lost
#print axioms Thema.Props.C138_hop_partial
#print axioms Thema.Props.C138_incomplete_in_between
#print axioms Thema.Props.C138_default_in_between
#print axioms Thema.Props.C139_again_cue
#print axioms Thema.Props.C139_again_go
#print axioms Thema.Props.C140_successor_go
#print axioms Thema.Props.C140_predecessor
#print axioms Thema.Props.C140_climb_go
#print axioms Thema.Props.C140_descend_go
#print axioms Thema.Props.C140_successor_major
#print axioms Thema.Props.C140_successor_minor_partial
#print axioms Thema.Props.C140_default_missing
#print axioms Thema.Props.C140_successor_minor_exact
#print axioms Thema.Props.C140_successor_minor_iff
#print axioms Thema.Props.C141_mux_cue_partial
#print axioms Thema.Props.C141_mux_go_partial
#print axioms Thema.Props.C141_taken_over
#print axioms Thema.Props.C141_data_changed
#print axioms Thema.Props.C142_go_kept_partial
#print axioms Thema.Props.C142_lenses_ignored
#print axioms Thema.Props.C142_translation_changed
#print axioms Thema.Props.C143_translatable_cue_partial
#print axioms Thema.Props.C143_translatable_go_partial
#print axioms Thema.Props.C143_go_iff
#print axioms Thema.Props.C143_cue_necessary
#print axioms Thema.Props.C143_mux_cue_partial
#print axioms Thema.Props.C143_mux_go_partial
#print axioms Thema.Props.C143_lens_missing
#print axioms Thema.Props.C143_refuted
#print axioms Thema.Props.C144_valid_satisfies_join
#print axioms Thema.Props.C144_obtainable_satisfies_join_partial
#print axioms Thema.Props.C144_join_kept
#print axioms Thema.Props.C144_written_out
#print axioms Thema.Props.C144_refuted
#print axioms Thema.Props.C145_omitted_is_zero
#print axioms Thema.Props.C145_only_first
#print axioms Thema.Props.C145_omitted_breaks
#print axioms Thema.Props.C145_omitted_unreachable
#print axioms Thema.Props.C145_refuted
#print axioms Thema.Props.C146_report_exact
#print axioms Thema.Props.C146_advice_works
#print axioms Thema.Props.C146_refuted
#print axioms Thema.Props.C147_hydrated_partial
#print axioms Thema.Props.C147_dehydrated_partial
#print axioms Thema.Props.C147_removed_fields
#print axioms Thema.Props.C147_round_trip_partial
#print axioms Thema.Props.C147_list_elements
#print axioms Thema.Props.C147_refuted
#print axioms Thema.Props.C148_lines_partial
#print axioms Thema.Props.C148_single_stable
#print axioms Thema.Props.C148_order_varies
#print axioms Thema.Props.C148_hidden
#print axioms Thema.Props.C149_unchanged_partial
#print axioms Thema.Props.C149_translate_keeps
#print axioms Thema.Props.C149_result
#print axioms Thema.Props.C149_values
#print axioms Thema.Props.C149_values_steps
#print axioms Thema.Props.C149_hydrate
#print axioms Thema.Props.C149_given_changes
#print axioms Thema.Props.C149_given_changes_witness
#print axioms Thema.Props.C150_complete_partial
#print axioms Thema.Props.C150_imports_lost
#print axioms Thema.Props.C150_complete_iff
#print axioms Thema.Props.C150_schema
#print axioms Thema.Props.C150_witness
#print axioms Thema.Props.C151_replaced_partial
#print axioms Thema.Props.C151_elsewhere
#print axioms Thema.Props.C151_one_file
#print axioms Thema.Props.C151_reported
#print axioms Thema.Props.C151_not_replaced
#print axioms Thema.Props.C151_not_replaced_witness
#print axioms Thema.Props.C151_other_package
#print axioms Thema.Props.C151_no_source
#print axioms Thema.Props.C152_successor
#print axioms Thema.Props.C152_predecessor
#print axioms Thema.Props.C152_panics
#print axioms Thema.Props.C152_walks_iff
#print axioms Thema.Props.C153_finds
#print axioms Thema.Props.C153_none
#print axioms Thema.Props.C153_never
#print axioms Thema.Props.C153_returns_iff
#print axioms Thema.Props.C154_made_iff
#print axioms Thema.Props.C154_otherwise
#print axioms Thema.Props.C155_error_iff
#print axioms Thema.Props.C155_one_cause
#print axioms Thema.Props.C156_race_iff
#print axioms Thema.Props.C156_leak_iff
#print axioms Thema.Props.C156_deadlock_iff
#print axioms Thema.Props.C157_binds_iff
#print axioms Thema.Props.C157_next_minor
#print axioms Thema.Props.C157_next_major
#print axioms Thema.Props.C157_three_majors
#print axioms Thema.Props.C158_own_version
#print axioms Thema.Props.C158_own_version_go
#print axioms Thema.Props.C159_unknown_go
#print axioms Thema.Props.C159_unknown_panics
#print axioms Thema.Props.C160_trim_exact
#print axioms Thema.Props.C160_unchanged_iff
#print axioms Thema.Props.C161_asSuccessor
#print axioms Thema.Props.C161_asPredecessor
#print axioms Thema.Props.C162_first_unreachable
#print axioms Thema.Props.C162_first_stuck
#print axioms Thema.Props.C163_never_past
#print axioms Thema.Props.C163_hangs
#print axioms Thema.Props.C163_succeeds_iff
#print axioms Thema.Props.C164_binds_iff
#print axioms Thema.Props.C164_some_lenses_iff
#print axioms Thema.Props.C165_index
#print axioms Thema.Props.C165_contiguous
#print axioms Thema.Props.C165_nonneg
#print axioms Thema.Props.C166_up_low
#print axioms Thema.Props.C166_up_high
#print axioms Thema.Props.C166_down_high
#print axioms Thema.Props.C166_same_major_down
#print axioms Thema.Props.C167_latestInMajor
#print axioms Thema.Props.C167_latestInMajor_wraps
#print axioms Thema.Props.C167_latestVersionInSequence
#print axioms Thema.Props.C168_validate_outcome
#print axioms Thema.Props.C168_report_determined
#print axioms Thema.Props.C169_validate
#print axioms Thema.Props.C169_validate_any
#print axioms Thema.Props.C169_validate_any_hangs
#print axioms Thema.Props.C169_hydrate
#print axioms Thema.Props.C169_translate
#print axioms Thema.Props.C170_mod_root
#print axioms Thema.Props.C170_cue_mod
#print axioms Thema.Props.C171_undefined
#print axioms Thema.Props.C171_clash
#print axioms Thema.Props.C171_types_package
#print axioms Thema.Props.C172_usage
#print axioms Thema.Props.C172_documents
#print axioms Thema.Props.C172_types
#print axioms Thema.Props.C172_bindings
#print axioms Thema.Props.C172_printed
#print axioms Thema.Props.C173_hydrate
#print axioms Thema.Props.C173_dehydrate
#print axioms Thema.Props.C174_untyped
#print axioms Thema.Props.C174_cases
#print axioms Thema.Props.C174_typed
#print axioms Thema.Props.C175_prints_iff
#print axioms Thema.Props.C175_panics_iff
#print axioms Thema.Props.C175_fails_iff
#print axioms Thema.Props.C175_deterministic
#print axioms Thema.Props.C176_document
#print axioms Thema.Props.C176_config
#print axioms Thema.Props.C176_unmarked
#print axioms Thema.Props.C176_path_text
#print axioms Thema.Props.C177_files
#print axioms Thema.Props.C177_injected
#print axioms Thema.Props.C177_cli
#print axioms Thema.Props.C178_found_iff
#print axioms Thema.Props.C178_names
#print axioms Thema.Props.C178_own_name_iff
#print axioms Thema.Props.C179_search_iff
#print axioms Thema.Props.C179_validFor_iff
#print axioms Thema.Props.C179_not_later
#print axioms Thema.Props.C180_report_iff
#print axioms Thema.Props.C180_no_report_iff
#print axioms Thema.Props.C180_true_iff
#print axioms Thema.Props.C181_result_iff
#print axioms Thema.Props.C181_ends
#print axioms Thema.Props.C181_idempotent
#print axioms Thema.Props.C182_result_iff
#print axioms Thema.Props.C182_endless_iff
#print axioms Thema.Props.C182_panics_iff
#print axioms Thema.Props.C182_reports_iff
#print axioms Thema.Props.C183_renamed_iff
#print axioms Thema.Props.C183_left_iff
#print axioms Thema.Props.C183_idempotent
#print axioms Thema.Props.C184_accepted_iff
#print axioms Thema.Props.C184_depth_iff
#print axioms Thema.Props.C184_not_struct_iff
#print axioms Thema.Props.C184_reported_iff
#print axioms Thema.Props.C184_path_iff
#print axioms Thema.Props.C184_message_iff
#print axioms Thema.Props.C184_message_excess
#print axioms Thema.Props.C185_bound_iff
#print axioms Thema.Props.C185_value
#print axioms Thema.Props.C186_packages
#print axioms Thema.Props.C186_own_package_iff
#print axioms Thema.Props.C186_roots
#print axioms Thema.Props.C187_identifiers_iff
#print axioms Thema.Props.C187_package_iff
#print axioms Thema.Props.C188_written_iff
#print axioms Thema.Props.C188_endless_iff
#print axioms Thema.Props.C188_crashes_iff
#print axioms Thema.Props.C188_reported_iff
#print axioms Thema.Props.C188_untouched
#print axioms Thema.Props.C189_violated
#print axioms Thema.Props.C189_usage_partial
#print axioms Thema.Props.C190_ends_iff
#print axioms Thema.Props.C190_no_panic
#print axioms Thema.Props.C191_types
#print axioms Thema.Props.C191_no_panic
#print axioms Thema.Props.C192_name
#print axioms Thema.Props.C193_outcomes
#print axioms Thema.Props.C193_all_iff
#print axioms Thema.Props.C194_types
#print axioms Thema.Props.C194_no_panic
#print axioms Thema.Props.C195_types
#print axioms Thema.Props.C195_no_panic
#print axioms Thema.Props.C196_document
#print axioms Thema.Props.C196_outcome
#print axioms Thema.Props.C196_unique
#print axioms Thema.Props.C197_one_word
#print axioms Thema.Props.C197_name
#print axioms Thema.Props.C197_phrase
#print axioms Thema.Props.C197_sentence
#print axioms Thema.Props.C197_type
#print axioms Thema.Props.C197_type_todo
#print axioms Thema.Props.C197_panics
#print axioms Thema.Props.C198_after
#print axioms Thema.Props.C198_unique
#print axioms Thema.Props.C198_refused
#print axioms Thema.Props.C198_again
#print axioms Thema.Props.C198_unchanged_iff
#print axioms Thema.Props.C199_becomes
#print axioms Thema.Props.C199_unreadable
#print axioms Thema.Props.C199_same
#print axioms Thema.Props.C200_valid
#print axioms Thema.Props.C200_stable
#print axioms Thema.Props.C200_invalid
#print axioms Thema.Props.C201_agrees
#print axioms Thema.Props.C201_duplicate_iff
#print axioms Thema.Props.C201_nil_iff
#print axioms Thema.Props.C201_missing_iff
#print axioms Thema.Props.C201_missing_mem
#print axioms Thema.Props.C201_superfluous_iff
#print axioms Thema.Props.C201_none_iff
#print axioms Thema.Props.C201_text_one
#print axioms Thema.Props.C201_pair_unambiguous
#print axioms Thema.Props.C201_text_missing
#print axioms Thema.Props.C201_text_superfluous
#print axioms Thema.Props.C201_text_reason
#print axioms Thema.Props.C201_reason_tells
#print axioms Thema.Props.C201_text_tells
#print axioms Thema.Props.C202_text_iff
#print axioms Thema.Props.C202_is_error
#print axioms Thema.Props.C202_unambiguous
#print axioms Thema.Props.C203_type
#print axioms Thema.Props.C203_file
#print axioms Thema.Props.C203_uses
#print axioms Thema.Props.C203_compiles_iff
#print axioms Thema.Props.C203_panics_iff
#print axioms Thema.Props.C204_type
#print axioms Thema.Props.C204_uses
#print axioms Thema.Props.C204_declared
#print axioms Thema.Props.C204_closed_iff
#print axioms Thema.Props.C205_holds
#print axioms Thema.Props.C205_valid_iff
#print axioms Thema.Props.C206_text_iff
#print axioms Thema.Props.C206_places
#print axioms Thema.Props.C206_line_feed
#print axioms Thema.Props.C207_texts_iff
#print axioms Thema.Props.C207_one_message
#print axioms Thema.Props.C207_stable_iff
#print axioms Thema.Props.C207_complete_iff
#print axioms Thema.Props.C207_excess_iff
#print axioms Thema.Props.C208_loaded_once
#print axioms Thema.Props.C208_not_before
#print axioms Thema.Props.C208_valid
#print axioms Thema.Props.C208_ends
#print axioms Thema.Props.C208_outcomes
#print axioms Thema.Props.C208_invalid_returned
#print axioms Thema.Props.C209_schemas_iff
#print axioms Thema.Props.C209_lenses_iff
#print axioms Thema.Props.C209_agrees
#print axioms Thema.Props.C209_report_iff
#print axioms Thema.Props.C209_where_partial
#print axioms Thema.Props.C209_order_nowhere
#print axioms Thema.Props.C209_schema_texts
#print axioms Thema.Props.C209_lens_order_text
#print axioms Thema.Props.C209_lens_shown_partial
#print axioms Thema.Props.C209_lens_garbled
#print axioms Thema.Props.C209_lens_printed
#print axioms Thema.Props.C210_report_iff
#print axioms Thema.Props.C210_agrees
#print axioms Thema.Props.C210_text
#print axioms Thema.Props.C210_text_tells
#print axioms Thema.Props.C210_named_partial
#print axioms Thema.Props.C210_named_present
#print axioms Thema.Props.C210_where_partial
#print axioms Thema.Props.C210_nowhere
#print axioms Thema.Props.C210_other_module
#print axioms Thema.Props.C211_returns_iff
#print axioms Thema.Props.C211_panics
#print axioms Thema.Props.C211_entries
#print axioms Thema.Props.C211_functions
#print axioms Thema.Props.C211_function_binds
#print axioms Thema.Props.C211_function_absent
#print axioms Thema.Props.C211_forced
#print axioms Thema.Props.C211_six
#print axioms Thema.Props.C211_only_function
#print axioms Thema.Props.C212_same_output
#print axioms Thema.Props.C212_sorted
#print axioms Thema.Props.C213_no_lineage
#print axioms Thema.Props.C213_minor_versions_conflict
#print axioms Thema.Props.C213_only_without_schemas
#print axioms Thema.Props.C213_single_partial
