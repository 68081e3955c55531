C01 proved | Less against lexicographic order; the CUE comparison is total, unambiguous and agrees.
  C01_less_strict_total_order C01_cmpSV_agrees
C02 partial | The parser accepts components below 2^32 only, so the round trip holds exactly there; it is refuted for larger components (C02_roundtrip_fails_above_2_32). Injectivity and canonical form hold without bound.
  C02_roundtrip_partial C02_roundtrip_fails_above_2_32 C02_str_injective C02_str_denotes
C03 proved | Both directions against a declarative grammar.
  C03_parse_exact C03_parse_rejects
C04 proved | Lookup is exact for every bound lineage, including duplicated versions.
  C04_schema_lookup C04_schemaP
C05 proved | For every bound lineage.
  C05_first_latest_all
C06 proved | For distinct versions starting at 0.0.
  C06_neighbours C06_inverse C06_no_version_between C06_iteration
C07 partial | False as stated: for every bound lineage whose first version is not 0.0 Predecessor of the first schema panics (C07_predecessor_panics, with a concrete witness). C07_predecessor_partial gives the claim for lineages that start at 0.0.
  C07_predecessor_partial C07_predecessor_panics C07_predecessor_panics_witness
C08 partial | False for every lineage: LatestInMajor never returns a schema of the receiver's major (C08_latestInMajor_never_in_major); it panics in the last major. LatestVersionInSequence shares the defect.
  C08_latestInMajor_refuted C08_latestInMajor_never_in_major C08_latestVersionInSequence_refuted
C09 partial | Versions are non-decreasing and an out-of-order list is rejected (ErrInvalidSchemasOrder, unless a compatibility violation is met first). False as stated: repeated versions bind (C09_duplicates_accepted).
  C09_versions_sorted_partial C09_out_of_order_rejected C09_duplicates_accepted
C10 partial | False as stated: lineages that do not start at 0.0 and lineages with gaps bind (C10_gaps_accepted). The partial theorem says what is guaranteed.
  C10_shape_partial C10_gaps_accepted
C11 proved | Both directions and the error class, for an arbitrary subsumption relation.
  C11_compat_enforced C11_compatible_accepted C11_violation_error
C12 proved | Under the law that subsumption is sound for concrete data, which the concrete evaluator satisfies (setCue_subsumeSound).
  C12_validity_stable
C13 proved | Exactness, classification and precedence of errors, and which function serves which pair. C13_start_above_zero_rejected shows what happens without the 0.0 hypothesis.
  C13_go_lenses_exact C13_go_lenses_errors C13_go_lenses_stored C13_start_above_zero_rejected
C14 proved | For lenses with concrete versions.
  C14_cue_lens_order
C15 partial | False as stated: no CUE lens is ever required (general) and superfluous ones are accepted (witness). The partial theorem gives what is guaranteed.
  C15_cue_lenses_partial C15_lenses_never_required C15_wrong_lenses_accepted
C16 proved | Exact acceptance condition, totality, and error class by the first failing check. Repeated or nil Go lenses give an error outside the sentinel set.
  C16_accepts_iff C16_never_panics C16_first_failure
C17 partial | No conjunct is lost (any interpretation). Exactly-once holds without repeated conjuncts and is false with them (C17_more_than_once). Never panics if values that are only #Lineage are recognised as equal.
  C17_exactly_once_partial C17_nothing_lost C17_never_panics C17_more_than_once
C18 partial | False: ErrDuplicateLenses is never returned (general) and lenses in both places bind (witness).
  C18_duplicate_never_reported C18_both_accepted
C19 proved | Exactness for an arbitrary evaluator; the error class needs the sub-errors to have a path below the schema (otherwise C22). C19_error_only_invalidData: no other sentinel is ever matched.
  C19_validate_exact C19_validate_error C19_error_only_invalidData
C20 partial | Proved for distinct versions (and errors that can be reported, see C22). False as stated: with a repeated version ValidateAny loops for ever (general theorem and witness), or misses a validating schema (witness).
  C20_validateAny_partial C20_validateAny_diverges C20_validateAny_diverges_witness C20_validateAny_misses_witness
C21 proved | Against the declarative relation Reports; sub-errors of unknown shape are dropped (see C53).
  C21_classification
C22 partial | False as stated: C22_report_partial says exactly which paths make reporting panic (pathOk_failures lists them), C22_report_panics gives them.
  C22_report_partial C22_report_panics
C23 proved | For every list of positions.
  C23_positions_partitioned
C52 proved | Structural description of what is dropped, nothing dropped without repeats, and meaning preserved under any interpretation.
  C52_splits C52_no_repeats_nothing_dropped C52_meaning_preserved
C53 partial | False as stated: sub-errors of unknown shape are dropped (C53_unknown_dropped), so the error can be empty. The partial theorem: with known shapes all are reported.
  C53_all_reported_partial C53_unknown_dropped
C54 partial | False for every failing validation (C54_class_sentinels_never_matched), with a concrete witness.
  C54_class_sentinels_never_matched C54_witness
C24 proved | For CUE lenses, any evaluator, any lenses.
  C24_result_valid
C25 partial | Proved (as an exact characterisation against a walk over neighbours) when both versions are in majors 0-2. False beyond: translating up to major 3 stops short and translating down from it applies no lens, in every such lineage, and a concrete lineage returns wrong data.
  C25_translate_partial C25_up_wrong C25_down_wrong C25_wrong_witness
C26 partial | The index is right exactly for majors up to 2 (C26_index_exact); for larger majors it is too small, in every lineage.
  C26_index_partial C26_index_exact C26_index_wrong
C27 partial | The derived counts are right for at most three majors and can be negative beyond, so some contiguous lineages with five majors can not be bound at all (C27_uniform_rejected, C27_five_majors_rejected).
  C27_counts_partial C27_counts_exact C27_never_rejected_partial C27_uniform_rejected C27_five_majors_rejected
C28 proved | For any lineage, bound or not.
  C28_lens_guards
C29 partial | False: no lacuna is ever returned (general), with a witness that one is lost. The partial theorem: if CUE treats the dangling reference as an error, no translation with an applicable lacuna succeeds.
  C29_lacunas_partial C29_never_returned C29_lost_witness
C30 partial | False: ErrLensIncomplete and ErrLensResultIsInvalidData are not ErrInvalidLens, nor are any errors with Go lenses (C30_go_errors). The partial theorem lists all errors of the CUE path.
  C30_errors_partial C30_other_errors C30_go_errors
C31 partial | Proved for Go lenses without conditions; for CUE lenses if the data is a struct, concrete and its own default. False for non-concrete data.
  C31_own_version_partial C31_own_version_go C31_incomplete_data
C32 partial | False: with CUE lenses every unknown version panics. With Go lenses an unknown version never succeeds (general), and panics in the witness.
  C32_unknown_version_panics C32_unknown_version_panics_witness C32_go_unknown_version_fails C32_go_unknown_version_panics_witness
C55 partial | False for data that is not a struct (always panics). Proved for structs if CUE's error paths have the expected form (see C22).
  C55_returns_partial C55_panics_on_non_struct C55_panics_witness
C33 proved | Against the declarative relation GoWalk (which mapper is asked, with which schema, and what its answer leads to); termination if the mappers return. C33_stray_wrong_version shows that the contract on mappers is needed and not enforced: asked for 1.1, translation succeeds with 2.0.
  C33_go_walk C33_reaches_target C33_terminates C33_stray_wrong_version
C34 partial | False for mappers that return instances of another lineage (witness). Proved for mappers that keep to the lineage and return valid instances, with the compatibility checks in force and sound subsumption.
  C34_result_valid_partial C34_foreign_lineage
C35 proved | As an equality of outcomes including errors and panics of the mappers.
  C35_composes
C36 partial | Proved for Go lenses and AsSuccessor without conditions on mappers. With CUE lenses: proved for concrete data, checks in force, majors up to 2 and lawful embedding; false for non-concrete data and with SkipBuggyChecks (witnesses).
  C36_go_forward_minor C36_asSuccessor_minor C36_cue_forward_minor_partial C36_cue_refuted
C37 partial | False: both always panic at the ends (general). The partial theorem says what they do elsewhere.
  C37_inner_partial C37_successor_panics C37_predecessor_panics C37_ends_panic_witness
C38 partial | Invariant over all histories of Validate, ValidateAny, Translate, AsSuccessor, AsPredecessor and Examples, with mappers that return genuine instances, checks in force, and concrete examples. False without the last two (witnesses).
  C38_obtainable_genuine_partial C38_skipped_checks C38_incomplete_example
C39 proved | The first theorem says what the function does with every input, the second that the result's schema is the given one (Go lenses must return instances of the lineage).
  C39_untyped_mux C39_result_schema
C40 partial | Equal to the untyped one under the contract on Go lenses. False for Go lenses returning foreign instances (witness) and for typed schemas made from typed schemas (general).
  C40_typed_mux_partial C40_nested_panics C40_unreachable_reached
C41 proved | For any lineage, codec and Go lenses.
  C41_byte_mux C41_value_mux
C56 partial | False for lineages that do not start at 0.0 (panics) and for repeated versions (never returns), both of which bind; proved otherwise.
  C56_construction_partial C56_construction_panics C56_construction_hangs C56_construction_witnesses
C42 proved | For any evaluator and any two lineages; never panics.
  C42_append_only_exact
C43 proved | Under reflexivity and transitivity of subsumption; also for whole release histories.
  C43_reflexive C43_transitive C43_history C43_antisymmetric C43_branches
C44 proved | For lineages bound with the checks in force, without version gaps and with the same joined schema: there the versions are determined by the schemas. C57 shows that each condition is needed.
  C44_versions_keep_schemas
C48 proved | Including wrap-around of the counters (for inputs that fit in memory).
  C48_schemas_in_order C48_schema_at
C49 proved | C49_empty_sequence shows why sequences must not be empty.
  C49_required_lenses C49_lens_bodies C49_empty_sequence
C50 partial | Everything but TrimPathPrefix as claimed. TrimPathPrefix removes the common part of a prefix that does not match (general), and never trims a path of one selector.
  C50_paths_equal C50_has_prefix C50_replace_prefix C50_trim_prefix_partial C50_trim_overtrims C50_last_selector
C51 proved | For all strings.
  C51_exact C51_noop
C57 partial | False: three witnesses (renumbering with a gap, renumbering without compatibility checks, changed join). The partial theorem is what is guaranteed unconditionally.
  C57_positions_partial C57_contract_refuted
C58 proved | For all paths.
  C58_schema_relative
C59 partial | False for every reference of two or more levels, and for references without selector. Proved for references of one level.
  C59_refs_renamed_partial C59_deep_refs_kept C59_bare_refs_kept
C45 proved | Exclusion (also under panics), progress under any writer-preferring policy if CUE does not panic, and termination of all schedules.
  C45_writers_exclusive C45_bind_exclusive C45_progress C45_terminates
C46 partial | False: Translate and Hydrate evaluate outside of the lock (witness schedules). Proved for goroutines that call only BindLineage, Validate, ValidateAny, AssignableTo and NewT.
  C46_no_eval_during_write_partial C46_eval_during_write
C47 proved | Under commutation of FillPath on different paths; the bad argument named by the error may differ.
  C47_order_irrelevant C47_outcome
C60 partial | False: NewT, Value and Translate have sections without defer; the lock is then held for ever (general), with a deadlock witness. Proved for BindLineage, Validate, AssignableTo, BindType, Hydrate and Dehydrate.
  C60_panics_release_partial C60_stuck_for_ever C60_panic_leaks C60_panic_deadlocks
C61 partial | False: a closed list of one element is rejected for every array but [1]any (general, and witness); number and null are accepted although documented as not permitted. Proved: accepted exactly when the rules hold, one-element lists excepted; accepted implies the documented rules.
  C61_accepts_partial C61_sound C61_single_element_list C61_refuted C61_number_and_null_accepted
C62 proved | For schemas whose structs are closed, under the stated facts about CUE (Sem). Without closedness it fails (witness: pattern constraints are not looked at).
  C62_accepted_representable C62_refuted_open_structs
C63 partial | False: excess fields of nested Go structs are reported under their bare name (general), so that errors are merged (witness). Proved: otherwise exactly the discrepancies; nil iff none.
  C63_reports_partial C63_nil_iff_no_discrepancy C63_nested_excess_misreported C63_refuted_merged
C64 proved | For Go types without recursion whose encodings have one kind.
  C64_returns C64_verdict_unique
C65 proved | For all arguments.
  C65_arguments
C66 partial | False: Hydrate works on the #SchemaDef instead of the schema, so that no default is ever added, and version and schema are added to the data (general). Proved: it returns for data without these fields, and keeps all other fields, the schema and the name.
  C66_fields_kept_partial C66_no_default_added C66_definition_added C66_returns
C67 partial | False: nothing is ever removed, for the same reason (general). Proved: all fields, the schema and the name are kept.
  C67_nothing_removed_partial C67_no_default_removed
C68 partial | False for Hydrate wherever the schema does not allow a field version (general). Proved for Dehydrate on data without the fields version, schema, examples.
  C68_hydrated_invalid C68_dehydrated_valid_partial C68_never_errors
C69 partial | False: the document returned accepts everything (general), as the schemas are under components.schemas. Proved: each component accepts the same data if nullable occurs only at typed schemas without enum, operators or references and not below operators of typed schemas (relation Good), for any meaning of the other keywords and recursive references. Each of these conditions is needed: C69_lost_*, C69_data_rewritten.
  C69_components_equivalent_partial C69_root_accepts_everything C69_operators_untouched C69_lost_under_operators C69_lost_with_enum C69_lost_without_type C69_lost_without_type_witness C69_data_rewritten
C70 proved | For all trees.
  C70_only_openapi_changed C70_keywords
C71 proved | For all trees. C71_unknown_type: with another type, an error at the top but a panic inside.
  C71_returns C71_unknown_type
C72 partial | False for components without a type of their own, whose alternatives get $schema instead (witness). Proved for components with a type.
  C72_schema_declared_partial C72_refuted
C73 partial | False: without an argument every command fails unless standard input is a named pipe, e.g. with `thema data ... < file` (general). Proved: otherwise exactly the documented input; with an argument standard input is ignored.
  C73_input_partial C73_stdin_ignored C73_redirected_stdin_refused
C74 partial | False: with -e, every command fails on standard input and on files without a matching extension (general). Proved: whatever is accepted was decoded in the requested format.
  C74_format_respected C74_format_refused C74_stdin_unnamed
C75 partial | False: --quiet is ignored (general). Proved: success, silently, iff the schema admits the data, otherwise its problem.
  C75_validate_partial C75_quiet_ignored
C76 partial | False: without --version a failure prints the problem of the latest schema (general). Proved for distinct versions: the version printed, and failure iff no schema admits the data.
  C76_validate_any_partial C76_failure_not_silent
C77 partial | False: without --version only the latest schema is consulted (general). Proved with --version.
  C77_version_partial C77_only_latest
C78 proved | For distinct versions and no Go lenses (the command cannot bind any).
  C78_translate C78_version_required
C79 proved | For all flag values.
  C79_version_flag
C80 partial | False for a module in the root directory: it is never found, though bindings are generated for it (general). Proved otherwise.
  C80_nearest_partial C80_root_never_found C80_root_module_differs
C81 partial | False where the nearest CUE module is nameless: it hides Go modules in its directory and above (general). Proved otherwise, for module names without empty, . or .. components and readable go.mod files.
  C81_import_path C81_go_module_partial C81_nameless_hides
C82 proved | For all lists of packages.
  C82_exactly_one C82_first_error
C83 partial | False: a document is used as a format string, and changes whenever its first percent sign is followed by a verb or ends it (general). Proved for documents without percent signs; for documents where each is followed by a verb, that is exactly when.
  C83_verbatim_partial C83_percent_changed C83_verbatim_iff C172_printed
C84 partial | False: gen openapi without --format writes JSON, not YAML (general). Proved for all other flags.
  C84_default_partial C84_given C84_openapi_default
C85 partial | False: an unknown format gives empty output and status 0 (general). Proved for the known formats.
  C85_failure_partial C85_unknown_format
C86 partial | False: gen gotypes --stdout always writes the file and nothing to standard output (general). Proved for gobindings, and for gotypes without the flag, for file names without percent signs.
  C86_destination_partial C86_gotypes_stdout
C87 partial | False with LoadDir but no EmbedPath, e.g. gen gobindings --no-embed, and outside of any module (general); the help of --stdout names the wrong function (general). Proved: exactly the documented name is missing if EmbedPath and CueModName are set when LoadDir is; the plain command in a module generates a complete file.
  C87_self_contained_partial C87_fs_func_missing C87_cli C87_cli_undefined C87_cli_stdout
C88 proved | For all names and configurations.
  C88_distinct C88_exported C88_convergent
C89 partial | False for names with the same title, as foo and Foo (general). Proved for different suffixes.
  C89_share_package_partial C89_same_suffix
C90 partial | False for names with other characters, such as my-kind, and for keywords (general). Proved for names of letters, digits and underscores.
  C90_identifiers_partial C90_bad_name C90_keyword
C91 partial | Proved for the CUE path; the module name and the directory are right if and only if they have no quotation marks, backslashes and line feeds.
  C91_literals_partial
C92 partial | False for types: the name is not put in lower case, and is written to the caller's configuration, so that it is used for the next lineage (general). Proved for bindings, and for types with a configured name.
  C92_bindings C92_types_partial C92_types_default C92_types_reused
C93 partial | False: the factory panics if the lineage does not have the version (general). Proved for versions of the lineage.
  C93_target_partial C93_command_partial C93_assignee C93_unknown_version
C94 partial | False for a cue.mod without module.cue, and for names with backslashes (witnesses). Proved: no-op if module.cue exists, the frame condition, and the name if it needs no escapes.
  C94_noop C94_frame C94_name_partial C94_name_changed C94_cue_mod_not_noop
C95 partial | False in Thema's own module, where embedded files replace those of the caller (general). Proved: exactly when it fails, and the files outside of that module.
  C95_success_iff C95_files_partial C95_thema_module
C96 proved | For module names without empty, . or .. elements; such elements of directories have the usual effect.
  C96_package C96_dots
C97 partial | False for a vendored Thema, which is replaced silently (general). Proved for all other files.
  C97_disk_files_partial C97_vendored_hidden
C98 partial | False for nested paths, which are rejected unless each element is also a field of the root (general). Proved for paths of one element.
  C98_subpath_partial C98_nested_rejected
C99 partial | False: the name of the lineage is not put in title case (general). Proved: version, title and root component.
  C99_root_partial C99_not_titlecased
C100 partial | False: a definition with the name of the root shares its component name (general). Proved: the names of all other definitions.
  C100_definition_name C100_clash C176_unmarked C176_path_text
C101 partial | False: foo and #foo get two components of one name (general). Proved: each field has a component with its name.
  C101_group_partial C101_clash C176_unmarked
C102 partial | False: they are not merged, the root is there twice under one name (general). Proved: the document has the components of both.
  C102_split_partial C102_split_not_merged
C103 partial | False: NameFunc and Info are overwritten (general), and a second lineage gets other component names (witness). Proved with Group.
  C103_config_kept_partial C103_config_overwritten C103_reused_config
C104 partial | With NoOptionalPointers a recursive type with an optional field of its own type becomes invalid (general). Proved: only pointers change, which pointers go and stay, containment unchanged by default.
  C104_only_pointers C104_removed C104_default C104_recursive
C105 partial | False in general: types of constants, aliases, maps in slices and pointers in slices and maps keep the old name, which is undefined then (general); Foo_Bar and FooBar clash (general); panics without a comment (general). Proved: the declared names, and that files with names in the other positions only stay closed.
  C105_declared C105_underscores_partial C105_succeeds C105_no_comment_panics C105_clash C105_forgotten
C106 partial | False in general: a declaration to delete for two reasons takes the next one with it, all methods go (also of structs that stay), uses in some positions stay and are undefined, functions that are not methods panic (all general). Proved for the other files.
  C106_raw_partial C106_function_panics C106_methods_lost C106_dangling C106_double_deletion C106_use_lost C106_alias_dangles
C107 partial | False in general (all general): names without cased letters or digits give the empty name; a name such as /foo gives foo, which is not exported; _1 gives 1, which is no identifier. Proved: exactly which names are good.
  C107_names_partial C107_empty C107_unexported C107_digit
C108 partial | False in general: names that differ in the case of the first letter, or by a separator before a letter, clash, and so does additionalProperties beside additional properties (all general). Proved: what the fields are, and that names of letters and digits that differ otherwise stay distinct.
  C108_fields C108_distinct_partial C108_case_clash C108_separator_clash C108_refuted C108_additional_clash
C109 partial | False in general: a, A and a1 lose A (general); which value the constant for /foo and foo has depends on map iteration; values are not escaped (exact condition). Proved: all constants have allowed values, and one constant per value for good names that do not clash, or clash and are numbered, in any order of iteration.
  C109_only_allowed C109_constants_partial C109_numbered_partial C109_value_lost C109_unstable C109_literal
C110 partial | False in general: enumerations nested in maps or in alternatives, and arrays of maps, give uses of types that are not declared, and constants of types that are not declared (witnesses); of two definitions that are references and have one Go name the second is dropped (general). Proved without alternatives, with enumerations in properties only, and with allOf of references to structs; for the file before the rewritings of C105 and C106 also with alternatives and additional properties beside properties at any depth, if nothing has to be declared for an alternative or for the properties of additional properties.
  C110_closed_partial C110_definitions_partial C110_nested_enum C110_alternative_enum C110_array_of_maps C110_constants_without_type C110_reference_dropped C110_reference_dropped_file
C111 partial | False in general: optional empty arrays and maps are lost, absent nullable properties become null, numbers not of type float32 change, integers above 64 bits are unreadable, and with NoOptionalPointers zero values are lost and absent structs appear (all general); additional properties beside properties, alternatives beside properties, names such as - and /foo are lost, arrays of uint8 become strings (witnesses). Proved for the other schemas and data, recursive ones and allOf of references included.
  C111_roundtrip_partial C111_empty_array_lost C111_empty_map_lost C111_absent_becomes_null C111_no_pointers_zero_lost C111_no_pointers_struct_appears C111_number_not_float32 C111_integer_too_large C111_additional_lost C111_alternatives_lost C111_names_lost C111_bytes_become_string
C112 partial | False for names with quotation marks, backslashes, line breaks, NUL or byte order mark (exact condition): they denote another name or inject arbitrary fields (general). Proved for all others.
  C112_text_partial C112_literal_exact C112_injection C112_other_name
C113 partial | False for openapi and jsonschema (general): the flags are not checked, without --package-name there is no package, --no-package has no effect, an empty name is accepted. Proved for empty.
  C113_empty_partial C113_empty_succeeds C113_document_partial C113_package_missing C113_no_package_ignored C113_no_name
C114 partial | False for openapi (general): malformed JSON and standard input panic. Proved for the other subcommands and inputs.
  C114_no_panic_partial C114_bad_json C114_stdin
C115 partial | False if another field is called seqs: its value is replaced as well (general). Proved for all other files.
  C115_in_place_partial C115_other_field
C116 partial | False (general): a field seqs in a schema makes it recurse for ever, lacunas that are not written as a list make it panic. Proved otherwise.
  C116_ends_partial C116_schema_reported C116_endless C116_lacunas
C117 partial | False for types with TODO in the documentation: all text before it is lost (general). Proved for fields, and for types otherwise.
  C117_fields C117_types_partial C117_todo_lost C117_space_panics
C118 partial | True for one call. False for several: the name of the first lineage is written to the configuration (general).
  C118_documented C118_several_partial C118_reused
C119 partial | False in general: properties of two parts are lost, as are those of parts with an underscore in their name (all general); maps and properties named like a part are lost (witnesses). Proved for the properties that encoding/json does not hide: only they are written, and the required ones always; C111 has that their values are kept.
  C119_written_partial C119_counts C119_field_order C119_twice_lost C119_underscore_lost C119_map_lost C119_name_lost C111_roundtrip_partial
C120 partial | False in general: what members have besides an allOf of their own is lost; generation fails for defaults, for formats and flags that members do not repeat, and for additional properties of both the schema and a member; items, additionalProperties: true, anyOf and the types of members are lost (all general; lost data also as witnesses). Proved for members that have not both allOf and properties of their own: the fields are exactly those properties, and data survives what C111 asks for.
  C120_roundtrip_partial C120_fields_partial C120_nested_lost C120_nested_data_lost C120_fails C120_fails_additional C120_items_lost C120_free_lost C120_free_data_lost C120_type_lost
C121 partial | False for struct types that are not pointers: always rejected (general). Proved for pointers.
  C121_pointer_partial C121_accepted_assignable C121_struct_rejected C121_refuted
C122 partial | False: required fields with a default are overwritten with it, pointers in required fields without one are set to nil (general). Proved: the argument is unchanged if it is not assignable; optional fields and basic values without a default are kept.
  C122_refused_partial C122_kept_partial C122_overwritten C122_cleared
C123 proved | For well-formed schemas of structs, open lists and basic types, and Go types of structs, slices, pointers and basic types.
  C123_newT
C124 partial | False below optional fields and in elements of lists: Value has the data as it is, without defaults (general); a default list with structs shows through the list that replaces it if the decoder reuses slices (general in the default). Proved: no errors, and data with defaults for all other schemas.
  C124_no_error C124_value_partial C124_optional_raw C124_list_raw C124_refuted_list C124_refuted_optional C124_refuted_stale
C125 partial | False for names that CUE writes in quotation marks: the example is not found under its name (general, witness). Proved: all examples are returned, and names that need no quotation marks.
  C125_all_examples C125_name_partial C125_quoted_name C125_refuted
C126 partial | False for the data: the result of #SearchAndValidate has the schema in place of the data (general, witness). Proved for the version, for #ValidFor, and agreement with ValidateAny.
  C126_version_partial C126_validFor C126_agrees_with_go C126_data_lost C126_refuted
C127 partial | False for forward migrations: a minor upgrade is called not the successor, a jump to another major version a minor upgrade (general). Proved for all others, and that the list is exact.
  C127_listed C127_reason_partial C127_minor_upgrade C127_major_jump
C128 partial | False for appliers that add an import declaration (refused) or remove one that goimports adds again (not noticed), since the list of imports is that of the parser (general, witness). Proved for other appliers.
  C128_discovered_partial C128_failures C128_own_import_refused C128_discovery_missed C128_refuted
C129 partial | Proved for rename, for the own version of all exemplars, for narrowing downwards and with values that are clearly booleans (all strings if references to the missing field lacuna are not errors), for expand except baz downwards, and for disjunct upwards. Refuted for defaultchange, for disjunct downwards, for baz in expand, and for narrowing and defaultchange if such references are errors.
  C129_bind C129_same C129_rename C129_narrowing_partial C129_lacuna_fatal C129_defaultchange_fails C129_defaultchange_fatal C129_disjunct_down C129_disjunct_partial C129_expand_baz C130_expand_partial
C130 partial | Proved for rename and narrowing; for expand, disjunct and defaultchange where the translation succeeds at all (see C129). Refuted: the lacuna of the lens of defaultchange back to 0.0.
  C130_rename C130_narrowing C130_expand_partial C129_disjunct_partial C130_defaultchange_partial C130_defaultchange_lacuna
C131 partial | Proved for all descriptions (without NUL, which Go forbids in source files; byte order marks are removed from the text, and so from names in tags), if names in tags have no backquote and names in comments have no line break; Go names, and the names in comments that were made Go names before, are never a problem. Refuted for the other names, by general theorems and concrete schemas. Extra tags, deprecated fields and extensions are left out; what goimports makes of the text is not modelled.
  C131_comment C131_code_partial C131_reads_comment C131_reads_literal C131_names C131_name_injection C131_tag_injection C131_refuted
C132 partial | Refuted for every two calls, by a schedule that ends the program. Proved for every interleaving: a call that ends has read what it would have read alone; the program is ended only by an access to the map while another call is in its assignment; calls made one after the other all end. Accesses to variables are taken to be atomic; what a call does with what it read is a function of its arguments and these reads.
  C132_isolated_partial C132_alone C132_crash_cause C132_serial C132_refuted
C133 partial | False in three ways, each proved in general: C133_literal_changed, C133_path_ambiguous, C133_excess_value. Proved: the message has exactly one part for each problem with all it has to show, in order; every constraint replaced by the name of a type has the meaning of this type, for all numbers; alternatives without bars keep their number, order and meaning; names without dots can be told from the place. token.Pos.String is a parameter.
  C133_shows C133_types C133_readable C133_path C133_literal_changed C133_path_ambiguous C133_excess_value
C134 partial | False in three ways, each proved in general: C134_unfinished, C134_deep_ignored, C134_captured; with more than three sequences also because of C27. Proved for complete legacy lineages of at most three sequences with one schema each whose lenses use from only as in from.x: they bind, with the schemas in order and exactly the lenses needed, and translate exactly as the legacy lenses. Lenses have no lacunas; names declared inside of a lens body are not modelled.
  C134_lens_partial C134_binds_partial C134_translates_partial C134_unfinished C134_deep_ignored C134_captured
C135 proved | Error messages are not compared, only what errors.Is can tell; they list superfluous and missing lenses in an order that depends on the options.
  C135_determined C135_forced C135_skip_widens C135_skip_exact C135_skip_error C135_lens_order C135_same_behaviour
C136 proved | Adding versions may make the lineage fail to bind (C27); this is about lineages that bind.
  C136_schemas C136_validate C136_validateAny C136_translate_cue C136_translate_cue_kept C136_translate_go C136_shorter_binds C136_append_only
C137 proved | Functions that look at the name of an instance are excluded: the name is lost at the first lens.
  C137_there_and_back_up C137_there_and_back_down C137_nothing_lost
C138 partial | False: a result that is not concrete in between makes the first hop fail although the whole way succeeds (witness), and defaults are chosen at the end of each hop but not in between on the whole way (witness). Proved where the first hop succeeds and choosing defaults there changes nothing; majors from 3 on are excluded since lenses are mixed up there (C25).
  C138_hop_partial C138_incomplete_in_between C138_default_in_between
C139 proved | Codec laws are hypotheses, met by a concrete codec that normalises its input. With Go lenses the compatibility checks must have been in force and the functions must return genuine instances (otherwise C34, C38).
  C139_again_cue C139_again_go
C140 partial | False for CUE lenses within a major: AsSuccessor leaves out fields that the next schema has a default for, Translate adds them (witness). Proved for Go lenses, for AsPredecessor, across majors, and within majors where the next schema adds nothing. Exactly when they agree there is C140_successor_minor_iff (AsSuccessor also keeps the name of an example, which Translate drops). The ends panic (C37).
  C140_successor_go C140_predecessor C140_climb_go C140_descend_go C140_successor_major C140_successor_minor_partial C140_default_missing C140_successor_minor_exact C140_successor_minor_iff
C141 partial | False for data that the multiplexer's own schema does not accept but an added one does: it is translated from the newest added schema that accepts it (general), and the result can change (witness). Proved for all other inputs, with CUE lenses and with Go lenses that are still supplied.
  C141_mux_cue_partial C141_mux_go_partial C141_taken_over C141_data_changed
C142 partial | False: lenses and the name are not looked at (general, witness). Proved for Go lenses that are still supplied, under the conditions of C44; for CUE lenses see C136.
  C142_go_kept_partial C142_lenses_ignored C142_translation_changed
C143 partial | False: lineages bind without any CUE lenses and then nothing can be translated downwards (general), and lenses or Go functions may fail for valid data (witnesses). Proved: if each lens or function does its job for its two versions, every valid concrete instance can be translated to every version, and multiplexers accept all input that some schema accepts; for Go functions this is also necessary (C143_go_iff), and so it is for CUE lenses up to defaults (C143_cue_necessary); with CUE lenses for majors up to 2 (C25).
  C143_translatable_cue_partial C143_translatable_go_partial C143_go_iff C143_cue_necessary C143_mux_cue_partial C143_mux_go_partial C143_lens_missing C143_refuted
C144 partial | Proved except that schemas as written must be instances of the joinSchema (C144_refuted), and for instances obtained by translation under the conditions of C38.
  C144_valid_satisfies_join C144_obtainable_satisfies_join_partial C144_join_kept C144_written_out C144_refuted
C145 partial | What a missing version means is proved; that it is rejected is refuted by a witness.
  C145_omitted_is_zero C145_only_first C145_omitted_breaks C145_omitted_unreachable C145_refuted
C146 partial | Reports are exact and the advice works up to the schema in question; that it preserves gapless versions is refuted by a witness.
  C146_report_exact C146_advice_works C146_refuted
C147 partial | Refuted where the schema has an optional field with a default: dehydration removes it, hydration does not restore it. Proved for the functions run against a schema (instance.go hands them the #SchemaDef, see C66 and C67), with concrete data, where elements of lists are not disjunctions (C147_list_elements covers one level of those) and CUE makes lists and field iterators without errors; the round trip is for scalar fields.
  C147_hydrated_partial C147_dehydrated_partial C147_removed_fields C147_round_trip_partial C147_list_elements C147_refuted
C148 partial | Refuted: with discrepancies at two paths, calls of Error() may give different texts; and the message for a field is lost, and replaced by a false one, if a nested Go field that the schema lacks has the same name, as excess fields are recorded under their bare names. Proved: one line per recorded path, the last message recorded for it, whatever the order; the same text always if there is one path. Paths stand for their strings, messages contain no line feeds.
  C148_lines_partial C148_single_stable C148_order_varies C148_hidden
C149 partial | Refuted for instances handed to Go lenses: translateGo hands one object to all lenses of a call and overwrites it after each step, so that what a lens kept ends up as the result, an instance of another version (C149_given_changes, for all lenses, and a witness). Proved for every instance that exists when a call begins, through any sequence of calls and all outcomes; which object is returned; and that the functions over memory agree with those over values that the other properties are about. Calls do not overlap in time; lenses do not themselves assign to instances.
  C149_unchanged_partial C149_translate_keeps C149_result C149_values C149_values_steps C149_hydrate C149_given_changes C149_given_changes_witness
C150 partial | Refuted: ToExpr removes the import declarations of the schema and NewLineage imports only thema, so that a schema that uses an imported package (strings.MinRunes for minLength, list, math, time, as CUE's converters from JSON Schema and OpenAPI produce) gives a lineage that cannot be loaded; exact condition in C150_complete_iff. Proved for schemas without imports; the schema itself is kept in all cases. Syntax trees have identifiers, operators and structs.
  C150_complete_partial C150_imports_lost C150_complete_iff C150_schema C150_witness
C151 partial | Refuted: findSeqsVal does not check that the literal has a field seqs of its own, as its comment says. If the sequences come from an embedded value, the command succeeds and the lineage is not rewritten, but references in its lenses are renamed where they stand (general, and witness). If the literal is in another package (a path through a reference), or CUE has no single source for the package, it panics with "should be unreachable" (general). Proved: what is changed lies at the literal or at lens bodies; one literal with one field seqs is rewritten as in C115; at most one file is written.
  C151_replaced_partial C151_elsewhere C151_one_file C151_reported C151_not_replaced C151_not_replaced_witness C151_other_package C151_no_source
C152 proved | No assumption on the versions.
  C152_successor C152_predecessor C152_panics C152_walks_iff
C153 proved | "Never returns" means that no number of iterations is enough.
  C153_finds C153_none C153_never C153_returns_iff
C154 proved | All four kinds.
  C154_made_iff C154_otherwise
C155 proved | The exact causes for majors up to 2 and the exact lens set (beyond, steps are skipped, see C25); that the errors exclude each other and when it panics for all lineages.
  C155_error_iff C155_one_cause
C156 proved | All three as equivalences over sets of calls.
  C156_race_iff C156_leak_iff C156_deadlock_iff
C157 proved | For all lists; a witness lineage is constructed for each list that satisfies the conditions.
  C157_binds_iff C157_next_minor C157_next_major C157_three_majors
C158 proved | All cases.
  C158_own_version C158_own_version_go
C159 proved | All outcomes.
  C159_unknown_go C159_unknown_panics
C160 proved | As an equivalence.
  C160_trim_exact C160_unchanged_iff
C161 proved | For lineages with repeated versions as well.
  C161_asSuccessor C161_asPredecessor
C162 proved | A consequence of the defect shown by C13_start_above_zero_rejected, for all lineages.
  C162_first_unreachable C162_first_stuck
C163 proved | For lineages with repeated versions as well.
  C163_never_past C163_hangs C163_succeeds_iff
C164 proved | For all version lists, also with repetitions.
  C164_binds_iff C164_some_lenses_iff
C165 proved | For all version lists. Makes C26 exact for all majors.
  C165_index C165_contiguous C165_nonneg
C166 proved | With C25_translate_partial (between versions of the first three majors) this covers all translations between different versions.
  C166_up_low C166_up_high C166_down_high C166_same_major_down
C167 proved | For all bound lineages; the exact form of the violation in C08.
  C167_latestInMajor C167_latestInMajor_wraps C167_latestVersionInSequence
C168 proved | Combines C19, C21, C22, C53 and C54 into one exact statement, with the report being a function of the sub-error.
  C168_validate_outcome C168_report_determined
C169 proved | For all bound lineages; the exact form of what C79 and its neighbours state in part.
  C169_validate C169_validate_any C169_validate_any_hangs C169_hydrate C169_translate
C170 proved | Total characterisation of both searches (C80 and C81 state consequences).
  C170_mod_root C170_cue_mod
C171 proved | The exact form of C87, C89 and C92.
  C171_undefined C171_clash C171_types_package
C172 proved | The exact form of C83 to C86. Messages on standard error are abbreviated; printing with a format string is C83's model of fmt.
  C172_usage C172_documents C172_types C172_bindings C172_printed
C173 proved | The exact form of C66 and C67 for data without the definition's own fields.
  C173_hydrate C173_dehydrate
C174 proved | For any lineage that binds and any codec; that a multiplexer can be made is characterised in C154. Beside the errors of decoders, what the decoder returns is data.
  C174_untyped C174_cases C174_typed
C175 proved | For any CUE parsers, printers and converters.
  C175_prints_iff C175_panics_iff C175_fails_iff C175_deterministic
C176 proved | If CUE's encoder only asks for names within the definition it is given, and the path of the schema in its file does not start with a definition.
  C176_document C176_config C176_unmarked C176_path_text
C177 proved | The name given to AsModFS must be plain; that other names are not kept is C94.
  C177_files C177_injected C177_cli
C178 proved | If CUE quotes labels injectively and labels are distinct, as they are in a struct.
  C178_found_iff C178_names C178_own_name_iff
C179 proved | That the instance is the schema is a defect, see C126.
  C179_search_iff C179_validFor_iff C179_not_later
C180 proved | That reasons are false of some migrations is a defect, see C127.
  C180_report_iff C180_no_report_iff C180_true_iff
C181 proved | For appliers that change the list of imports see C128. Idempotence assumes idempotence of goimports.
  C181_result_iff C181_ends C181_idempotent
C182 proved | That it panics or does not end is a defect, see C116.
  C182_result_iff C182_endless_iff C182_panics_iff C182_reports_iff
C183 proved | That deeper references are left is a defect, see C59.
  C183_renamed_iff C183_left_iff C183_idempotent
C184 proved | For what is documented otherwise see C61 and C63.
  C184_accepted_iff C184_depth_iff C184_not_struct_iff C184_reported_iff C184_path_iff C184_message_iff C184_message_excess
C185 proved | For the decoders that reuse slices and those that do not. That defaults are missing below optional fields and in lists is a defect, see C124. Same schemas and types as in C121 to C124.
  C185_bound_iff C185_value
C186 proved | That names carry over is a defect, see C92 and C118.
  C186_packages C186_own_package_iff C186_roots
C187 proved | That other names are possible is a defect, see C90.
  C187_identifiers_iff C187_package_iff
C188 proved | That it panics, does not end, or writes a file in which nothing but references changed is a defect, see C116 and C151.
  C188_written_iff C188_endless_iff C188_crashes_iff C188_reported_iff C188_untouched
C189 partial | False: gen gobindings refuses --bindversion; the commands of gen, fix and bump run without -l, on the current directory, since MarkFlagRequired is called for a set of flags that does not have it; validate runs without -v; translate does not run without --to. Proved: all other flags shown are accepted, and the data commands do not run without -l.
  C189_violated C189_usage_partial
C190 proved | cobra and pflag are modelled as far as they are used; what the checks do is the subject of other claims.
  C190_ends_iff C190_no_panic
C191 proved | Exact for schemas without allOf, alternatives, and enumerations below the top; those are the subject of C108-C110.
  C191_types C191_no_panic
C192 proved | Stated positionally, without the loop and its state.
  C192_name
C193 proved | Makes C109 exact: which constants there can be in some run, and when every value has one in every run.
  C193_outcomes C193_all_iff
C194 proved | Extends C191 to enumerations in any place and to equal names. Schemas with allOf, alternatives, or additional properties beside properties are the subject of C108-C110. For elements of a path like "/foo", see the comment of pathName in Model/OGen.lean.
  C194_types C194_no_panic
C195 proved | Extends C194 to additional properties beside properties and to alternatives, with both rewritings of decorators.go at work. Embedded references come in their place, C119 says in which order; schemas in allOf, which are merged first, are the subject of C120. A property that a reference replaces is taken to be looked at (see Model/OGen.lean): it has to have a type, too. Descriptions of other types than alternatives, which replace their comments, are left out of the model.
  C195_types C195_no_panic
C196 proved | The relation Converted shares only the syntax trees with the model and describes both passes (scanning of parts, clean-up) at once; faults lists the schemas of unknown type in document order.
  C196_document C196_outcome C196_unique
C197 proved | Makes C117 exact. That the panic needs a name which the empty text does not equal up to case is a hypothesis on strings.EqualFold.
  C197_one_word C197_name C197_phrase C197_sentence C197_type C197_type_todo C197_panics
C198 proved | Makes C122 exact. As in C121-C124, any, maps, arrays, null, bytes, unmarshalers and embedded structs are left out; whether CUE's decoder reuses slices is a parameter.
  C198_after C198_unique C198_refused C198_again C198_unchanged_iff
C199 proved | Exact form of C111, for components that are Tame and the option for no pointers off. Data have no member twice. Validity is that of types, required properties and nullability: pattern, bounds and other constraints, which the Go types do not know, are left out.
  C199_becomes C199_unreadable C199_same
C200 proved | For the components of C199. Validity as in C199. That rounding twice is rounding once is a hypothesis about float32 and float64.
  C200_valid C200_stable C200_invalid
C201 proved | Exact, for each kind of error; the report on superfluous migrations lacks line feeds, so that all are on one line (C201_text_superfluous). The text is tied to the model of checkGoLensCompleteness by C201_agrees.
  C201_agrees C201_duplicate_iff C201_nil_iff C201_missing_iff C201_missing_mem C201_superfluous_iff C201_none_iff C201_text_one C201_pair_unambiguous C201_text_missing C201_text_superfluous C201_text_reason C201_reason_tells C201_text_tells
C202 proved | Exact. The text of the schema's own error is a parameter.
  C202_text_iff C202_is_error C202_unambiguous
C203 proved | Exact version of C105.
  C203_type C203_file C203_uses C203_compiles_iff C203_panics_iff
C204 proved | Exact version of C106 for files without functions that are not methods and without declarations to delete for two reasons (C106 says what happens to those).
  C204_type C204_uses C204_declared C204_closed_iff
C205 proved | Exact version of C104_recursive.
  C205_holds C205_valid_iff
C206 proved | Exact version of C133_shows.
  C206_text_iff C206_places C206_line_feed
C207 proved | Exact version of C148 in terms of the discrepancies of C63.
  C207_texts_iff C207_one_message C207_stable_iff C207_complete_iff C207_excess_iff
C208 proved | sync.Once is modelled by its source. That only one call panics if the package is invalid, while the others return a runtime (C208_invalid_returned), is not what the comment in loadRuntime says (a hard failure). CUE building one instance in several contexts at once is left out.
  C208_loaded_once C208_not_before C208_valid C208_ends C208_outcomes C208_invalid_returned
C209 partial | checkSchemasOrder is called (bind.go:91) before the schema's CUE value is kept (bind.go:95), so that its error has no position, and the error for lenses out of order is made without one (C209_order_nowhere). bind.go:360 gives a text that is formatted already as a format, so that percent signs in a lens change the message (C209_lens_garbled). Which report is made is proved exactly (C209_report_iff); what CUE answers for positions and texts is a parameter.
  C209_schemas_iff C209_lenses_iff C209_agrees C209_report_iff C209_where_partial C209_order_nowhere C209_schema_texts C209_lens_order_text C209_lens_shown_partial C209_lens_garbled C209_lens_printed
C210 partial | Each selector is looked up in the schema itself, so that a nested path that is there is named as absent (C210_named_present, as for C98). PoslistWithoutThema drops all positions in files whose names contain github.com/grafana/thema, also those of modules such as github.com/grafana/thema-kinds (C210_nowhere, C210_other_module). The report is described exactly (C210_report_iff, C210_agrees).
  C210_report_iff C210_agrees C210_text C210_text_tells C210_named_partial C210_named_present C210_where_partial C210_nowhere C210_other_module
C211 proved | For every package of exemplars; loading the embedded files is trusted. C211_six is the package as it is. C211_only_function: with THEMA_FORCEVERIFY set All panics because of defaultchange, in an evaluator whose subsumption ignores defaults, while RenameLineage returns.
  C211_returns_iff C211_panics C211_entries C211_functions C211_function_binds C211_function_absent C211_forced C211_six C211_only_function
C212 proved | For the documents of Model/OGen.lean: without extensions, discriminators and members of allOf other than references. sort.Strings is modelled as insertion; what goimports makes of the text is not modelled.
  C212_same_output C212_sorted
C213 partial | False for every lineage: #CRD reads the field seqs, which #Lineage does not have (general). Nor would it work for lineages with sequences: all schemas of a sequence give fields of one struct, with names in conflict (general), and served and storage refer to the fields that they are the values of (general). Proved: without this mistake, sequences with one schema each would give what is wanted.
  C213_no_lineage C213_minor_versions_conflict C213_only_without_schemas C213_single_partial
