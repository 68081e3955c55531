{
 "claims": [
  {
   "property": "C01",
   "status": "proved",
   "theorems": [
    "Thema.Props.C01_less_strict_total_order",
    "Thema.Props.C01_cmpSV_agrees"
   ],
   "note": "Less against lexicographic order; the CUE comparison is total, unambiguous and agrees."
  },
  {
   "property": "C02",
   "status": "partial",
   "theorems": [
    "Thema.Props.C02_roundtrip_partial",
    "Thema.Props.C02_roundtrip_fails_above_2_32",
    "Thema.Props.C02_str_injective",
    "Thema.Props.C02_str_denotes"
   ],
   "note": "The parser accepts components below 2^32 only, so the round trip holds exactly there; it is refuted for larger components (C02_roundtrip_fails_above_2_32). Injectivity and canonical form hold without bound."
  },
  {
   "property": "C03",
   "status": "proved",
   "theorems": [
    "Thema.Props.C03_parse_exact",
    "Thema.Props.C03_parse_rejects"
   ],
   "note": "Both directions against a declarative grammar."
  },
  {
   "property": "C04",
   "status": "proved",
   "theorems": [
    "Thema.Props.C04_schema_lookup",
    "Thema.Props.C04_schemaP"
   ],
   "note": "Lookup is exact for every bound lineage, including duplicated versions."
  },
  {
   "property": "C05",
   "status": "proved",
   "theorems": [
    "Thema.Props.C05_first_latest_all"
   ],
   "note": "For every bound lineage."
  },
  {
   "property": "C06",
   "status": "proved",
   "theorems": [
    "Thema.Props.C06_neighbours",
    "Thema.Props.C06_inverse",
    "Thema.Props.C06_no_version_between",
    "Thema.Props.C06_iteration"
   ],
   "note": "For distinct versions starting at 0.0."
  },
  {
   "property": "C07",
   "status": "partial",
   "theorems": [
    "Thema.Props.C07_predecessor_partial",
    "Thema.Props.C07_predecessor_panics",
    "Thema.Props.C07_predecessor_panics_witness"
   ],
   "note": "False as stated: for every bound lineage whose first version is not 0.0 Predecessor of the first schema panics (C07_predecessor_panics, with a concrete witness). C07_predecessor_partial gives the claim for lineages that start at 0.0."
  },
  {
   "property": "C08",
   "status": "partial",
   "theorems": [
    "Thema.Props.C08_latestInMajor_refuted",
    "Thema.Props.C08_latestInMajor_never_in_major",
    "Thema.Props.C08_latestVersionInSequence_refuted"
   ],
   "note": "False for every lineage: LatestInMajor never returns a schema of the receiver's major (C08_latestInMajor_never_in_major); it panics in the last major. LatestVersionInSequence shares the defect."
  },
  {
   "property": "C09",
   "status": "partial",
   "theorems": [
    "Thema.Props.C09_versions_sorted_partial",
    "Thema.Props.C09_out_of_order_rejected",
    "Thema.Props.C09_duplicates_accepted"
   ],
   "note": "Versions are non-decreasing and an out-of-order list is rejected (ErrInvalidSchemasOrder, unless a compatibility violation is met first). False as stated: repeated versions bind (C09_duplicates_accepted)."
  },
  {
   "property": "C10",
   "status": "partial",
   "theorems": [
    "Thema.Props.C10_shape_partial",
    "Thema.Props.C10_gaps_accepted"
   ],
   "note": "False as stated: lineages that do not start at 0.0 and lineages with gaps bind (C10_gaps_accepted). The partial theorem says what is guaranteed."
  },
  {
   "property": "C11",
   "status": "proved",
   "theorems": [
    "Thema.Props.C11_compat_enforced",
    "Thema.Props.C11_compatible_accepted",
    "Thema.Props.C11_violation_error"
   ],
   "note": "Both directions and the error class, for an arbitrary subsumption relation."
  },
  {
   "property": "C12",
   "status": "proved",
   "theorems": [
    "Thema.Props.C12_validity_stable"
   ],
   "note": "Under the law that subsumption is sound for concrete data, which the concrete evaluator satisfies (setCue_subsumeSound)."
  },
  {
   "property": "C13",
   "status": "proved",
   "theorems": [
    "Thema.Props.C13_go_lenses_exact",
    "Thema.Props.C13_go_lenses_errors",
    "Thema.Props.C13_go_lenses_stored",
    "Thema.Props.C13_start_above_zero_rejected"
   ],
   "note": "Exactness, classification and precedence of errors, and which function serves which pair. C13_start_above_zero_rejected shows what happens without the 0.0 hypothesis."
  },
  {
   "property": "C14",
   "status": "proved",
   "theorems": [
    "Thema.Props.C14_cue_lens_order"
   ],
   "note": "For lenses with concrete versions."
  },
  {
   "property": "C15",
   "status": "partial",
   "theorems": [
    "Thema.Props.C15_cue_lenses_partial",
    "Thema.Props.C15_lenses_never_required",
    "Thema.Props.C15_wrong_lenses_accepted"
   ],
   "note": "False as stated: no CUE lens is ever required (general) and superfluous ones are accepted (witness). The partial theorem gives what is guaranteed."
  },
  {
   "property": "C16",
   "status": "proved",
   "theorems": [
    "Thema.Props.C16_accepts_iff",
    "Thema.Props.C16_never_panics",
    "Thema.Props.C16_first_failure"
   ],
   "note": "Exact acceptance condition, totality, and error class by the first failing check. Repeated or nil Go lenses give an error outside the sentinel set."
  },
  {
   "property": "C17",
   "status": "partial",
   "theorems": [
    "Thema.Props.C17_exactly_once_partial",
    "Thema.Props.C17_nothing_lost",
    "Thema.Props.C17_never_panics",
    "Thema.Props.C17_more_than_once"
   ],
   "note": "No conjunct is lost (any interpretation). Exactly-once holds without repeated conjuncts and is false with them (C17_more_than_once). Never panics if values that are only #Lineage are recognised as equal."
  },
  {
   "property": "C18",
   "status": "partial",
   "theorems": [
    "Thema.Props.C18_duplicate_never_reported",
    "Thema.Props.C18_both_accepted"
   ],
   "note": "False: ErrDuplicateLenses is never returned (general) and lenses in both places bind (witness)."
  },
  {
   "property": "C19",
   "status": "proved",
   "theorems": [
    "Thema.Props.C19_validate_exact",
    "Thema.Props.C19_validate_error",
    "Thema.Props.C19_error_only_invalidData"
   ],
   "note": "Exactness for an arbitrary evaluator; the error class needs the sub-errors to have a path below the schema (otherwise C22). C19_error_only_invalidData: no other sentinel is ever matched."
  },
  {
   "property": "C20",
   "status": "partial",
   "theorems": [
    "Thema.Props.C20_validateAny_partial",
    "Thema.Props.C20_validateAny_diverges",
    "Thema.Props.C20_validateAny_diverges_witness",
    "Thema.Props.C20_validateAny_misses_witness"
   ],
   "note": "Proved for distinct versions (and errors that can be reported, see C22). False as stated: with a repeated version ValidateAny loops for ever (general theorem and witness), or misses a validating schema (witness)."
  },
  {
   "property": "C21",
   "status": "proved",
   "theorems": [
    "Thema.Props.C21_classification"
   ],
   "note": "Against the declarative relation Reports; sub-errors of unknown shape are dropped (see C53)."
  },
  {
   "property": "C22",
   "status": "partial",
   "theorems": [
    "Thema.Props.C22_report_partial",
    "Thema.Props.C22_report_panics"
   ],
   "note": "False as stated: C22_report_partial says exactly which paths make reporting panic (pathOk_failures lists them), C22_report_panics gives them."
  },
  {
   "property": "C23",
   "status": "proved",
   "theorems": [
    "Thema.Props.C23_positions_partitioned"
   ],
   "note": "For every list of positions."
  },
  {
   "property": "C52",
   "status": "proved",
   "theorems": [
    "Thema.Props.C52_splits",
    "Thema.Props.C52_no_repeats_nothing_dropped",
    "Thema.Props.C52_meaning_preserved"
   ],
   "note": "Structural description of what is dropped, nothing dropped without repeats, and meaning preserved under any interpretation."
  },
  {
   "property": "C53",
   "status": "partial",
   "theorems": [
    "Thema.Props.C53_all_reported_partial",
    "Thema.Props.C53_unknown_dropped"
   ],
   "note": "False as stated: sub-errors of unknown shape are dropped (C53_unknown_dropped), so the error can be empty. The partial theorem: with known shapes all are reported."
  },
  {
   "property": "C54",
   "status": "partial",
   "theorems": [
    "Thema.Props.C54_class_sentinels_never_matched",
    "Thema.Props.C54_witness"
   ],
   "note": "False for every failing validation (C54_class_sentinels_never_matched), with a concrete witness."
  },
  {
   "property": "C24",
   "status": "proved",
   "theorems": [
    "Thema.Props.C24_result_valid"
   ],
   "note": "For CUE lenses, any evaluator, any lenses."
  },
  {
   "property": "C25",
   "status": "partial",
   "theorems": [
    "Thema.Props.C25_translate_partial",
    "Thema.Props.C25_up_wrong",
    "Thema.Props.C25_down_wrong",
    "Thema.Props.C25_wrong_witness"
   ],
   "note": "Proved (as an exact characterisation against a walk over neighbours) when both versions are in majors 0-2. False beyond: translating up to major 3 stops short and translating down from it applies no lens, in every such lineage, and a concrete lineage returns wrong data."
  },
  {
   "property": "C26",
   "status": "partial",
   "theorems": [
    "Thema.Props.C26_index_partial",
    "Thema.Props.C26_index_exact",
    "Thema.Props.C26_index_wrong"
   ],
   "note": "The index is right exactly for majors up to 2 (C26_index_exact); for larger majors it is too small, in every lineage."
  },
  {
   "property": "C27",
   "status": "partial",
   "theorems": [
    "Thema.Props.C27_counts_partial",
    "Thema.Props.C27_counts_exact",
    "Thema.Props.C27_never_rejected_partial",
    "Thema.Props.C27_uniform_rejected",
    "Thema.Props.C27_five_majors_rejected"
   ],
   "note": "The derived counts are right for at most three majors and can be negative beyond, so some contiguous lineages with five majors can not be bound at all (C27_uniform_rejected, C27_five_majors_rejected)."
  },
  {
   "property": "C28",
   "status": "proved",
   "theorems": [
    "Thema.Props.C28_lens_guards"
   ],
   "note": "For any lineage, bound or not."
  },
  {
   "property": "C29",
   "status": "partial",
   "theorems": [
    "Thema.Props.C29_lacunas_partial",
    "Thema.Props.C29_never_returned",
    "Thema.Props.C29_lost_witness"
   ],
   "note": "False: no lacuna is ever returned (general), with a witness that one is lost. The partial theorem: if CUE treats the dangling reference as an error, no translation with an applicable lacuna succeeds."
  },
  {
   "property": "C30",
   "status": "partial",
   "theorems": [
    "Thema.Props.C30_errors_partial",
    "Thema.Props.C30_other_errors",
    "Thema.Props.C30_go_errors"
   ],
   "note": "False: ErrLensIncomplete and ErrLensResultIsInvalidData are not ErrInvalidLens, nor are any errors with Go lenses (C30_go_errors). The partial theorem lists all errors of the CUE path."
  },
  {
   "property": "C31",
   "status": "partial",
   "theorems": [
    "Thema.Props.C31_own_version_partial",
    "Thema.Props.C31_own_version_go",
    "Thema.Props.C31_incomplete_data"
   ],
   "note": "Proved for Go lenses without conditions; for CUE lenses if the data is a struct, concrete and its own default. False for non-concrete data."
  },
  {
   "property": "C32",
   "status": "partial",
   "theorems": [
    "Thema.Props.C32_unknown_version_panics",
    "Thema.Props.C32_unknown_version_panics_witness",
    "Thema.Props.C32_go_unknown_version_fails",
    "Thema.Props.C32_go_unknown_version_panics_witness"
   ],
   "note": "False: with CUE lenses every unknown version panics. With Go lenses an unknown version never succeeds (general), and panics in the witness."
  },
  {
   "property": "C55",
   "status": "partial",
   "theorems": [
    "Thema.Props.C55_returns_partial",
    "Thema.Props.C55_panics_on_non_struct",
    "Thema.Props.C55_panics_witness"
   ],
   "note": "False for data that is not a struct (always panics). Proved for structs if CUE's error paths have the expected form (see C22)."
  },
  {
   "property": "C33",
   "status": "proved",
   "theorems": [
    "Thema.Props.C33_go_walk",
    "Thema.Props.C33_reaches_target",
    "Thema.Props.C33_terminates",
    "Thema.Props.C33_stray_wrong_version"
   ],
   "note": "Against the declarative relation GoWalk (which mapper is asked, with which schema, and what its answer leads to); termination if the mappers return. C33_stray_wrong_version shows that the contract on mappers is needed and not enforced: asked for 1.1, translation succeeds with 2.0."
  },
  {
   "property": "C34",
   "status": "partial",
   "theorems": [
    "Thema.Props.C34_result_valid_partial",
    "Thema.Props.C34_foreign_lineage"
   ],
   "note": "False for mappers that return instances of another lineage (witness). Proved for mappers that keep to the lineage and return valid instances, with the compatibility checks in force and sound subsumption."
  },
  {
   "property": "C35",
   "status": "proved",
   "theorems": [
    "Thema.Props.C35_composes"
   ],
   "note": "As an equality of outcomes including errors and panics of the mappers."
  },
  {
   "property": "C36",
   "status": "partial",
   "theorems": [
    "Thema.Props.C36_go_forward_minor",
    "Thema.Props.C36_asSuccessor_minor",
    "Thema.Props.C36_cue_forward_minor_partial",
    "Thema.Props.C36_cue_refuted"
   ],
   "note": "Proved for Go lenses and AsSuccessor without conditions on mappers. With CUE lenses: proved for concrete data, checks in force, majors up to 2 and lawful embedding; false for non-concrete data and with SkipBuggyChecks (witnesses)."
  },
  {
   "property": "C37",
   "status": "partial",
   "theorems": [
    "Thema.Props.C37_inner_partial",
    "Thema.Props.C37_successor_panics",
    "Thema.Props.C37_predecessor_panics",
    "Thema.Props.C37_ends_panic_witness"
   ],
   "note": "False: both always panic at the ends (general). The partial theorem says what they do elsewhere."
  },
  {
   "property": "C38",
   "status": "partial",
   "theorems": [
    "Thema.Props.C38_obtainable_genuine_partial",
    "Thema.Props.C38_skipped_checks",
    "Thema.Props.C38_incomplete_example"
   ],
   "note": "Invariant over all histories of Validate, ValidateAny, Translate, AsSuccessor, AsPredecessor and Examples, with mappers that return genuine instances, checks in force, and concrete examples. False without the last two (witnesses)."
  },
  {
   "property": "C39",
   "status": "proved",
   "theorems": [
    "Thema.Props.C39_untyped_mux",
    "Thema.Props.C39_result_schema"
   ],
   "note": "The first theorem says what the function does with every input, the second that the result's schema is the given one (Go lenses must return instances of the lineage)."
  },
  {
   "property": "C40",
   "status": "partial",
   "theorems": [
    "Thema.Props.C40_typed_mux_partial",
    "Thema.Props.C40_nested_panics",
    "Thema.Props.C40_unreachable_reached"
   ],
   "note": "Equal to the untyped one under the contract on Go lenses. False for Go lenses returning foreign instances (witness) and for typed schemas made from typed schemas (general)."
  },
  {
   "property": "C41",
   "status": "proved",
   "theorems": [
    "Thema.Props.C41_byte_mux",
    "Thema.Props.C41_value_mux"
   ],
   "note": "For any lineage, codec and Go lenses."
  },
  {
   "property": "C56",
   "status": "partial",
   "theorems": [
    "Thema.Props.C56_construction_partial",
    "Thema.Props.C56_construction_panics",
    "Thema.Props.C56_construction_hangs",
    "Thema.Props.C56_construction_witnesses"
   ],
   "note": "False for lineages that do not start at 0.0 (panics) and for repeated versions (never returns), both of which bind; proved otherwise."
  },
  {
   "property": "C42",
   "status": "proved",
   "theorems": [
    "Thema.Props.C42_append_only_exact"
   ],
   "note": "For any evaluator and any two lineages; never panics."
  },
  {
   "property": "C43",
   "status": "proved",
   "theorems": [
    "Thema.Props.C43_reflexive",
    "Thema.Props.C43_transitive",
    "Thema.Props.C43_history",
    "Thema.Props.C43_antisymmetric",
    "Thema.Props.C43_branches"
   ],
   "note": "Under reflexivity and transitivity of subsumption; also for whole release histories."
  },
  {
   "property": "C44",
   "status": "proved",
   "theorems": [
    "Thema.Props.C44_versions_keep_schemas"
   ],
   "note": "For lineages bound with the checks in force, without version gaps and with the same joined schema: there the versions are determined by the schemas. C57 shows that each condition is needed."
  },
  {
   "property": "C48",
   "status": "proved",
   "theorems": [
    "Thema.Props.C48_schemas_in_order",
    "Thema.Props.C48_schema_at"
   ],
   "note": "Including wrap-around of the counters (for inputs that fit in memory)."
  },
  {
   "property": "C49",
   "status": "proved",
   "theorems": [
    "Thema.Props.C49_required_lenses",
    "Thema.Props.C49_lens_bodies",
    "Thema.Props.C49_empty_sequence"
   ],
   "note": "C49_empty_sequence shows why sequences must not be empty."
  },
  {
   "property": "C50",
   "status": "partial",
   "theorems": [
    "Thema.Props.C50_paths_equal",
    "Thema.Props.C50_has_prefix",
    "Thema.Props.C50_replace_prefix",
    "Thema.Props.C50_trim_prefix_partial",
    "Thema.Props.C50_trim_overtrims",
    "Thema.Props.C50_last_selector"
   ],
   "note": "Everything but TrimPathPrefix as claimed. TrimPathPrefix removes the common part of a prefix that does not match (general), and never trims a path of one selector."
  },
  {
   "property": "C51",
   "status": "proved",
   "theorems": [
    "Thema.Props.C51_exact",
    "Thema.Props.C51_noop"
   ],
   "note": "For all strings."
  },
  {
   "property": "C57",
   "status": "partial",
   "theorems": [
    "Thema.Props.C57_positions_partial",
    "Thema.Props.C57_contract_refuted"
   ],
   "note": "False: three witnesses (renumbering with a gap, renumbering without compatibility checks, changed join). The partial theorem is what is guaranteed unconditionally."
  },
  {
   "property": "C58",
   "status": "proved",
   "theorems": [
    "Thema.Props.C58_schema_relative"
   ],
   "note": "For all paths."
  },
  {
   "property": "C59",
   "status": "partial",
   "theorems": [
    "Thema.Props.C59_refs_renamed_partial",
    "Thema.Props.C59_deep_refs_kept",
    "Thema.Props.C59_bare_refs_kept"
   ],
   "note": "False for every reference of two or more levels, and for references without selector. Proved for references of one level."
  },
  {
   "property": "C45",
   "status": "proved",
   "theorems": [
    "Thema.Props.C45_writers_exclusive",
    "Thema.Props.C45_bind_exclusive",
    "Thema.Props.C45_progress",
    "Thema.Props.C45_terminates"
   ],
   "note": "Exclusion (also under panics), progress under any writer-preferring policy if CUE does not panic, and termination of all schedules."
  },
  {
   "property": "C46",
   "status": "partial",
   "theorems": [
    "Thema.Props.C46_no_eval_during_write_partial",
    "Thema.Props.C46_eval_during_write"
   ],
   "note": "False: Translate and Hydrate evaluate outside of the lock (witness schedules). Proved for goroutines that call only BindLineage, Validate, ValidateAny, AssignableTo and NewT."
  },
  {
   "property": "C47",
   "status": "proved",
   "theorems": [
    "Thema.Props.C47_order_irrelevant",
    "Thema.Props.C47_outcome"
   ],
   "note": "Under commutation of FillPath on different paths; the bad argument named by the error may differ."
  },
  {
   "property": "C60",
   "status": "partial",
   "theorems": [
    "Thema.Props.C60_panics_release_partial",
    "Thema.Props.C60_stuck_for_ever",
    "Thema.Props.C60_panic_leaks",
    "Thema.Props.C60_panic_deadlocks"
   ],
   "note": "False: NewT, Value and Translate have sections without defer; the lock is then held for ever (general), with a deadlock witness. Proved for BindLineage, Validate, AssignableTo, BindType, Hydrate and Dehydrate."
  },
  {
   "property": "C61",
   "status": "partial",
   "theorems": [
    "Thema.Props.C61_accepts_partial",
    "Thema.Props.C61_sound",
    "Thema.Props.C61_single_element_list",
    "Thema.Props.C61_refuted",
    "Thema.Props.C61_number_and_null_accepted"
   ],
   "note": "False: a closed list of one element is rejected for every array but [1]any (general, and witness); number and null are accepted although documented as not permitted. Proved: accepted exactly when the rules hold, one-element lists excepted; accepted implies the documented rules."
  },
  {
   "property": "C62",
   "status": "proved",
   "theorems": [
    "Thema.Props.C62_accepted_representable",
    "Thema.Props.C62_refuted_open_structs"
   ],
   "note": "For schemas whose structs are closed, under the stated facts about CUE (Sem). Without closedness it fails (witness: pattern constraints are not looked at)."
  },
  {
   "property": "C63",
   "status": "partial",
   "theorems": [
    "Thema.Props.C63_reports_partial",
    "Thema.Props.C63_nil_iff_no_discrepancy",
    "Thema.Props.C63_nested_excess_misreported",
    "Thema.Props.C63_refuted_merged"
   ],
   "note": "False: excess fields of nested Go structs are reported under their bare name (general), so that errors are merged (witness). Proved: otherwise exactly the discrepancies; nil iff none."
  },
  {
   "property": "C64",
   "status": "proved",
   "theorems": [
    "Thema.Props.C64_returns",
    "Thema.Props.C64_verdict_unique"
   ],
   "note": "For Go types without recursion whose encodings have one kind."
  },
  {
   "property": "C65",
   "status": "proved",
   "theorems": [
    "Thema.Props.C65_arguments"
   ],
   "note": "For all arguments."
  },
  {
   "property": "C66",
   "status": "partial",
   "theorems": [
    "Thema.Props.C66_fields_kept_partial",
    "Thema.Props.C66_no_default_added",
    "Thema.Props.C66_definition_added",
    "Thema.Props.C66_returns"
   ],
   "note": "False: Hydrate works on the #SchemaDef instead of the schema, so that no default is ever added, and version and schema are added to the data (general). Proved: it returns for data without these fields, and keeps all other fields, the schema and the name."
  },
  {
   "property": "C67",
   "status": "partial",
   "theorems": [
    "Thema.Props.C67_nothing_removed_partial",
    "Thema.Props.C67_no_default_removed"
   ],
   "note": "False: nothing is ever removed, for the same reason (general). Proved: all fields, the schema and the name are kept."
  },
  {
   "property": "C68",
   "status": "partial",
   "theorems": [
    "Thema.Props.C68_hydrated_invalid",
    "Thema.Props.C68_dehydrated_valid_partial",
    "Thema.Props.C68_never_errors"
   ],
   "note": "False for Hydrate wherever the schema does not allow a field version (general). Proved for Dehydrate on data without the fields version, schema, examples."
  },
  {
   "property": "C69",
   "status": "partial",
   "theorems": [
    "Thema.Props.C69_components_equivalent_partial",
    "Thema.Props.C69_root_accepts_everything",
    "Thema.Props.C69_operators_untouched",
    "Thema.Props.C69_lost_under_operators",
    "Thema.Props.C69_lost_with_enum",
    "Thema.Props.C69_lost_without_type",
    "Thema.Props.C69_lost_without_type_witness",
    "Thema.Props.C69_data_rewritten"
   ],
   "note": "False: the document returned accepts everything (general), as the schemas are under components.schemas. Proved: each component accepts the same data if nullable occurs only at typed schemas without enum, operators or references and not below operators of typed schemas (relation Good), for any meaning of the other keywords and recursive references. Each of these conditions is needed: C69_lost_*, C69_data_rewritten."
  },
  {
   "property": "C70",
   "status": "proved",
   "theorems": [
    "Thema.Props.C70_only_openapi_changed",
    "Thema.Props.C70_keywords"
   ],
   "note": "For all trees."
  },
  {
   "property": "C71",
   "status": "proved",
   "theorems": [
    "Thema.Props.C71_returns",
    "Thema.Props.C71_unknown_type"
   ],
   "note": "For all trees. C71_unknown_type: with another type, an error at the top but a panic inside."
  },
  {
   "property": "C72",
   "status": "partial",
   "theorems": [
    "Thema.Props.C72_schema_declared_partial",
    "Thema.Props.C72_refuted"
   ],
   "note": "False for components without a type of their own, whose alternatives get $schema instead (witness). Proved for components with a type."
  },
  {
   "property": "C73",
   "status": "partial",
   "theorems": [
    "Thema.Props.C73_input_partial",
    "Thema.Props.C73_stdin_ignored",
    "Thema.Props.C73_redirected_stdin_refused"
   ],
   "note": "False: without an argument every command fails unless standard input is a named pipe, e.g. with `thema data ... < file` (general). Proved: otherwise exactly the documented input; with an argument standard input is ignored."
  },
  {
   "property": "C74",
   "status": "partial",
   "theorems": [
    "Thema.Props.C74_format_respected",
    "Thema.Props.C74_format_refused",
    "Thema.Props.C74_stdin_unnamed"
   ],
   "note": "False: with -e, every command fails on standard input and on files without a matching extension (general). Proved: whatever is accepted was decoded in the requested format."
  },
  {
   "property": "C75",
   "status": "partial",
   "theorems": [
    "Thema.Props.C75_validate_partial",
    "Thema.Props.C75_quiet_ignored"
   ],
   "note": "False: --quiet is ignored (general). Proved: success, silently, iff the schema admits the data, otherwise its problem."
  },
  {
   "property": "C76",
   "status": "partial",
   "theorems": [
    "Thema.Props.C76_validate_any_partial",
    "Thema.Props.C76_failure_not_silent"
   ],
   "note": "False: without --version a failure prints the problem of the latest schema (general). Proved for distinct versions: the version printed, and failure iff no schema admits the data."
  },
  {
   "property": "C77",
   "status": "partial",
   "theorems": [
    "Thema.Props.C77_version_partial",
    "Thema.Props.C77_only_latest"
   ],
   "note": "False: without --version only the latest schema is consulted (general). Proved with --version."
  },
  {
   "property": "C78",
   "status": "proved",
   "theorems": [
    "Thema.Props.C78_translate",
    "Thema.Props.C78_version_required"
   ],
   "note": "For distinct versions and no Go lenses (the command cannot bind any)."
  },
  {
   "property": "C79",
   "status": "proved",
   "theorems": [
    "Thema.Props.C79_version_flag"
   ],
   "note": "For all flag values."
  },
  {
   "property": "C80",
   "status": "partial",
   "theorems": [
    "Thema.Props.C80_nearest_partial",
    "Thema.Props.C80_root_never_found",
    "Thema.Props.C80_root_module_differs"
   ],
   "note": "False for a module in the root directory: it is never found, though bindings are generated for it (general). Proved otherwise."
  },
  {
   "property": "C81",
   "status": "partial",
   "theorems": [
    "Thema.Props.C81_import_path",
    "Thema.Props.C81_go_module_partial",
    "Thema.Props.C81_nameless_hides"
   ],
   "note": "False where the nearest CUE module is nameless: it hides Go modules in its directory and above (general). Proved otherwise, for module names without empty, . or .. components and readable go.mod files."
  },
  {
   "property": "C82",
   "status": "proved",
   "theorems": [
    "Thema.Props.C82_exactly_one",
    "Thema.Props.C82_first_error"
   ],
   "note": "For all lists of packages."
  },
  {
   "property": "C83",
   "status": "partial",
   "theorems": [
    "Thema.Props.C83_verbatim_partial",
    "Thema.Props.C83_percent_changed",
    "Thema.Props.C83_verbatim_iff",
    "Thema.Props.C172_printed"
   ],
   "note": "False: a document is used as a format string, and changes whenever its first percent sign is followed by a verb or ends it (general). Proved for documents without percent signs; for documents where each is followed by a verb, that is exactly when."
  },
  {
   "property": "C84",
   "status": "partial",
   "theorems": [
    "Thema.Props.C84_default_partial",
    "Thema.Props.C84_given",
    "Thema.Props.C84_openapi_default"
   ],
   "note": "False: gen openapi without --format writes JSON, not YAML (general). Proved for all other flags."
  },
  {
   "property": "C85",
   "status": "partial",
   "theorems": [
    "Thema.Props.C85_failure_partial",
    "Thema.Props.C85_unknown_format"
   ],
   "note": "False: an unknown format gives empty output and status 0 (general). Proved for the known formats."
  },
  {
   "property": "C86",
   "status": "partial",
   "theorems": [
    "Thema.Props.C86_destination_partial",
    "Thema.Props.C86_gotypes_stdout"
   ],
   "note": "False: gen gotypes --stdout always writes the file and nothing to standard output (general). Proved for gobindings, and for gotypes without the flag, for file names without percent signs."
  },
  {
   "property": "C87",
   "status": "partial",
   "theorems": [
    "Thema.Props.C87_self_contained_partial",
    "Thema.Props.C87_fs_func_missing",
    "Thema.Props.C87_cli",
    "Thema.Props.C87_cli_undefined",
    "Thema.Props.C87_cli_stdout"
   ],
   "note": "False with LoadDir but no EmbedPath, e.g. gen gobindings --no-embed, and outside of any module (general); the help of --stdout names the wrong function (general). Proved: exactly the documented name is missing if EmbedPath and CueModName are set when LoadDir is; the plain command in a module generates a complete file."
  },
  {
   "property": "C88",
   "status": "proved",
   "theorems": [
    "Thema.Props.C88_distinct",
    "Thema.Props.C88_exported",
    "Thema.Props.C88_convergent"
   ],
   "note": "For all names and configurations."
  },
  {
   "property": "C89",
   "status": "partial",
   "theorems": [
    "Thema.Props.C89_share_package_partial",
    "Thema.Props.C89_same_suffix"
   ],
   "note": "False for names with the same title, as foo and Foo (general). Proved for different suffixes."
  },
  {
   "property": "C90",
   "status": "partial",
   "theorems": [
    "Thema.Props.C90_identifiers_partial",
    "Thema.Props.C90_bad_name",
    "Thema.Props.C90_keyword"
   ],
   "note": "False for names with other characters, such as my-kind, and for keywords (general). Proved for names of letters, digits and underscores."
  },
  {
   "property": "C91",
   "status": "partial",
   "theorems": [
    "Thema.Props.C91_literals_partial"
   ],
   "note": "Proved for the CUE path; the module name and the directory are right if and only if they have no quotation marks, backslashes and line feeds."
  },
  {
   "property": "C92",
   "status": "partial",
   "theorems": [
    "Thema.Props.C92_bindings",
    "Thema.Props.C92_types_partial",
    "Thema.Props.C92_types_default",
    "Thema.Props.C92_types_reused"
   ],
   "note": "False for types: the name is not put in lower case, and is written to the caller's configuration, so that it is used for the next lineage (general). Proved for bindings, and for types with a configured name."
  },
  {
   "property": "C93",
   "status": "partial",
   "theorems": [
    "Thema.Props.C93_target_partial",
    "Thema.Props.C93_command_partial",
    "Thema.Props.C93_assignee",
    "Thema.Props.C93_unknown_version"
   ],
   "note": "False: the factory panics if the lineage does not have the version (general). Proved for versions of the lineage."
  },
  {
   "property": "C94",
   "status": "partial",
   "theorems": [
    "Thema.Props.C94_noop",
    "Thema.Props.C94_frame",
    "Thema.Props.C94_name_partial",
    "Thema.Props.C94_name_changed",
    "Thema.Props.C94_cue_mod_not_noop"
   ],
   "note": "False for a cue.mod without module.cue, and for names with backslashes (witnesses). Proved: no-op if module.cue exists, the frame condition, and the name if it needs no escapes."
  },
  {
   "property": "C95",
   "status": "partial",
   "theorems": [
    "Thema.Props.C95_success_iff",
    "Thema.Props.C95_files_partial",
    "Thema.Props.C95_thema_module"
   ],
   "note": "False in Thema's own module, where embedded files replace those of the caller (general). Proved: exactly when it fails, and the files outside of that module."
  },
  {
   "property": "C96",
   "status": "proved",
   "theorems": [
    "Thema.Props.C96_package",
    "Thema.Props.C96_dots"
   ],
   "note": "For module names without empty, . or .. elements; such elements of directories have the usual effect."
  },
  {
   "property": "C97",
   "status": "partial",
   "theorems": [
    "Thema.Props.C97_disk_files_partial",
    "Thema.Props.C97_vendored_hidden"
   ],
   "note": "False for a vendored Thema, which is replaced silently (general). Proved for all other files."
  },
  {
   "property": "C98",
   "status": "partial",
   "theorems": [
    "Thema.Props.C98_subpath_partial",
    "Thema.Props.C98_nested_rejected"
   ],
   "note": "False for nested paths, which are rejected unless each element is also a field of the root (general). Proved for paths of one element."
  },
  {
   "property": "C99",
   "status": "partial",
   "theorems": [
    "Thema.Props.C99_root_partial",
    "Thema.Props.C99_not_titlecased"
   ],
   "note": "False: the name of the lineage is not put in title case (general). Proved: version, title and root component."
  },
  {
   "property": "C100",
   "status": "partial",
   "theorems": [
    "Thema.Props.C100_definition_name",
    "Thema.Props.C100_clash",
    "Thema.Props.C176_unmarked",
    "Thema.Props.C176_path_text"
   ],
   "note": "False: a definition with the name of the root shares its component name (general). Proved: the names of all other definitions."
  },
  {
   "property": "C101",
   "status": "partial",
   "theorems": [
    "Thema.Props.C101_group_partial",
    "Thema.Props.C101_clash",
    "Thema.Props.C176_unmarked"
   ],
   "note": "False: foo and #foo get two components of one name (general). Proved: each field has a component with its name."
  },
  {
   "property": "C102",
   "status": "partial",
   "theorems": [
    "Thema.Props.C102_split_partial",
    "Thema.Props.C102_split_not_merged"
   ],
   "note": "False: they are not merged, the root is there twice under one name (general). Proved: the document has the components of both."
  },
  {
   "property": "C103",
   "status": "partial",
   "theorems": [
    "Thema.Props.C103_config_kept_partial",
    "Thema.Props.C103_config_overwritten",
    "Thema.Props.C103_reused_config"
   ],
   "note": "False: NameFunc and Info are overwritten (general), and a second lineage gets other component names (witness). Proved with Group."
  },
  {
   "property": "C104",
   "status": "partial",
   "theorems": [
    "Thema.Props.C104_only_pointers",
    "Thema.Props.C104_removed",
    "Thema.Props.C104_default",
    "Thema.Props.C104_recursive"
   ],
   "note": "With NoOptionalPointers a recursive type with an optional field of its own type becomes invalid (general). Proved: only pointers change, which pointers go and stay, containment unchanged by default."
  },
  {
   "property": "C105",
   "status": "partial",
   "theorems": [
    "Thema.Props.C105_declared",
    "Thema.Props.C105_underscores_partial",
    "Thema.Props.C105_succeeds",
    "Thema.Props.C105_no_comment_panics",
    "Thema.Props.C105_clash",
    "Thema.Props.C105_forgotten"
   ],
   "note": "False in general: types of constants, aliases, maps in slices and pointers in slices and maps keep the old name, which is undefined then (general); Foo_Bar and FooBar clash (general); panics without a comment (general). Proved: the declared names, and that files with names in the other positions only stay closed."
  },
  {
   "property": "C106",
   "status": "partial",
   "theorems": [
    "Thema.Props.C106_raw_partial",
    "Thema.Props.C106_function_panics",
    "Thema.Props.C106_methods_lost",
    "Thema.Props.C106_dangling",
    "Thema.Props.C106_double_deletion",
    "Thema.Props.C106_use_lost",
    "Thema.Props.C106_alias_dangles"
   ],
   "note": "False in general: a declaration to delete for two reasons takes the next one with it, all methods go (also of structs that stay), uses in some positions stay and are undefined, functions that are not methods panic (all general). Proved for the other files."
  },
  {
   "property": "C107",
   "status": "partial",
   "theorems": [
    "Thema.Props.C107_names_partial",
    "Thema.Props.C107_empty",
    "Thema.Props.C107_unexported",
    "Thema.Props.C107_digit"
   ],
   "note": "False in general (all general): names without cased letters or digits give the empty name; a name such as /foo gives foo, which is not exported; _1 gives 1, which is no identifier. Proved: exactly which names are good."
  },
  {
   "property": "C108",
   "status": "partial",
   "theorems": [
    "Thema.Props.C108_fields",
    "Thema.Props.C108_distinct_partial",
    "Thema.Props.C108_case_clash",
    "Thema.Props.C108_separator_clash",
    "Thema.Props.C108_refuted",
    "Thema.Props.C108_additional_clash"
   ],
   "note": "False in general: names that differ in the case of the first letter, or by a separator before a letter, clash, and so does additionalProperties beside additional properties (all general). Proved: what the fields are, and that names of letters and digits that differ otherwise stay distinct."
  },
  {
   "property": "C109",
   "status": "partial",
   "theorems": [
    "Thema.Props.C109_only_allowed",
    "Thema.Props.C109_constants_partial",
    "Thema.Props.C109_numbered_partial",
    "Thema.Props.C109_value_lost",
    "Thema.Props.C109_unstable",
    "Thema.Props.C109_literal"
   ],
   "note": "False in general: a, A and a1 lose A (general); which value the constant for /foo and foo has depends on map iteration; values are not escaped (exact condition). Proved: all constants have allowed values, and one constant per value for good names that do not clash, or clash and are numbered, in any order of iteration."
  },
  {
   "property": "C110",
   "status": "partial",
   "theorems": [
    "Thema.Props.C110_closed_partial",
    "Thema.Props.C110_definitions_partial",
    "Thema.Props.C110_nested_enum",
    "Thema.Props.C110_alternative_enum",
    "Thema.Props.C110_array_of_maps",
    "Thema.Props.C110_constants_without_type",
    "Thema.Props.C110_reference_dropped",
    "Thema.Props.C110_reference_dropped_file"
   ],
   "note": "False in general: enumerations nested in maps or in alternatives, and arrays of maps, give uses of types that are not declared, and constants of types that are not declared (witnesses); of two definitions that are references and have one Go name the second is dropped (general). Proved without alternatives, with enumerations in properties only, and with allOf of references to structs; for the file before the rewritings of C105 and C106 also with alternatives and additional properties beside properties at any depth, if nothing has to be declared for an alternative or for the properties of additional properties."
  },
  {
   "property": "C111",
   "status": "partial",
   "theorems": [
    "Thema.Props.C111_roundtrip_partial",
    "Thema.Props.C111_empty_array_lost",
    "Thema.Props.C111_empty_map_lost",
    "Thema.Props.C111_absent_becomes_null",
    "Thema.Props.C111_no_pointers_zero_lost",
    "Thema.Props.C111_no_pointers_struct_appears",
    "Thema.Props.C111_number_not_float32",
    "Thema.Props.C111_integer_too_large",
    "Thema.Props.C111_additional_lost",
    "Thema.Props.C111_alternatives_lost",
    "Thema.Props.C111_names_lost",
    "Thema.Props.C111_bytes_become_string"
   ],
   "note": "False in general: optional empty arrays and maps are lost, absent nullable properties become null, numbers not of type float32 change, integers above 64 bits are unreadable, and with NoOptionalPointers zero values are lost and absent structs appear (all general); additional properties beside properties, alternatives beside properties, names such as - and /foo are lost, arrays of uint8 become strings (witnesses). Proved for the other schemas and data, recursive ones and allOf of references included."
  },
  {
   "property": "C112",
   "status": "partial",
   "theorems": [
    "Thema.Props.C112_text_partial",
    "Thema.Props.C112_literal_exact",
    "Thema.Props.C112_injection",
    "Thema.Props.C112_other_name"
   ],
   "note": "False for names with quotation marks, backslashes, line breaks, NUL or byte order mark (exact condition): they denote another name or inject arbitrary fields (general). Proved for all others."
  },
  {
   "property": "C113",
   "status": "partial",
   "theorems": [
    "Thema.Props.C113_empty_partial",
    "Thema.Props.C113_empty_succeeds",
    "Thema.Props.C113_document_partial",
    "Thema.Props.C113_package_missing",
    "Thema.Props.C113_no_package_ignored",
    "Thema.Props.C113_no_name"
   ],
   "note": "False for openapi and jsonschema (general): the flags are not checked, without --package-name there is no package, --no-package has no effect, an empty name is accepted. Proved for empty."
  },
  {
   "property": "C114",
   "status": "partial",
   "theorems": [
    "Thema.Props.C114_no_panic_partial",
    "Thema.Props.C114_bad_json",
    "Thema.Props.C114_stdin"
   ],
   "note": "False for openapi (general): malformed JSON and standard input panic. Proved for the other subcommands and inputs."
  },
  {
   "property": "C115",
   "status": "partial",
   "theorems": [
    "Thema.Props.C115_in_place_partial",
    "Thema.Props.C115_other_field"
   ],
   "note": "False if another field is called seqs: its value is replaced as well (general). Proved for all other files."
  },
  {
   "property": "C116",
   "status": "partial",
   "theorems": [
    "Thema.Props.C116_ends_partial",
    "Thema.Props.C116_schema_reported",
    "Thema.Props.C116_endless",
    "Thema.Props.C116_lacunas"
   ],
   "note": "False (general): a field seqs in a schema makes it recurse for ever, lacunas that are not written as a list make it panic. Proved otherwise."
  },
  {
   "property": "C117",
   "status": "partial",
   "theorems": [
    "Thema.Props.C117_fields",
    "Thema.Props.C117_types_partial",
    "Thema.Props.C117_todo_lost",
    "Thema.Props.C117_space_panics"
   ],
   "note": "False for types with TODO in the documentation: all text before it is lost (general). Proved for fields, and for types otherwise."
  },
  {
   "property": "C118",
   "status": "partial",
   "theorems": [
    "Thema.Props.C118_documented",
    "Thema.Props.C118_several_partial",
    "Thema.Props.C118_reused"
   ],
   "note": "True for one call. False for several: the name of the first lineage is written to the configuration (general)."
  },
  {
   "property": "C119",
   "status": "partial",
   "theorems": [
    "Thema.Props.C119_written_partial",
    "Thema.Props.C119_counts",
    "Thema.Props.C119_field_order",
    "Thema.Props.C119_twice_lost",
    "Thema.Props.C119_underscore_lost",
    "Thema.Props.C119_map_lost",
    "Thema.Props.C119_name_lost",
    "Thema.Props.C111_roundtrip_partial"
   ],
   "note": "False in general: properties of two parts are lost, as are those of parts with an underscore in their name (all general); maps and properties named like a part are lost (witnesses). Proved for the properties that encoding/json does not hide: only they are written, and the required ones always; C111 has that their values are kept."
  },
  {
   "property": "C120",
   "status": "partial",
   "theorems": [
    "Thema.Props.C120_roundtrip_partial",
    "Thema.Props.C120_fields_partial",
    "Thema.Props.C120_nested_lost",
    "Thema.Props.C120_nested_data_lost",
    "Thema.Props.C120_fails",
    "Thema.Props.C120_fails_additional",
    "Thema.Props.C120_items_lost",
    "Thema.Props.C120_free_lost",
    "Thema.Props.C120_free_data_lost",
    "Thema.Props.C120_type_lost"
   ],
   "note": "False in general: what members have besides an allOf of their own is lost; generation fails for defaults, for formats and flags that members do not repeat, and for additional properties of both the schema and a member; items, additionalProperties: true, anyOf and the types of members are lost (all general; lost data also as witnesses). Proved for members that have not both allOf and properties of their own: the fields are exactly those properties, and data survives what C111 asks for."
  },
  {
   "property": "C121",
   "status": "partial",
   "theorems": [
    "Thema.Props.C121_pointer_partial",
    "Thema.Props.C121_accepted_assignable",
    "Thema.Props.C121_struct_rejected",
    "Thema.Props.C121_refuted"
   ],
   "note": "False for struct types that are not pointers: always rejected (general). Proved for pointers."
  },
  {
   "property": "C122",
   "status": "partial",
   "theorems": [
    "Thema.Props.C122_refused_partial",
    "Thema.Props.C122_kept_partial",
    "Thema.Props.C122_overwritten",
    "Thema.Props.C122_cleared"
   ],
   "note": "False: required fields with a default are overwritten with it, pointers in required fields without one are set to nil (general). Proved: the argument is unchanged if it is not assignable; optional fields and basic values without a default are kept."
  },
  {
   "property": "C123",
   "status": "proved",
   "theorems": [
    "Thema.Props.C123_newT"
   ],
   "note": "For well-formed schemas of structs, open lists and basic types, and Go types of structs, slices, pointers and basic types."
  },
  {
   "property": "C124",
   "status": "partial",
   "theorems": [
    "Thema.Props.C124_no_error",
    "Thema.Props.C124_value_partial",
    "Thema.Props.C124_optional_raw",
    "Thema.Props.C124_list_raw",
    "Thema.Props.C124_refuted_list",
    "Thema.Props.C124_refuted_optional",
    "Thema.Props.C124_refuted_stale"
   ],
   "note": "False below optional fields and in elements of lists: Value has the data as it is, without defaults (general); a default list with structs shows through the list that replaces it if the decoder reuses slices (general in the default). Proved: no errors, and data with defaults for all other schemas."
  },
  {
   "property": "C125",
   "status": "partial",
   "theorems": [
    "Thema.Props.C125_all_examples",
    "Thema.Props.C125_name_partial",
    "Thema.Props.C125_quoted_name",
    "Thema.Props.C125_refuted"
   ],
   "note": "False for names that CUE writes in quotation marks: the example is not found under its name (general, witness). Proved: all examples are returned, and names that need no quotation marks."
  },
  {
   "property": "C126",
   "status": "partial",
   "theorems": [
    "Thema.Props.C126_version_partial",
    "Thema.Props.C126_validFor",
    "Thema.Props.C126_agrees_with_go",
    "Thema.Props.C126_data_lost",
    "Thema.Props.C126_refuted"
   ],
   "note": "False for the data: the result of #SearchAndValidate has the schema in place of the data (general, witness). Proved for the version, for #ValidFor, and agreement with ValidateAny."
  },
  {
   "property": "C127",
   "status": "partial",
   "theorems": [
    "Thema.Props.C127_listed",
    "Thema.Props.C127_reason_partial",
    "Thema.Props.C127_minor_upgrade",
    "Thema.Props.C127_major_jump"
   ],
   "note": "False for forward migrations: a minor upgrade is called not the successor, a jump to another major version a minor upgrade (general). Proved for all others, and that the list is exact."
  },
  {
   "property": "C128",
   "status": "partial",
   "theorems": [
    "Thema.Props.C128_discovered_partial",
    "Thema.Props.C128_failures",
    "Thema.Props.C128_own_import_refused",
    "Thema.Props.C128_discovery_missed",
    "Thema.Props.C128_refuted"
   ],
   "note": "False for appliers that add an import declaration (refused) or remove one that goimports adds again (not noticed), since the list of imports is that of the parser (general, witness). Proved for other appliers."
  },
  {
   "property": "C129",
   "status": "partial",
   "theorems": [
    "Thema.Props.C129_bind",
    "Thema.Props.C129_same",
    "Thema.Props.C129_rename",
    "Thema.Props.C129_narrowing_partial",
    "Thema.Props.C129_lacuna_fatal",
    "Thema.Props.C129_defaultchange_fails",
    "Thema.Props.C129_defaultchange_fatal",
    "Thema.Props.C129_disjunct_down",
    "Thema.Props.C129_disjunct_partial",
    "Thema.Props.C129_expand_baz",
    "Thema.Props.C130_expand_partial"
   ],
   "note": "Proved for rename, for the own version of all exemplars, for narrowing downwards and with values that are clearly booleans (all strings if references to the missing field lacuna are not errors), for expand except baz downwards, and for disjunct upwards. Refuted for defaultchange, for disjunct downwards, for baz in expand, and for narrowing and defaultchange if such references are errors."
  },
  {
   "property": "C130",
   "status": "partial",
   "theorems": [
    "Thema.Props.C130_rename",
    "Thema.Props.C130_narrowing",
    "Thema.Props.C130_expand_partial",
    "Thema.Props.C129_disjunct_partial",
    "Thema.Props.C130_defaultchange_partial",
    "Thema.Props.C130_defaultchange_lacuna"
   ],
   "note": "Proved for rename and narrowing; for expand, disjunct and defaultchange where the translation succeeds at all (see C129). Refuted: the lacuna of the lens of defaultchange back to 0.0."
  },
  {
   "property": "C131",
   "status": "partial",
   "theorems": [
    "Thema.Props.C131_comment",
    "Thema.Props.C131_code_partial",
    "Thema.Props.C131_reads_comment",
    "Thema.Props.C131_reads_literal",
    "Thema.Props.C131_names",
    "Thema.Props.C131_name_injection",
    "Thema.Props.C131_tag_injection",
    "Thema.Props.C131_refuted"
   ],
   "note": "Proved for all descriptions (without NUL, which Go forbids in source files; byte order marks are removed from the text, and so from names in tags), if names in tags have no backquote and names in comments have no line break; Go names, and the names in comments that were made Go names before, are never a problem. Refuted for the other names, by general theorems and concrete schemas. Extra tags, deprecated fields and extensions are left out; what goimports makes of the text is not modelled."
  },
  {
   "property": "C132",
   "status": "partial",
   "theorems": [
    "Thema.Props.C132_isolated_partial",
    "Thema.Props.C132_alone",
    "Thema.Props.C132_crash_cause",
    "Thema.Props.C132_serial",
    "Thema.Props.C132_refuted"
   ],
   "note": "Refuted for every two calls, by a schedule that ends the program. Proved for every interleaving: a call that ends has read what it would have read alone; the program is ended only by an access to the map while another call is in its assignment; calls made one after the other all end. Accesses to variables are taken to be atomic; what a call does with what it read is a function of its arguments and these reads."
  },
  {
   "property": "C133",
   "status": "partial",
   "theorems": [
    "Thema.Props.C133_shows",
    "Thema.Props.C133_types",
    "Thema.Props.C133_readable",
    "Thema.Props.C133_path",
    "Thema.Props.C133_literal_changed",
    "Thema.Props.C133_path_ambiguous",
    "Thema.Props.C133_excess_value"
   ],
   "note": "False in three ways, each proved in general: C133_literal_changed, C133_path_ambiguous, C133_excess_value. Proved: the message has exactly one part for each problem with all it has to show, in order; every constraint replaced by the name of a type has the meaning of this type, for all numbers; alternatives without bars keep their number, order and meaning; names without dots can be told from the place. token.Pos.String is a parameter."
  },
  {
   "property": "C134",
   "status": "partial",
   "theorems": [
    "Thema.Props.C134_lens_partial",
    "Thema.Props.C134_binds_partial",
    "Thema.Props.C134_translates_partial",
    "Thema.Props.C134_unfinished",
    "Thema.Props.C134_deep_ignored",
    "Thema.Props.C134_captured"
   ],
   "note": "False in three ways, each proved in general: C134_unfinished, C134_deep_ignored, C134_captured; with more than three sequences also because of C27. Proved for complete legacy lineages of at most three sequences with one schema each whose lenses use from only as in from.x: they bind, with the schemas in order and exactly the lenses needed, and translate exactly as the legacy lenses. Lenses have no lacunas; names declared inside of a lens body are not modelled."
  },
  {
   "property": "C135",
   "status": "proved",
   "theorems": [
    "Thema.Props.C135_determined",
    "Thema.Props.C135_forced",
    "Thema.Props.C135_skip_widens",
    "Thema.Props.C135_skip_exact",
    "Thema.Props.C135_skip_error",
    "Thema.Props.C135_lens_order",
    "Thema.Props.C135_same_behaviour"
   ],
   "note": "Error messages are not compared, only what errors.Is can tell; they list superfluous and missing lenses in an order that depends on the options."
  },
  {
   "property": "C136",
   "status": "proved",
   "theorems": [
    "Thema.Props.C136_schemas",
    "Thema.Props.C136_validate",
    "Thema.Props.C136_validateAny",
    "Thema.Props.C136_translate_cue",
    "Thema.Props.C136_translate_cue_kept",
    "Thema.Props.C136_translate_go",
    "Thema.Props.C136_shorter_binds",
    "Thema.Props.C136_append_only"
   ],
   "note": "Adding versions may make the lineage fail to bind (C27); this is about lineages that bind."
  },
  {
   "property": "C137",
   "status": "proved",
   "theorems": [
    "Thema.Props.C137_there_and_back_up",
    "Thema.Props.C137_there_and_back_down",
    "Thema.Props.C137_nothing_lost"
   ],
   "note": "Functions that look at the name of an instance are excluded: the name is lost at the first lens."
  },
  {
   "property": "C138",
   "status": "partial",
   "theorems": [
    "Thema.Props.C138_hop_partial",
    "Thema.Props.C138_incomplete_in_between",
    "Thema.Props.C138_default_in_between"
   ],
   "note": "False: a result that is not concrete in between makes the first hop fail although the whole way succeeds (witness), and defaults are chosen at the end of each hop but not in between on the whole way (witness). Proved where the first hop succeeds and choosing defaults there changes nothing; majors from 3 on are excluded since lenses are mixed up there (C25)."
  },
  {
   "property": "C139",
   "status": "proved",
   "theorems": [
    "Thema.Props.C139_again_cue",
    "Thema.Props.C139_again_go"
   ],
   "note": "Codec laws are hypotheses, met by a concrete codec that normalises its input. With Go lenses the compatibility checks must have been in force and the functions must return genuine instances (otherwise C34, C38)."
  },
  {
   "property": "C140",
   "status": "partial",
   "theorems": [
    "Thema.Props.C140_successor_go",
    "Thema.Props.C140_predecessor",
    "Thema.Props.C140_climb_go",
    "Thema.Props.C140_descend_go",
    "Thema.Props.C140_successor_major",
    "Thema.Props.C140_successor_minor_partial",
    "Thema.Props.C140_default_missing",
    "Thema.Props.C140_successor_minor_exact",
    "Thema.Props.C140_successor_minor_iff"
   ],
   "note": "False for CUE lenses within a major: AsSuccessor leaves out fields that the next schema has a default for, Translate adds them (witness). Proved for Go lenses, for AsPredecessor, across majors, and within majors where the next schema adds nothing. Exactly when they agree there is C140_successor_minor_iff (AsSuccessor also keeps the name of an example, which Translate drops). The ends panic (C37)."
  },
  {
   "property": "C141",
   "status": "partial",
   "theorems": [
    "Thema.Props.C141_mux_cue_partial",
    "Thema.Props.C141_mux_go_partial",
    "Thema.Props.C141_taken_over",
    "Thema.Props.C141_data_changed"
   ],
   "note": "False for data that the multiplexer's own schema does not accept but an added one does: it is translated from the newest added schema that accepts it (general), and the result can change (witness). Proved for all other inputs, with CUE lenses and with Go lenses that are still supplied."
  },
  {
   "property": "C142",
   "status": "partial",
   "theorems": [
    "Thema.Props.C142_go_kept_partial",
    "Thema.Props.C142_lenses_ignored",
    "Thema.Props.C142_translation_changed"
   ],
   "note": "False: lenses and the name are not looked at (general, witness). Proved for Go lenses that are still supplied, under the conditions of C44; for CUE lenses see C136."
  },
  {
   "property": "C143",
   "status": "partial",
   "theorems": [
    "Thema.Props.C143_translatable_cue_partial",
    "Thema.Props.C143_translatable_go_partial",
    "Thema.Props.C143_go_iff",
    "Thema.Props.C143_cue_necessary",
    "Thema.Props.C143_mux_cue_partial",
    "Thema.Props.C143_mux_go_partial",
    "Thema.Props.C143_lens_missing",
    "Thema.Props.C143_refuted"
   ],
   "note": "False: lineages bind without any CUE lenses and then nothing can be translated downwards (general), and lenses or Go functions may fail for valid data (witnesses). Proved: if each lens or function does its job for its two versions, every valid concrete instance can be translated to every version, and multiplexers accept all input that some schema accepts; for Go functions this is also necessary (C143_go_iff), and so it is for CUE lenses up to defaults (C143_cue_necessary); with CUE lenses for majors up to 2 (C25)."
  },
  {
   "property": "C144",
   "status": "partial",
   "theorems": [
    "Thema.Props.C144_valid_satisfies_join",
    "Thema.Props.C144_obtainable_satisfies_join_partial",
    "Thema.Props.C144_join_kept",
    "Thema.Props.C144_written_out",
    "Thema.Props.C144_refuted"
   ],
   "note": "Proved except that schemas as written must be instances of the joinSchema (C144_refuted), and for instances obtained by translation under the conditions of C38."
  },
  {
   "property": "C145",
   "status": "partial",
   "theorems": [
    "Thema.Props.C145_omitted_is_zero",
    "Thema.Props.C145_only_first",
    "Thema.Props.C145_omitted_breaks",
    "Thema.Props.C145_omitted_unreachable",
    "Thema.Props.C145_refuted"
   ],
   "note": "What a missing version means is proved; that it is rejected is refuted by a witness."
  },
  {
   "property": "C146",
   "status": "partial",
   "theorems": [
    "Thema.Props.C146_report_exact",
    "Thema.Props.C146_advice_works",
    "Thema.Props.C146_refuted"
   ],
   "note": "Reports are exact and the advice works up to the schema in question; that it preserves gapless versions is refuted by a witness."
  },
  {
   "property": "C147",
   "status": "partial",
   "theorems": [
    "Thema.Props.C147_hydrated_partial",
    "Thema.Props.C147_dehydrated_partial",
    "Thema.Props.C147_removed_fields",
    "Thema.Props.C147_round_trip_partial",
    "Thema.Props.C147_list_elements",
    "Thema.Props.C147_refuted"
   ],
   "note": "Refuted where the schema has an optional field with a default: dehydration removes it, hydration does not restore it. Proved for the functions run against a schema (instance.go hands them the #SchemaDef, see C66 and C67), with concrete data, where elements of lists are not disjunctions (C147_list_elements covers one level of those) and CUE makes lists and field iterators without errors; the round trip is for scalar fields."
  },
  {
   "property": "C148",
   "status": "partial",
   "theorems": [
    "Thema.Props.C148_lines_partial",
    "Thema.Props.C148_single_stable",
    "Thema.Props.C148_order_varies",
    "Thema.Props.C148_hidden"
   ],
   "note": "Refuted: with discrepancies at two paths, calls of Error() may give different texts; and the message for a field is lost, and replaced by a false one, if a nested Go field that the schema lacks has the same name, as excess fields are recorded under their bare names. Proved: one line per recorded path, the last message recorded for it, whatever the order; the same text always if there is one path. Paths stand for their strings, messages contain no line feeds."
  },
  {
   "property": "C149",
   "status": "partial",
   "theorems": [
    "Thema.Props.C149_unchanged_partial",
    "Thema.Props.C149_translate_keeps",
    "Thema.Props.C149_result",
    "Thema.Props.C149_values",
    "Thema.Props.C149_values_steps",
    "Thema.Props.C149_hydrate",
    "Thema.Props.C149_given_changes",
    "Thema.Props.C149_given_changes_witness"
   ],
   "note": "Refuted for instances handed to Go lenses: translateGo hands one object to all lenses of a call and overwrites it after each step, so that what a lens kept ends up as the result, an instance of another version (C149_given_changes, for all lenses, and a witness). Proved for every instance that exists when a call begins, through any sequence of calls and all outcomes; which object is returned; and that the functions over memory agree with those over values that the other properties are about. Calls do not overlap in time; lenses do not themselves assign to instances."
  },
  {
   "property": "C150",
   "status": "partial",
   "theorems": [
    "Thema.Props.C150_complete_partial",
    "Thema.Props.C150_imports_lost",
    "Thema.Props.C150_complete_iff",
    "Thema.Props.C150_schema",
    "Thema.Props.C150_witness"
   ],
   "note": "Refuted: ToExpr removes the import declarations of the schema and NewLineage imports only thema, so that a schema that uses an imported package (strings.MinRunes for minLength, list, math, time, as CUE's converters from JSON Schema and OpenAPI produce) gives a lineage that cannot be loaded; exact condition in C150_complete_iff. Proved for schemas without imports; the schema itself is kept in all cases. Syntax trees have identifiers, operators and structs."
  },
  {
   "property": "C151",
   "status": "partial",
   "theorems": [
    "Thema.Props.C151_replaced_partial",
    "Thema.Props.C151_elsewhere",
    "Thema.Props.C151_one_file",
    "Thema.Props.C151_reported",
    "Thema.Props.C151_not_replaced",
    "Thema.Props.C151_not_replaced_witness",
    "Thema.Props.C151_other_package",
    "Thema.Props.C151_no_source"
   ],
   "note": "Refuted: findSeqsVal does not check that the literal has a field seqs of its own, as its comment says. If the sequences come from an embedded value, the command succeeds and the lineage is not rewritten, but references in its lenses are renamed where they stand (general, and witness). If the literal is in another package (a path through a reference), or CUE has no single source for the package, it panics with \"should be unreachable\" (general). Proved: what is changed lies at the literal or at lens bodies; one literal with one field seqs is rewritten as in C115; at most one file is written."
  },
  {
   "property": "C152",
   "status": "proved",
   "theorems": [
    "Thema.Props.C152_successor",
    "Thema.Props.C152_predecessor",
    "Thema.Props.C152_panics",
    "Thema.Props.C152_walks_iff"
   ],
   "note": "No assumption on the versions."
  },
  {
   "property": "C153",
   "status": "proved",
   "theorems": [
    "Thema.Props.C153_finds",
    "Thema.Props.C153_none",
    "Thema.Props.C153_never",
    "Thema.Props.C153_returns_iff"
   ],
   "note": "\"Never returns\" means that no number of iterations is enough."
  },
  {
   "property": "C154",
   "status": "proved",
   "theorems": [
    "Thema.Props.C154_made_iff",
    "Thema.Props.C154_otherwise"
   ],
   "note": "All four kinds."
  },
  {
   "property": "C155",
   "status": "proved",
   "theorems": [
    "Thema.Props.C155_error_iff",
    "Thema.Props.C155_one_cause"
   ],
   "note": "The exact causes for majors up to 2 and the exact lens set (beyond, steps are skipped, see C25); that the errors exclude each other and when it panics for all lineages."
  },
  {
   "property": "C156",
   "status": "proved",
   "theorems": [
    "Thema.Props.C156_race_iff",
    "Thema.Props.C156_leak_iff",
    "Thema.Props.C156_deadlock_iff"
   ],
   "note": "All three as equivalences over sets of calls."
  },
  {
   "property": "C157",
   "status": "proved",
   "theorems": [
    "Thema.Props.C157_binds_iff",
    "Thema.Props.C157_next_minor",
    "Thema.Props.C157_next_major",
    "Thema.Props.C157_three_majors"
   ],
   "note": "For all lists; a witness lineage is constructed for each list that satisfies the conditions."
  },
  {
   "property": "C158",
   "status": "proved",
   "theorems": [
    "Thema.Props.C158_own_version",
    "Thema.Props.C158_own_version_go"
   ],
   "note": "All cases."
  },
  {
   "property": "C159",
   "status": "proved",
   "theorems": [
    "Thema.Props.C159_unknown_go",
    "Thema.Props.C159_unknown_panics"
   ],
   "note": "All outcomes."
  },
  {
   "property": "C160",
   "status": "proved",
   "theorems": [
    "Thema.Props.C160_trim_exact",
    "Thema.Props.C160_unchanged_iff"
   ],
   "note": "As an equivalence."
  },
  {
   "property": "C161",
   "status": "proved",
   "theorems": [
    "Thema.Props.C161_asSuccessor",
    "Thema.Props.C161_asPredecessor"
   ],
   "note": "For lineages with repeated versions as well."
  },
  {
   "property": "C162",
   "status": "proved",
   "theorems": [
    "Thema.Props.C162_first_unreachable",
    "Thema.Props.C162_first_stuck"
   ],
   "note": "A consequence of the defect shown by C13_start_above_zero_rejected, for all lineages."
  },
  {
   "property": "C163",
   "status": "proved",
   "theorems": [
    "Thema.Props.C163_never_past",
    "Thema.Props.C163_hangs",
    "Thema.Props.C163_succeeds_iff"
   ],
   "note": "For lineages with repeated versions as well."
  },
  {
   "property": "C164",
   "status": "proved",
   "theorems": [
    "Thema.Props.C164_binds_iff",
    "Thema.Props.C164_some_lenses_iff"
   ],
   "note": "For all version lists, also with repetitions."
  },
  {
   "property": "C165",
   "status": "proved",
   "theorems": [
    "Thema.Props.C165_index",
    "Thema.Props.C165_contiguous",
    "Thema.Props.C165_nonneg"
   ],
   "note": "For all version lists. Makes C26 exact for all majors."
  },
  {
   "property": "C166",
   "status": "proved",
   "theorems": [
    "Thema.Props.C166_up_low",
    "Thema.Props.C166_up_high",
    "Thema.Props.C166_down_high",
    "Thema.Props.C166_same_major_down"
   ],
   "note": "With C25_translate_partial (between versions of the first three majors) this covers all translations between different versions."
  },
  {
   "property": "C167",
   "status": "proved",
   "theorems": [
    "Thema.Props.C167_latestInMajor",
    "Thema.Props.C167_latestInMajor_wraps",
    "Thema.Props.C167_latestVersionInSequence"
   ],
   "note": "For all bound lineages; the exact form of the violation in C08."
  },
  {
   "property": "C168",
   "status": "proved",
   "theorems": [
    "Thema.Props.C168_validate_outcome",
    "Thema.Props.C168_report_determined"
   ],
   "note": "Combines C19, C21, C22, C53 and C54 into one exact statement, with the report being a function of the sub-error."
  },
  {
   "property": "C169",
   "status": "proved",
   "theorems": [
    "Thema.Props.C169_validate",
    "Thema.Props.C169_validate_any",
    "Thema.Props.C169_validate_any_hangs",
    "Thema.Props.C169_hydrate",
    "Thema.Props.C169_translate"
   ],
   "note": "For all bound lineages; the exact form of what C79 and its neighbours state in part."
  },
  {
   "property": "C170",
   "status": "proved",
   "theorems": [
    "Thema.Props.C170_mod_root",
    "Thema.Props.C170_cue_mod"
   ],
   "note": "Total characterisation of both searches (C80 and C81 state consequences)."
  },
  {
   "property": "C171",
   "status": "proved",
   "theorems": [
    "Thema.Props.C171_undefined",
    "Thema.Props.C171_clash",
    "Thema.Props.C171_types_package"
   ],
   "note": "The exact form of C87, C89 and C92."
  },
  {
   "property": "C172",
   "status": "proved",
   "theorems": [
    "Thema.Props.C172_usage",
    "Thema.Props.C172_documents",
    "Thema.Props.C172_types",
    "Thema.Props.C172_bindings",
    "Thema.Props.C172_printed"
   ],
   "note": "The exact form of C83 to C86. Messages on standard error are abbreviated; printing with a format string is C83's model of fmt."
  },
  {
   "property": "C173",
   "status": "proved",
   "theorems": [
    "Thema.Props.C173_hydrate",
    "Thema.Props.C173_dehydrate"
   ],
   "note": "The exact form of C66 and C67 for data without the definition's own fields."
  },
  {
   "property": "C174",
   "status": "proved",
   "theorems": [
    "Thema.Props.C174_untyped",
    "Thema.Props.C174_cases",
    "Thema.Props.C174_typed"
   ],
   "note": "For any lineage that binds and any codec; that a multiplexer can be made is characterised in C154. Beside the errors of decoders, what the decoder returns is data."
  },
  {
   "property": "C175",
   "status": "proved",
   "theorems": [
    "Thema.Props.C175_prints_iff",
    "Thema.Props.C175_panics_iff",
    "Thema.Props.C175_fails_iff",
    "Thema.Props.C175_deterministic"
   ],
   "note": "For any CUE parsers, printers and converters."
  },
  {
   "property": "C176",
   "status": "proved",
   "theorems": [
    "Thema.Props.C176_document",
    "Thema.Props.C176_config",
    "Thema.Props.C176_unmarked",
    "Thema.Props.C176_path_text"
   ],
   "note": "If CUE's encoder only asks for names within the definition it is given, and the path of the schema in its file does not start with a definition."
  },
  {
   "property": "C177",
   "status": "proved",
   "theorems": [
    "Thema.Props.C177_files",
    "Thema.Props.C177_injected",
    "Thema.Props.C177_cli"
   ],
   "note": "The name given to AsModFS must be plain; that other names are not kept is C94."
  },
  {
   "property": "C178",
   "status": "proved",
   "theorems": [
    "Thema.Props.C178_found_iff",
    "Thema.Props.C178_names",
    "Thema.Props.C178_own_name_iff"
   ],
   "note": "If CUE quotes labels injectively and labels are distinct, as they are in a struct."
  },
  {
   "property": "C179",
   "status": "proved",
   "theorems": [
    "Thema.Props.C179_search_iff",
    "Thema.Props.C179_validFor_iff",
    "Thema.Props.C179_not_later"
   ],
   "note": "That the instance is the schema is a defect, see C126."
  },
  {
   "property": "C180",
   "status": "proved",
   "theorems": [
    "Thema.Props.C180_report_iff",
    "Thema.Props.C180_no_report_iff",
    "Thema.Props.C180_true_iff"
   ],
   "note": "That reasons are false of some migrations is a defect, see C127."
  },
  {
   "property": "C181",
   "status": "proved",
   "theorems": [
    "Thema.Props.C181_result_iff",
    "Thema.Props.C181_ends",
    "Thema.Props.C181_idempotent"
   ],
   "note": "For appliers that change the list of imports see C128. Idempotence assumes idempotence of goimports."
  },
  {
   "property": "C182",
   "status": "proved",
   "theorems": [
    "Thema.Props.C182_result_iff",
    "Thema.Props.C182_endless_iff",
    "Thema.Props.C182_panics_iff",
    "Thema.Props.C182_reports_iff"
   ],
   "note": "That it panics or does not end is a defect, see C116."
  },
  {
   "property": "C183",
   "status": "proved",
   "theorems": [
    "Thema.Props.C183_renamed_iff",
    "Thema.Props.C183_left_iff",
    "Thema.Props.C183_idempotent"
   ],
   "note": "That deeper references are left is a defect, see C59."
  },
  {
   "property": "C184",
   "status": "proved",
   "theorems": [
    "Thema.Props.C184_accepted_iff",
    "Thema.Props.C184_depth_iff",
    "Thema.Props.C184_not_struct_iff",
    "Thema.Props.C184_reported_iff",
    "Thema.Props.C184_path_iff",
    "Thema.Props.C184_message_iff",
    "Thema.Props.C184_message_excess"
   ],
   "note": "For what is documented otherwise see C61 and C63."
  },
  {
   "property": "C185",
   "status": "proved",
   "theorems": [
    "Thema.Props.C185_bound_iff",
    "Thema.Props.C185_value"
   ],
   "note": "For the decoders that reuse slices and those that do not. That defaults are missing below optional fields and in lists is a defect, see C124. Same schemas and types as in C121 to C124."
  },
  {
   "property": "C186",
   "status": "proved",
   "theorems": [
    "Thema.Props.C186_packages",
    "Thema.Props.C186_own_package_iff",
    "Thema.Props.C186_roots"
   ],
   "note": "That names carry over is a defect, see C92 and C118."
  },
  {
   "property": "C187",
   "status": "proved",
   "theorems": [
    "Thema.Props.C187_identifiers_iff",
    "Thema.Props.C187_package_iff"
   ],
   "note": "That other names are possible is a defect, see C90."
  },
  {
   "property": "C188",
   "status": "proved",
   "theorems": [
    "Thema.Props.C188_written_iff",
    "Thema.Props.C188_endless_iff",
    "Thema.Props.C188_crashes_iff",
    "Thema.Props.C188_reported_iff",
    "Thema.Props.C188_untouched"
   ],
   "note": "That it panics, does not end, or writes a file in which nothing but references changed is a defect, see C116 and C151."
  },
  {
   "property": "C189",
   "status": "partial",
   "theorems": [
    "Thema.Props.C189_violated",
    "Thema.Props.C189_usage_partial"
   ],
   "note": "False: gen gobindings refuses --bindversion; the commands of gen, fix and bump run without -l, on the current directory, since MarkFlagRequired is called for a set of flags that does not have it; validate runs without -v; translate does not run without --to. Proved: all other flags shown are accepted, and the data commands do not run without -l."
  },
  {
   "property": "C190",
   "status": "proved",
   "theorems": [
    "Thema.Props.C190_ends_iff",
    "Thema.Props.C190_no_panic"
   ],
   "note": "cobra and pflag are modelled as far as they are used; what the checks do is the subject of other claims."
  },
  {
   "property": "C191",
   "status": "proved",
   "theorems": [
    "Thema.Props.C191_types",
    "Thema.Props.C191_no_panic"
   ],
   "note": "Exact for schemas without allOf, alternatives, and enumerations below the top; those are the subject of C108-C110."
  },
  {
   "property": "C192",
   "status": "proved",
   "theorems": [
    "Thema.Props.C192_name"
   ],
   "note": "Stated positionally, without the loop and its state."
  },
  {
   "property": "C193",
   "status": "proved",
   "theorems": [
    "Thema.Props.C193_outcomes",
    "Thema.Props.C193_all_iff"
   ],
   "note": "Makes C109 exact: which constants there can be in some run, and when every value has one in every run."
  },
  {
   "property": "C194",
   "status": "proved",
   "theorems": [
    "Thema.Props.C194_types",
    "Thema.Props.C194_no_panic"
   ],
   "note": "Extends C191 to enumerations in any place and to equal names. Schemas with allOf, alternatives, or additional properties beside properties are the subject of C108-C110. For elements of a path like \"/foo\", see the comment of pathName in Model/OGen.lean."
  },
  {
   "property": "C195",
   "status": "proved",
   "theorems": [
    "Thema.Props.C195_types",
    "Thema.Props.C195_no_panic"
   ],
   "note": "Extends C194 to additional properties beside properties and to alternatives, with both rewritings of decorators.go at work. Embedded references come in their place, C119 says in which order; schemas in allOf, which are merged first, are the subject of C120. A property that a reference replaces is taken to be looked at (see Model/OGen.lean): it has to have a type, too. Descriptions of other types than alternatives, which replace their comments, are left out of the model."
  },
  {
   "property": "C196",
   "status": "proved",
   "theorems": [
    "Thema.Props.C196_document",
    "Thema.Props.C196_outcome",
    "Thema.Props.C196_unique"
   ],
   "note": "The relation Converted shares only the syntax trees with the model and describes both passes (scanning of parts, clean-up) at once; faults lists the schemas of unknown type in document order."
  },
  {
   "property": "C197",
   "status": "proved",
   "theorems": [
    "Thema.Props.C197_one_word",
    "Thema.Props.C197_name",
    "Thema.Props.C197_phrase",
    "Thema.Props.C197_sentence",
    "Thema.Props.C197_type",
    "Thema.Props.C197_type_todo",
    "Thema.Props.C197_panics"
   ],
   "note": "Makes C117 exact. That the panic needs a name which the empty text does not equal up to case is a hypothesis on strings.EqualFold."
  },
  {
   "property": "C198",
   "status": "proved",
   "theorems": [
    "Thema.Props.C198_after",
    "Thema.Props.C198_unique",
    "Thema.Props.C198_refused",
    "Thema.Props.C198_again",
    "Thema.Props.C198_unchanged_iff"
   ],
   "note": "Makes C122 exact. As in C121-C124, any, maps, arrays, null, bytes, unmarshalers and embedded structs are left out; whether CUE's decoder reuses slices is a parameter."
  },
  {
   "property": "C199",
   "status": "proved",
   "theorems": [
    "Thema.Props.C199_becomes",
    "Thema.Props.C199_unreadable",
    "Thema.Props.C199_same"
   ],
   "note": "Exact form of C111, for components that are Tame and the option for no pointers off. Data have no member twice. Validity is that of types, required properties and nullability: pattern, bounds and other constraints, which the Go types do not know, are left out."
  },
  {
   "property": "C200",
   "status": "proved",
   "theorems": [
    "Thema.Props.C200_valid",
    "Thema.Props.C200_stable",
    "Thema.Props.C200_invalid"
   ],
   "note": "For the components of C199. Validity as in C199. That rounding twice is rounding once is a hypothesis about float32 and float64."
  },
  {
   "property": "C201",
   "status": "proved",
   "theorems": [
    "Thema.Props.C201_agrees",
    "Thema.Props.C201_duplicate_iff",
    "Thema.Props.C201_nil_iff",
    "Thema.Props.C201_missing_iff",
    "Thema.Props.C201_missing_mem",
    "Thema.Props.C201_superfluous_iff",
    "Thema.Props.C201_none_iff",
    "Thema.Props.C201_text_one",
    "Thema.Props.C201_pair_unambiguous",
    "Thema.Props.C201_text_missing",
    "Thema.Props.C201_text_superfluous",
    "Thema.Props.C201_text_reason",
    "Thema.Props.C201_reason_tells",
    "Thema.Props.C201_text_tells"
   ],
   "note": "Exact, for each kind of error; the report on superfluous migrations lacks line feeds, so that all are on one line (C201_text_superfluous). The text is tied to the model of checkGoLensCompleteness by C201_agrees."
  },
  {
   "property": "C202",
   "status": "proved",
   "theorems": [
    "Thema.Props.C202_text_iff",
    "Thema.Props.C202_is_error",
    "Thema.Props.C202_unambiguous"
   ],
   "note": "Exact. The text of the schema's own error is a parameter."
  },
  {
   "property": "C203",
   "status": "proved",
   "theorems": [
    "Thema.Props.C203_type",
    "Thema.Props.C203_file",
    "Thema.Props.C203_uses",
    "Thema.Props.C203_compiles_iff",
    "Thema.Props.C203_panics_iff"
   ],
   "note": "Exact version of C105."
  },
  {
   "property": "C204",
   "status": "proved",
   "theorems": [
    "Thema.Props.C204_type",
    "Thema.Props.C204_uses",
    "Thema.Props.C204_declared",
    "Thema.Props.C204_closed_iff"
   ],
   "note": "Exact version of C106 for files without functions that are not methods and without declarations to delete for two reasons (C106 says what happens to those)."
  },
  {
   "property": "C205",
   "status": "proved",
   "theorems": [
    "Thema.Props.C205_holds",
    "Thema.Props.C205_valid_iff"
   ],
   "note": "Exact version of C104_recursive."
  },
  {
   "property": "C206",
   "status": "proved",
   "theorems": [
    "Thema.Props.C206_text_iff",
    "Thema.Props.C206_places",
    "Thema.Props.C206_line_feed"
   ],
   "note": "Exact version of C133_shows."
  },
  {
   "property": "C207",
   "status": "proved",
   "theorems": [
    "Thema.Props.C207_texts_iff",
    "Thema.Props.C207_one_message",
    "Thema.Props.C207_stable_iff",
    "Thema.Props.C207_complete_iff",
    "Thema.Props.C207_excess_iff"
   ],
   "note": "Exact version of C148 in terms of the discrepancies of C63."
  },
  {
   "property": "C208",
   "status": "proved",
   "theorems": [
    "Thema.Props.C208_loaded_once",
    "Thema.Props.C208_not_before",
    "Thema.Props.C208_valid",
    "Thema.Props.C208_ends",
    "Thema.Props.C208_outcomes",
    "Thema.Props.C208_invalid_returned"
   ],
   "note": "sync.Once is modelled by its source. That only one call panics if the package is invalid, while the others return a runtime (C208_invalid_returned), is not what the comment in loadRuntime says (a hard failure). CUE building one instance in several contexts at once is left out."
  },
  {
   "property": "C209",
   "status": "partial",
   "theorems": [
    "Thema.Props.C209_schemas_iff",
    "Thema.Props.C209_lenses_iff",
    "Thema.Props.C209_agrees",
    "Thema.Props.C209_report_iff",
    "Thema.Props.C209_where_partial",
    "Thema.Props.C209_order_nowhere",
    "Thema.Props.C209_schema_texts",
    "Thema.Props.C209_lens_order_text",
    "Thema.Props.C209_lens_shown_partial",
    "Thema.Props.C209_lens_garbled",
    "Thema.Props.C209_lens_printed"
   ],
   "note": "checkSchemasOrder is called (bind.go:91) before the schema's CUE value is kept (bind.go:95), so that its error has no position, and the error for lenses out of order is made without one (C209_order_nowhere). bind.go:360 gives a text that is formatted already as a format, so that percent signs in a lens change the message (C209_lens_garbled). Which report is made is proved exactly (C209_report_iff); what CUE answers for positions and texts is a parameter."
  },
  {
   "property": "C210",
   "status": "partial",
   "theorems": [
    "Thema.Props.C210_report_iff",
    "Thema.Props.C210_agrees",
    "Thema.Props.C210_text",
    "Thema.Props.C210_text_tells",
    "Thema.Props.C210_named_partial",
    "Thema.Props.C210_named_present",
    "Thema.Props.C210_where_partial",
    "Thema.Props.C210_nowhere",
    "Thema.Props.C210_other_module"
   ],
   "note": "Each selector is looked up in the schema itself, so that a nested path that is there is named as absent (C210_named_present, as for C98). PoslistWithoutThema drops all positions in files whose names contain github.com/grafana/thema, also those of modules such as github.com/grafana/thema-kinds (C210_nowhere, C210_other_module). The report is described exactly (C210_report_iff, C210_agrees)."
  },
  {
   "property": "C211",
   "status": "proved",
   "theorems": [
    "Thema.Props.C211_returns_iff",
    "Thema.Props.C211_panics",
    "Thema.Props.C211_entries",
    "Thema.Props.C211_functions",
    "Thema.Props.C211_function_binds",
    "Thema.Props.C211_function_absent",
    "Thema.Props.C211_forced",
    "Thema.Props.C211_six",
    "Thema.Props.C211_only_function"
   ],
   "note": "For every package of exemplars; loading the embedded files is trusted. C211_six is the package as it is. C211_only_function: with THEMA_FORCEVERIFY set All panics because of defaultchange, in an evaluator whose subsumption ignores defaults, while RenameLineage returns."
  },
  {
   "property": "C212",
   "status": "proved",
   "theorems": [
    "Thema.Props.C212_same_output",
    "Thema.Props.C212_sorted"
   ],
   "note": "For the documents of Model/OGen.lean: without extensions, discriminators and members of allOf other than references. sort.Strings is modelled as insertion; what goimports makes of the text is not modelled."
  },
  {
   "property": "C213",
   "status": "partial",
   "theorems": [
    "Thema.Props.C213_no_lineage",
    "Thema.Props.C213_minor_versions_conflict",
    "Thema.Props.C213_only_without_schemas",
    "Thema.Props.C213_single_partial"
   ],
   "note": "False for every lineage: #CRD reads the field seqs, which #Lineage does not have (general). Nor would it work for lineages with sequences: all schemas of a sequence give fields of one struct, with names in conflict (general), and served and storage refer to the fields that they are the values of (general). Proved: without this mistake, sequences with one schema each would give what is wanted."
  }
 ]
}
