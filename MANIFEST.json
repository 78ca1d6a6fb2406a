{
 "claims": [
  {
   "property": "C01",
   "status": "proved",
   "theorems": [
    "Verif.C01_json_document_round_trip",
    "Verif.C01_object_graph_comes_back_as_tree",
    "Verif.C01_multimap_of_indirect_base_doubled"
   ],
   "note": "All types and values satisfying the inductive predicate JRepr (Spec/JsonRepr), which lists exactly the conditions of the English statement; any previous content, null or arbitrary error list. Hypothesis StrTotal: operator< of std::string is a total order. Object graphs via their tree unfolding. The limit for indirect bases with multimaps is proved as a theorem, too."
  },
  {
   "property": "C02",
   "status": "proved",
   "theorems": [
    "Verif.C02_string_roundtrip"
   ],
   "note": "No hypotheses."
  },
  {
   "property": "C03",
   "status": "proved",
   "theorems": [
    "Verif.C03_depends_on_first_named",
    "Verif.C03_order_irrelevant",
    "Verif.C03_extra_members_ignored",
    "Verif.C03_first_member_wins",
    "Verif.C03_missing_members_kept"
   ],
   "note": "No hypotheses besides those named in the statement (distinct names for reordering)."
  },
  {
   "property": "C04",
   "status": "proved",
   "theorems": [
    "Verif.C04_type_mismatch"
   ],
   "note": "PullSupported (the call compiles); types without type check are excluded as stated in the property."
  },
  {
   "property": "C05",
   "status": "proved",
   "theorems": [
    "Verif.C05_errors_append_only"
   ],
   "note": "No hypotheses."
  },
  {
   "property": "C06",
   "status": "proved",
   "theorems": [
    "Verif.C06_context_restored",
    "Verif.C06_index_lost"
   ],
   "note": "No hypotheses; the converse part (index lost) is proved as well."
  },
  {
   "property": "C07",
   "status": "proved",
   "theorems": [
    "Verif.C07_fatal_iff_flagged"
   ],
   "note": "No hypotheses."
  },
  {
   "property": "C08",
   "status": "proved",
   "theorems": [
    "Verif.C08_errors_do_not_change_result"
   ],
   "note": "Hypothesis as in the English statement (nothing fatal)."
  },
  {
   "property": "C09",
   "status": "proved",
   "theorems": [
    "Verif.C09_set_of_distinct_items",
    "Verif.C09_duplicate_errors",
    "Verif.C09_mismatching_scalar_item_never_returns"
   ],
   "note": "The comparison of the elements read has to be a strict weak order (as the standard requires); error counts are stated for items readable without errors, the general case is C58."
  },
  {
   "property": "C10",
   "status": "proved",
   "theorems": [
    "Verif.C10_bad_variant_never_fatal"
   ],
   "note": "No hypotheses."
  },
  {
   "property": "C11",
   "status": "proved",
   "theorems": [
    "Verif.C11_size_mismatch",
    "Verif.C11_componentwise"
   ],
   "note": "No hypotheses; any arity."
  },
  {
   "property": "C12",
   "status": "proved",
   "theorems": [
    "Verif.C12_array_read_elementwise",
    "Verif.C12_array_written_elementwise"
   ],
   "note": "No hypotheses."
  },
  {
   "property": "C13",
   "status": "proved",
   "theorems": [
    "Verif.C13_int8_wraps"
   ],
   "note": "No hypotheses."
  },
  {
   "property": "C14",
   "status": "proved",
   "theorems": [
    "Verif.C14_int_out_of_range_is_ub",
    "Verif.C14_double_truncated"
   ],
   "note": "No hypotheses; IEEE 754 double arithmetic is modelled bit by bit (Model/Ieee), see also C66."
  },
  {
   "property": "C15",
   "status": "proved",
   "theorems": [
    "Verif.C15_null_collapse"
   ],
   "note": "'Only loss' is C01 together with this theorem: JRepr excludes exactly NullLike content of nullables."
  },
  {
   "property": "C16",
   "status": "proved",
   "theorems": [
    "Verif.C16_arrays_replace",
    "Verif.C16_map_merges"
   ],
   "note": "MapOK: the map is a map (sorted, string keys). multimaps: C17_multimap_read_adds."
  },
  {
   "property": "C17",
   "status": "proved",
   "theorems": [
    "Verif.C17_multimap_read_adds",
    "Verif.C17_multimap_write_groups"
   ],
   "note": "Keys below 4 GiB when writing."
  },
  {
   "property": "C18",
   "status": "proved",
   "theorems": [
    "Verif.C18_map_names",
    "Verif.C18_colliding_keys_duplicate_members",
    "Verif.C18_nul_keys_do_not_round_trip"
   ],
   "note": "Keys below 4 GiB when writing."
  },
  {
   "property": "C19",
   "status": "proved",
   "theorems": [
    "Verif.C19_borrows_iff_nonempty_map"
   ],
   "note": "IterPerm: iterating a container visits its elements."
  },
  {
   "property": "C20",
   "status": "proved",
   "theorems": [
    "Verif.C20_expected_type"
   ],
   "note": "PullSupported: the call compiles."
  },
  {
   "property": "C21",
   "status": "proved",
   "theorems": [
    "Verif.C21_parse_error_thrown",
    "Verif.C21_top_level_mismatch",
    "Verif.C21_accepted",
    "Verif.C21_c_string_overload"
   ],
   "note": "TopSupported: the call of fromJson compiles for the type. The parser is arbitrary here; the real one is C52."
  },
  {
   "property": "C22",
   "status": "proved",
   "theorems": [
    "Verif.C22_message_determines_error",
    "Verif.C22_kind_determined",
    "Verif.C22_mismatch_names_types",
    "Verif.C22_message_content",
    "Verif.C22_decimal"
   ],
   "note": "QuoteFree: names of records and members contain no quote (they are C++ names); C22_kind_determined does without."
  },
  {
   "property": "C23",
   "status": "proved",
   "theorems": [
    "Verif.C23_deserialization_terminates",
    "Verif.C23_recursion_depth_bound"
   ],
   "note": "Ranked: no class is its own base class."
  },
  {
   "property": "C24",
   "status": "proved",
   "theorems": [
    "Verif.C24_shared_objects_are_duplicated",
    "Verif.C24_cycles_never_complete"
   ],
   "note": "IterIndep: iteration order does not depend on addresses of pointees."
  },
  {
   "property": "C25",
   "status": "proved",
   "theorems": [
    "Verif.C25_time_from_string",
    "Verif.C25_time_from_other"
   ],
   "note": "The functions parsing and formatting times (c++utilities) are parameters."
  },
  {
   "property": "C26",
   "status": "proved",
   "theorems": [
    "Verif.C26_varint_round_trip",
    "Verif.C26_varint_too_large",
    "Verif.C26_varint_zero_byte",
    "Verif.C26_varint_read_any",
    "Verif.C26_varint_empty"
   ],
   "note": "No hypotheses; all integers, all bytes."
  },
  {
   "property": "C27",
   "status": "proved",
   "theorems": [
    "Verif.C27_read_yields_what_was_written",
    "Verif.C27_exact_without_shared_pointers",
    "Verif.C27_toBinary_restoreFromBinary",
    "Verif.C27_toBinary_fromBinary"
   ],
   "note": "BRepr (Spec/BinRepr): value is valid for the type, lengths fit, reader and writer of each class agree, which C46/C47 prove for generated code."
  },
  {
   "property": "C28",
   "status": "proved",
   "theorems": [
    "Verif.C28_restored_graph_is_isomorphic",
    "Verif.C28_toBinary_fromBinary_isomorphic"
   ],
   "note": "As C27; GraphIso is a bijection between reachable objects."
  },
  {
   "property": "C29",
   "status": "proved",
   "theorems": [
    "Verif.C29_writing_terminates",
    "Verif.C29_content_written_at_most_once",
    "Verif.C29_no_object_recorded_twice"
   ],
   "note": "Finite heap; acyclic inheritance."
  },
  {
   "property": "C30",
   "status": "proved",
   "theorems": [
    "Verif.C30_read_consumes_prefix",
    "Verif.C30_consecutive_values"
   ],
   "note": "First theorem without hypotheses; the second as C27."
  },
  {
   "property": "C31",
   "status": "proved",
   "theorems": [
    "Verif.C31_truncated_input_throws",
    "Verif.C31_truncated_restore_throws"
   ],
   "note": "No hypotheses."
  },
  {
   "property": "C32",
   "status": "proved",
   "theorems": [
    "Verif.C32_read_any_bytes",
    "Verif.C32_fromBinary_any_bytes",
    "Verif.C32_restoreFromBinary_any_bytes",
    "Verif.C32_initialised",
    "Verif.C32_uninitialised_set_element"
   ],
   "note": "Readable/KeyTypes: supported types whose set elements and map keys are completely initialised by reading; the limit without this condition is proved as a theorem (C32_uninitialised_set_element). Memory exhaustion is not modelled."
  },
  {
   "property": "C33",
   "status": "proved",
   "theorems": [
    "Verif.C33_bad_reference_throws",
    "Verif.C33_pointer_type_safe",
    "Verif.C33_reference_resolves"
   ],
   "note": "TypedSt: the session is one reached by reading (holds initially and is preserved, C32)."
  },
  {
   "property": "C34",
   "status": "proved",
   "theorems": [
    "Verif.C34_later_occurrence",
    "Verif.C34_first_occurrence",
    "Verif.C34_null"
   ],
   "note": "All 64-bit addresses."
  },
  {
   "property": "C35",
   "status": "proved",
   "theorems": [
    "Verif.C35_first_byte_is_index",
    "Verif.C35_index_selects_alternative",
    "Verif.C35_unknown_index_throws",
    "Verif.C35_valueless_throws",
    "Verif.C35_valueless_bytes_rejected"
   ],
   "note": "No hypotheses."
  },
  {
   "property": "C36",
   "status": "proved",
   "theorems": [
    "Verif.C36_encoding_injective_and_prefix_free"
   ],
   "note": "As C27."
  },
  {
   "property": "C37",
   "status": "proved",
   "theorems": [
    "Verif.C37_set_united",
    "Verif.C37_multiset_appended",
    "Verif.C37_map_keeps_present_keys",
    "Verif.C37_multimap_appended",
    "Verif.C37_vector_has_announced_length",
    "Verif.C37_vector_replaced",
    "Verif.C37_vector_of_maps_accumulates"
   ],
   "note": "Comparison of elements and keys has to be a strict weak order. The vector case has the limit proved as theorem that elements are read in place."
  },
  {
   "property": "C38",
   "status": "proved",
   "theorems": [
    "Verif.C38_unsupported_version_rejected",
    "Verif.C38_rejected_bytes",
    "Verif.C38_only_supported_versions_accepted"
   ],
   "note": "No hypotheses beyond the situation described."
  },
  {
   "property": "C39",
   "status": "proved",
   "theorems": [
    "Verif.C39_layout_of_versioned_class",
    "Verif.C39_layout_of_unversioned_class",
    "Verif.C39_zero_means_current",
    "Verif.C39_version_dropped",
    "Verif.C39_content_written_with_version_zero"
   ],
   "note": "Exact layouts as iff."
  },
  {
   "property": "C40",
   "status": "proved",
   "theorems": [
    "Verif.C40_nested_version_makes_unreadable"
   ],
   "note": "As C27 for what precedes the nested object."
  },
  {
   "property": "C41",
   "status": "proved",
   "theorems": [
    "Verif.C41_explicit_version_restored",
    "Verif.C41_misread_with_version_dependent_base"
   ],
   "note": "Positive part for all hierarchies without version-dependent members in bases; negative part by an explicit program."
  },
  {
   "property": "C42",
   "status": "proved",
   "theorems": [
    "Verif.C42_dateTime_round_trip",
    "Verif.C42_timeSpan_round_trip"
   ],
   "note": "All tick values."
  },
  {
   "property": "C43",
   "status": "proved",
   "theorems": [
    "Verif.Gen.C43_json_functions",
    "Verif.Gen.C43_binary_functions",
    "Verif.Gen.C43_json_classes",
    "Verif.Gen.C43_binary_classes",
    "Verif.Gen.C43_each_class_once",
    "Verif.Gen.C43_no_redefinition"
   ],
   "note": "Translation units are abstract syntax as delivered by clang (well-formed: each class has at most one definition). wanted is the specification in Spec/Generator. C43_json_classes and C43_binary_classes spell out the names of the templates each of the generators looks for."
  },
  {
   "property": "C44",
   "status": "proved",
   "theorems": [
    "Verif.Gen.C44_bases_first",
    "Verif.Gen.C44_included_bases_left_out"
   ],
   "note": "As C43."
  },
  {
   "property": "C45",
   "status": "proved",
   "theorems": [
    "Verif.Gen.C45_members_of_root_repeated",
    "Verif.Gen.C45_once_iff"
   ],
   "note": "Chain of any length; other members may be arbitrary as long as not named alike."
  },
  {
   "property": "C46",
   "status": "proved",
   "theorems": [
    "Verif.Gen.C46_json_bodies",
    "Verif.Gen.C46_binary_reader_writer_agree",
    "Verif.Gen.C46_json_members_handled",
    "Verif.Gen.C46_binary_members_handled"
   ],
   "note": "As C43; the last two theorems link generated code to the hypotheses of C01 and C27."
  },
  {
   "property": "C47",
   "status": "proved",
   "theorems": [
    "Verif.Gen.C47_binary_bodies"
   ],
   "note": "As C43; markers and versions arbitrary."
  },
  {
   "property": "C48",
   "status": "proved",
   "theorems": [
    "Verif.Gen.C48_json_output",
    "Verif.Gen.C48_binary_output"
   ],
   "note": "Balance requires names to contain no braces (NamesOk), as C++ names do."
  },
  {
   "property": "C49",
   "status": "proved",
   "theorems": [
    "Verif.Gen.C49_deserialization_iff_default_constructible"
   ],
   "note": "As C43."
  },
  {
   "property": "C50",
   "status": "proved",
   "theorems": [
    "Verif.Diag.C50_success_iff_count",
    "Verif.Diag.C50_resilient",
    "Verif.Diag.C50_not_resilient",
    "Verif.Diag.C50_order_irrelevant",
    "Verif.Diag.C50_shown",
    "Verif.Diag.C50_shown_not_resilient",
    "Verif.Diag.C50_engine_flag",
    "Verif.Diag.C50_wraps"
   ],
   "note": "Fewer than 2^32 diagnostics; the wrap-around beyond is proved as limit."
  },
  {
   "property": "C51",
   "status": "proved",
   "theorems": [
    "Verif.Cli.C51_clang_options",
    "Verif.Cli.C51_clang_args",
    "Verif.Cli.C51_parts_exist",
    "Verif.Cli.C51_no_clang_options",
    "Verif.Cli.C51_run",
    "Verif.Cli.C51_unknown_generator",
    "Verif.Cli.C51_unopenable",
    "Verif.Cli.C51_no_job",
    "Verif.Cli.C51_only_output_changed",
    "Verif.Cli.C51_status_zero",
    "Verif.Cli.C51_default"
   ],
   "note": "The argument parser of c++utilities and clang itself are parameters; what is done with their results is modelled."
  },
  {
   "property": "C52",
   "status": "proved",
   "theorems": [
    "Verif.C52_accepts_exactly",
    "Verif.C52_rejects",
    "Verif.C52_unambiguous",
    "Verif.C52_printed_is_json",
    "Verif.C52_round_trip",
    "Verif.C52_text_determines_document",
    "Verif.C52_nonfinite_does_not_parse",
    "Verif.C52_nonfinite_cut_off",
    "Verif.C52_no_control_characters",
    "Verif.C52_value_round_trip",
    "Verif.C52_value_round_trip_numbers",
    "Verif.C52_scalar_round_trip"
   ],
   "note": "Conversion of doubles from/to text (Grisu2/strtod of RapidJSON) is a parameter; Printable says that a number survives it. Everything else of reader and writer is modelled byte by byte."
  },
  {
   "property": "C53",
   "status": "proved",
   "theorems": [
    "Verif.C53_member_order"
   ],
   "note": "No hypotheses."
  },
  {
   "property": "C54",
   "status": "proved",
   "theorems": [
    "Verif.C54_no_error_iff_conforming",
    "Verif.C54_fromJson"
   ],
   "note": "OrderedItems: comparison of set elements is a strict weak order. Conforms is defined on type and document only."
  },
  {
   "property": "C55",
   "status": "proved",
   "theorems": [
    "Verif.C55_uninitialised",
    "Verif.C55_undefined_behaviour_exactly"
   ],
   "note": "As C54; numbers of the document are 64 bits wide (C56_parsed_numbers shows parsed ones are)."
  },
  {
   "property": "C56",
   "status": "proved",
   "theorems": [
    "Verif.C56_safe_outcomes",
    "Verif.C56_parsed_numbers",
    "Verif.C56_fromJson_any_text"
   ],
   "note": "As C54/C55, acyclic inheritance."
  },
  {
   "property": "C57",
   "status": "proved",
   "theorems": [
    "Verif.C57_serialised_form",
    "Verif.C57_representation_unique",
    "Verif.C57_documented_type",
    "Verif.C57_serialisable_iff",
    "Verif.C57_outcomes",
    "Verif.C57_toJsonDocument"
   ],
   "note": "No hypotheses."
  },
  {
   "property": "C58",
   "status": "proved",
   "theorems": [
    "Verif.C58_errors_are_the_faults",
    "Verif.C58_new_list_of_errors",
    "Verif.C58_faults_defined",
    "Verif.C58_faults_unique",
    "Verif.C58_places_exist"
   ],
   "note": "As C54. Uniqueness and existence of the faults of a document are proved."
  },
  {
   "property": "C59",
   "status": "proved",
   "theorems": [
    "Verif.Gen.C59_json_text",
    "Verif.Gen.C59_binary_text"
   ],
   "note": "CppNames: names are C++ names. The reader of C++ text (tokens, statements, blocks, lookup) in Spec/GenCpp is independent of the generator."
  },
  {
   "property": "C60",
   "status": "proved",
   "theorems": [
    "Verif.C60_binary_form",
    "Verif.C60_only_appends",
    "Verif.C60_exceptions",
    "Verif.C60_undefined",
    "Verif.C60_unique",
    "Verif.C60_outcomes",
    "Verif.C60_success"
   ],
   "note": "No hypotheses for form, exceptions, undefined behaviour and uniqueness; finite heap and acyclic inheritance for totality."
  },
  {
   "property": "C61",
   "status": "proved",
   "theorems": [
    "Verif.C61_accepted",
    "Verif.C61_consumes_prefix",
    "Verif.C61_rejected",
    "Verif.C61_undefined",
    "Verif.C61_unambiguous",
    "Verif.C61_total",
    "Verif.C61_fromBinary"
   ],
   "note": "No hypotheses for the characterisations; acyclic inheritance and valid types for 'exactly one holds'."
  },
  {
   "property": "C62",
   "status": "proved",
   "theorems": [
    "Verif.Dispatch.C62_json_write_iff",
    "Verif.Dispatch.C62_json_read_iff",
    "Verif.Dispatch.C62_binary_write_iff",
    "Verif.Dispatch.C62_binary_read_iff",
    "Verif.Dispatch.C62_toJson_iff",
    "Verif.Dispatch.C62_toJsonDocument_explicit_iff",
    "Verif.Dispatch.C62_fromJson_iff",
    "Verif.Dispatch.C62_unambiguous",
    "Verif.Dispatch.C62_string_view_ambiguous",
    "Verif.Dispatch.C62_conflicting_marks",
    "Verif.Dispatch.C62_marked_but_not_iteratable",
    "Verif.Dispatch.C62_json_types",
    "Verif.Dispatch.C62_json_readable_types_compile",
    "Verif.Dispatch.C62_readable_types_compile",
    "Verif.Dispatch.C62_expected_type",
    "Verif.Dispatch.C62_array_overload_exists"
   ],
   "note": "The overloads and their SFINAE conditions are modelled as a table (Model/Dispatch); C++ overload resolution itself is modelled as 'exactly one viable candidate'."
  },
  {
   "property": "C63",
   "status": "proved",
   "theorems": [
    "Verif.C63_json_same_document",
    "Verif.C63_same_toJsonDocument",
    "Verif.C63_json_same_value",
    "Verif.C63_same_fromJson",
    "Verif.C63_binary_same_bytes",
    "Verif.C63_binary_same_value",
    "Verif.C63_same_restoreFromBinary",
    "Verif.C63_only_listed_members_in_document",
    "Verif.C63_unlisted_members_kept"
   ],
   "note": "Listed members are those of generated code; not versioned for binary data."
  },
  {
   "property": "C64",
   "status": "proved",
   "theorems": [
    "Verif.C64_truncated_text_rejected",
    "Verif.C64_truncated_document_rejected",
    "Verif.C64_truncated_toJson_throws",
    "Verif.C64_truncated_number_accepted"
   ],
   "note": "Printable as for C52."
  },
  {
   "property": "C65",
   "status": "proved",
   "theorems": [
    "Verif.C65_read_is_representable",
    "Verif.C65_document_reload",
    "Verif.C65_text_reload",
    "Verif.C65_optional_string_view_lost",
    "Verif.C65_optional_string_view_excluded",
    "Verif.C65_float_overflow_lost"
   ],
   "note": "Conditions are those of the English statement (Reloadable, Settled); limits proved as theorems."
  },
  {
   "property": "C66",
   "status": "proved",
   "theorems": [
    "Verif.C66_double_from_number",
    "Verif.C66_float_from_double",
    "Verif.C66_float_from_integer",
    "Verif.C66_integer_rounded_twice",
    "Verif.C66_float_written_exactly",
    "Verif.C66_float_document",
    "Verif.C66_biggest_float_document_rejected"
   ],
   "note": "All 2^64 inputs, exact integer arithmetic in units of 2^-1074."
  },
  {
   "property": "C67",
   "status": "proved",
   "theorems": [
    "Verif.C67_restore_reload",
    "Verif.C67_binary_reload",
    "Verif.C67_binary_reload_exact",
    "Verif.C67_unsaved_members_lost",
    "Verif.C67_missing_members_untouched",
    "Verif.C67_uninitialised_member_not_saved"
   ],
   "note": "Conditions are those of the English statement (Kept, Prepared, OrderedKeys); fewer than 2^56 elements per container, fewer than 2^64 objects."
  },
  {
   "property": "C68",
   "status": "proved",
   "theorems": [
    "Verif.C68_good_afterwards_iff_everything_read",
    "Verif.C68_truncated_leaves_failed_stream",
    "Verif.C68_same_exceptions",
    "Verif.C68_no_new_undefined_behaviour",
    "Verif.C68_reading_past_the_end_is_silent",
    "Verif.C68_truncated_list_recurses_forever"
   ],
   "note": "Reader/Writer are the read/write overloads over arbitrary stream primitives; Lemmas/Stream proves that the throwing instance equals Model/Binary. c++utilities' BinaryReader is external: contents of its buffer after failing reads are universally quantified."
  },
  {
   "property": "C69",
   "status": "proved",
   "theorems": [
    "Verif.C69_everything_or_failure",
    "Verif.C69_accepting_stream_gets_everything",
    "Verif.C69_same_exceptions",
    "Verif.C69_partial_output_is_never_read_as_object"
   ],
   "note": "Buffered streams (failure when flushing) appear as a failure of some write; writing of the last bytes counts as failed if flushing fails."
  },
  {
   "property": "C70",
   "status": "proved",
   "theorems": [
    "Verif.C70_call_depth",
    "Verif.C70_call_depth_restoreFromBinary",
    "Verif.C70_memory",
    "Verif.C70_memory_restoreFromBinary",
    "Verif.C70_depth_attained",
    "Verif.C70_memory_bomb"
   ],
   "note": "The recursion budget of the model is the number of nested read calls. Temporary memory while reading (a vector is resized to the length read before its elements are read; up to what can be allocated) is not part of the statement."
  },
  {
   "property": "C71",
   "status": "proved",
   "theorems": [
    "Verif.C71_newer_reads_older",
    "Verif.C71_newer_reads_older_fromBinary",
    "Verif.C71_newer_restores_older",
    "Verif.C71_newer_writes_like_older",
    "Verif.C71_older_restores_newer",
    "Verif.C71_elements_use_newest_version",
    "Verif.C71_unversioned_class_misread"
   ],
   "note": "Conditions on the pair of programs are those of the English statement (ReadableBy, WritesLike, SameInit, SameOrder, SameIteration). The writing direction assumes that the older program is able to write the corresponding object."
  },
  {
   "property": "C72",
   "status": "proved",
   "theorems": [
    "Verif.C72_newer_reads_older",
    "Verif.C72_older_reads_newer",
    "Verif.C72_older_document_has_no_added_members",
    "Verif.C72_older_writes_newer_restores",
    "Verif.C72_newer_writes_older_restores"
   ],
   "note": "Conditions on the pair of programs are those of the English statement (MembersAdded, NamesKept, SameInit, SameOrder, SameTimes). Errors are compared without the index of the array element (an added array member resets it, see C22)."
  },
  {
   "property": "C73",
   "status": "proved",
   "theorems": [
    "Verif.C73_memory",
    "Verif.C73_memory_multimaps",
    "Verif.C73_parsed_volume",
    "Verif.C73_fromJson_memory",
    "Verif.C73_fromJson_call_depth",
    "Verif.C73_multimap_copies_names",
    "Verif.C73_exponential_without_ReadOnce",
    "Verif.C73_exponential_documents"
   ],
   "note": "The recursion budget of the model is the number of nested pull calls. The size of a document counts values, names and characters. Errors are bounded by 3 per unit (a time value which is no string is reported twice)."
  },
  {
   "property": "C74",
   "status": "proved",
   "theorems": [
    "Verif.C74_same_outcome",
    "Verif.C74_left",
    "Verif.C74_object_stays_valid",
    "Verif.C74_unchanged",
    "Verif.C74_array",
    "Verif.C74_set",
    "Verif.C74_pointer",
    "Verif.C74_members",
    "Verif.C74_map_other_entries",
    "Verif.C74_retry",
    "Verif.C74_read_twice",
    "Verif.C74_retry_duplicates_multimap"
   ],
   "note": "C74_members assumes that no member is read twice (no indirect bases besides direct ones); C74_left covers this case, too. Exceptions are those of the errors object; std::bad_alloc is not modelled."
  },
  {
   "property": "C75",
   "status": "proved",
   "theorems": [
    "Verif.C75_same_outcome",
    "Verif.C75_object_stays_valid",
    "Verif.C75_restoreFromBinary",
    "Verif.C75_scalar",
    "Verif.C75_array",
    "Verif.C75_set",
    "Verif.C75_map",
    "Verif.C75_pointer",
    "Verif.C75_shared_pointer",
    "Verif.C75_pair",
    "Verif.C75_variant",
    "Verif.C75_class",
    "Verif.C75_other_members"
   ],
   "note": "Exceptions are those of the reader and resize() exceeding max_size; std::bad_alloc for lengths which are allowed but do not fit into memory is not modelled. C75_restoreFromBinary is for objects without shared objects before (as in C32)."
  },
  {
   "property": "C76",
   "status": "proved",
   "theorems": [
    "Verif.C76_previous_content",
    "Verif.C76_retry",
    "Verif.C76_retry_restore",
    "Verif.C76_reuse",
    "Verif.C76_any_history",
    "Verif.Demo.C76_limit_sets",
    "Verif.Demo.C76_limit_multisets",
    "Verif.Demo.C76_limit_versions"
   ],
   "note": "SameOnceRead (Spec/BinRetry.lean) says which contents differ only in what reading replaces. C76_previous_content: same outcome of read and restoreFromBinary; C76_retry, C76_retry_restore, C76_reuse, C76_any_history: after failed/successful attempts the next attempt has the outcome it would have had at first. C76_limit_sets, C76_limit_multisets, C76_limit_versions: the rule's exceptions are necessary."
  },
  {
   "property": "C77",
   "status": "proved",
   "theorems": [
    "Verif.CMake.C77_arguments",
    "Verif.CMake.C77_limit_binary_visibility",
    "Verif.CMake.C77_commands",
    "Verif.CMake.C77_outputs_distinct",
    "Verif.CMake.C77_output_lists",
    "Verif.CMake.C77_tool_arguments",
    "Verif.CMake.C77_clang_arguments",
    "Verif.CMake.C77_output_files",
    "Verif.CMake.C77_limit_off"
   ],
   "note": "Model/CMake.lean models lines 70-225 of ReflectionGenerator.cmake (cmake_parse_arguments, generator expressions, options, commands, output lists) and connects the commands with the model of the tool (C51). CMake's own semantics and c++utilities' argument parser are assumptions stated in the model's comments. Limits proved: C77_limit_off, C77_limit_binary_visibility."
  },
  {
   "property": "C78",
   "status": "proved",
   "theorems": [
    "Verif.C78_binary_size",
    "Verif.C78_binary_size_session",
    "Verif.C78_json_size",
    "Verif.C78_text_size",
    "Verif.C78_limit_shared_objects",
    "Verif.C78_limit_indirect_bases"
   ],
   "note": "C78_binary_size/_session: bytes bounded by Val.footprint of the value plus each reachable shared object once. C78_json_size: shared objects count per reference. C78_text_size: text vs. document. Limits: C78_limit_shared_objects (JSON exponential, binary linear), C78_limit_indirect_bases (both exponential, cf. C45). Specification: Spec/OutputSize."
  },
  {
   "property": "C79",
   "status": "proved",
   "theorems": [
    "Verif.C79_first_contents_exist",
    "Verif.C79_session_writes_first_contents",
    "Verif.C79_unchanged_objects",
    "Verif.C79_session_restored",
    "Verif.C79_limit_later_content_not_written",
    "Verif.C79_limit_reused_address"
   ],
   "note": "Spec/Sessions.lean: each call comes with the heap at its time; FirstContents is defined by the calls' own records. C79_first_contents_exist (exists, unique), C79_session_writes_first_contents, C79_unchanged_objects, C79_session_restored; limits C79_limit_later_content_not_written, C79_limit_reused_address. Calls which throw are not part of such a session (C76, C75 are about exceptions)."
  },
  {
   "property": "C80",
   "status": "proved",
   "theorems": [
    "Verif.C80_existing_objects_unchanged",
    "Verif.C80_pointers_own",
    "Verif.C80_pointers_own_exception",
    "Verif.C80_new_deserializer",
    "Verif.C80_existing_object"
   ],
   "note": "Spec/Ownership.lean. C80_existing_objects_unchanged, C80_pointers_own(_exception), C80_new_deserializer, C80_existing_object. Not modelled: reading into an object the only owner of which is a pointer being replaced (use after free) - the caller has to keep the target alive."
  },
  {
   "property": "C81",
   "status": "proved",
   "theorems": [
    "Verif.Gen.C81_json_locality",
    "Verif.Gen.C81_binary_locality",
    "Verif.Gen.C81_unrelated_declarations",
    "Verif.Gen.C81_irrelevant_declarations",
    "Verif.Gen.C81_base_specifier_order",
    "Verif.Gen.C81_limit_definition_order"
   ],
   "note": "Spec/GenLocality.lean: ClassView is all a block may depend on. C81_json_locality, C81_binary_locality: one function from ClassView to text for all translation units; C81_unrelated_declarations, C81_irrelevant_declarations, C81_base_specifier_order; limit C81_limit_definition_order (Finding 45)."
  },
  {
   "property": "C82",
   "status": "proved",
   "theorems": [
    "Verif.C82_restored_object_same_json",
    "Verif.C82_restored_value_same_json",
    "Verif.C82_binary_json_object",
    "Verif.C82_json_binary_json"
   ],
   "note": "C82_restored_object_same_json, C82_restored_value_same_json, C82_binary_json_object, C82_json_binary_json. The iteration order of hashed containers is a function of the content in the model (IterNoAddresses: not depending on addresses); a real restored hashed container may iterate in another order."
  },
  {
   "property": "C83",
   "status": "proved",
   "theorems": [
    "Verif.C83_same_as_with_new_object",
    "Verif.C83_same_with_any_object",
    "Verif.C83_context_left",
    "Verif.C83_initial_context",
    "Verif.C83_errors_of_all_calls",
    "Verif.C83_history",
    "Verif.C83_limit_location_of_earlier_error"
   ],
   "note": "Spec/ErrorHistory.lean: CallGives/CallHistory are calls of fromJson with the object in the state left by the previous call. C83_same_as_with_new_object, C83_same_with_any_object, C83_context_left, C83_initial_context, C83_errors_of_all_calls, C83_history; limit C83_limit_location_of_earlier_error (Finding 46). Which part of a location is the initial one is determined by C58."
  },
  {
   "property": "C84",
   "status": "proved",
   "theorems": [
    "Verif.C84_value",
    "Verif.C84_array",
    "Verif.C84_member",
    "Verif.C84_object",
    "Verif.C84_undefined",
    "Verif.C84_named_pull",
    "Verif.C84_first_wins",
    "Verif.C84_object_round_trip",
    "Verif.C84_array_round_trip",
    "Verif.C84_limit_end"
   ],
   "note": "Model/PushInto.lean transcribes the overloads of push with the array/object passed through all calls (as in the C++ code); pushInto_eq shows that Model/Push.lean, which returns the parts added, computes the same. C84_value, C84_array, C84_member, C84_object, C84_undefined, C84_named_pull, C84_first_wins, C84_object_round_trip, C84_array_round_trip; limit C84_limit_end."
  },
  {
   "property": "C85",
   "status": "proved",
   "theorems": [
    "Verif.C85_round_trip_with_equal_names",
    "Verif.C85_hidden_member_is_lost",
    "Verif.C85_hidden_member_has_no_effect"
   ],
   "note": "Props/JsonSameNames.lean. C85_round_trip_with_equal_names gives the complete outcome for members of equal names and types (a case C01 excludes), C85_hidden_member_is_lost the consequence; C85_hidden_member_has_no_effect holds for arbitrary types and also if reading reports errors. FirstOfName is first in the order of C53. The remark about the binary format is C27 (which does not mention names) with an example."
  },
  {
   "property": "C86",
   "status": "proved",
   "theorems": [
    "Verif.C86_reading_json_independent",
    "Verif.C86_reading_binary_independent",
    "Verif.C86_json_between_processes",
    "Verif.C86_binary_between_processes",
    "Verif.C86_documents_same_up_to_order"
   ],
   "note": "Spec/IterationOrder.lean: SameExceptOrder says two processes differ in nothing but the order. C86_reading_json_independent, C86_reading_binary_independent, C86_json_between_processes, C86_binary_between_processes, C86_documents_same_up_to_order. SameUpToOrder is coarse: it allows the order to differ at any depth, also where there is no hashed container."
  },
  {
   "property": "C87",
   "status": "proved",
   "theorems": [
    "Verif.C87_json_reproducible",
    "Verif.C87_binary_reproducible",
    "Verif.C87_binary_same_up_to_order",
    "Verif.C87_binary_only_addresses_differ",
    "Verif.C87_limit_addresses_disclosed",
    "Verif.C87_limit_shared_pointers"
   ],
   "note": "Spec/Reproducible.lean (ConsistsOf, WithoutHashed, WithoutSharedPtr), Spec/BinPointers.lean (Piece, Renders). C87_json_reproducible, C87_binary_reproducible, C87_binary_same_up_to_order, C87_binary_only_addresses_differ; limits C87_limit_addresses_disclosed, C87_limit_shared_pointers (Finding 49). Hashed containers and shared pointers together: only C86 (data of one order is read by a process with another order)."
  },
  {
   "property": "C88",
   "status": "proved",
   "theorems": [
    "Verif.C88_unrelated_values",
    "Verif.C88_unrelated_values_restored",
    "Verif.C88_exception_marks_object",
    "Verif.C88_limit_trying_again"
   ],
   "note": "Props/WriteExceptions.lean. C88_unrelated_values, C88_unrelated_values_restored (for every state of the serializer), C88_exception_marks_object; limit C88_limit_trying_again (Finding 50). Exceptions are those of the model (valueless variants, numbers too big for the variable-length format); failing streams are C69."
  },
  {
   "property": "C89",
   "status": "proved",
   "theorems": [
    "Verif.C89_any_deserializer",
    "Verif.C89_appended_records",
    "Verif.C89_limit_stale_identifier"
   ],
   "note": "Props/DeserializerReuse.lean. C89_any_deserializer (arbitrary table and heap, for values of any type, including cyclic graphs), C89_appended_records (a list of records, each with its own objects), limit C89_limit_stale_identifier. CopiesOf says that copies of different records use disjoint ranges of new objects. The stream is assumed to be positioned at the beginning of the data."
  },
  {
   "property": "C90",
   "status": "proved",
   "theorems": [
    "Verif.C90_same_document",
    "Verif.C90_restored_as_other_type",
    "Verif.C90_same_text",
    "Verif.C90_text_restored_as_other_type"
   ],
   "note": "Spec/TypeChange.lean: SameContent relates objects of different types in different programs, independently of push. C90_same_document, C90_restored_as_other_type, C90_same_text, C90_text_restored_as_other_type. Names of map entries must be free of NUL bytes and below 4 GiB; texts below 4 GiB. Whole and floating-point numbers are not regarded as the same content (5 and 5.0 are different texts). That the value fits into the new type is part of JRepr (out-of-range numbers: C14)."
  },
  {
   "property": "C91",
   "status": "proved",
   "theorems": [
    "Verif.C91_same_bytes",
    "Verif.C91_restored_as_other_type",
    "Verif.C91_limit_size_of_numbers"
   ],
   "note": "Spec/BinTypeChange.lean: SameBinary (NumberOf, NoObject, Owns, HasElements, HasComponents) relates objects of different types in different programs; SameHeap does so for shared objects, so cycles are covered. C91_same_bytes (both directions, exceptions included, any state of the serializer), C91_restored_as_other_type, limit C91_limit_size_of_numbers. Uninitialised scalars and dangling pointers are outside (undefined behaviour)."
  },
  {
   "property": "C92",
   "status": "proved",
   "theorems": [
    "Verif.C92_same_document_same_content",
    "Verif.C92_same_document_iff_same_content",
    "Verif.C92_same_text_iff_same_content",
    "Verif.C92_same_bytes_same_graph",
    "Verif.C92_same_bytes_iff_same_value",
    "Verif.C92_limit_nested_optionals",
    "Verif.C92_limit_keys_containing_nul"
   ],
   "note": "Props/OutputAsKey.lean. C92_same_document_same_content (hashed containers allowed), C92_same_document_iff_same_content, C92_same_text_iff_same_content, C92_same_bytes_same_graph (sharing and cycles, any versions), C92_same_bytes_iff_same_value; limits C92_limit_nested_optionals, C92_limit_keys_containing_nul. Representable means JRepr/BRepr as for C01/C27 (so floats must not be NaN etc.); hashed containers of the same content written in different orders are C86/C87."
  },
  {
   "property": "C93",
   "status": "proved",
   "theorems": [
    "Verif.C93_read_again",
    "Verif.C93_retry_with_complete_data",
    "Verif.C93_every_cut",
    "Verif.C93_any_number_of_attempts",
    "Verif.C93_restoreFromBinary"
   ],
   "note": "Spec/SameData.lean: Resumable (coinductive, so recursive types are included; bases, version-dependent members). C93_read_again, C93_retry_with_complete_data, C93_every_cut (the first attempt throws at every cut and the second is successful), C93_any_number_of_attempts, C93_restoreFromBinary (returned version included). Complements C76, which covers retrying with arbitrary other data but neither sets and maps nor version-dependent members; C76_limit_multisets shows that multisets have to be excluded. The comparison of keys must be a weak order on all values of the model, i.e. the environment has to choose an order for values of other types as well."
  },
  {
   "property": "C94",
   "status": "proved",
   "theorems": [
    "Verif.C94_crash_recovery",
    "Verif.C94_append_after_recovery"
   ],
   "note": "Props/CrashRecovery.lean, on top of C89 (Record, CopiesOf) and C31. C94_crash_recovery: for every prefix of the concatenated records there is a k such that the first k records are restored as fresh copies, what is left is a strict prefix of record k (or nothing, if there is none), and reading it throws eof. C94_append_after_recovery: any successful read of k records determines the right position for truncating; appended records are then restored as well. That truncating is necessary is shown by an example. Assumes the file contains a prefix of what was written (no reordering of writes by the file system)."
  },
  {
   "property": "C95",
   "status": "proved",
   "theorems": [
    "Verif.C95_read_line_by_line",
    "Verif.C95_crash",
    "Verif.C95_append_after_crash",
    "Verif.C95_toJson_one_line"
   ],
   "note": "Props/JsonLines.lean; getLines specifies repeated std::getline. C95_toJson_one_line, C95_read_line_by_line, C95_crash, C95_append_after_crash; rests on C52 (round trip, no control characters) and C64 (truncated texts). Assumes numbers are Printable (64 bit integers; finite floats for which RapidJSON's conversions, a parameter of the model, are inverse) and that printed floats contain no control characters. Bare numbers are excluded in C95_crash: C64_truncated_number_accepted."
  },
  {
   "property": "C96",
   "status": "proved",
   "theorems": [
    "Verif.C96_layers",
    "Verif.C96_independent_documents",
    "Verif.C96_replaced",
    "Verif.C96_overridden_members",
    "Verif.C96_many_layers",
    "Verif.C96_maps_are_merged",
    "Verif.C96_nested_objects"
   ],
   "note": "Props/Layers.lean. Layers E t a b ab: reading a, then b, is reading ab. C96_layers is compositional (nested objects can be combined recursively), C96_replaced lists the documents which replace the previous value, C96_nested_objects and C96_maps_are_merged the recursive combination; C96_independent_documents: documents without common members can be read in either order; C96_overridden_members and C96_many_layers are the corollaries for flat overriding (members put in front; C03 says the first one counts). Stated without an errors object; C08 relates that to reading with one. Documents whose members have the wrong type are excluded by Replacing (such a member leaves the earlier value). Classes with a common base reached twice (a member read twice) are excluded."
  }
 ]
}