{
 "claims": [
  {
   "property": "C01",
   "status": "proved",
   "theorems": [
    "Zs.C01_varuint_round_trip"
   ],
   "note": "all five unsigned types, all values, all surroundings"
  },
  {
   "property": "C02",
   "status": "partial",
   "theorems": [
    "Zs.C02_varint_round_trip_partial",
    "Zs.C02_varint_min_violated"
   ],
   "note": "true for all values but i64::MIN; the code violates it there (proved)"
  },
  {
   "property": "C03",
   "status": "partial",
   "theorems": [
    "Zs.C03_out_of_range_refused_partial",
    "Zs.C03_varint64_min_violated"
   ],
   "note": "true except varint64 with i64::MIN in release builds, which is stored as 0 (proved)"
  },
  {
   "property": "C04",
   "status": "proved",
   "theorems": [
    "Zs.C04_varuint_sizes_exact_minimal",
    "Zs.C04_varint_sizes_exact_minimal",
    "Zs.C04_sizes_monotone"
   ],
   "note": ""
  },
  {
   "property": "C05",
   "status": "proved",
   "theorems": [
    "Zs.C05_varuint_layout",
    "Zs.C05_varint_layout"
   ],
   "note": ""
  },
  {
   "property": "C06",
   "status": "proved",
   "theorems": [
    "Zs.C06_fixed_width_round_trip"
   ],
   "note": ""
  },
  {
   "property": "C07",
   "status": "proved",
   "theorems": [
    "Zs.C07_bit_length_numbits"
   ],
   "note": ""
  },
  {
   "property": "C08",
   "status": "proved",
   "theorems": [
    "Zs.C08_alignment",
    "Zs.C08_align_to"
   ],
   "note": ""
  },
  {
   "property": "C09",
   "status": "proved",
   "theorems": [
    "Zs.C09_string_round_trip"
   ],
   "note": ""
  },
  {
   "property": "C10",
   "status": "proved",
   "theorems": [
    "Zs.C10_bytes_round_trip"
   ],
   "note": ""
  },
  {
   "property": "C11",
   "status": "proved",
   "theorems": [
    "Zs.C11_extern_round_trip",
    "Zs.C11_unused_bits_are_dropped"
   ],
   "note": ""
  },
  {
   "property": "C12",
   "status": "partial",
   "theorems": [
    "Zs.C12_scalar_readers_never_panic_partial",
    "Zs.C12_string_extern_panic_violated",
    "Zs.C12_string_panics_iff",
    "Zs.C12_unpacked_arrays_never_panic_partial",
    "Zs.C12_packed_array_violated"
   ],
   "note": "violated by read_string, read_extern_type and packed arrays (proved); all other scalar readers (signed ones with a width of at least one bit) and unpacked arrays never panic"
  },
  {
   "property": "C13",
   "status": "proved",
   "theorems": [
    "Zs.C13_scalar_truncation",
    "Zs.C13_scalar_readers_local",
    "Zs.C13_array_readers_local",
    "Zs.C13_array_truncation",
    "Zs.C13_schema_readers_local",
    "Zs.C13_schema_truncation"
   ],
   "note": "scalars, arrays, and all generated types (schemas supported in the sense of C24; locality for all schemas)"
  },
  {
   "property": "C14",
   "status": "proved",
   "theorems": [
    "Zs.C14_to_bytes_from_bytes",
    "Zs.C14_to_writer_from_reader"
   ],
   "note": ""
  },
  {
   "property": "C23",
   "status": "proved",
   "theorems": [
    "Zs.C23_sequences_round_trip"
   ],
   "note": ""
  },
  {
   "property": "C34",
   "status": "proved",
   "theorems": [
    "Zs.C34_encodings_prefix_free",
    "Zs.C34_schema_encodings_prefix_free"
   ],
   "note": "generic, and for all supported schemas"
  },
  {
   "property": "C40",
   "status": "proved",
   "theorems": [
    "Zs.C40_floats_keep_bits"
   ],
   "note": "float16 under the stated property of the half crate"
  },
  {
   "property": "C42",
   "status": "partial",
   "theorems": [
    "Zs.C42_read_varsize_denotes_partial",
    "Zs.C42_varsize_truncates_violated"
   ],
   "note": "violated for encodings of numbers >= 2^32 (proved)"
  },
  {
   "property": "C15",
   "status": "proved",
   "theorems": [
    "Zs.C15_unpacked_arrays_round_trip",
    "Zs.C15_unpacked_arrays_all_types"
   ],
   "note": "any element trait, and instantiated to every element type of the library"
  },
  {
   "property": "C16",
   "status": "partial",
   "theorems": [
    "Zs.C16_unpacked_size_exact",
    "Zs.C16_packed_size_exact",
    "Zs.C16_array_sizes_all_types_partial",
    "Zs.C16_string_array_violated"
   ],
   "note": "true for every element type but string; for string arrays the size is too small by 7 bits per byte (proved for all of them)"
  },
  {
   "property": "C17",
   "status": "partial",
   "theorems": [
    "Zs.C17_packed_integers_round_trip_partial"
   ],
   "note": "all lists in release builds; in debug builds all lists of types up to 63 bits, and 64-bit lists without neighbours straddling 2^63 (those panic, see C20); varint i64::MIN excluded (C02)"
  },
  {
   "property": "C18",
   "status": "partial",
   "theorems": [
    "Zs.C18_packing_overhead_partial",
    "Zs.C18_aligned_violated"
   ],
   "note": "true without element alignment; violated with it (proved)"
  },
  {
   "property": "C19",
   "status": "proved",
   "theorems": [
    "Zs.C19_delta_width_suffices"
   ],
   "note": ""
  },
  {
   "property": "C20",
   "status": "partial",
   "theorems": [
    "Zs.C20_packed_write_succeeds_partial",
    "Zs.C20_packed_overflow_violated"
   ],
   "note": "violated in debug builds for 64-bit neighbours straddling 2^63 (proved)"
  },
  {
   "property": "C21",
   "status": "partial",
   "theorems": [
    "Zs.C21_packed_singletons_partial",
    "Zs.C21_packed_bool_violated",
    "Zs.C21_packed_float_violated",
    "Zs.C21_packed_string_violated",
    "Zs.C21_packed_buffers_violated"
   ],
   "note": "violated: the exact loss is proved for all lists"
  },
  {
   "property": "C22",
   "status": "proved",
   "theorems": [
    "Zs.C22_preallocation_bounded",
    "Zs.C22_growth_bounded",
    "Zs.C22_result_independent_of_chunk"
   ],
   "note": ""
  },
  {
   "property": "C43",
   "status": "partial",
   "theorems": [
    "Zs.C43_wrong_length_refused_partial",
    "Zs.C43_long_array_violated"
   ],
   "note": "violated for 2^32 elements and more (proved): the length is cast to u32"
  },
  {
   "property": "C24",
   "status": "proved",
   "theorems": [
    "Zs.C24_schema_round_trip",
    "Zs.C24_schema_bytes"
   ],
   "note": "all finite schemas of the supported field kinds (Ty.Supported): widths zserio allows, distinct enum values, packed arrays of Packable types only"
  },
  {
   "property": "C26",
   "status": "proved",
   "theorems": [
    "Zs.C26_enum_values",
    "Zs.C26_enum_decodes"
   ],
   "note": "enum with integer base type, distinct values in range"
  },
  {
   "property": "C27",
   "status": "partial",
   "theorems": [
    "Zs.C27_implicit_values_partial",
    "Zs.C27_mixed_values_partial",
    "Zs.C27_values_violated"
   ],
   "note": "true for up to 64 items; violated beyond that and behind explicit values with several bits or 0 (proved)"
  },
  {
   "property": "C28",
   "status": "partial",
   "theorems": [
    "Zs.C28_union_round_trip_partial",
    "Zs.C28_unknown_selector_violated"
   ],
   "note": "unknown selectors panic instead of giving an error (proved for every union and selector)"
  },
  {
   "property": "C29",
   "status": "proved",
   "theorems": [
    "Zs.C29_choice_selected_branch",
    "Zs.C29_choice_nothing_selected",
    "Zs.C29_choice_round_trip"
   ],
   "note": "the default case is dropped by the parser and not part of the model"
  },
  {
   "property": "C30",
   "status": "proved",
   "theorems": [
    "Zs.C30_condition_false",
    "Zs.C30_optional_field"
   ],
   "note": "all types, packed and not packed"
  },
  {
   "property": "C31",
   "status": "partial",
   "theorems": [
    "Zs.C31_packed_structures_round_trip_partial",
    "Zs.C31_inner_arrays_violated"
   ],
   "note": "violated for inner arrays of strings etc. (proved)"
  },
  {
   "property": "C33",
   "status": "partial",
   "theorems": [
    "Zs.C33_packed_choices_round_trip_partial",
    "Zs.C33_packed_union_violated",
    "Zs.C33_packed_choice_violated"
   ],
   "note": "violated for unions and for choices with enums whose default is not 0 (proved)"
  },
  {
   "property": "C41",
   "status": "partial",
   "theorems": [
    "Zs.C41_used_object_partial",
    "Zs.C41_used_object_violated"
   ],
   "note": "violated by optional and conditional fields, choices and unions (proved)"
  },
  {
   "property": "C25",
   "status": "partial",
   "theorems": [
    "Zs.C25_sizes_exact_partial",
    "Zs.C25_valid_objects_partial",
    "Zs.C25_fields_violated",
    "Zs.C25_string_arrays_violated",
    "Zs.C25_huge_strings_violated"
   ],
   "note": "true for every schema without bytes, extern and computed-width fields, string arrays and badly packed arrays; violated there (proved)"
  },
  {
   "property": "C32",
   "status": "partial",
   "theorems": [
    "Zs.C32_packed_sizes_partial",
    "Zs.C32_valid_arrays_partial",
    "Zs.C32_packed_bits_violated",
    "Zs.C32_packed_union_violated",
    "Zs.C32_inner_strings_violated"
   ],
   "note": "violated for packed bit:n and int:n fields, unions and inner string arrays (proved)"
  },
  {
   "property": "C35",
   "status": "partial",
   "theorems": [
    "Zs.C35_operations",
    "Zs.C35_bits",
    "Zs.C35_comparisons",
    "Zs.C35_signs",
    "Zs.C35_resolved_expressions_partial",
    "Zs.C35_literal_expressions_partial",
    "Zs.C35_complement_partial",
    "Zs.C35_ternary_violated",
    "Zs.C35_ternary_literals_violated",
    "Zs.C35_shift_violated",
    "Zs.C35_release_violated",
    "Zs.C35_float_violated"
   ],
   "note": "true for debug builds of the compiler, resolved conditions, float literals with a fraction, no <<; violated otherwise (proved)"
  },
  {
   "property": "C36",
   "status": "partial",
   "theorems": [
    "Zs.C36_mixing_partial",
    "Zs.C36_literals",
    "Zs.C36_floats",
    "Zs.C36_violated",
    "Zs.C36_sum_violated"
   ],
   "note": "all pairs of 16 integer types; uint64, bit:n and int:n panic (proved)"
  },
  {
   "property": "C37",
   "status": "partial",
   "theorems": [
    "Zs.C37_local_first",
    "Zs.C37_package_next",
    "Zs.C37_imports_breadth_first",
    "Zs.C37_terminates_partial",
    "Zs.C37_runs_forever_iff",
    "Zs.C37_cyclic_imports_violated"
   ],
   "note": "terminates for acyclic imports; the exact condition for running forever is proved: an import cycle can be reached and no package that can be reached defines the name"
  },
  {
   "property": "C38",
   "status": "partial",
   "theorems": [
    "Zs.C38_subtypes_partial",
    "Zs.C38_resolves_iff",
    "Zs.C38_runs_forever_iff",
    "Zs.C38_cyclic_subtypes_violated"
   ],
   "note": "acyclic declarations; loops forever exactly for cyclic ones (proved)"
  },
  {
   "property": "C39",
   "status": "partial",
   "theorems": [
    "Zs.C39_same_arguments",
    "Zs.C39_name",
    "Zs.C39_same_name_iff",
    "Zs.C39_one_parameter_partial",
    "Zs.C39_templates_violated",
    "Zs.C39_bit_length_violated",
    "Zs.C39_nested_violated",
    "Zs.C39_two_parameters_violated",
    "Zs.C39_packages_violated"
   ],
   "note": "exact condition for two instantiations to have the same name; names differ for one parameter and arguments of different names; violated otherwise (proved)"
  },
  {
   "property": "C44",
   "status": "partial",
   "theorems": [
    "Zs.C44_selected_symbol_partial",
    "Zs.C44_selection_ignored_violated"
   ],
   "note": "the selection has no effect at all (proved)"
  },
  {
   "property": "C45",
   "status": "partial",
   "theorems": [
    "Zs.C45_substitution_partial",
    "Zs.C45_arguments",
    "Zs.C45_struct_partial",
    "Zs.C45_union_partial",
    "Zs.C45_choice_partial",
    "Zs.C45_others",
    "Zs.C45_parameter_violated",
    "Zs.C45_name_taken_violated",
    "Zs.C45_nested_violated",
    "Zs.C45_choice_parameter_violated"
   ],
   "note": "true for fields without template arguments and fresh names (C45_arguments: also for arguments that are instantiations); violated otherwise (proved)"
  },
  {
   "property": "C46",
   "status": "partial",
   "theorems": [
    "Zs.C46_enum_items_partial",
    "Zs.C46_bitmask_items_partial",
    "Zs.C46_constants_violated",
    "Zs.C46_largest_violated",
    "Zs.C46_several_bits_violated",
    "Zs.C46_zero_violated"
   ],
   "note": "literal expressions, powers of two; named constants count as 0 (proved)"
  },
  {
   "property": "C47",
   "status": "partial",
   "theorems": [
    "Zs.C47_grouping_partial",
    "Zs.C47_conditions_partial",
    "Zs.C47_arguments_partial",
    "Zs.C47_arguments_violated",
    "Zs.C47_not_isset_violated",
    "Zs.C47_neg_valueof_violated",
    "Zs.C47_rejected_violated"
   ],
   "note": "all expressions except unary + and ~, isset and valueof as operands of !, -, comparisons, chained comparisons, arguments that are operations; violated there (proved)"
  },
  {
   "property": "C48",
   "status": "proved",
   "theorems": [
    "Zs.C48_encoding",
    "Zs.C48_to_bytes",
    "Zs.C48_encoding_unique",
    "Zs.C48_unpacked_unique"
   ],
   "note": "all supported schemas (Ty.Supported); the encoding has the rule that decides about packing as parameter: exactPacking (best for the counted numbers as unsigned 64-bit numbers) determines all bits; whether these decisions are the best ones is C74"
  },
  {
   "property": "C49",
   "status": "partial",
   "theorems": [
    "Zs.C49_readers_never_panic_partial",
    "Zs.C49_violated",
    "Zs.C49_expressions_violated"
   ],
   "note": "all schemas without strings, extern values, unions and packed arrays (Ty.Steady); each of these panics on some input. Expressions (conditions, lengths, arguments) are total functions in the schema model; emitted ones may panic (C49_expressions_violated)"
  },
  {
   "property": "C50",
   "status": "partial",
   "theorems": [
    "Zs.C50_accepted_is_valid_partial",
    "Zs.C50_reencode_partial",
    "Zs.C50_varsize_violated",
    "Zs.C50_packed_bits_violated",
    "Zs.C50_long_array_violated"
   ],
   "note": "for schemas in Ty.Sound, and fewer than 2^31 bits of input; excluded are varsize fields, arrays with stored length whose elements may take no bits, packed arrays that are not of fixed length with elements of full integer width"
  },
  {
   "property": "C51",
   "status": "partial",
   "theorems": [
    "Zs.C51_memory_linear_partial",
    "Zs.C51_empty_elements_violated",
    "Zs.C51_packed_violated"
   ],
   "note": "for schemas whose arrays are unpacked and have elements that take at least one bit (Ty.Compact); the others are violated: seven bytes give arrays of up to 2^31 elements. Memory is counted in units per number, container and byte; copies of parameters are not counted"
  },
  {
   "property": "C52",
   "status": "partial",
   "theorems": [
    "Zs.C52_integer_literal_partial",
    "Zs.C52_integer_refused",
    "Zs.C52_integer_violated",
    "Zs.C52_bool_literal",
    "Zs.C52_string_literal_partial",
    "Zs.C52_string_violated",
    "Zs.C52_float_literal_partial",
    "Zs.C52_float_suffix",
    "Zs.C52_float_violated"
   ],
   "note": "integers: the value is kept whenever code is generated, and it is characterised exactly when the compiler panics instead; strings: exact characterisation of the literals that keep their value, with a silent change as witness; floating-point rounding and Display are parameters"
  },
  {
   "property": "C53",
   "status": "partial",
   "theorems": [
    "Zs.C53_package_modules_partial",
    "Zs.C53_every_package_partial",
    "Zs.C53_no_duplicates",
    "Zs.C53_order",
    "Zs.C53_prefix_violated"
   ],
   "note": "exact characterisation of the declared modules; a package that is the beginning of another one is not declared. Module names are non-empty after conversion"
  },
  {
   "property": "C54",
   "status": "partial",
   "theorems": [
    "Zs.C54_symbols_found_partial",
    "Zs.C54_keyword_violated",
    "Zs.C54_collision_violated",
    "Zs.C54_prefix_violated",
    "Zs.C54_root_violated"
   ],
   "note": "for schemas whose converted names are identifiers, distinct and prefix-free (WellNamed); each condition is shown to be needed. The snake-case conversion is a parameter; the code of a symbol is assumed to parse"
  },
  {
   "property": "C55",
   "status": "partial",
   "theorems": [
    "Zs.C55_emitted_code",
    "Zs.C55_unique",
    "Zs.C55_every_schema",
    "Zs.C55_emitted_round_trip",
    "Zs.C55_emitted_encoding",
    "Zs.C55_emitted_bitsize_partial"
   ],
   "note": "all eight functions of all five kinds of types, refinement line by line against the model of schemas; expressions may panic: they have the values of the schema for the objects in E only, expressions of a field with condition only where it is true (Denotes), and the object must be in E (Met); calls of functions of other types are calls of that type's functions in the model of schemas; size theorem limited as C25"
  },
  {
   "property": "C56",
   "status": "partial",
   "theorems": [
    "Zs.C56_moves_iff",
    "Zs.C56_missing_write_iff"
   ],
   "note": "exact characterisation: violated for optional extern/bytes fields and for bit/int without width; types of other lines are not checked"
  },
  {
   "property": "C57",
   "status": "partial",
   "theorems": [
    "Zs.C57_condition_false_partial",
    "Zs.C57_array_partial",
    "Zs.C57_array_length_violated"
   ],
   "note": "holds for fields that are not arrays; the length of an array is evaluated although the condition is false"
  },
  {
   "property": "C58",
   "status": "partial",
   "theorems": [
    "Zs.C58_typed_iff",
    "Zs.C58_text_iff",
    "Zs.C58_native_type",
    "Zs.C58_integers_partial",
    "Zs.C58_numbers_partial",
    "Zs.C58_comparison_violated",
    "Zs.C58_bit_operation_violated",
    "Zs.C58_bits_then_sum_violated",
    "Zs.C58_float_literal_violated",
    "Zs.C58_sign_violated",
    "Zs.C58_ternary_violated",
    "Zs.C58_optional_violated",
    "Zs.C58_valueof_partial",
    "Zs.C58_valueof_violated"
   ],
   "note": "exact condition for all expressions (C58_typed_iff); holds for arithmetic of integers and of numeric names, violated for comparisons, bit operations, ?: and literals next to operands of other types; ranges of literals are C52, ownership C56"
  },
  {
   "property": "C59",
   "status": "partial",
   "theorems": [
    "Zs.C59_constant_iff",
    "Zs.C59_length_iff",
    "Zs.C59_bits_iff",
    "Zs.C59_condition_iff",
    "Zs.C59_function_iff",
    "Zs.C59_argument_iff",
    "Zs.C59_float_constant_violated",
    "Zs.C59_constant_alias_violated",
    "Zs.C59_bits_violated",
    "Zs.C59_string_function_violated"
   ],
   "note": "exact condition for each place; violated by constants that are not cast, lengths of unknown type and string functions; functions and parameters limited to builtin types"
  },
  {
   "property": "C60",
   "status": "partial",
   "theorems": [
    "Zs.C60_kept",
    "Zs.C60_literal_value",
    "Zs.C60_types_iff",
    "Zs.C60_struct_iff",
    "Zs.C60_choice_iff",
    "Zs.C60_union_iff",
    "Zs.C60_enum_iff",
    "Zs.C60_bitmask_iff",
    "Zs.C60_const_iff",
    "Zs.C60_alias_iff",
    "Zs.C60_nothing_lost_partial",
    "Zs.C60_default_violated",
    "Zs.C60_constraint_violated",
    "Zs.C60_extend_violated",
    "Zs.C60_removed_violated"
   ],
   "note": "exact for every kind of declaration (C60_kept, C60_*_iff); lost are defaults of choices, constraints in choices and unions, extend, deprecated and removed"
  },
  {
   "property": "C61",
   "status": "partial",
   "theorems": [
    "Zs.C61_lists",
    "Zs.C61_imports",
    "Zs.C61_last",
    "Zs.C61_nothing_else",
    "Zs.C61_found_iff",
    "Zs.C61_found_partial",
    "Zs.C61_members_partial",
    "Zs.C61_files",
    "Zs.C61_files_partial",
    "Zs.C61_duplicate_violated",
    "Zs.C61_hidden_violated",
    "Zs.C61_files_violated",
    "Zs.C61_unnamed_violated",
    "Zs.C61_unsupported_violated",
    "Zs.C61_default_violated"
   ],
   "note": "exact condition (C61_found_iff); holds if no name is declared twice and no package has two files; SQL, services, pubsub and rules are dropped silently"
  },
  {
   "property": "C62",
   "status": "partial",
   "theorems": [
    "Zs.C62_accepted_iff",
    "Zs.C62_order",
    "Zs.C62_directory_iff",
    "Zs.C62_plain_partial",
    "Zs.C62_panics_violated",
    "Zs.C62_accepted_violated"
   ],
   "note": "exact condition (C62_accepted_iff); violated by large numbers, capital X, suffix f, alignments that are not decimal literals and missing package names, always with a panic"
  },
  {
   "property": "C63",
   "status": "partial",
   "theorems": [
    "Zs.C63_taken_partial",
    "Zs.C63_pattern_partial",
    "Zs.C63_or_violated",
    "Zs.C63_constant_violated",
    "Zs.C63_selector_violated",
    "Zs.C63_index_violated"
   ],
   "note": "holds for literals, items and constants in parentheses on a parameter; exact condition for an arm to be a pattern; violated silently by labels with |, and by panics or text that is not Rust for constants, computed labels and other selectors. Missing: selectors of string and float types"
  },
  {
   "property": "C64",
   "status": "partial",
   "theorems": [
    "Zs.C64_value",
    "Zs.C64_item",
    "Zs.C64_agree",
    "Zs.C64_few_violated",
    "Zs.C64_unchecked_violated",
    "Zs.C64_few_items_iff",
    "Zs.C64_many_violated",
    "Zs.C64_names_violated"
   ],
   "note": "holds for the right number of arguments; too few arguments are accepted silently (or give text that is not Rust for arrays of types without fields), too many panic. The text of the arguments is the subject of C47, C58 and C59"
  },
  {
   "property": "C65",
   "status": "partial",
   "theorems": [
    "Zs.C65_name_iff",
    "Zs.C65_unique",
    "Zs.C65_struct_partial",
    "Zs.C65_choice_partial",
    "Zs.C65_union_partial",
    "Zs.C65_subtype_partial",
    "Zs.C65_const_partial",
    "Zs.C65_found",
    "Zs.C65_package_partial",
    "Zs.C65_qualified_iff",
    "Zs.C65_qualified_violated",
    "Zs.C65_base_type_violated",
    "Zs.C65_template_partial",
    "Zs.C65_template_violated",
    "Zs.C65_scope"
   ],
   "note": "holds for simple names outside of templates; qualified names are looked up by their last part, types of enumerations and bitmasks are not resolved, names in templates are resolved where the template is used"
  },
  {
   "property": "C66",
   "status": "partial",
   "theorems": [
    "Zs.C66_first_iff",
    "Zs.C66_agree_partial",
    "Zs.C66_single",
    "Zs.C66_types_violated",
    "Zs.C66_accepted_violated",
    "Zs.C66_offset_iff",
    "Zs.C66_offset_violated"
   ],
   "note": "the instances share their expressions, which are evaluated only in the instance that comes first; holds if the instances agree about the names in an expression; offset fields are marked in the first instance only"
  },
  {
   "property": "C67",
   "status": "partial",
   "theorems": [
    "Zs.C67_size_iff",
    "Zs.C67_size_violated",
    "Zs.C67_size_partial",
    "Zs.C67_contexts",
    "Zs.C67_round_trip_partial",
    "Zs.C67_template_violated"
   ],
   "note": "exact condition for sizes (C67_size_iff); recursion through optional fields gives Rust types without size, recursion through arrays is correct; templates that contain themselves are instantiated endlessly (C67_template_violated). Round trip limited to supported schemas, as C24"
  },
  {
   "property": "C68",
   "status": "partial",
   "theorems": [
    "Zs.C68_depth_partial",
    "Zs.C68_depth_violated",
    "Zs.C68_endless_violated"
   ],
   "note": "at most one nested call for each byte of the input and one more, if the lengths of all recursive arrays are stored in the input; this is not a bound for all inputs (C68_depth_violated), and recursive arrays of fixed length are read endlessly"
  },
  {
   "property": "C69",
   "status": "partial",
   "theorems": [
    "Zs.C69_member",
    "Zs.C69_variant",
    "Zs.C69_same_iff",
    "Zs.C69_ident_iff",
    "Zs.C69_struct_iff",
    "Zs.C69_union_iff",
    "Zs.C69_functions_iff",
    "Zs.C69_struct_partial",
    "Zs.C69_items_partial",
    "Zs.C69_keyword_violated",
    "Zs.C69_underscore_violated",
    "Zs.C69_same_violated",
    "Zs.C69_selector_violated",
    "Zs.C69_function_violated",
    "Zs.C69_type_violated"
   ],
   "note": "exact conditions for members (C69_struct_iff, C69_union_iff, C69_functions_iff); names in the usual style that are no keywords are accepted. Keywords of Rust, names with the same words, unionSelector, zserioRead and types named like imports are not. The conversions of the crate stringcase are written down from knowledge of that crate"
  },
  {
   "property": "C70",
   "status": "partial",
   "theorems": [
    "Zs.C70_value_partial",
    "Zs.C70_text_partial",
    "Zs.C70_length_partial",
    "Zs.C70_length_violated",
    "Zs.C70_width_partial",
    "Zs.C70_width_violated",
    "Zs.C70_argument_partial",
    "Zs.C70_argument",
    "Zs.C70_function_partial",
    "Zs.C70_function_other_partial",
    "Zs.C70_condition_partial",
    "Zs.C70_operation_iff",
    "Zs.C70_operation_partial",
    "Zs.C70_overflow_violated",
    "Zs.C70_sign_violated",
    "Zs.C70_shift_violated",
    "Zs.C70_amount_violated"
   ],
   "note": "holds if literals, operands and results are in the ranges of the Rust types in which they are computed (Fits), for all expressions; what + - * / % on integer fields compute is exact (C70_operation_iff). Results out of range panic or wrap around, mixed signs and negative lengths give other values silently. Missing: operations on floats, isset with several bits"
  },
  {
   "property": "C71",
   "status": "partial",
   "theorems": [
    "Zs.C71_generated_partial",
    "Zs.C71_round_trip_partial",
    "Zs.C71_encoding_partial",
    "Zs.C71_every_type",
    "Zs.C71_panic_violated"
   ],
   "note": "joins C55 (emitted bodies) with C70 (values of generated expressions): the expressions of the fields are the Rust trees of C58/C70, run by the rules for Rust, no longer given functions. Holds for objects for which no Rust type is too small; others may panic (C71_panic_violated). Missing: selectors of choices, arguments with @index, arguments with operators (C90) or that are floats, bitmasks or compound; whole schemas: C73"
  },
  {
   "property": "C72",
   "status": "partial",
   "theorems": [
    "Zs.C72_from_object",
    "Zs.C72_too_large",
    "Zs.C72_schema_partial",
    "Zs.C72_accepted_iff",
    "Zs.C72_silent_violated",
    "Zs.C72_debug_violated"
   ],
   "note": "holds whenever the size function is exact (C25); false for arrays of strings, whose size function is wrong: [\"a\"] comes back as [\"\\0\"] without an error in both builds (C72_silent_violated); [\"abc\"] panics in debug builds (C72_debug_violated)"
  },
  {
   "property": "C73",
   "status": "partial",
   "theorems": [
    "Zs.C73_round_trip_partial",
    "Zs.C73_encoding_partial",
    "Zs.C73_bitsize_partial",
    "Zs.C73_executes",
    "Zs.C73_every_schema"
   ],
   "note": "lifts C71 from one type to a whole schema: the functions of the types of the fields are executions of their emitted bodies too. Holds for objects for which no Rust type is too small at any level (C71_panic_violated otherwise). Missing: selectors of choices as expressions, arguments with @index, with operators (C90), or that are floats, bitmasks or compound; size functions as far as C25 holds"
  },
  {
   "property": "C74",
   "status": "partial",
   "theorems": [
    "Zs.C74_best_partial",
    "Zs.C74_sign_violated",
    "Zs.C74_choice_violated"
   ],
   "note": "all supported schemas; holds for columns without numbers of different signs in which every counted number is stored. Each of the two conditions is shown to be needed: distances are taken of unsigned 64-bit numbers, and fields of choices that are not selected are counted"
  },
  {
   "property": "C75",
   "status": "proved",
   "theorems": [
    "Zs.C75_reads_every_encoding",
    "Zs.C75_reads_best_encoding",
    "Zs.C75_from_bytes",
    "Zs.C75_unambiguous",
    "Zs.C75_emitted",
    "Zs.C75_whole_schema_partial",
    "Zs.C75_debug_violated"
   ],
   "note": "C75_whole_schema_partial adds the same for the emitted and linked functions, under the conditions of C73; the property itself is the first theorem: all supported schemas (Ty.Supported) as in C24 and C48, whose specification of the encoding is used with any packing rule; that packed 64-bit types are excluded in debug builds is needed: C75_debug_violated"
  },
  {
   "property": "C76",
   "status": "partial",
   "theorems": [
    "Zs.C76_names",
    "Zs.C76_fields",
    "Zs.C76_round_trip_partial",
    "Zs.C76_encoding_partial",
    "Zs.C76_every_structure"
   ],
   "note": "structures; missing: functions, templates, types that are not builtin, names that are used in front of their declaration, binary literals (C52), strings with escapes, implicit arrays (they are coded like other arrays). That the values which expressions see have the declared types is proved, not assumed"
  },
  {
   "property": "C77",
   "status": "partial",
   "theorems": [
    "Zs.C77_same_code",
    "Zs.C77_constraint_violated",
    "Zs.C77_initializer_violated",
    "Zs.C77_implicit_violated",
    "Zs.C77_offset_violated"
   ],
   "note": "the property is false, with one counterexample each; what holds is that the emitted code is the same with and without constraints, initializers and implicit, for all structures. Of offsets only the alignment of the field is kept (C48)"
  },
  {
   "property": "C78",
   "status": "partial",
   "theorems": [
    "Zs.C78_types",
    "Zs.C78_every_type",
    "Zs.C78_round_trip_partial",
    "Zs.C78_encoding_partial",
    "Zs.C78_bitsize_partial"
   ],
   "note": "for packages without imports; missing are types that contain themselves, templates, functions of choices and unions that use fields, subtypes (C86), members of choices and unions in expressions, that the constants, enumerations and functions K are those of the package (C87, C88, C91-C94), @index, arguments with operators (C90) or that are floats, bitmasks or compound, selectors other than parameters, default cases, binary literals and strings with escapes; that Rust accepts the emitted expressions is a hypothesis (C58, C59)"
  },
  {
   "property": "C79",
   "status": "proved",
   "theorems": [
    "Zs.C79_reads",
    "Zs.C79_only",
    "Zs.C79_unambiguous",
    "Zs.C79_calls"
   ],
   "note": "the expression rule of the generated parser; the prediction of ANTLR is modelled as a look at the next one or two tokens, which is not what happens for the > that closes bit<..> and int<..>; recovery from syntax errors is not modelled"
  },
  {
   "property": "C80",
   "status": "partial",
   "theorems": [
    "Zs.C80_module_file",
    "Zs.C80_files_partial",
    "Zs.C80_symbols_iff",
    "Zs.C80_clash_violated",
    "Zs.C80_expression_iff",
    "Zs.C80_expression_violated",
    "Zs.C80_accepted_violated",
    "Zs.C80_instances_partial",
    "Zs.C80_instantiates_iff",
    "Zs.C80_instance_violated"
   ],
   "note": "files: holds if no names become equal by conversion, exact for one package (C80_symbols_iff); instances of templates: holds if their names are unambiguous; expressions of templates: exactly if they mean the same in all instances (C80_expression_iff). Each condition is necessary: a schema for which the generated code or even its acceptance changes from run to run is given for each"
  },
  {
   "property": "C81",
   "status": "partial",
   "theorems": [
    "Zs.C81_types_partial",
    "Zs.C81_names_partial",
    "Zs.C81_members_partial",
    "Zs.C81_scope",
    "Zs.C81_shadow_violated",
    "Zs.C81_result_violated",
    "Zs.C81_no_member_violated",
    "Zs.C81_union_violated"
   ],
   "note": "holds where the names of types mean the same as where they were declared, and for members of structures and choices; violated by types of the same name in the package where the name is used, by results of functions, by names that are no members, and by all members of unions. C81_scope: the abstract scopes of Expr.lean are those of the symbol tables"
  },
  {
   "property": "C82",
   "status": "partial",
   "theorems": [
    "Zs.C82_looks_iff",
    "Zs.C82_partial",
    "Zs.C82_own_violated",
    "Zs.C82_item_violated",
    "Zs.C82_bitmask_violated",
    "Zs.C82_function_violated",
    "Zs.C82_field_violated"
   ],
   "note": "exact: an expression is accepted while a declaration is in use iff evaluating it does not look at that declaration (C82_looks_iff); holds for expressions in which the name does not occur. Violated by every expression that uses its own declaration (C82_own_violated, with schemas)"
  },
  {
   "property": "C83",
   "status": "partial",
   "theorems": [
    "Zs.C83_divided",
    "Zs.C83_tokens_partial",
    "Zs.C83_unambiguous",
    "Zs.C83_comment_violated",
    "Zs.C83_literals",
    "Zs.C83_names",
    "Zs.C83_expression_partial",
    "Zs.C83_demands",
    "Zs.C83_whole"
   ],
   "note": "holds for every text without empty comments; violated by the comment /**/, which swallows everything up to the end of the next comment (C83_comment_violated). C83_demands discharges, for expressions, the hypothesis of C62 that literals come from the lexer"
  },
  {
   "property": "C84",
   "status": "partial",
   "theorems": [
    "Zs.C84_reads_partial",
    "Zs.C84_only",
    "Zs.C84_unambiguous_partial",
    "Zs.C84_characters_partial",
    "Zs.C84_characters_only",
    "Zs.C84_lexed",
    "Zs.C84_accepted_iff",
    "Zs.C84_offset_violated",
    "Zs.C84_length_violated"
   ],
   "note": "all of the language but SQL tables, services, pubsub and rules, which are not modelled; files with two readings are excluded and shown to have them (C84_offset_violated: a field of a template type whose constraint contains < and >; C84_length_violated: a length behind the name of a type). C84_lexed discharges the hypothesis of C62 for every text"
  },
  {
   "property": "C85",
   "status": "partial",
   "theorems": [
    "Zs.C85_package",
    "Zs.C85_round_trip_partial",
    "Zs.C85_encoding_partial",
    "Zs.C85_bitsize_partial"
   ],
   "note": "composition of C83, C84, C62 and C78; missing is what is missing there (types that contain themselves, templates, functions of choices and unions that use fields, subtypes (C86), imports, members of choices and unions in expressions, that the constants, enumerations and functions K are those of the package (C87, C88, C91-C94), default cases, comments /**/)"
  },
  {
   "property": "C86",
   "status": "partial",
   "theorems": [
    "Zs.C86_same_symbols",
    "Zs.C86_types",
    "Zs.C86_every_type",
    "Zs.C86_round_trip_partial",
    "Zs.C86_encoding_partial",
    "Zs.C86_bitsize_partial",
    "Zs.C86_characters_partial"
   ],
   "note": "on top of C78 and C85, with the gaps named there except for subtypes; missing are subtypes of templates, and of types of other packages; subtypes as the types of enumerations and bitmasks make the compiler panic (C65)"
  },
  {
   "property": "C87",
   "status": "partial",
   "theorems": [
    "Zs.C87_constants",
    "Zs.C87_every_constant",
    "Zs.C87_literals",
    "Zs.C87_round_trip_partial",
    "Zs.C87_encoding_partial",
    "Zs.C87_bitsize_partial",
    "Zs.C87_characters_partial",
    "Zs.C87_range_violated"
   ],
   "note": "that Rust accepts the types in the expressions (C58, C59), that no type is too small for an intermediate value (C70), and what functions return (C93_unique proves it) are hypotheses; the generator does not check that the value is in the range of the declared type (C87_range_violated); constants with the type of an enumeration or bitmask make it panic (assert in zconst.rs); missing are constants in labels and values of items, and the gaps of C78 and C84"
  },
  {
   "property": "C88",
   "status": "partial",
   "theorems": [
    "Zs.C88_enumerations",
    "Zs.C88_item",
    "Zs.C88_round_trip_partial",
    "Zs.C88_encoding_partial",
    "Zs.C88_bitsize_partial"
   ],
   "note": "that Rust accepts the types in the expressions (C58, C59) and that no type is too small for an intermediate value (C70) are hypotheses; the numbers of the items are literals, perhaps with a sign; missing are enumerations of other packages, and the gaps of C78; C87_round_trip_partial and C87_characters_partial are for packages that have both constants and enumerations"
  },
  {
   "property": "C89",
   "status": "partial",
   "theorems": [
    "Zs.C89_count",
    "Zs.C89_argument_partial",
    "Zs.C89_item",
    "Zs.C89_labels",
    "Zs.C89_selector",
    "Zs.C89_string_violated"
   ],
   "note": "the theorems of C71, C73, C76-C78 and C85-C88 now are for parameters of these types; no type may be too small for an intermediate value (C70); a string literal as argument is emitted as &str, which Rust rejects (C89_string_violated); missing are parameters that are floats, bitmasks or compound, and default cases"
  },
  {
   "property": "C90",
   "status": "partial",
   "theorems": [
    "Zs.C90_parsed",
    "Zs.C90_condition",
    "Zs.C90_length",
    "Zs.C90_bits",
    "Zs.C90_argument",
    "Zs.C90_assertion",
    "Zs.C90_assertion_violated",
    "Zs.C90_comparison_violated"
   ],
   "note": "for expressions that are separable (C47: no comparison next to a comparison, ...) and arguments that are units (no operators); the theorems of C71-C88 have these hypotheses. Other arguments violate it: the assertion of x && y for the parameter b is read as (e.b == x) && y (C90_assertion_violated), that of x == y is rejected (C90_comparison_violated). C90_parsed discharges the hypothesis Parsed of C47 for what the parser reads"
  },
  {
   "property": "C91",
   "status": "partial",
   "theorems": [
    "Zs.C91_objects",
    "Zs.C91_every_package",
    "Zs.C91_object",
    "Zs.C91_element",
    "Zs.C91_member",
    "Zs.C91_path"
   ],
   "note": "structures; C87_round_trip_partial, C87_encoding_partial, C87_bitsize_partial and C87_characters_partial, like those of C78 and C86, now are for expressions with members of objects. That Rust accepts the types in the expressions (C58, C59) is a hypothesis; missing are members of choices and unions (see C81 for what goes wrong there), parameters that are compound, and elements of arrays in front of a dot"
  },
  {
   "property": "C92",
   "status": "partial",
   "theorems": [
    "Zs.C92_bitmasks",
    "Zs.C92_value",
    "Zs.C92_field"
   ],
   "note": "C87_round_trip_partial, C87_encoding_partial, C87_bitsize_partial and C87_characters_partial, like those of C78 and C86, now are for expressions with bitmasks. That Rust accepts the types in the expressions (C58, C59) is a hypothesis, and that the numbers of the values are in the range of the Rust type, which the generator does not check; they are literals, perhaps with a sign; missing are parameters that are bitmasks"
  },
  {
   "property": "C93",
   "status": "partial",
   "theorems": [
    "Zs.C93_call_partial",
    "Zs.C93_valid_partial",
    "Zs.C93_every_package",
    "Zs.C93_names",
    "Zs.C93_unique",
    "Zs.C93_round_trip_partial",
    "Zs.C93_encoding_partial",
    "Zs.C93_bitsize_partial",
    "Zs.C93_characters_partial",
    "Zs.C93_overflow_violated"
   ],
   "note": "C78_*, C86_* and C87_* now are for types with functions, too. Holds where no Rust type is too small (C70: a function that overflows panics in debug builds and returns another value in release builds) and Rust accepts the types (C59); missing are floats and functions of unions and choices that use their fields; functions of other objects are C94"
  },
  {
   "property": "C94",
   "status": "partial",
   "theorems": [
    "Zs.C94_path",
    "Zs.C94_field",
    "Zs.C94_element",
    "Zs.C94_call_partial"
   ],
   "note": "C93_every_package, C93_names, C93_unique and the theorems on objects (C78, C86, C87, C93) now are for expressions with such calls, too. Holds where no Rust type is too small (C70) and Rust accepts the types (C59); missing are floats, functions of unions and choices through a path, and functions with the names len, bits or clone"
  },
  {
   "property": "C95",
   "status": "partial",
   "theorems": [
    "Zs.C95_constants",
    "Zs.C95_functions",
    "Zs.C95_names",
    "Zs.C95_refused",
    "Zs.C95_self_call",
    "Zs.C95_characters_partial"
   ],
   "note": "the statement is proved; partial is only C95_characters_partial, with the gaps of C84, C87 and C93, which are there in the theorems on objects. Replaces the hypotheses ConstsAcyclic and CallsEnd of C87 and C93, which are about the emitted code, by conditions on the text; that Rust accepts the constants otherwise is ConstsFit (C87)"
  },
  {
   "property": "C96",
   "status": "proved",
   "theorems": [
    "Zs.C96_element",
    "Zs.C96_division",
    "Zs.C96_length",
    "Zs.C96_width",
    "Zs.C96_condition"
   ],
   "note": "for operands that Rust accepts (C59) and that fit (C70); what follows for readers of corrupt data is C49_expressions_violated"
  }
 ]
}