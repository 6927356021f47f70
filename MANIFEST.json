{
 "claims": [
  {
   "property": "C01",
   "status": "proved",
   "theorems": [
    "Verif.C01_unsigned_bits_roundtrip",
    "Verif.C01_unsigned_bits_reject",
    "Verif.C01_unsigned_bits_iff"
   ],
   "note": "all values, widths 0..64, all stream states"
  },
  {
   "property": "C02",
   "status": "proved",
   "theorems": [
    "Verif.C02_signed_bits_roundtrip",
    "Verif.C02_signed_bits_wire",
    "Verif.C02_signed_bits_reject"
   ],
   "note": "all values, widths 1..64"
  },
  {
   "property": "C03",
   "status": "proved",
   "theorems": [
    "Verif.C03_uint_roundtrip",
    "Verif.C03_int_roundtrip",
    "Verif.C03_bool_roundtrip"
   ],
   "note": ""
  },
  {
   "property": "C04",
   "status": "proved",
   "theorems": [
    "Verif.C04_varuint16",
    "Verif.C04_varuint32",
    "Verif.C04_varuint64",
    "Verif.C04_varuint",
    "Verif.C04_varsize"
   ],
   "note": "all five unsigned variable-length types"
  },
  {
   "property": "C05",
   "status": "partial",
   "theorems": [
    "Verif.C05_varint16",
    "Verif.C05_varint32",
    "Verif.C05_varint64_partial",
    "Verif.C05_varint64_min_violates",
    "Verif.C05_varint64_false",
    "Verif.C05_varint"
   ],
   "note": "proved for varint16, varint32, varint; varint64 is proved for all values except MinInt64, where the code accepts an out-of-range value (negation proved)"
  },
  {
   "property": "C06",
   "status": "proved",
   "theorems": [
    "Verif.C06_unsigned_size",
    "Verif.C06_signed_size",
    "Verif.C06_varint_size"
   ],
   "note": ""
  },
  {
   "property": "C07",
   "status": "proved",
   "theorems": [
    "Verif.C07_unsigned_minimal",
    "Verif.C07_signed_minimal",
    "Verif.C07_varint_minimal"
   ],
   "note": ""
  },
  {
   "property": "C08",
   "status": "proved",
   "theorems": [
    "Verif.C08_unsigned_total",
    "Verif.C08_varsize_total",
    "Verif.C08_signed_total",
    "Verif.C08_varint_total"
   ],
   "note": ""
  },
  {
   "property": "C09",
   "status": "proved",
   "theorems": [
    "Verif.C09_writer",
    "Verif.C09_reader",
    "Verif.C09_reader_short",
    "Verif.C09_count",
    "Verif.C09_idempotent",
    "Verif.C09_agree"
   ],
   "note": "every boundary 1..255 and every position"
  },
  {
   "property": "C10",
   "status": "proved",
   "theorems": [
    "Verif.C10_marshal_ok",
    "Verif.C10_marshal_error",
    "Verif.C10_roundtrip"
   ],
   "note": "every program over the writer interface within its contract (bit counts up to 248, operand of WriteBitsUnsafe below 2^n)"
  },
  {
   "property": "C11",
   "status": "partial",
   "theorems": [
    "Verif.C11_writer",
    "Verif.C11_reader_partial",
    "Verif.C11_readBits_zero"
   ],
   "note": "writer side proved for all programs; reader side proved for all programs that never call ReadBits(0), for which the claim is false (C11_readBits_zero is the counterexample)"
  },
  {
   "property": "C12",
   "status": "partial",
   "theorems": [
    "Verif.C12_objects_partial",
    "Verif.C12_bytes_partial",
    "Verif.C12_violated_packed",
    "Verif.C12_flat",
    "Verif.C12_unmarshal",
    "Verif.C12_decoders_strict",
    "Verif.C12_text_partial"
   ],
   "note": "every decoder that reports the errors it sees; all scalar ztype decoders are shown to be such, and the decoders of generated objects of schemas without packed arrays, also from the text of the schema (with the limits of C90); false for packed arrays, because DeltaContext.Read drops an error (C12_violated_packed)"
  },
  {
   "property": "C13",
   "status": "partial",
   "theorems": [
    "Verif.C13_unpacked_arrays",
    "Verif.C13_packed_violates",
    "Verif.C13_objects_partial",
    "Verif.C13_bytes_partial",
    "Verif.C13_truncation",
    "Verif.C13_exact",
    "Verif.C13_unmarshal",
    "Verif.C13_text_partial"
   ],
   "note": "every decoder that reports the errors it sees, hence all ztype Read functions; and unpacked arrays; generated objects of schemas without packed arrays (through Unmarshal: whose bit fields have at least one bit), also from the text of the schema (with the limits of C90); false for packed arrays because DeltaContext.Read drops an error (C13_packed_violates)"
  },
  {
   "property": "C14",
   "status": "partial",
   "theorems": [
    "Verif.C14_array_violates",
    "Verif.C14_objects_partial",
    "Verif.C14_sink",
    "Verif.C14_sink_error",
    "Verif.C14_flat",
    "Verif.C14_encoders_good"
   ],
   "note": "every encoder that reports the errors it sees, hence all scalar ztype Write functions and generated objects of schemas without arrays; false for arrays, which drop element errors (C14_array_violates)"
  },
  {
   "property": "C15",
   "status": "proved",
   "theorems": [
    "Verif.C15_string",
    "Verif.C15_string_reject",
    "Verif.C15_bytes",
    "Verif.C15_bytes_reject",
    "Verif.C15_extern",
    "Verif.C15_extern_reject",
    "Verif.C15_extern_spare_byte",
    "Verif.C15_read_extern_length"
   ],
   "note": ""
  },
  {
   "property": "C16",
   "status": "proved",
   "theorems": [
    "Verif.C16_float32",
    "Verif.C16_float64",
    "Verif.C16_float16",
    "Verif.C16_float16_snan",
    "Verif.C16_float16_total"
   ],
   "note": "including half precision; a signalling half NaN is the only pattern changed"
  },
  {
   "property": "C17",
   "status": "proved",
   "theorems": [
    "Verif.C17_numBits",
    "Verif.C17_numBits_fits",
    "Verif.C17_numBits_mono"
   ],
   "note": ""
  },
  {
   "property": "C18",
   "status": "proved",
   "theorems": [
    "Verif.C18_roundtrip",
    "Verif.C18_integers"
   ],
   "note": "every traits for integers and booleans, and any traits with the two round-trip laws"
  },
  {
   "property": "C19",
   "status": "proved",
   "theorems": [
    "Verif.C19_size",
    "Verif.C19_elements",
    "Verif.C19_spread",
    "Verif.C19_size_then_write"
   ],
   "note": "size reported on a freshly initialised context equals bits written; packed form only chosen when it pays; C19_size_then_write records that measuring consumes the context"
  },
  {
   "property": "C20",
   "status": "proved",
   "theorems": [
    "Verif.C20_unpacked_roundtrip",
    "Verif.C20_any_traits",
    "Verif.C20_too_long"
   ],
   "note": "every builtin traits, and any traits whose elements round-trip"
  },
  {
   "property": "C21",
   "status": "partial",
   "theorems": [
    "Verif.C21_packed_roundtrip_partial",
    "Verif.C21_any_traits",
    "Verif.C21_float32_violates",
    "Verif.C21_string_violates",
    "Verif.C21_buffers_violate"
   ],
   "note": "proved for integer and boolean elements; false for float, string, bytes and extern elements, which all offer PackedTraits (counterexamples proved)"
  },
  {
   "property": "C22",
   "status": "partial",
   "theorems": [
    "Verif.C22_varying_partial",
    "Verif.C22_length_iff",
    "Verif.C22_constant_iff",
    "Verif.C22_constant_violates",
    "Verif.C22_aligned_violates",
    "Verif.C22_bytes_violates",
    "Verif.C22_varuint_violates",
    "Verif.C22_packed_partial",
    "Verif.C22_packed_violates"
   ],
   "note": "exact characterisation for elements of varying and of constant size without callbacks, packed size on a fresh context; the general claim is false (counterexamples proved)"
  },
  {
   "property": "C23",
   "status": "partial",
   "theorems": [
    "Verif.C23_never_reports",
    "Verif.C23_violates",
    "Verif.C23_packed_violates",
    "Verif.C23_bitfield_truncates",
    "Verif.C23_partial"
   ],
   "note": "the claim is false: C23_never_reports shows no element error is ever reported; only length errors and panics are"
  },
  {
   "property": "C24",
   "status": "proved",
   "theorems": [
    "Verif.C24_object_array_roundtrip",
    "Verif.C24_packed_object_array_roundtrip"
   ],
   "note": "every element type satisfying the hypothesis, per-element parameters, also packed arrays of types whose packed methods keep writer and reader in step"
  },
  {
   "property": "C25",
   "status": "partial",
   "theorems": [
    "Verif.C25_struct_roundtrip_partial",
    "Verif.C25_violated_varint64",
    "Verif.C25_violated_packed_strings",
    "Verif.C25_bytes_partial"
   ],
   "note": "every schema, every value accepted by MarshalZserio at any recursion level; through the bytes of Marshal and Unmarshal for schemas without packed arrays (C25_bytes_partial); false for varint64 -2^63 and for packed arrays of strings, floats and the like (counterexamples proved)"
  },
  {
   "property": "C26",
   "status": "partial",
   "theorems": [
    "Verif.C26_bit_size_partial",
    "Verif.C26_violated_bytes",
    "Verif.C26_violated_array",
    "Verif.C26_violated_packed",
    "Verif.C26_violated_length"
   ],
   "note": "proved for all in-range values without bytes/extern fields, packed arrays and non-empty arrays of builtin types other than varying-size subtypes, and with array lengths whose length field is sized correctly; false otherwise (counterexamples proved)"
  },
  {
   "property": "C27",
   "status": "partial",
   "theorems": [
    "Verif.C27_union_writes_member",
    "Verif.C27_union_roundtrip_partial",
    "Verif.C27_violated_unknown_tag"
   ],
   "note": "round trip proved; unknown tags are accepted by every union (C27_violated_unknown_tag)"
  },
  {
   "property": "C28",
   "status": "partial",
   "theorems": [
    "Verif.C28_choice_writes_partial",
    "Verif.C28_choice_roundtrip_partial",
    "Verif.C28_violated_second_label",
    "Verif.C28_violated_empty_case"
   ],
   "note": "round trip proved; the field written is the right one for selectors that are the first label of their case and hit no empty case; false otherwise (counterexamples proved)"
  },
  {
   "property": "C29",
   "status": "partial",
   "theorems": [
    "Verif.C29_packed_objects_partial",
    "Verif.C29_violated_union",
    "Verif.C29_violated_recursive"
   ],
   "note": "every schema whose types do not contain themselves, elements without unions and default-only choices; false for unions and for types containing themselves (counterexamples proved)"
  },
  {
   "property": "C30",
   "status": "partial",
   "theorems": [
    "Verif.C30_enum_values",
    "Verif.C30_enum_rejects",
    "Verif.C30_enum_idempotent",
    "Verif.C30_successor_partial",
    "Verif.C30_violated_overflow",
    "Verif.C30_string_roundtrip",
    "Verif.C30_string_rejects"
   ],
   "note": "explicit values, uniqueness of failures, idempotence and name tables proved; an implicit value is the predecessor plus one unless that overflows int64 (C30_violated_overflow)"
  },
  {
   "property": "C31",
   "status": "partial",
   "theorems": [
    "Verif.C31_bitmask_rejects",
    "Verif.C31_next_power_partial",
    "Verif.C31_disjoint_partial",
    "Verif.C31_all_implicit",
    "Verif.C31_violated_overlap",
    "Verif.C31_violated_overflow"
   ],
   "note": "all-implicit bitmasks proved; mixed ones only when explicit values leave the next bit free; overlap and overflow are counterexamples"
  },
  {
   "property": "C32",
   "status": "partial",
   "theorems": [
    "Verif.C32_integer_result",
    "Verif.C32_integer_symmetric_partial",
    "Verif.C32_violated_order",
    "Verif.C32_literal",
    "Verif.C32_float_float",
    "Verif.C32_float_integer",
    "Verif.C32_other_kinds",
    "Verif.C32_literals"
   ],
   "note": "value ranges of mixed types proved for all integer types; the exact result type depends on operand order in one case (C32_violated_order)"
  },
  {
   "property": "C33",
   "status": "partial",
   "theorems": [
    "Verif.C33_value_partial",
    "Verif.C33_defined_partial",
    "Verif.C33_exact_partial",
    "Verif.C33_violated_bool",
    "Verif.C33_violated_numbits",
    "Verif.C33_violated_lazy",
    "Verif.C33_violated_uint64"
   ],
   "note": "expressions of integers, truth values and strings without numbits and comparison of truth values: folded to the int64 value, to the mathematical value where nothing overflows, and folded at all if every part has a value; false for numbits of powers of two, comparisons of truth values, operands that are not needed, and uint64 (counterexamples proved). The specification is the meaning of the operators, not a run of the generated code"
  },
  {
   "property": "C34",
   "status": "partial",
   "theorems": [
    "Verif.C34_terminates",
    "Verif.C34_sound_partial",
    "Verif.C34_cycle_partial",
    "Verif.C34_complete_partial",
    "Verif.C34_order_partial",
    "Verif.C34_violated_cycle",
    "Verif.C34_violated_packages"
   ],
   "note": "termination proved for every set of constants; values, cycles and order independence proved where names mean the same in every package that reads them and every reference is used by an operator; alias cycles are not reported and imported constants are read with the names of the wrong package (counterexamples proved)"
  },
  {
   "property": "C35",
   "status": "proved",
   "theorems": [
    "Verif.C35_all_imports"
   ],
   "note": "every finite import graph, with cycles"
  },
  {
   "property": "C36",
   "status": "partial",
   "theorems": [
    "Verif.C36_scope_correct",
    "Verif.C36_symbol_correct",
    "Verif.C36_scope_partial",
    "Verif.C36_symbol_partial",
    "Verif.C36_violated_cycle",
    "Verif.C36_name_type",
    "Verif.C36_name_member",
    "Verif.C36_name_other_partial"
   ],
   "note": "answers are right whenever the search returns; it returns for every acyclic graph; it does not on an import cycle (C36_violated_cycle)"
  },
  {
   "property": "C37",
   "status": "partial",
   "theorems": [
    "Verif.C37_repeated_request",
    "Verif.C37_unique_partial",
    "Verif.C37_plain_names_partial",
    "Verif.C37_violated_collision",
    "Verif.C37_length_partial",
    "Verif.C37_violated_length"
   ],
   "note": "same request never repeats a path; all paths distinct and within the limit under the stated conditions; collision and overlong path are proved counterexamples"
  },
  {
   "property": "C38",
   "status": "partial",
   "theorems": [
    "Verif.C38_names_partial",
    "Verif.C38_instances_partial",
    "Verif.C38_violated_width",
    "Verif.C38_violated_nested",
    "Verif.C38_violated_package",
    "Verif.C38_violated_concatenation",
    "Verif.C38_violated_declared"
   ],
   "note": "proved for one-word names and arguments of one package without width and own arguments; false for bit fields of different width, nested instances, equal names from two packages, concatenations and declared names (counterexamples proved)"
  },
  {
   "property": "C39",
   "status": "partial",
   "theorems": [
    "Verif.C39_resolves_partial",
    "Verif.C39_too_long",
    "Verif.C39_cyclic",
    "Verif.C39_not_a_type",
    "Verif.C39_violated_long_chain",
    "Verif.C39_symbol_partial",
    "Verif.C39_symbol_itself"
   ],
   "note": "every chain of at most 100 links, cyclic chains and chains to non-types; acyclic import graphs (C36), packages see what they refer to (C49); false for longer acyclic chains (counterexample proved)"
  },
  {
   "property": "C40",
   "status": "partial",
   "theorems": [
    "Verif.C40_sorts",
    "Verif.C40_deterministic_partial",
    "Verif.C40_violated_order"
   ],
   "note": "every iteration order and every sorting algorithm, if snake case names of one kind are distinct; false otherwise (counterexample proved)"
  },
  {
   "property": "C41",
   "status": "partial",
   "theorems": [
    "Verif.C41_no_imports",
    "Verif.C41_only_lines_removed",
    "Verif.C41_import_line",
    "Verif.C41_strip",
    "Verif.C41_violated_unclosed",
    "Verif.C41_violated_comment"
   ],
   "note": "every text with a closed import block of import and blank lines; a missing parenthesis panics and a comment with the words is taken for the block (counterexamples proved)"
  },
  {
   "property": "C42",
   "status": "partial",
   "theorems": [
    "Verif.C42_get_iff",
    "Verif.C42_get_partial",
    "Verif.C42_width64_violates",
    "Verif.C42_two_types_violates"
   ],
   "note": "exact condition proved (C42_get_iff); the claim is false for width 64 and for one width with two Go types"
  },
  {
   "property": "C43",
   "status": "partial",
   "theorems": [
    "Verif.C43_clone_violates",
    "Verif.C43_clone_partial"
   ],
   "note": "the claim is false (C43_clone_violates); proved once the clone has its own slice"
  },
  {
   "property": "C44",
   "status": "proved",
   "theorems": [
    "Verif.C44_sequence",
    "Verif.C44_earlier_output_kept",
    "Verif.C44_marshal"
   ],
   "note": ""
  },
  {
   "property": "C45",
   "status": "proved",
   "theorems": [
    "Verif.C45_go_type",
    "Verif.C45_go_type_least",
    "Verif.C45_unsigned_conversion",
    "Verif.C45_signed_conversion",
    "Verif.C45_int_types",
    "Verif.C45_source",
    "Verif.C45_spelling",
    "Verif.C45_bits_kept"
   ],
   "note": "every width and value"
  },
  {
   "property": "C46",
   "status": "proved",
   "theorems": [
    "Verif.C46_alignTo",
    "Verif.C46_alignTo_trivial",
    "Verif.C46_agrees"
   ],
   "note": ""
  },
  {
   "property": "C47",
   "status": "partial",
   "theorems": [
    "Verif.C47_reuse_partial",
    "Verif.C47_violated_conditional",
    "Verif.C47_violated_union"
   ],
   "note": "proved for all fields but conditional ones, unions and choices, for which it is false (counterexamples proved)"
  },
  {
   "property": "C48",
   "status": "proved",
   "theorems": [
    "Verif.C48_imports",
    "Verif.C48_own",
    "Verif.C48_imported",
    "Verif.C48_qualified",
    "Verif.C48_bound",
    "Verif.C48_idempotent"
   ],
   "note": "every model with distinct non-empty package names; also nested template arguments"
  },
  {
   "property": "C49",
   "status": "partial",
   "theorems": [
    "Verif.C49_lookup_partial",
    "Verif.C49_violated_single_import",
    "Verif.C49_violated_qualified"
   ],
   "note": "proved for own types and packages imported as a whole; false for single-type imports and qualified names (counterexamples proved)"
  },
  {
   "property": "C50",
   "status": "partial",
   "theorems": [
    "Verif.C50_directory",
    "Verif.C50_unrestricted_partial",
    "Verif.C50_violated_no_limit"
   ],
   "note": "paths stay in their directory, short names are kept; limit 0, documented as no limit, fails always (proved)"
  },
  {
   "property": "C51",
   "status": "partial",
   "theorems": [
    "Verif.C51_built",
    "Verif.C51_violated_test",
    "Verif.C51_violated_platform"
   ],
   "note": "exact condition on the name proved; types named like ...Test, ...Windows or ...Arm are written to files that Go leaves out (counterexamples proved)"
  },
  {
   "property": "C52",
   "status": "partial",
   "theorems": [
    "Verif.C52_item_names_partial",
    "Verif.C52_violated_underscore",
    "Verif.C52_violated_enums"
   ],
   "note": "names of letters and digits; false for underscores and across enums (counterexamples proved)"
  },
  {
   "property": "C53",
   "status": "partial",
   "theorems": [
    "Verif.C53_titles_partial",
    "Verif.C53_violated_case"
   ],
   "note": "names whose first letters have the same case; false otherwise (counterexample proved)"
  },
  {
   "property": "C54",
   "status": "partial",
   "theorems": [
    "Verif.C54_used_kept_partial",
    "Verif.C54_violated_part_of_word"
   ],
   "note": "used imports are kept; unused ones may be kept too (counterexample proved)"
  },
  {
   "property": "C55",
   "status": "partial",
   "theorems": [
    "Verif.C55_read_partial",
    "Verif.C55_exact_partial",
    "Verif.C55_pairs_partial",
    "Verif.C55_violated_or",
    "Verif.C55_violated_isset",
    "Verif.C55_violated_sign",
    "Verif.C55_violated_tilde",
    "Verif.C55_violated_ternary",
    "Verif.C55_violated_pairs"
   ],
   "note": "exact condition proved for every expression tree: the reading is right if and only if operands hold together in Go or are in parentheses and there is no ~, sign or ?: on unknown values; the 23 pairs of operator rows in another order are listed and proved; casts are given, not computed (see DESIGN.md)"
  },
  {
   "property": "C56",
   "status": "partial",
   "theorems": [
    "Verif.C56_value_partial",
    "Verif.C56_violated_large",
    "Verif.C56_violated_suffix"
   ],
   "note": "every notation below 2^63, binary with a small b; larger numbers and the suffix B are refused (proved)"
  },
  {
   "property": "C57",
   "status": "partial",
   "theorems": [
    "Verif.C57_plain_partial",
    "Verif.C57_violated_escape"
   ],
   "note": "literals without escape sequences; escape sequences are never resolved (proved). The escapes of four hex digits and three octal digits are not in the specification"
  },
  {
   "property": "C58",
   "status": "partial",
   "theorems": [
    "Verif.C58_fold_partial",
    "Verif.C58_violated_zero",
    "Verif.C58_double_partial",
    "Verif.C58_violated_suffix"
   ],
   "note": "acceptance of literals without suffix and folding of sums, differences, products and quotients; the suffix f is always refused and parentheses, signs and ?: turn every value into zero (proved). The rounding of ParseFloat is not modelled"
  },
  {
   "property": "C59",
   "status": "proved",
   "theorems": [
    "Verif.C59_scalars",
    "Verif.C59_encodable",
    "Verif.C59_outside_range"
   ],
   "note": "against the wire format of Verif/Wire.lean"
  },
  {
   "property": "C60",
   "status": "partial",
   "theorems": [
    "Verif.C60_packed_arrays",
    "Verif.C60_standard_partial",
    "Verif.C60_violated_zero_crossing",
    "Verif.C60_violated_not_smallest"
   ],
   "note": "layout with a sound decision for every list, the decision of the format where neighbours have the same sign and sizes are reported correctly; sequences that cross zero are never packed (proved). Without element alignment"
  },
  {
   "property": "C61",
   "status": "partial",
   "theorems": [
    "Verif.C61_objects_partial",
    "Verif.C61_standard_partial",
    "Verif.C61_unpacked_partial",
    "Verif.C61_accepted_partial",
    "Verif.C61_violated_union_tag",
    "Verif.C61_violated_flag_order"
   ],
   "note": "schemas with at most 64 bits per integer, packed arrays of integers, enums, structs and choices without default, choices with one label per case: exactly the format with a sound decision; the zserio format itself without unions where packed sequences are calm, and for every accepted value without packed arrays; union tags are counted from 1 instead of 0, and the presence flag of aligned fields moves in packed arrays (counterexamples proved)"
  },
  {
   "property": "C62",
   "status": "partial",
   "theorems": [
    "Verif.C62_instance_is_substitution_partial",
    "Verif.C62_instantiate_name_partial",
    "Verif.C62_violated_nested_argument",
    "Verif.C62_violated_bit_width",
    "Verif.C62_violated_nested_name",
    "Verif.C62_violated_packages",
    "Verif.C62_violated_union",
    "Verif.C62_violated_parameter",
    "Verif.C62_violated_own_template",
    "Verif.C62_violated_qualified_argument"
   ],
   "note": "proved for every schema under TemplatesOk and every order of visits; goes wrong (proved on schemas) for parameters inside nested arguments, bit fields of different width, nested arguments of the same template, types of the same name from two packages, unions, type parameters, a template hidden by one of the own package, and qualified arguments named like a parameter"
  },
  {
   "property": "C63",
   "status": "partial",
   "theorems": [
    "Verif.C63_instantiation_ends_partial",
    "Verif.C63_violated_recursive_template"
   ],
   "note": "proved under TemplatesOk without recursion between templates; a recursive template never gets instantiated (proved for every number of steps)"
  },
  {
   "property": "C64",
   "status": "partial",
   "theorems": [
    "Verif.C64_type_arguments_partial",
    "Verif.C64_violated_shared_reference"
   ],
   "note": "proved under TemplatesOk if no type that is a template parameter carries type arguments; otherwise the last field wins (proved)"
  },
  {
   "property": "C65",
   "status": "partial",
   "theorems": [
    "Verif.C65_instance_name_partial",
    "Verif.C65_violated_two_types"
   ],
   "note": "proved for templates with plain arguments and without instantiate declaration; nested template types can get two names (proved)"
  },
  {
   "property": "C66",
   "status": "partial",
   "theorems": [
    "Verif.C66_compile_partial",
    "Verif.C66_arithmetic",
    "Verif.C66_same_type_iff",
    "Verif.C66_violated_compare",
    "Verif.C66_violated_constant",
    "Verif.C66_violated_valueof",
    "Verif.C66_violated_call",
    "Verif.C66_violated_bool",
    "Verif.C66_violated_element"
   ],
   "note": "proved for every expression that keeps to Sound: constants in range, operands of comparisons, bitwise operators and isset of one Go type (exactly the condition for two integer fields); without conditions for arithmetic over fields of any number types. Comparisons of uint8 with uint16, constants out of range, division by a constant 0, sums of valueof, parenthesised calls, ordered bools do not compile (proved)"
  },
  {
   "property": "C67",
   "status": "partial",
   "theorems": [
    "Verif.C67_value_partial",
    "Verif.C67_arithmetic_partial",
    "Verif.C67_violated_overflow",
    "Verif.C67_violated_sign",
    "Verif.C67_violated_call",
    "Verif.C67_violated_isset"
   ],
   "note": "proved where every operation stays in the range of its Go type; for arithmetic over integer fields: where no operation leaves the range of the widest field. Otherwise values wrap around although the result has room (proved: uint8 200 + 200, int8 -1 + uint16 0, call cut to the type of its result expression), and isset with a value of several bits is true if one of them is set (proved). Integers and truth values only"
  },
  {
   "property": "C68",
   "status": "partial",
   "theorems": [
    "Verif.C68_found_partial",
    "Verif.C68_once",
    "Verif.C68_nothing",
    "Verif.C68_violated_dot",
    "Verif.C68_violated_link",
    "Verif.C68_violated_several"
   ],
   "note": "every tree and every root that is neither . nor ..: exactly the .zs and .zserio files below it, each once, or an error for unreadable directories; the roots . and .. read nothing without an error, links are not followed, only the first of several roots counts (proved)"
  },
  {
   "property": "C69",
   "status": "partial",
   "theorems": [
    "Verif.C69_same_partial",
    "Verif.C69_expression",
    "Verif.C69_rejected",
    "Verif.C69_violated_offset",
    "Verif.C69_violated_constraint",
    "Verif.C69_violated_removed",
    "Verif.C69_violated_dropped",
    "Verif.C69_violated_width",
    "Verif.C69_violated_panic",
    "Verif.C69_import_partial",
    "Verif.C69_violated_import",
    "Verif.C69_expression_read",
    "Verif.C69_read_partial",
    "Verif.C69_import_read"
   ],
   "note": "for all pairs of accepted declarations: the same tree exactly if the same name, types (up to bit:8 and uint8, explicit or not), expressions, alignment, conditions and constraints, and rejection exactly for implicit arrays and bad alignments; offsets, constraints of choice and union fields, marks of enum items, SQL, services and the name of a single imported symbol are lost, widths above 255 become 255, rejection is a panic (proved)"
  },
  {
   "property": "C70",
   "status": "partial",
   "theorems": [
    "Verif.C70_last",
    "Verif.C70_known",
    "Verif.C70_last_package",
    "Verif.C70_found_partial",
    "Verif.C70_violated_duplicate",
    "Verif.C70_violated_kinds",
    "Verif.C70_violated_files",
    "Verif.C70_violated_unnamed"
   ],
   "note": "the last declaration of a kind and name in a file and the last file of a package are found; all of them if names and packages are distinct; duplicates, names of two kinds and second files of a package are dropped without a report (proved)"
  },
  {
   "property": "C71",
   "status": "partial",
   "theorems": [
    "Verif.C71_resolved_partial",
    "Verif.C71_bound_partial",
    "Verif.C71_go_partial",
    "Verif.C71_accepted",
    "Verif.C71_violated_enum",
    "Verif.C71_violated_default",
    "Verif.C71_violated_choice_function",
    "Verif.C71_violated_union_function",
    "Verif.C71_violated_import"
   ],
   "note": "resolution succeeds exactly if every name in a handled position means something, and then every such reference is bound to that declaration, own package first; types of enums, of the field of a default case and of functions of choices and unions are never resolved, and import of a single symbol makes nothing visible (proved)"
  },
  {
   "property": "C72",
   "status": "partial",
   "theorems": [
    "Verif.C72_fields",
    "Verif.C72_exported",
    "Verif.C72_violated_exported",
    "Verif.C72_json_partial",
    "Verif.C72_violated_json",
    "Verif.C72_members",
    "Verif.C72_members_lower_partial",
    "Verif.C72_violated_members"
   ],
   "note": "exact condition for distinct members; names that begin with a letter are exported, JSON keys are the names of the schema outside default cases; _x is not exported, a field of a default case changes its key, fields named like methods or like unionChoice and fields that differ in the case of the first letter clash (proved)"
  },
  {
   "property": "C73",
   "status": "partial",
   "theorems": [
    "Verif.C73_declared",
    "Verif.C73_own_partial",
    "Verif.C73_other_partial",
    "Verif.C73_violated_declared",
    "Verif.C73_lookup_partial",
    "Verif.C73_violated_lookup",
    "Verif.C73_violated_other"
   ],
   "note": "exact condition: constants, enums, unions, bitmasks always, other declarations if the name does not begin with a lower-case letter; otherwise the reference has another name, and the type of a field is not found or is taken for another one (proved)"
  },
  {
   "property": "C74",
   "status": "partial",
   "theorems": [
    "Verif.C74_own",
    "Verif.C74_package_partial",
    "Verif.C74_violated_enum",
    "Verif.C74_violated_union",
    "Verif.C74_violated_prefix"
   ],
   "note": "exact condition for each declaration, and for packages where no Go name begins with another; enum items STRING, VALUES, STRINGS, union field undefined, enum Color next to struct ColorValues clash (proved)"
  },
  {
   "property": "C75",
   "status": "partial",
   "theorems": [
    "Verif.C75_imports_partial",
    "Verif.C75_violated_alias",
    "Verif.C75_violated_fixed",
    "Verif.C75_name_partial",
    "Verif.C75_violated_keyword"
   ],
   "note": "package names without underscore that are not names of the fixed imports, last parts that are not reserved in Go; a.b and a_b, package fmt, package a.map go wrong (proved)"
  },
  {
   "property": "C76",
   "status": "partial",
   "theorems": [
    "Verif.C76_found_partial",
    "Verif.C76_only_partial",
    "Verif.C76_evaluated_partial",
    "Verif.C76_violated_shadow",
    "Verif.C76_violated_union",
    "Verif.C76_violated_choice",
    "Verif.C76_violated_stale",
    "Verif.C76_violated_items",
    "Verif.C76_violated_evaluated"
   ],
   "note": "found exactly what is meant, for all schemas, orders of evaluation and names, if no declaration has the name of a member, outside unions, default cases and functions of choices; in these, for items of enums and for members of the type of an imported package that was evaluated last, names mean something else, depending on map order; functions of choices and the lengths of bit fields that enums are stored as are never evaluated (proved)"
  },
  {
   "property": "C77",
   "status": "partial",
   "theorems": [
    "Verif.C77_path_partial",
    "Verif.C77_violated_union",
    "Verif.C77_violated_element",
    "Verif.C77_violated_package",
    "Verif.C77_violated_indirect"
   ],
   "note": "for paths of any length and chains of up to a hundred subtypes, if the package imports all packages concerned directly and no two of them declare a type of the same name; the package of a reference is ignored, members of unions and elements of arrays cannot be followed (proved)"
  },
  {
   "property": "C78",
   "status": "partial",
   "theorems": [
    "Verif.C78_label_partial",
    "Verif.C78_violated_selector",
    "Verif.C78_violated_bitmask",
    "Verif.C78_violated_const"
   ],
   "note": "items of enums, through subtypes and whatever else has that name; values of bitmasks, constants, and selectors that are no parameter are rejected (proved)"
  },
  {
   "property": "C79",
   "status": "partial",
   "theorems": [
    "Verif.C79_values_partial",
    "Verif.C79_sizes_partial",
    "Verif.C79_arrays_partial",
    "Verif.C79_packed",
    "Verif.C79_violated_subtype",
    "Verif.C79_violated_width",
    "Verif.C79_violated_zero"
   ],
   "note": "every builtin type and width from 1 to 64, every value in range: Go type, write, read, size, array traits, what packed structs delta encode; for subtypes of extern and bytes and for bit:0 the generated code does not compile, and a width of 261 from an expression is taken as 5 (proved)"
  },
  {
   "property": "C80",
   "status": "partial",
   "theorems": [
    "Verif.C80_values_partial",
    "Verif.C80_sizes_partial",
    "Verif.C80_violated_enum",
    "Verif.C80_violated_bitmask"
   ],
   "note": "writing, reading and packed traits for every integer type and width, size except for enums over varuint, varuint64, varsize, varint and varint64, whose code does not compile; a bitmask over a subtype of bit:n writes 0 bits and reads n (proved)"
  },
  {
   "property": "C81",
   "status": "proved",
   "theorems": [
    "Verif.C81_reads",
    "Verif.C81_read",
    "Verif.C81_accepts",
    "Verif.C81_unique"
   ],
   "note": "every expression before every token that does not go on with one; the length of a dynamic bit field, which is followed by the operator >, is in C85"
  },
  {
   "property": "C82",
   "status": "partial",
   "theorems": [
    "Verif.C82_tokens_partial",
    "Verif.C82_source",
    "Verif.C82_unique",
    "Verif.C82_violated_comment",
    "Verif.C82_expression_partial",
    "Verif.C82_texts"
   ],
   "note": "every text without the empty comment /**/, which hides everything up to the next */ (proved); together with C81 for the text of expressions"
  },
  {
   "property": "C83",
   "status": "partial",
   "theorems": [
    "Verif.C83_total",
    "Verif.C83_initialized_partial",
    "Verif.C83_others",
    "Verif.C83_heads",
    "Verif.C83_again",
    "Verif.C83_violated_enum"
   ],
   "note": "initializers of fields with a builtin type at every depth; the initializers of fields that are enums or bitmasks are not used (proved)"
  },
  {
   "property": "C84",
   "status": "proved",
   "theorems": [
    "Verif.C84_roundtrip",
    "Verif.C84_unknown",
    "Verif.C84_scan"
   ],
   "note": "the names of the items are assumed to be identifiers, and names and values to be distinct, else the file does not compile"
  },
  {
   "property": "C85",
   "status": "partial",
   "theorems": [
    "Verif.C85_reads_partial",
    "Verif.C85_read",
    "Verif.C85_unique_partial",
    "Verif.C85_text_partial",
    "Verif.C85_text_read",
    "Verif.C85_plain",
    "Verif.C85_violated_offset"
   ],
   "note": "fields of the form A<B> c : D<E> f; are ambiguous and read as fields with an offset (proved); lengths behind names are left out"
  },
  {
   "property": "C86",
   "status": "proved",
   "theorems": [
    "Verif.C86_positions",
    "Verif.C86_numbered",
    "Verif.C86_ordered"
   ],
   "note": "WithSetOffsetMethod is another option: its function is never called"
  },
  {
   "property": "C87",
   "status": "partial",
   "theorems": [
    "Verif.C87_found",
    "Verif.C87_found_partial",
    "Verif.C87_violated_doc",
    "Verif.C87_go"
   ],
   "note": "exactly the comments that do not begin with /** or /*!, which are lost: they are on another channel of the lexer (proved); comments of fields, bitmask values, subtypes and packages are found, but no template writes them"
  },
  {
   "property": "C88",
   "status": "partial",
   "theorems": [
    "Verif.C88_values_partial",
    "Verif.C88_accepts_partial",
    "Verif.C88_violated_sum",
    "Verif.C88_violated_sum_case",
    "Verif.C88_violated_flag",
    "Verif.C88_violated_order",
    "Verif.C88_violated_forward"
   ],
   "note": "for accepted schemas whose expressions are sums, differences and products of numbers and constants or single enum items (proved, every order); arithmetic with an enum item always yields 2, 0 or 1, bitmask values count as 0 in enum items, references to items without expression panic or not depending on the order of a Go map, forward references within an enum are refused (all proved)"
  },
  {
   "property": "C89",
   "status": "partial",
   "theorems": [
    "Verif.C89_same_partial",
    "Verif.C89_violated_bool",
    "Verif.C89_violated_sum"
   ],
   "note": "all expressions without elements of arrays of subtypes; those are taken for integers of an unknown type, so that conditions and sums with them are refused (proved)"
  },
  {
   "property": "C90",
   "status": "partial",
   "theorems": [
    "Verif.C90_schema_partial",
    "Verif.C90_bits_partial",
    "Verif.C90_packed_partial",
    "Verif.C90_layout_partial",
    "Verif.C90_violated_wrap",
    "Verif.C90_index_alone",
    "Verif.C90_violated_sign",
    "Verif.C90_others_same",
    "Verif.C90_others_partial",
    "Verif.C90_bytes_partial",
    "Verif.C90_padded_partial"
   ],
   "note": "schemas of one file with structs, choices, unions, enums, bitmasks, subtypes and constants; SQL tables and databases, services, pubsubs, rule groups and the compatibility version are proved to have no influence; expressions over parameters and fields of builtin, enum, bitmask types and subtypes of them, items of enums (those without a written number through the name of the enum itself), isset with a value of a bitmask that is one bit (for others C67), lengthof of arrays, @index as a type argument of the elements of an array, integers, comparisons, logic, arithmetic and bit operators with operands of one Go type, sums, differences and products also with operands of different integer types (all but uint64 with 32 bits), divisors and shift counts constant; arithmetic wraps around in that type (counterexamples proved: uint8 a[n + 1]; uint8 b if n + m < 5 with a negative int16 m); bits for schemas without unions (C61: their tag is off by one); the round trip and the format also for the bytes of Marshal and Unmarshal (without packed arrays, computed widths from 1 to 248); without imports, templates, functions, offsets, implicit arrays"
  },
  {
   "property": "C91",
   "status": "partial",
   "theorems": [
    "Verif.C91_only_stack",
    "Verif.C91_decode",
    "Verif.C91_decode_new",
    "Verif.C91_violated_length",
    "Verif.C91_violated_width",
    "Verif.C91_violated_recursive",
    "Verif.C91_text_partial"
   ],
   "note": "schemas without negative array lengths and without signed bit fields that can be wider than 64 bits; types that do not contain themselves, otherwise only the stack can be exhausted; counterexamples proved for the three; running out of memory is not modelled (lengths are allocated before the elements are read); also from the text of a schema (C91_text_partial)"
  },
  {
   "property": "C92",
   "status": "partial",
   "theorems": [
    "Verif.C92_methods",
    "Verif.C92_encode_partial",
    "Verif.C92_violated_packed"
   ],
   "note": "packed arrays of types whose packing context has finite depth; for a packed array of a type that contains itself the calls never end (counterexample proved); for types of finite depth all methods are covered (C92_methods), decoding of types that contain themselves is not bounded by a value (see C91)"
  },
  {
   "property": "C93",
   "status": "partial",
   "theorems": [
    "Verif.C93_functions_partial",
    "Verif.C93_violated_range",
    "Verif.C93_violated_choice",
    "Verif.C93_violated_union",
    "Verif.C93_others_partial"
   ],
   "note": "functions of structs, and of unions with builtin return types, with the expressions of C90 and ternary expressions of them; integers, truth values, enums and bitmasks as return types; numbers that the declared type does not have lose their high bits (counterexample proved); functions of choices are not generated, unions with functions that return declared types are refused (both proved); without calls of functions in expressions"
  },
  {
   "property": "C94",
   "status": "partial",
   "theorems": [
    "Verif.C94_written",
    "Verif.C94_files_partial",
    "Verif.C94_no_half_files",
    "Verif.C94_succeeds",
    "Verif.C94_printed",
    "Verif.C94_violated_overwritten",
    "Verif.C94_violated_lost",
    "Verif.C94_violated_only"
   ],
   "note": "paths of their own need names that do not end in an underscore and a number (counterexample proved: one output overwrites another one); a failing run takes away the file of an earlier run, and the option for a single package has no effect on directories (proved); directories are not represented"
  },
  {
   "property": "C95",
   "status": "partial",
   "theorems": [
    "Verif.C95_progress",
    "Verif.C95_ends",
    "Verif.C95_interleaved_partial",
    "Verif.C95_one_type_partial",
    "Verif.C95_violated_race",
    "Verif.C95_violated_order"
   ],
   "note": "proved for all interleavings if interface values are read and written at once, except for widths of 64 or more and two types for one width (C42), where the outcome depends on the schedule (proved); as the Go memory model allows accesses word by word, a call may return nil (counterexample proved)"
  },
  {
   "property": "C96",
   "status": "partial",
   "theorems": [
    "Verif.C96_accepted",
    "Verif.C96_implicit",
    "Verif.C96_violated_same",
    "Verif.C96_violated_range",
    "Verif.C96_names",
    "Verif.C96_unknown",
    "Verif.C96_values_partial",
    "Verif.C96_violated_values"
   ],
   "note": "accepted exactly if values are numbers of the type and values and names are distinct; the generator accepts enums with equal values or values out of range, which do not compile (proved); names are right after any operations, values unless a user writes to a slice that XValues returned, which changes what it returns to all (proved); bitmasks have no tables"
  },
  {
   "property": "C97",
   "status": "partial",
   "theorems": [
    "Verif.C97_ends",
    "Verif.C97_meaning_partial",
    "Verif.C97_accepted_partial",
    "Verif.C97_order_partial",
    "Verif.C97_cycle_partial",
    "Verif.C97_names",
    "Verif.C97_violated_bare",
    "Verif.C97_violated_hidden",
    "Verif.C97_violated_declared"
   ],
   "note": "structs in one package, calls of functions of the same struct and of functions of a member; the name of a function may also be written without a call, and then whether the schema is accepted depends on the order of the map of structs (counterexample proved), so acceptance, meaning, independence of order and circles are proved for schemas in which functions are only called; a function hides a member of its name (proved); a call has the type of the expression, not the declared return type (proved)"
  },
  {
   "property": "C98",
   "status": "partial",
   "theorems": [
    "Verif.C98_same",
    "Verif.C98_bounded",
    "Verif.C98_buffers",
    "Verif.C98_arrays_partial",
    "Verif.C98_objects_partial",
    "Verif.C98_sequence",
    "Verif.C98_violated_length",
    "Verif.C98_violated_packed",
    "Verif.C98_violated_empty"
   ],
   "note": "bounded by twice the input for strings and buffers that are read, and by a multiple that grows with the nesting for arrays that are not packed and whose elements take a bit or more; a wrong length makes the readers ask for up to two gigabytes before they report an error, and packed arrays of equal elements and arrays of elements without bits have no bound but the length (counterexamples proved); sizes of Go values and the overhead of the allocator are not represented"
  },
  {
   "property": "C99",
   "status": "partial",
   "theorems": [
    "Verif.C99_stale",
    "Verif.C99_roundtrip_partial",
    "Verif.C99_text_partial",
    "Verif.C99_violated_missing"
   ],
   "note": "schemas in which members of types with parameters have type arguments and no expression looks at a parameter of a member; every schema in the domain of C90 is of that kind (proved from the text on); the generator also accepts schemas without the type arguments, and then encoding looks at what the user has left while decoding takes zero (counterexample proved); decoding back as in C25"
  },
  {
   "property": "C100",
   "status": "partial",
   "theorems": [
    "Verif.C100_ignored_partial",
    "Verif.C100_violated",
    "Verif.C100_named_partial",
    "Verif.C100_members_partial"
   ],
   "note": "constraints are evaluated by the generator but no code is generated for them: for every schema in the domain of C90 the code is that of the schema without its constraints (proved from the texts on), so a value that violates a constraint is encoded and decoded without error (counterexample proved); a constraint that uses an unknown name is rejected (proved for constraints that are one name); constraints of unions and choices are not even evaluated: the same is generated without them (proved for all texts)"
  },
  {
   "property": "C101",
   "status": "partial",
   "theorems": [
    "Verif.C101_ignored_partial",
    "Verif.C101_violated_extend",
    "Verif.C101_violated_offset"
   ],
   "note": "the property does not hold: offsets and extend are read by the parser and then dropped; the same is generated from the schema without them (proved for all texts of one file that are read as written), a value with a wrong offset is encoded and decoded, and bits of an older schema are refused (counterexamples proved)"
  },
  {
   "property": "C102",
   "status": "partial",
   "theorems": [
    "Verif.C102_objects_partial",
    "Verif.C102_bytes_partial",
    "Verif.C102_violated_packed",
    "Verif.C102_text_partial"
   ],
   "note": "proved for all objects and all inputs and all schemas whose bit fields fit their Go types, whose alignments are below 256 bits and whose packed arrays have elements of types with every value of the Go type (uint8, int16, bool, varint and the like); for the bytes of Marshal, and from the text of the schema with the limits of C90, without packed arrays and with alignments up to 248 bits; false for packed arrays of bit fields: a difference may lead out of the range, and the value is then written truncated without an error (counterexample proved)"
  }
 ]
}