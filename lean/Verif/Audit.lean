import Verif.Props.Again
import Verif.Props.AgainText
import Verif.Props.Array
import Verif.Props.Callbacks
import Verif.Props.Calls
import Verif.Props.Codec
import Verif.Props.Comments
import Verif.Props.Concurrent
import Verif.Props.Constraints
import Verif.Props.Consts
import Verif.Props.DeclFields
import Verif.Props.DeclOffsets
import Verif.Props.DeclOthers
import Verif.Props.DeclParser
import Verif.Props.DeclReads
import Verif.Props.DeclTokens
import Verif.Props.Defaults
import Verif.Props.Delta
import Verif.Props.Depth
import Verif.Props.Discover
import Verif.Props.Dots
import Verif.Props.Enum
import Verif.Props.EnumTables
import Verif.Props.Extend
import Verif.Props.Files
import Verif.Props.Fold
import Verif.Props.FrontDecls
import Verif.Props.FrontEnd
import Verif.Props.FrontPackages
import Verif.Props.FrontRead
import Verif.Props.Functions
import Verif.Props.Generate
import Verif.Props.GenerateArith
import Verif.Props.GenerateExprs
import Verif.Props.GenerateIndex
import Verif.Props.GenerateIsset
import Verif.Props.GenerateItems
import Verif.Props.GenerateMixed
import Verif.Props.GenerateOthers
import Verif.Props.GoNames
import Verif.Props.GoText
import Verif.Props.GoTypes
import Verif.Props.GoValues
import Verif.Props.Imports
import Verif.Props.Ints
import Verif.Props.ItemValues
import Verif.Props.Lexer
import Verif.Props.LexerRules
import Verif.Props.LexerTables
import Verif.Props.Literals
import Verif.Props.Memory
import Verif.Props.Mix
import Verif.Props.Names
import Verif.Props.NoPanic
import Verif.Props.NoPanicText
import Verif.Props.Object
import Verif.Props.ObjectStream
import Verif.Props.ObjectText
import Verif.Props.ObjectWrite
import Verif.Props.Original
import Verif.Props.Outputs
import Verif.Props.Parameters
import Verif.Props.ParametersText
import Verif.Props.Parser
import Verif.Props.Resolve
import Verif.Props.Reuse
import Verif.Props.Run
import Verif.Props.Scope
import Verif.Props.Select
import Verif.Props.SelectEnum
import Verif.Props.Size
import Verif.Props.Stream
import Verif.Props.StreamText
import Verif.Props.Strip
import Verif.Props.SubtypeUse
import Verif.Props.Template
import Verif.Props.Wire

/-! Axioms used by every claimed theorem; printed during the build. -/

#print axioms Verif.C01_unsigned_bits_roundtrip
#print axioms Verif.C01_unsigned_bits_reject
#print axioms Verif.C01_unsigned_bits_iff
#print axioms Verif.C02_signed_bits_roundtrip
#print axioms Verif.C02_signed_bits_wire
#print axioms Verif.C02_signed_bits_reject
#print axioms Verif.C03_uint_roundtrip
#print axioms Verif.C03_int_roundtrip
#print axioms Verif.C03_bool_roundtrip
#print axioms Verif.C04_varuint16
#print axioms Verif.C04_varuint32
#print axioms Verif.C04_varuint64
#print axioms Verif.C04_varuint
#print axioms Verif.C04_varsize
#print axioms Verif.C05_varint16
#print axioms Verif.C05_varint32
#print axioms Verif.C05_varint64_partial
#print axioms Verif.C05_varint64_min_violates
#print axioms Verif.C05_varint64_false
#print axioms Verif.C05_varint
#print axioms Verif.C06_unsigned_size
#print axioms Verif.C06_signed_size
#print axioms Verif.C06_varint_size
#print axioms Verif.C07_unsigned_minimal
#print axioms Verif.C07_signed_minimal
#print axioms Verif.C07_varint_minimal
#print axioms Verif.C08_unsigned_total
#print axioms Verif.C08_varsize_total
#print axioms Verif.C08_signed_total
#print axioms Verif.C08_varint_total
#print axioms Verif.C09_writer
#print axioms Verif.C09_reader
#print axioms Verif.C09_reader_short
#print axioms Verif.C09_count
#print axioms Verif.C09_idempotent
#print axioms Verif.C09_agree
#print axioms Verif.C10_marshal_ok
#print axioms Verif.C10_marshal_error
#print axioms Verif.C10_roundtrip
#print axioms Verif.C11_writer
#print axioms Verif.C11_reader_partial
#print axioms Verif.C11_readBits_zero
#print axioms Verif.C12_objects_partial
#print axioms Verif.C12_bytes_partial
#print axioms Verif.C12_violated_packed
#print axioms Verif.C12_flat
#print axioms Verif.C12_unmarshal
#print axioms Verif.C12_decoders_strict
#print axioms Verif.C12_text_partial
#print axioms Verif.C13_unpacked_arrays
#print axioms Verif.C13_packed_violates
#print axioms Verif.C13_objects_partial
#print axioms Verif.C13_bytes_partial
#print axioms Verif.C13_truncation
#print axioms Verif.C13_exact
#print axioms Verif.C13_unmarshal
#print axioms Verif.C13_text_partial
#print axioms Verif.C14_array_violates
#print axioms Verif.C14_objects_partial
#print axioms Verif.C14_sink
#print axioms Verif.C14_sink_error
#print axioms Verif.C14_flat
#print axioms Verif.C14_encoders_good
#print axioms Verif.C15_string
#print axioms Verif.C15_string_reject
#print axioms Verif.C15_bytes
#print axioms Verif.C15_bytes_reject
#print axioms Verif.C15_extern
#print axioms Verif.C15_extern_reject
#print axioms Verif.C15_extern_spare_byte
#print axioms Verif.C15_read_extern_length
#print axioms Verif.C16_float32
#print axioms Verif.C16_float64
#print axioms Verif.C16_float16
#print axioms Verif.C16_float16_snan
#print axioms Verif.C16_float16_total
#print axioms Verif.C17_numBits
#print axioms Verif.C17_numBits_fits
#print axioms Verif.C17_numBits_mono
#print axioms Verif.C18_roundtrip
#print axioms Verif.C18_integers
#print axioms Verif.C19_size
#print axioms Verif.C19_elements
#print axioms Verif.C19_spread
#print axioms Verif.C19_size_then_write
#print axioms Verif.C20_unpacked_roundtrip
#print axioms Verif.C20_any_traits
#print axioms Verif.C20_too_long
#print axioms Verif.C21_packed_roundtrip_partial
#print axioms Verif.C21_any_traits
#print axioms Verif.C21_float32_violates
#print axioms Verif.C21_string_violates
#print axioms Verif.C21_buffers_violate
#print axioms Verif.C22_varying_partial
#print axioms Verif.C22_length_iff
#print axioms Verif.C22_constant_iff
#print axioms Verif.C22_constant_violates
#print axioms Verif.C22_aligned_violates
#print axioms Verif.C22_bytes_violates
#print axioms Verif.C22_varuint_violates
#print axioms Verif.C22_packed_partial
#print axioms Verif.C22_packed_violates
#print axioms Verif.C23_never_reports
#print axioms Verif.C23_violates
#print axioms Verif.C23_packed_violates
#print axioms Verif.C23_bitfield_truncates
#print axioms Verif.C23_partial
#print axioms Verif.C24_object_array_roundtrip
#print axioms Verif.C24_packed_object_array_roundtrip
#print axioms Verif.C25_struct_roundtrip_partial
#print axioms Verif.C25_violated_varint64
#print axioms Verif.C25_violated_packed_strings
#print axioms Verif.C25_bytes_partial
#print axioms Verif.C26_bit_size_partial
#print axioms Verif.C26_violated_bytes
#print axioms Verif.C26_violated_array
#print axioms Verif.C26_violated_packed
#print axioms Verif.C26_violated_length
#print axioms Verif.C27_union_writes_member
#print axioms Verif.C27_union_roundtrip_partial
#print axioms Verif.C27_violated_unknown_tag
#print axioms Verif.C28_choice_writes_partial
#print axioms Verif.C28_choice_roundtrip_partial
#print axioms Verif.C28_violated_second_label
#print axioms Verif.C28_violated_empty_case
#print axioms Verif.C29_packed_objects_partial
#print axioms Verif.C29_violated_union
#print axioms Verif.C29_violated_recursive
#print axioms Verif.C30_enum_values
#print axioms Verif.C30_enum_rejects
#print axioms Verif.C30_enum_idempotent
#print axioms Verif.C30_successor_partial
#print axioms Verif.C30_violated_overflow
#print axioms Verif.C30_string_roundtrip
#print axioms Verif.C30_string_rejects
#print axioms Verif.C31_bitmask_rejects
#print axioms Verif.C31_next_power_partial
#print axioms Verif.C31_disjoint_partial
#print axioms Verif.C31_all_implicit
#print axioms Verif.C31_violated_overlap
#print axioms Verif.C31_violated_overflow
#print axioms Verif.C32_integer_result
#print axioms Verif.C32_integer_symmetric_partial
#print axioms Verif.C32_violated_order
#print axioms Verif.C32_literal
#print axioms Verif.C32_float_float
#print axioms Verif.C32_float_integer
#print axioms Verif.C32_other_kinds
#print axioms Verif.C32_literals
#print axioms Verif.C33_value_partial
#print axioms Verif.C33_defined_partial
#print axioms Verif.C33_exact_partial
#print axioms Verif.C33_violated_bool
#print axioms Verif.C33_violated_numbits
#print axioms Verif.C33_violated_lazy
#print axioms Verif.C33_violated_uint64
#print axioms Verif.C34_terminates
#print axioms Verif.C34_sound_partial
#print axioms Verif.C34_cycle_partial
#print axioms Verif.C34_complete_partial
#print axioms Verif.C34_order_partial
#print axioms Verif.C34_violated_cycle
#print axioms Verif.C34_violated_packages
#print axioms Verif.C35_all_imports
#print axioms Verif.C36_scope_correct
#print axioms Verif.C36_symbol_correct
#print axioms Verif.C36_scope_partial
#print axioms Verif.C36_symbol_partial
#print axioms Verif.C36_violated_cycle
#print axioms Verif.C36_name_type
#print axioms Verif.C36_name_member
#print axioms Verif.C36_name_other_partial
#print axioms Verif.C37_repeated_request
#print axioms Verif.C37_unique_partial
#print axioms Verif.C37_plain_names_partial
#print axioms Verif.C37_violated_collision
#print axioms Verif.C37_length_partial
#print axioms Verif.C37_violated_length
#print axioms Verif.C38_names_partial
#print axioms Verif.C38_instances_partial
#print axioms Verif.C38_violated_width
#print axioms Verif.C38_violated_nested
#print axioms Verif.C38_violated_package
#print axioms Verif.C38_violated_concatenation
#print axioms Verif.C38_violated_declared
#print axioms Verif.C39_resolves_partial
#print axioms Verif.C39_too_long
#print axioms Verif.C39_cyclic
#print axioms Verif.C39_not_a_type
#print axioms Verif.C39_violated_long_chain
#print axioms Verif.C39_symbol_partial
#print axioms Verif.C39_symbol_itself
#print axioms Verif.C40_sorts
#print axioms Verif.C40_deterministic_partial
#print axioms Verif.C40_violated_order
#print axioms Verif.C41_no_imports
#print axioms Verif.C41_only_lines_removed
#print axioms Verif.C41_import_line
#print axioms Verif.C41_strip
#print axioms Verif.C41_violated_unclosed
#print axioms Verif.C41_violated_comment
#print axioms Verif.C42_get_iff
#print axioms Verif.C42_get_partial
#print axioms Verif.C42_width64_violates
#print axioms Verif.C42_two_types_violates
#print axioms Verif.C43_clone_violates
#print axioms Verif.C43_clone_partial
#print axioms Verif.C44_sequence
#print axioms Verif.C44_earlier_output_kept
#print axioms Verif.C44_marshal
#print axioms Verif.C45_go_type
#print axioms Verif.C45_go_type_least
#print axioms Verif.C45_unsigned_conversion
#print axioms Verif.C45_signed_conversion
#print axioms Verif.C45_int_types
#print axioms Verif.C45_source
#print axioms Verif.C45_spelling
#print axioms Verif.C45_bits_kept
#print axioms Verif.C46_alignTo
#print axioms Verif.C46_alignTo_trivial
#print axioms Verif.C46_agrees
#print axioms Verif.C47_reuse_partial
#print axioms Verif.C47_violated_conditional
#print axioms Verif.C47_violated_union
#print axioms Verif.C48_imports
#print axioms Verif.C48_own
#print axioms Verif.C48_imported
#print axioms Verif.C48_qualified
#print axioms Verif.C48_bound
#print axioms Verif.C48_idempotent
#print axioms Verif.C49_lookup_partial
#print axioms Verif.C49_violated_single_import
#print axioms Verif.C49_violated_qualified
#print axioms Verif.C50_directory
#print axioms Verif.C50_unrestricted_partial
#print axioms Verif.C50_violated_no_limit
#print axioms Verif.C51_built
#print axioms Verif.C51_violated_test
#print axioms Verif.C51_violated_platform
#print axioms Verif.C52_item_names_partial
#print axioms Verif.C52_violated_underscore
#print axioms Verif.C52_violated_enums
#print axioms Verif.C53_titles_partial
#print axioms Verif.C53_violated_case
#print axioms Verif.C54_used_kept_partial
#print axioms Verif.C54_violated_part_of_word
#print axioms Verif.C55_read_partial
#print axioms Verif.C55_exact_partial
#print axioms Verif.C55_pairs_partial
#print axioms Verif.C55_violated_or
#print axioms Verif.C55_violated_isset
#print axioms Verif.C55_violated_sign
#print axioms Verif.C55_violated_tilde
#print axioms Verif.C55_violated_ternary
#print axioms Verif.C55_violated_pairs
#print axioms Verif.C56_value_partial
#print axioms Verif.C56_violated_large
#print axioms Verif.C56_violated_suffix
#print axioms Verif.C57_plain_partial
#print axioms Verif.C57_violated_escape
#print axioms Verif.C58_fold_partial
#print axioms Verif.C58_violated_zero
#print axioms Verif.C58_double_partial
#print axioms Verif.C58_violated_suffix
#print axioms Verif.C59_scalars
#print axioms Verif.C59_encodable
#print axioms Verif.C59_outside_range
#print axioms Verif.C60_packed_arrays
#print axioms Verif.C60_standard_partial
#print axioms Verif.C60_violated_zero_crossing
#print axioms Verif.C60_violated_not_smallest
#print axioms Verif.C61_objects_partial
#print axioms Verif.C61_standard_partial
#print axioms Verif.C61_unpacked_partial
#print axioms Verif.C61_accepted_partial
#print axioms Verif.C61_violated_union_tag
#print axioms Verif.C61_violated_flag_order
#print axioms Verif.C62_instance_is_substitution_partial
#print axioms Verif.C62_instantiate_name_partial
#print axioms Verif.C62_violated_nested_argument
#print axioms Verif.C62_violated_bit_width
#print axioms Verif.C62_violated_nested_name
#print axioms Verif.C62_violated_packages
#print axioms Verif.C62_violated_union
#print axioms Verif.C62_violated_parameter
#print axioms Verif.C62_violated_own_template
#print axioms Verif.C62_violated_qualified_argument
#print axioms Verif.C63_instantiation_ends_partial
#print axioms Verif.C63_violated_recursive_template
#print axioms Verif.C64_type_arguments_partial
#print axioms Verif.C64_violated_shared_reference
#print axioms Verif.C65_instance_name_partial
#print axioms Verif.C65_violated_two_types
#print axioms Verif.C66_compile_partial
#print axioms Verif.C66_arithmetic
#print axioms Verif.C66_same_type_iff
#print axioms Verif.C66_violated_compare
#print axioms Verif.C66_violated_constant
#print axioms Verif.C66_violated_valueof
#print axioms Verif.C66_violated_call
#print axioms Verif.C66_violated_bool
#print axioms Verif.C66_violated_element
#print axioms Verif.C67_value_partial
#print axioms Verif.C67_arithmetic_partial
#print axioms Verif.C67_violated_overflow
#print axioms Verif.C67_violated_sign
#print axioms Verif.C67_violated_call
#print axioms Verif.C67_violated_isset
#print axioms Verif.C68_found_partial
#print axioms Verif.C68_once
#print axioms Verif.C68_nothing
#print axioms Verif.C68_violated_dot
#print axioms Verif.C68_violated_link
#print axioms Verif.C68_violated_several
#print axioms Verif.C69_same_partial
#print axioms Verif.C69_expression
#print axioms Verif.C69_rejected
#print axioms Verif.C69_violated_offset
#print axioms Verif.C69_violated_constraint
#print axioms Verif.C69_violated_removed
#print axioms Verif.C69_violated_dropped
#print axioms Verif.C69_violated_width
#print axioms Verif.C69_violated_panic
#print axioms Verif.C69_import_partial
#print axioms Verif.C69_violated_import
#print axioms Verif.C69_expression_read
#print axioms Verif.C69_read_partial
#print axioms Verif.C69_import_read
#print axioms Verif.C70_last
#print axioms Verif.C70_known
#print axioms Verif.C70_last_package
#print axioms Verif.C70_found_partial
#print axioms Verif.C70_violated_duplicate
#print axioms Verif.C70_violated_kinds
#print axioms Verif.C70_violated_files
#print axioms Verif.C70_violated_unnamed
#print axioms Verif.C71_resolved_partial
#print axioms Verif.C71_bound_partial
#print axioms Verif.C71_go_partial
#print axioms Verif.C71_accepted
#print axioms Verif.C71_violated_enum
#print axioms Verif.C71_violated_default
#print axioms Verif.C71_violated_choice_function
#print axioms Verif.C71_violated_union_function
#print axioms Verif.C71_violated_import
#print axioms Verif.C72_fields
#print axioms Verif.C72_exported
#print axioms Verif.C72_violated_exported
#print axioms Verif.C72_json_partial
#print axioms Verif.C72_violated_json
#print axioms Verif.C72_members
#print axioms Verif.C72_members_lower_partial
#print axioms Verif.C72_violated_members
#print axioms Verif.C73_declared
#print axioms Verif.C73_own_partial
#print axioms Verif.C73_other_partial
#print axioms Verif.C73_violated_declared
#print axioms Verif.C73_lookup_partial
#print axioms Verif.C73_violated_lookup
#print axioms Verif.C73_violated_other
#print axioms Verif.C74_own
#print axioms Verif.C74_package_partial
#print axioms Verif.C74_violated_enum
#print axioms Verif.C74_violated_union
#print axioms Verif.C74_violated_prefix
#print axioms Verif.C75_imports_partial
#print axioms Verif.C75_violated_alias
#print axioms Verif.C75_violated_fixed
#print axioms Verif.C75_name_partial
#print axioms Verif.C75_violated_keyword
#print axioms Verif.C76_found_partial
#print axioms Verif.C76_only_partial
#print axioms Verif.C76_evaluated_partial
#print axioms Verif.C76_violated_shadow
#print axioms Verif.C76_violated_union
#print axioms Verif.C76_violated_choice
#print axioms Verif.C76_violated_stale
#print axioms Verif.C76_violated_items
#print axioms Verif.C76_violated_evaluated
#print axioms Verif.C77_path_partial
#print axioms Verif.C77_violated_union
#print axioms Verif.C77_violated_element
#print axioms Verif.C77_violated_package
#print axioms Verif.C77_violated_indirect
#print axioms Verif.C78_label_partial
#print axioms Verif.C78_violated_selector
#print axioms Verif.C78_violated_bitmask
#print axioms Verif.C78_violated_const
#print axioms Verif.C79_values_partial
#print axioms Verif.C79_sizes_partial
#print axioms Verif.C79_arrays_partial
#print axioms Verif.C79_packed
#print axioms Verif.C79_violated_subtype
#print axioms Verif.C79_violated_width
#print axioms Verif.C79_violated_zero
#print axioms Verif.C80_values_partial
#print axioms Verif.C80_sizes_partial
#print axioms Verif.C80_violated_enum
#print axioms Verif.C80_violated_bitmask
#print axioms Verif.C81_reads
#print axioms Verif.C81_read
#print axioms Verif.C81_accepts
#print axioms Verif.C81_unique
#print axioms Verif.C82_tokens_partial
#print axioms Verif.C82_source
#print axioms Verif.C82_unique
#print axioms Verif.C82_violated_comment
#print axioms Verif.C82_expression_partial
#print axioms Verif.C82_texts
#print axioms Verif.C83_total
#print axioms Verif.C83_initialized_partial
#print axioms Verif.C83_others
#print axioms Verif.C83_heads
#print axioms Verif.C83_again
#print axioms Verif.C83_violated_enum
#print axioms Verif.C84_roundtrip
#print axioms Verif.C84_unknown
#print axioms Verif.C84_scan
#print axioms Verif.C85_reads_partial
#print axioms Verif.C85_read
#print axioms Verif.C85_unique_partial
#print axioms Verif.C85_text_partial
#print axioms Verif.C85_text_read
#print axioms Verif.C85_plain
#print axioms Verif.C85_violated_offset
#print axioms Verif.C86_positions
#print axioms Verif.C86_numbered
#print axioms Verif.C86_ordered
#print axioms Verif.C87_found
#print axioms Verif.C87_found_partial
#print axioms Verif.C87_violated_doc
#print axioms Verif.C87_go
#print axioms Verif.C88_values_partial
#print axioms Verif.C88_accepts_partial
#print axioms Verif.C88_violated_sum
#print axioms Verif.C88_violated_sum_case
#print axioms Verif.C88_violated_flag
#print axioms Verif.C88_violated_order
#print axioms Verif.C88_violated_forward
#print axioms Verif.C89_same_partial
#print axioms Verif.C89_violated_bool
#print axioms Verif.C89_violated_sum
#print axioms Verif.C90_schema_partial
#print axioms Verif.C90_bits_partial
#print axioms Verif.C90_packed_partial
#print axioms Verif.C90_layout_partial
#print axioms Verif.C90_violated_wrap
#print axioms Verif.C90_index_alone
#print axioms Verif.C90_violated_sign
#print axioms Verif.C90_others_same
#print axioms Verif.C90_others_partial
#print axioms Verif.C90_bytes_partial
#print axioms Verif.C90_padded_partial
#print axioms Verif.C91_only_stack
#print axioms Verif.C91_decode
#print axioms Verif.C91_decode_new
#print axioms Verif.C91_violated_length
#print axioms Verif.C91_violated_width
#print axioms Verif.C91_violated_recursive
#print axioms Verif.C91_text_partial
#print axioms Verif.C92_methods
#print axioms Verif.C92_encode_partial
#print axioms Verif.C92_violated_packed
#print axioms Verif.C93_functions_partial
#print axioms Verif.C93_violated_range
#print axioms Verif.C93_violated_choice
#print axioms Verif.C93_violated_union
#print axioms Verif.C93_others_partial
#print axioms Verif.C94_written
#print axioms Verif.C94_files_partial
#print axioms Verif.C94_no_half_files
#print axioms Verif.C94_succeeds
#print axioms Verif.C94_printed
#print axioms Verif.C94_violated_overwritten
#print axioms Verif.C94_violated_lost
#print axioms Verif.C94_violated_only
#print axioms Verif.C95_progress
#print axioms Verif.C95_ends
#print axioms Verif.C95_interleaved_partial
#print axioms Verif.C95_one_type_partial
#print axioms Verif.C95_violated_race
#print axioms Verif.C95_violated_order
#print axioms Verif.C96_accepted
#print axioms Verif.C96_implicit
#print axioms Verif.C96_violated_same
#print axioms Verif.C96_violated_range
#print axioms Verif.C96_names
#print axioms Verif.C96_unknown
#print axioms Verif.C96_values_partial
#print axioms Verif.C96_violated_values
#print axioms Verif.C97_ends
#print axioms Verif.C97_meaning_partial
#print axioms Verif.C97_accepted_partial
#print axioms Verif.C97_order_partial
#print axioms Verif.C97_cycle_partial
#print axioms Verif.C97_names
#print axioms Verif.C97_violated_bare
#print axioms Verif.C97_violated_hidden
#print axioms Verif.C97_violated_declared
#print axioms Verif.C98_same
#print axioms Verif.C98_bounded
#print axioms Verif.C98_buffers
#print axioms Verif.C98_arrays_partial
#print axioms Verif.C98_objects_partial
#print axioms Verif.C98_sequence
#print axioms Verif.C98_violated_length
#print axioms Verif.C98_violated_packed
#print axioms Verif.C98_violated_empty
#print axioms Verif.C99_stale
#print axioms Verif.C99_roundtrip_partial
#print axioms Verif.C99_text_partial
#print axioms Verif.C99_violated_missing
#print axioms Verif.C100_ignored_partial
#print axioms Verif.C100_violated
#print axioms Verif.C100_named_partial
#print axioms Verif.C100_members_partial
#print axioms Verif.C101_ignored_partial
#print axioms Verif.C101_violated_extend
#print axioms Verif.C101_violated_offset
#print axioms Verif.C102_objects_partial
#print axioms Verif.C102_bytes_partial
#print axioms Verif.C102_violated_packed
#print axioms Verif.C102_text_partial
