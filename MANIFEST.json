{
 "claims": [
  {
   "property": "C01",
   "status": "proved",
   "theorems": [
    "Verif.Hash.C01_hash_table_is_finite_map"
   ],
   "note": "All histories, all hash functions. Allocation success assumed; values are non-NULL."
  },
  {
   "property": "C02",
   "status": "proved",
   "theorems": [
    "Verif.Strtab.C02_intern_eq_iff",
    "Verif.Strtab.C02_intern_total"
   ],
   "note": "All sequences of str_intern calls below the capacity limit; malloc is any function returning fresh non-null addresses."
  },
  {
   "property": "C03",
   "status": "proved",
   "theorems": [
    "Verif.Strtab.C03_handle_reads_back",
    "Verif.Strtab.C03_concat"
   ],
   "note": "Short and long representation, str_len, str_raw, str_cat."
  },
  {
   "property": "C04",
   "status": "proved",
   "theorems": [
    "Verif.Deque.C04_deque_is_queue"
   ],
   "note": "All push/pop/get sequences on the ring buffer equal a FIFO list."
  },
  {
   "property": "C05",
   "status": "proved",
   "theorems": [
    "Verif.Lex.C05_printed_text_denotes",
    "Verif.Lex.C05_denotation_unique",
    "Verif.Lex.C05_own_reader_round_trip"
   ],
   "note": "All byte strings. isprint is modelled for the C locale."
  },
  {
   "property": "C06",
   "status": "partial",
   "theorems": [
    "Verif.Input.C06_logical_line_partial",
    "Verif.Input.C06_file_lines_partial",
    "Verif.Input.C06_question_marks_violated",
    "Verif.Input.C06_trigraph_splice_violated",
    "Verif.Input.C06_three_marks_violated"
   ],
   "note": "Proved for all sources without two adjacent question marks (the code is wrong for some trigraph-like input; witnesses given)."
  },
  {
   "property": "C07",
   "status": "partial",
   "theorems": [
    "Verif.Lex.C07_maximal_munch_partial",
    "Verif.Lex.C07_digraphs_violated"
   ],
   "note": "Proved for all texts and the C89 punctuator set; digraphs of C94/C99 are not implemented (violation)."
  },
  {
   "property": "C08",
   "status": "proved",
   "theorems": [
    "Verif.Lex.C08_integer_constant_type"
   ],
   "note": "Every valid integer constant spelling and suffix, all values."
  },
  {
   "property": "C09",
   "status": "proved",
   "theorems": [
    "Verif.Cond.C09_taken_groups"
   ],
   "note": "All well nested inputs; macro expansion of the condition is a parameter."
  },
  {
   "property": "C10",
   "status": "partial",
   "theorems": [
    "Verif.IfExpr.C10_if_value_partial",
    "Verif.IfExpr.C10_equality_chain_violated",
    "Verif.IfExpr.C10_or_chain_violated",
    "Verif.IfExpr.C10_short_circuit_violated",
    "Verif.IfExpr.C10_signedness_violated",
    "Verif.IfExpr.C10_host_undefined_violated"
   ],
   "note": "Proved for all expressions of the C grammar in the fragment Plain; the excluded cases are proved violations."
  },
  {
   "property": "C11",
   "status": "proved",
   "theorems": [
    "Verif.Macro.C11_object_macros",
    "Verif.Macro.C11_expansion_complete"
   ],
   "note": "Object-like macros, with `##` in bodies. Token spelling operations are parameters."
  },
  {
   "property": "C12",
   "status": "proved",
   "theorems": [
    "Verif.Concat.C12_parser_sees_joined",
    "Verif.Concat.C12_joined_run",
    "Verif.Concat.C12_joined_no_adjacent",
    "Verif.Concat.C12_joined_fixed"
   ],
   "note": "Lines are given after directive processing and macro expansion; -E off."
  },
  {
   "property": "C13",
   "status": "proved",
   "theorems": [
    "Verif.Lex.C13_stringify_spelling"
   ],
   "note": "All token lists without stray backslash tokens, which the property excludes."
  },
  {
   "property": "C14",
   "status": "partial",
   "theorems": [
    "Verif.Driver.C14_quoted_partial",
    "Verif.Driver.C14_angled_partial",
    "Verif.Driver.C14_candidates_unique",
    "Verif.Driver.C14_injected_in_order",
    "Verif.Driver.C14_root_directory_violated",
    "Verif.Driver.C14_root_search_path_violated"
   ],
   "note": "Quoted and angled include search order for every set of existing files. Excluded and proved violated: source file directly in / and the search path /."
  },
  {
   "property": "C15",
   "status": "partial",
   "theorems": [
    "Verif.Driver.C15_dispatch_partial",
    "Verif.Driver.C15_driver_options_partial",
    "Verif.Driver.C15_linker_options_violated",
    "Verif.Driver.C15_bracket_text_violated"
   ],
   "note": "Dispatch for every option table of well-formed rules and every argument list; every documented driver option except -Wl, reaches its own entry. Violations: -Wl, is swallowed by -W; the bracket text of a rule is accepted."
  },
  {
   "property": "C16",
   "status": "proved",
   "theorems": [
    "Verif.Layout.C16_struct_layout",
    "Verif.Layout.C16_placement",
    "Verif.Layout.C16_union_layout"
   ],
   "note": "offsets, size and alignment for all member lists whose total size fits in LONG_MAX"
  },
  {
   "property": "C17",
   "status": "partial",
   "theorems": [
    "Verif.Layout.C17_no_overlap_partial",
    "Verif.Layout.C17_abi_layout_partial",
    "Verif.Layout.C17_after_member_violated",
    "Verif.Layout.C17_straddles_unit_violated",
    "Verif.Layout.C17_mixed_units_violated",
    "Verif.Layout.C17_zero_width_violated"
   ],
   "note": "fields never overlap; ABI positions for runs of fields of one declared size starting at a unit boundary; violations for the remaining shapes"
  },
  {
   "property": "C18",
   "status": "partial",
   "theorems": [
    "Verif.Layout.C18_mixed_partial",
    "Verif.Layout.C18_union_in_union_partial",
    "Verif.Layout.C18_struct_in_struct_partial",
    "Verif.Layout.C18_inner_alignment_violated",
    "Verif.Layout.C18_struct_padding_violated",
    "Verif.Layout.C18_union_padding_violated",
    "Verif.Layout.C18_fields_violated"
   ],
   "note": "right without tail padding and with aligned start; violations otherwise"
  },
  {
   "property": "C19",
   "status": "partial",
   "theorems": [
    "Verif.Layout.C19_array_size_partial",
    "Verif.Layout.C19_array_wraps_violated",
    "Verif.Layout.C19_every_element_size_violated",
    "Verif.Layout.C19_struct_too_large_violated"
   ],
   "note": "exact when the product fits; the overflow test itself wraps"
  },
  {
   "property": "C20",
   "status": "proved",
   "theorems": [
    "Verif.Types.C20_usual_conversions",
    "Verif.Types.C20_promotion",
    "Verif.Types.C20_argument_promotion"
   ],
   "note": "all pairs of arithmetic types with any qualifiers, against the rank rules of C99 6.3.1"
  },
  {
   "property": "C21",
   "status": "partial",
   "theorems": [
    "Verif.Types.C21_compatible_partial",
    "Verif.Types.C21_exact_partial",
    "Verif.Types.C21_equal_partial",
    "Verif.Types.C21_signedness_violated",
    "Verif.Types.C21_ellipsis_violated",
    "Verif.Types.C21_unpromoted_violated",
    "Verif.Types.C21_structs_violated",
    "Verif.Types.C21_return_type_violated",
    "Verif.Types.C21_recursive_structs_violated"
   ],
   "note": "exact outside the listed violations (signedness, ellipsis, unprototyped functions, structurally equal structs, return types)"
  },
  {
   "property": "C22",
   "status": "partial",
   "theorems": [
    "Verif.Fold.C22_folding",
    "Verif.Fold.C22_complement",
    "Verif.Fold.C22_negate",
    "Verif.Fold.C22_safe_partial",
    "Verif.Fold.C22_long_min_violated",
    "Verif.Fold.C22_shift_count_violated",
    "Verif.Fold.C22_long_overflow_violated"
   ],
   "note": "value clause proved for every integer operator, type and value; the no-undefined-behaviour clause is violated (LONG_MIN / -1, shift count >= 64, long overflow) and proved for non-shift operators in types other than long"
  },
  {
   "property": "C23",
   "status": "proved",
   "theorems": [
    "Verif.Fold.C23_conversion",
    "Verif.Fold.C23_canonical"
   ],
   "note": "integer types"
  },
  {
   "property": "C24",
   "status": "proved",
   "theorems": [
    "Verif.Symtab.C24_lookup",
    "Verif.Symtab.C24_restore",
    "Verif.Symtab.C24_new"
   ],
   "note": "For all histories of scope entry, declaration and scope exit; the hash table of globals is used through its specification (C01)."
  },
  {
   "property": "C25",
   "status": "partial",
   "theorems": [
    "Verif.Symtab.C25_objects_partial",
    "Verif.Symtab.C25_functions_partial",
    "Verif.Symtab.C25_extern_init_violated",
    "Verif.Symtab.C25_function_twice_violated",
    "Verif.Symtab.C25_typedef_violated",
    "Verif.Symtab.C25_block_violated",
    "Verif.Symtab.C25_array_violated"
   ],
   "note": "All sequences of file scope declarations with one type, except extern with initialiser and second bodies, which are violations."
  },
  {
   "property": "C26",
   "status": "partial",
   "theorems": [
    "Verif.Init.C26_objects_partial",
    "Verif.Init.C26_member_override_violated"
   ],
   "note": "Proved for every object size and every list of initialisers, in any order and with repetitions, each pair being for the same scalar element or for separate ones. An initialiser of a member written after one of its whole structure discards the rest of the structure (violated)."
  },
  {
   "property": "C27",
   "status": "partial",
   "theorems": [
    "Verif.Init.C27_fields_partial",
    "Verif.Init.C27_odd_byte_violated",
    "Verif.Init.C27_single_field_violated",
    "Verif.Init.C27_order_violated",
    "Verif.Init.C27_mixed_types_violated",
    "Verif.Init.C27_variable_violated"
   ],
   "note": "Proved for constant initialisers in unit order, units of one size class, no unit full at byte 3, 5, 6 or 7 before the next member, and no field that is the whole object; each excluded case has a violation."
  },
  {
   "property": "C28",
   "status": "partial",
   "theorems": [
    "Verif.Specifiers.C28_accept_partial",
    "Verif.Specifiers.C28_basic_type",
    "Verif.Specifiers.C28_void_type",
    "Verif.Specifiers.C28_named_type",
    "Verif.Specifiers.C28_storage",
    "Verif.Specifiers.C28_long_violated",
    "Verif.Specifiers.C28_sign_violated",
    "Verif.Specifiers.C28_enum_unsigned_violated",
    "Verif.Specifiers.C28_register_violated",
    "Verif.Specifiers.C28_inline_violated"
   ],
   "note": "All token lists; acceptance is exact when no sign follows a type it does not go with and no long follows int or double (both violations); the meaning of accepted lists is proved without those conditions."
  },
  {
   "property": "C29",
   "status": "partial",
   "theorems": [
    "Verif.Cfg.C29_switch",
    "Verif.Cfg.C29_dispatch",
    "Verif.Cfg.C29_case_comparison_partial",
    "Verif.Cfg.C29_case_not_converted_violated"
   ],
   "note": "Dispatch proved for all clause lists and all bodies; case constants are compared without conversion to the promoted type, which differs from C for constants that type cannot represent."
  },
  {
   "property": "C30",
   "status": "proved",
   "theorems": [
    "Verif.Cfg.C30_control_flow",
    "Verif.Cfg.C30_prefix",
    "Verif.Cfg.C30_terminates",
    "Verif.Cfg.C30_labels"
   ],
   "note": "Full simulation both ways for all nestings incl. goto and switch; primitive operations abstract."
  },
  {
   "property": "C31",
   "status": "partial",
   "theorems": [
    "Verif.Compare.C31_negation_partial",
    "Verif.Compare.C31_equality",
    "Verif.Compare.C31_unordered_violated"
   ],
   "note": "Holds for ordered operands and for == and !=; violated for relational operators with a NaN operand."
  },
  {
   "property": "C32",
   "status": "partial",
   "theorems": [
    "Verif.Fold.C32_accepted_partial",
    "Verif.Fold.C32_never_wrong_partial",
    "Verif.Fold.C32_rejected_violated",
    "Verif.Fold.C32_logical_and_violated",
    "Verif.Fold.C32_unevaluated_violated"
   ],
   "note": "expression trees rather than token sequences; && with nonzero and || with zero left operand are rejected"
  },
  {
   "property": "C33",
   "status": "partial",
   "theorems": [
    "Verif.Opt.C33_terminates",
    "Verif.Opt.C33_block_partial",
    "Verif.Opt.C33_statement_partial",
    "Verif.Opt.C33_partial_write_violated"
   ],
   "note": "Terminates for every program. Sound for programs whose named scalar stores are whole and whose callees see no automatic variable unless handed a pointer. A partial store through a character lvalue is taken for a definition (violated)."
  },
  {
   "property": "C34",
   "status": "partial",
   "theorems": [
    "Verif.Opt.C34_dse_partial",
    "Verif.Opt.C34_optimize_partial",
    "Verif.Opt.C34_partial_write_violated",
    "Verif.Opt.C34_escape_violated",
    "Verif.Opt.C34_volatile_violated",
    "Verif.Opt.C34_aggregate_call_violated"
   ],
   "note": "Behaviour preserved by the pass and by the whole optimiser under the conditions of C33; four counterexamples outside them."
  },
  {
   "property": "C35",
   "status": "partial",
   "theorems": [
    "Verif.Opt.C35_pair_partial",
    "Verif.Opt.C35_merge_partial",
    "Verif.Opt.C35_self_pointer_violated"
   ],
   "note": "Behaviour preserved unless the second assignment goes through the variable assigned by the first."
  },
  {
   "property": "C36",
   "status": "partial",
   "theorems": [
    "Verif.Opt.C36_terminates_partial",
    "Verif.Opt.C36_skip",
    "Verif.Opt.C36_empty_loop_violated"
   ],
   "note": "Terminates when no cycle consists of empty blocks; jump threading preserves behaviour of every function; never returns for an empty endless loop."
  },
  {
   "property": "C37",
   "status": "partial",
   "theorems": [
    "Verif.Abi.C37_scalars",
    "Verif.Abi.C37_partial",
    "Verif.Abi.C37_large_partial",
    "Verif.Abi.C37_extent_partial",
    "Verif.Abi.C37_aligned_violated",
    "Verif.Abi.C37_nested_violated",
    "Verif.Abi.C37_bool_violated"
   ],
   "note": "classify agrees eightbyte by eightbyte with a classification written from the ABI text, for scalars and for all structures and unions without _Bool members in which every direct member starts at a multiple of its size, up to any nesting. Violated where a member is aligned but not at a multiple of its size (struct { int a; char b[3]; } goes to memory), and for _Bool members (assertion)."
  },
  {
   "property": "C38",
   "status": "partial",
   "theorems": [
    "Verif.Abi.C38_locations_partial",
    "Verif.Abi.C38_distinct",
    "Verif.Abi.C38_call",
    "Verif.Abi.C38_parameters_partial",
    "Verif.Abi.C38_entered",
    "Verif.Abi.C38_return_partial",
    "Verif.Abi.C38_alignment_violated",
    "Verif.Abi.C38_vector_violated",
    "Verif.Abi.C38_encoding_violated"
   ],
   "note": "Code emitted for a call, the entry and the exit of a function is run on a machine of registers and bytes. For any argument list: every argument is at the ABI location, every parameter of the callee holds the bytes of the argument, the stack is aligned, the result address arrives, and after return %rsp, %rbp, callee saved registers and floating point temporaries are as before. Violated: long double on the stack is not 16-aligned; a floating point temporary passed on the stack is replaced by a general purpose register."
  },
  {
   "property": "C39",
   "status": "partial",
   "theorems": [
    "Verif.Abi.C39_partial",
    "Verif.Abi.C39_stack_parameters",
    "Verif.Abi.C39_aligned_partial",
    "Verif.Abi.C39_alignment_violated",
    "Verif.Abi.C39_saved_violated"
   ],
   "note": "All parts of a frame are pairwise disjoint and inside the reserved area, for any number of temporaries, parameters and locals; %rsp is a multiple of 16. Violated: the register save area of variadic functions overlaps the saved registers, so that %rbx of the caller is destroyed; long double locals are not 16-aligned."
  },
  {
   "property": "C40",
   "status": "partial",
   "theorems": [
    "Verif.Abi.C40_copy_partial",
    "Verif.Abi.C40_touches_partial",
    "Verif.Abi.C40_x87_partial",
    "Verif.Abi.C40_large_partial",
    "Verif.Abi.C40_width_violated",
    "Verif.Abi.C40_push_violated"
   ],
   "note": "The code for an assignment of structure or union type, run on the machine of registers and bytes: the target has the bytes of the source, no other byte is written, every access is to the objects or to the variables with pointers to them, for all sizes but 3, 5, 6, 7 (violated: 4 or 8 bytes are copied). More than 64 bytes: memcpy is called with the right arguments. Passing on the stack reads whole eightbytes (violated)."
  },
  {
   "property": "C41",
   "status": "proved",
   "theorems": [
    "Verif.Compare.C41_integer",
    "Verif.Compare.C41_float",
    "Verif.Compare.C41_long_double",
    "Verif.Compare.C41_source",
    "Verif.Compare.C41_truth"
   ],
   "note": "Choice of operand order, condition code, jumps and SETcc; operand loading and instruction encoding are not part of it."
  },
  {
   "property": "C42",
   "status": "partial",
   "theorems": [
    "Verif.Encode.C42_address_partial",
    "Verif.Encode.C42_symbol",
    "Verif.Encode.C42_rsp_index_violated",
    "Verif.Encode.C42_no_base_violated"
   ],
   "note": "Every well-formed address decodes back, with any following bytes; %rsp as index and displacement without base are violations."
  },
  {
   "property": "C43",
   "status": "partial",
   "theorems": [
    "Verif.Encode.C43_instruction_partial",
    "Verif.Encode.C43_open",
    "Verif.Encode.C43_table",
    "Verif.Encode.C43_wrong_not_good",
    "Verif.Encode.C43_sub_violated",
    "Verif.Encode.C43_byte_memory_violated",
    "Verif.Encode.C43_mov_byte_violated",
    "Verif.Encode.C43_byte_register_violated",
    "Verif.Encode.C43_byte_stack_register_violated",
    "Verif.Encode.C43_movzx_violated",
    "Verif.Encode.C43_cmp_immediate_violated",
    "Verif.Encode.C43_x87_register_violated"
   ],
   "note": "All forms except those proved wrong decode, by an independent decoder, to the operation, operands, address and immediate requested."
  },
  {
   "property": "C44",
   "status": "partial",
   "theorems": [
    "Verif.Encode.C44_size_partial",
    "Verif.Encode.C44_cmp_violated"
   ],
   "note": "Any request of any operation of the table; the only exception (cmp memory with 8-byte immediate) is a violation."
  },
  {
   "property": "C45",
   "status": "proved",
   "theorems": [
    "Verif.Elf.C45_jump"
   ],
   "note": "Jumps forward and backward, read in the finished and linked file, for every translation unit under 2^31 bytes. The function is flushed at its end, as compile_function does."
  },
  {
   "property": "C46",
   "status": "partial",
   "theorems": [
    "Verif.Elf.C46_sections_partial",
    "Verif.Elf.C46_sizes",
    "Verif.Elf.C46_written",
    "Verif.Elf.C46_alignment_violated"
   ],
   "note": "No overlap, positions, names, types, flags, links, sizes proved. That contents start at a multiple of the alignment is false (finding), with a witness."
  },
  {
   "property": "C47",
   "status": "proved",
   "theorems": [
    "Verif.Elf.C47_names"
   ],
   "note": "Every declared symbol's name is read back from the finished string table; section names are in C46_sections_partial."
  },
  {
   "property": "C48",
   "status": "partial",
   "theorems": [
    "Verif.Elf.C48_entries",
    "Verif.Elf.C48_info_partial",
    "Verif.Elf.C48_info_violated"
   ],
   "note": "Order, indices, bindings, types, sections proved; the info field only when there is a global symbol, because otherwise it is wrong (finding), with a witness."
  },
  {
   "property": "C49",
   "status": "proved",
   "theorems": [
    "Verif.Elf.C49_code",
    "Verif.Elf.C49_plain",
    "Verif.Elf.C49_data"
   ],
   "note": "Stated end to end: link the finished file at any address, decode by an independent reader. Instruction forms are those of Good (see C43). Data addresses included."
  },
  {
   "property": "C50",
   "status": "partial",
   "theorems": [
    "Verif.Dwarf.C50_roundtrip",
    "Verif.Dwarf.C50_length",
    "Verif.Dwarf.C50_buffer_violated",
    "Verif.Dwarf.C50_assertion_violated",
    "Verif.Dwarf.C50_written_partial"
   ],
   "note": "The encoding round trips for every number; the caller's 8-byte buffer is too small from 2^56 on, and an assertion only lets one-byte numbers through."
  },
  {
   "property": "C51",
   "status": "partial",
   "theorems": [
    "Verif.Driver.C51_exit_status_partial",
    "Verif.Driver.C51_error_count_violated",
    "Verif.Driver.C51_linker_missing_violated",
    "Verif.Driver.C51_linker_killed_violated"
   ],
   "note": "Exit status zero iff success when error counts fit in eight bits and the linker ran to completion; three violations outside."
  },
  {
   "property": "C52",
   "status": "proved",
   "theorems": [
    "Verif.Driver.C52_output_name",
    "Verif.Driver.C52_stem_unique"
   ],
   "note": "For every input path; the stem is unique."
  },
  {
   "property": "C53",
   "status": "partial",
   "theorems": [
    "Verif.Unit.C53_restore_partial",
    "Verif.Unit.C53_blocks_violated"
   ],
   "note": "Statements are restored exactly, no assertion fails, nothing of before is lost; blocks created since are only half given back (violation). Nesting to any depth."
  },
  {
   "property": "C54",
   "status": "proved",
   "theorems": [
    "Verif.Unit.C54_needed"
   ],
   "note": "For all units and reference graphs: emitted iff needed, at most once."
  },
  {
   "property": "C55",
   "status": "partial",
   "theorems": [
    "Verif.Abi.C55_reads_partial",
    "Verif.Abi.C55_effect_partial",
    "Verif.Abi.C55_vector_violated",
    "Verif.Abi.C55_neighbour_violated",
    "Verif.Abi.C55_pointer_violated",
    "Verif.Abi.C55_offset_violated",
    "Verif.Abi.C55_alignment_violated"
   ],
   "note": "From any call of a variadic function through entry and va_start, any sequence of va_arg reads with the right types returns the bytes of the unnamed arguments in order, from registers and from the stack; each read changes only the result (rounded up to eightbytes), the va_list and scratch registers. Violated: stack argument read to a vector register, neighbour overwritten, assertions for some operands, long double not aligned."
  },
  {
   "property": "C56",
   "status": "partial",
   "theorems": [
    "Verif.Conv.C56_conversion_partial",
    "Verif.Conv.C86_store_ldouble",
    "Verif.Conv.C56_dereferenced_violated"
   ],
   "note": "For all conversions and stores of long double except signed operands of 2 or 4 bytes behind a pointer to long double, where the stack pointer is shown to be off."
  },
  {
   "property": "C57",
   "status": "partial",
   "theorems": [
    "Verif.LongDouble.C57_pool_partial",
    "Verif.LongDouble.C57_zero_violated",
    "Verif.LongDouble.C57_nan_violated",
    "Verif.LongDouble.C57_literal_partial",
    "Verif.LongDouble.C57_literal_violated",
    "Verif.LongDouble.C57_negative_partial",
    "Verif.LongDouble.C57_negative_zero_violated"
   ],
   "note": "Pool: all histories, values other than NaN, identical to the bit but for the sign of zero. Literals: exact when the value has at most 53 bits. Negation: all finite values but zero."
  },
  {
   "property": "C58",
   "status": "partial",
   "theorems": [
    "Verif.Asm.C58_printed",
    "Verif.Asm.C58_read",
    "Verif.Asm.C58_distinct",
    "Verif.Asm.C58_xmm_partial",
    "Verif.Asm.C58_xmm_violated"
   ],
   "note": "General registers: printed names are the manual's, a word is read as a register exactly if it is its printed name, no name twice (all 16 x 4, all words). Vector registers: printed names are read back. Violated: other words such as \"xmm\" and \"xmm007\" are taken for vector registers."
  },
  {
   "property": "C59",
   "status": "partial",
   "theorems": [
    "Verif.Lex.C59_retokenise_partial",
    "Verif.Lex.C59_merged_tokens_violated"
   ],
   "note": "Proved for token lists separated by white space; violated for adjacent tokens that merge."
  },
  {
   "property": "C60",
   "status": "proved",
   "theorems": [
    "Verif.Opt.C60_erase",
    "Verif.Opt.C60_append",
    "Verif.Opt.C60_append_ok",
    "Verif.Opt.C60_loops"
   ],
   "note": "Frame property of the shared array, and refinement of the two loops that erase while walking."
  },
  {
   "property": "C61",
   "status": "partial",
   "theorems": [
    "Verif.Lex.C61_escape_values_partial",
    "Verif.Lex.C61_literal_extent",
    "Verif.Lex.C61_hex_prefix_violated"
   ],
   "note": "The code violates the full property for hexadecimal digits starting with 0x; otherwise proved for all literal bodies."
  },
  {
   "property": "C62",
   "status": "partial",
   "theorems": [
    "Verif.Lex.C62_words_partial",
    "Verif.Lex.C62_bool_not_expandable_violated"
   ],
   "note": "Keyword and identifier recognition proved for all texts; _Bool, _Alignof and __asm can not be macro names (violation)."
  },
  {
   "property": "C63",
   "status": "proved",
   "theorems": [
    "Verif.Lex.C63_preprocessing_numbers"
   ],
   "note": "All ASCII texts."
  },
  {
   "property": "C64",
   "status": "partial",
   "theorems": [
    "Verif.Cond.C64_unmatched_diagnosed_partial",
    "Verif.Cond.C64_unterminated_if_violated"
   ],
   "note": "Unmatched #elif/#else/#endif always rejected; unterminated #if and repeated #else accepted (violation)."
  },
  {
   "property": "C65",
   "status": "partial",
   "theorems": [
    "Verif.Lex.C65_integers_are_constants_partial",
    "Verif.Lex.C65_floating_suffix_partial",
    "Verif.Lex.C65_invalid_accepted_violated"
   ],
   "note": "Integers proved for all texts; 08 and 1f accepted as floating (violation). strtod is a parameter."
  },
  {
   "property": "C66",
   "status": "proved",
   "theorems": [
    "Verif.Input.C66_buffering_invisible",
    "Verif.Input.C66_line_fits"
   ],
   "note": "For files that end in a newline; a missing final newline is diagnosed by the code."
  },
  {
   "property": "C67",
   "status": "partial",
   "theorems": [
    "Verif.Macro.C67_painted_partial",
    "Verif.Macro.C67_function_macros_violated",
    "Verif.Macro.C67_argument_beyond_body_violated",
    "Verif.Macro.C67_arguments_partial"
   ],
   "note": "Violated: arguments are expanded with an empty set of active macros, so mutually recursive macros through an argument recurse for ever; an unterminated invocation at the end of a replacement reads beyond the array. Positive part: names of active macros are marked in every result."
  },
  {
   "property": "C68",
   "status": "partial",
   "theorems": [
    "Verif.Macro.C68_paste_and_stringify_partial",
    "Verif.Macro.C68_two_placemarkers_violated",
    "Verif.Macro.C68_pasted_to_neighbour_violated",
    "Verif.Macro.C68_final_paste_violated",
    "Verif.Macro.C68_paste_string_violated",
    "Verif.Macro.C68_hash_body_violated"
   ],
   "note": "Missing in the positive theorem: variable argument, `#` as right operand of `##`, chains whose first operand is an empty argument (violated)."
  },
  {
   "property": "C69",
   "status": "proved",
   "theorems": [
    "Verif.Driver.C69_define_option"
   ],
   "note": "For every name without '=' and every text."
  },
  {
   "property": "C70",
   "status": "partial",
   "theorems": [
    "Verif.Layout.C70_incomplete_member_partial",
    "Verif.Layout.C70_incomplete_in_struct_violated"
   ],
   "note": "unions diagnose; structs divide by the zero alignment first"
  },
  {
   "property": "C71",
   "status": "partial",
   "theorems": [
    "Verif.Types.C71_pointer_partial",
    "Verif.Types.C71_array_partial",
    "Verif.Types.C71_incomplete_array_partial",
    "Verif.Types.C71_function_partial",
    "Verif.Types.C71_qualify_partial",
    "Verif.Types.C71_unique",
    "Verif.Types.C71_restrict_violated",
    "Verif.Types.C71_many_types_violated",
    "Verif.Types.C71_qualified_array_violated"
   ],
   "note": "restrict on a pointed-to pointer is lost, more than 32767 derived types fail, qualified array typedefs do not qualify elements"
  },
  {
   "property": "C72",
   "status": "partial",
   "theorems": [
    "Verif.Field.C72_program_partial",
    "Verif.Field.C72_unique_partial",
    "Verif.Field.C72_product_violated"
   ],
   "note": "Proved for all sequences of assignments to ordinary variables, of arbitrary integer expressions where narrow unsigned bit-fields are operands of + - unary minus ! comparisons and casts, right operands of shifts, or assigned on their own. Violated for * / % & | ^, the left operand of shifts, ~ and unary +: the functions for these do not call rvalue, and s.x * -1 is computed as an unsigned product. Missing: assignment to bit-fields in the same programs, and ?:."
  },
  {
   "property": "C73",
   "status": "proved",
   "theorems": [
    "Verif.Cfg.C73_operators"
   ],
   "note": "All trees over the control operators; operands abstract."
  },
  {
   "property": "C74",
   "status": "partial",
   "theorems": [
    "Verif.Linear.C74_compiled",
    "Verif.Linear.C74_same_result_partial",
    "Verif.Linear.C74_never_stuck_partial",
    "Verif.Linear.C74_order_partial",
    "Verif.Linear.C74_labels",
    "Verif.Linear.C74_source_partial"
   ],
   "note": "All graphs and states, with the real choice of jumps for integer, float and double tests, and composed with the parser's graph (C30) for all function bodies. Missing: tests of type long double, which leave the x87 stack occupied (C75); the optimizer between the two (C33-C36); what the statements themselves compute is C38, C55, C86 and C87."
  },
  {
   "property": "C75",
   "status": "partial",
   "theorems": [
    "Verif.Compare.C75_compare_partial",
    "Verif.Compare.C75_object_violated",
    "Verif.Compare.C75_truth_violated"
   ],
   "note": "Holds for comparisons in assembly output; violated in object output and for branches on a long double."
  },
  {
   "property": "C76",
   "status": "partial",
   "theorems": [
    "Verif.Cfg.C76_accepted_partial",
    "Verif.Cfg.C76_stray_break_violated",
    "Verif.Cfg.C76_duplicate_case_violated"
   ],
   "note": "Exact characterisation of the accepted bodies; break and continue outside loops and duplicate case values are not diagnosed."
  },
  {
   "property": "C77",
   "status": "partial",
   "theorems": [
    "Verif.Call.C77_calls_partial",
    "Verif.Call.C77_called_result_violated"
   ],
   "note": "Integers; functions are named where they are called. The front end and what its statements mean, in which a call takes all parameters that were pushed; how they get into registers and memory is C38. A function that is the result of another call gets no arguments, and the other call gets them: violated. Not modelled here: floating types, pointers and records as arguments, functions that change the variables of the expression, branches and assignments inside expressions."
  },
  {
   "property": "C78",
   "status": "proved",
   "theorems": [
    "Verif.Elf.C78_function",
    "Verif.Elf.C78_functions_cover",
    "Verif.Elf.C78_objects",
    "Verif.Elf.C78_apart",
    "Verif.Elf.C78_data_apart",
    "Verif.Elf.C78_section_alignment"
   ],
   "note": "That an initialiser has as many bytes as its object is C26."
  },
  {
   "property": "C79",
   "status": "partial",
   "theorems": [
    "Verif.Elf.C79_files_partial",
    "Verif.Elf.C79_files_violated"
   ],
   "note": "If the invocation ends, each object file is the one its source alone gives. That it ends is refuted: a static capacity makes an assertion fail."
  },
  {
   "property": "C80",
   "status": "partial",
   "theorems": [
    "Verif.Abi.C80_registers_partial",
    "Verif.Abi.C80_stored_partial",
    "Verif.Abi.C80_temporary",
    "Verif.Abi.C80_result_partial",
    "Verif.Abi.C80_call_partial",
    "Verif.Abi.C80_memory_partial",
    "Verif.Abi.C80_address_violated",
    "Verif.Abi.C80_overlap_violated",
    "Verif.Abi.C80_width_violated"
   ],
   "note": "Results in registers are where the ABI wants them, survive the epilogue and the clean-up after the call, and arrive byte for byte in the target; results in memory of up to 64 bytes are copied. Violated: %rax is not set when the returned object is the target itself; overlapping objects; structures with 3, 5, 6 or 7 bytes in the last eightbyte overwrite what follows the target. Missing: long double, copies by the library function."
  },
  {
   "property": "C81",
   "status": "partial",
   "theorems": [
    "Verif.Dwarf.C81_written",
    "Verif.Dwarf.C81_unit_partial",
    "Verif.Dwarf.C81_terminator_violated"
   ],
   "note": "The unit read by DWARF 4 rules has the right attributes; the abbreviation table lacks its terminating entry."
  },
  {
   "property": "C82",
   "status": "partial",
   "theorems": [
    "Verif.Asm.C82_line_partial",
    "Verif.Asm.C82_accepted_partial",
    "Verif.Asm.C82_template_partial",
    "Verif.Asm.C82_last_line_violated",
    "Verif.Asm.C82_size_violated",
    "Verif.Asm.C82_name_violated",
    "Verif.Asm.C82_immediate_violated",
    "Verif.Asm.C82_cvtsi2sd_violated",
    "Verif.Asm.C82_missing_violated",
    "Verif.Asm.C82_invalid_violated"
   ],
   "note": "Every accepted line with registers, decimal immediates, addresses, numbered operands and labels is the instruction written, down to the bytes the processor reads; 42 instructions are accepted with all operands; templates in order. Not covered: operands by name, signed and hexadecimal immediates, variables of another size than accessed, text that is not valid assembly (each violated). How operands are given registers is not modelled."
  },
  {
   "property": "C83",
   "status": "partial",
   "theorems": [
    "Verif.Asm.C83_instruction_partial",
    "Verif.Asm.C83_scale_violated",
    "Verif.Asm.C83_long_name_violated",
    "Verif.Asm.C83_object_violated",
    "Verif.Asm.C83_label_violated"
   ],
   "note": "For every request C43 covers and every address that can be written, the printed line read by the GNU syntax and the bytes read by the processor are the same instruction with the same symbol. Missing: x87 register forms, indexes without scale, addresses without register, names over 200 bytes. Labels and directives between the lines are not part of this claim."
  },
  {
   "property": "C84",
   "status": "partial",
   "theorems": [
    "Verif.Declarator.C84_declarator_partial",
    "Verif.Declarator.C84_parameter_partial",
    "Verif.Declarator.C84_bracket_violated",
    "Verif.Declarator.C84_typedef_violated"
   ],
   "note": "Proved for all declarators of pointers, arrays with constant or no length, functions and parentheses that do not begin with a bracket, of any depth. The code rejects `int ([3])` and takes `int (T)` for a function where T is a typedef name that is declared anew; both are proved. Missing: variable lengths, qualifiers and static in brackets, identifier lists, the limit of sizes, symbols of parameters."
  },
  {
   "property": "C85",
   "status": "partial",
   "theorems": [
    "Verif.Unit.C85_same_partial",
    "Verif.Unit.C85_external_violated"
   ],
   "note": "Proved when all declarations have the same specifiers; violated for an inline definition with a plain or extern declaration."
  },
  {
   "property": "C86",
   "status": "partial",
   "theorems": [
    "Verif.Conv.C86_integer_partial",
    "Verif.Conv.C86_integer_to_real_partial",
    "Verif.Conv.C86_nearest",
    "Verif.Conv.C86_real_partial",
    "Verif.Conv.C86_real_to_integer_partial",
    "Verif.Conv.C86_integer_to_ldouble_partial",
    "Verif.Conv.C86_real_to_ldouble_partial",
    "Verif.Conv.C86_ldouble_partial",
    "Verif.Conv.C86_ldouble_to_real_partial",
    "Verif.Conv.C86_ldouble_to_integer_partial",
    "Verif.Conv.C86_store_ldouble",
    "Verif.Conv.C86_bool_violated",
    "Verif.Conv.C86_bool_real_violated",
    "Verif.Conv.C86_wide_field_violated",
    "Verif.Conv.C86_ldouble_register_violated",
    "Verif.Conv.C86_ldouble_field_violated",
    "Verif.Conv.C86_ldouble_ushort_violated",
    "Verif.Conv.C86_ldouble_ulong_violated"
   ],
   "note": "Every pair of kinds of arithmetic types. Violated for casts to _Bool, wide signed bit-fields, signed register operands to long double, and the upper half of unsigned short and unsigned long from long double. NaN, infinities and exponent range are not modelled."
  },
  {
   "property": "C87",
   "status": "partial",
   "theorems": [
    "Verif.Arith.C87_binary_partial",
    "Verif.Arith.C87_variable_partial",
    "Verif.Arith.C87_read_back",
    "Verif.Arith.C87_complement_partial",
    "Verif.Arith.C87_assign_partial",
    "Verif.Arith.C87_product_violated",
    "Verif.Arith.C87_sum_violated"
   ],
   "note": "For every operator and every combination of places of operands and target the code that compile_* makes is run on a byte machine; result, memory, registers and absence of a trap are proved. Violated for a product whose left operand is a bit-field of a variable. Left out: floating operands, PIC, objects at constant addresses, and two cases the parser does not produce."
  },
  {
   "property": "C88",
   "status": "partial",
   "theorems": [
    "Verif.Expr.C88_program_partial",
    "Verif.Expr.C88_assign_partial",
    "Verif.Expr.C88_type_partial",
    "Verif.Expr.C88_places",
    "Verif.Expr.C88_function_partial",
    "Verif.Expr.C88_bool_cast_violated"
   ],
   "note": "Expression trees of any depth and lists of assignments, from source operators through the intermediate statements to machine code, for every layout that does not overlap, and the allocation of a function's locals gives such layouts. Missing: bit-fields, pointers, calls, && || ?: and comma (which branch, see C73 and C74), floating types. Casts to _Bool are proved wrong."
  },
  {
   "property": "C89",
   "status": "partial",
   "theorems": [
    "Verif.Flow.C89_function_partial",
    "Verif.Flow.C89_outcome",
    "Verif.Flow.C89_frame_partial"
   ],
   "note": "Composition of the models behind C30, C73, C88, C31, C41 and C74, from statements to a list of instructions with labels and a program counter. Whenever C gives the body a meaning that ends, the code returns with the values C says (C89_function_partial), that is its only outcome (C89_outcome), and it holds for the places the back end chooses (C89_frame_partial). Missing: pointers, calls, bit-fields, floating types, casts to _Bool (see C88), conversions between blocks (operands of ?: of different types, operands of !, ?: and switch narrower than int), the optimiser, programs that do not terminate."
  },
  {
   "property": "C90",
   "status": "partial",
   "theorems": [
    "Verif.Ptr.C90_object_partial",
    "Verif.Ptr.C90_value_partial",
    "Verif.Ptr.C90_program_partial",
    "Verif.Ptr.C90_member_address_violated"
   ],
   "note": "Whole expressions with * & [] . -> pointer arithmetic, comparisons, casts, and sequences of assignments, op=, ++ and --, from the source to the intermediate representation, for all declarations and memories; accesses outside objects are undefined. Not covered: bit-fields, floating point, arrays of variable length, calls, branching operators, side effects inside expressions; the back end is C91. For a structure of 2 GB or more reached through a pointer, the address of a member is wrong (C90_member_address_violated)."
  },
  {
   "property": "C91",
   "status": "partial",
   "theorems": [
    "Verif.Ptr.C91_program_partial",
    "Verif.Ptr.C91_accepted_partial",
    "Verif.Ptr.C91_address_cast_violated"
   ],
   "note": "Whole programs of C90 from the source to a machine with registers and bytes, for all declarations, memories and placements of temporaries. The back end accepts exactly what C91_accepted_partial says: no structures copied (C40), offsets below 2 GB, nothing at a constant address, no address of a variable cast to a shorter integer; the last is correct C and stops the compiler (C91_address_cast_violated). Not covered: what C90 does not cover, position independent code, instruction encoding (C43)."
  },
  {
   "property": "C92",
   "status": "partial",
   "theorems": [
    "Verif.Brace.C92_elements_partial",
    "Verif.Brace.C92_union_violated",
    "Verif.Brace.C92_backwards_violated",
    "Verif.Brace.C92_index_violated",
    "Verif.Brace.C92_last_violated",
    "Verif.Brace.C92_bounds_violated",
    "Verif.Brace.C92_comma_violated"
   ],
   "note": "Proved for all types and lists other than six kinds that the code rejects or mishandles (shown with witnesses) and second items for a union. Not modelled: anonymous members, flexible array members, setting the length of an array without one."
  },
  {
   "property": "C93",
   "status": "partial",
   "theorems": [
    "Verif.Listing.C93_listing_partial",
    "Verif.Listing.C93_common_violated"
   ],
   "note": "For every sequence of symbols, data and instructions (those of C83) the listing is read as the contents of the object file of C45: data, read-only data, addresses, places of names, instructions, linkage and sizes. Violated: the alignment of common objects. Missing: -fno-common, where the text has in .data what the object has in .bss, and debug information."
  },
  {
   "property": "C94",
   "status": "partial",
   "theorems": [
    "Verif.Grammar.C94_read_partial",
    "Verif.Grammar.C94_parts_partial",
    "Verif.Grammar.C94_only_partial",
    "Verif.Grammar.C94_unambiguous",
    "Verif.Grammar.C94_logical_left",
    "Verif.Grammar.C94_literal_violated",
    "Verif.Grammar.C94_assign_violated"
   ],
   "note": "Sound and complete for the grammar of 6.5 with the tree of each rule. Violated: compound literals directly behind sizeof, ++ and --; a conditional expression at the left of an assignment is accepted. Type names and initialisers are parameters (C28, C84, C92); builtin functions and implicit declarations are not modelled."
  },
  {
   "property": "C95",
   "status": "partial",
   "theorems": [
    "Verif.Lval.C95_lvalue_partial",
    "Verif.Lval.C95_incr_partial",
    "Verif.Lval.C95_diagnosed_partial",
    "Verif.Lval.C95_cast_violated",
    "Verif.Lval.C95_conditional_violated",
    "Verif.Lval.C95_comma_violated",
    "Verif.Lval.C95_address_violated",
    "Verif.Lval.C95_pointer_violated",
    "Verif.Lval.C95_const_violated",
    "Verif.Lval.C95_crash_violated",
    "Verif.Lval.C95_record_violated"
   ],
   "note": "No lvalue is refused as not being one, and what is not an lvalue is refused unless it is a cast, a conditional or comma expression, an address or pointer arithmetic, or a member of one. For each of these an accepted assignment is given. const is never looked at. String literals, compound literals, functions, VLAs and logical operators are not modelled."
  },
  {
   "property": "C96",
   "status": "partial",
   "theorems": [
    "Verif.Define.C96_read",
    "Verif.Define.C96_accepted_partial",
    "Verif.Define.C96_table_partial",
    "Verif.Define.C96_same",
    "Verif.Define.C96_diagnosed_partial",
    "Verif.Define.C96_variadic_violated",
    "Verif.Define.C96_spelling_violated",
    "Verif.Define.C96_parameters_violated"
   ],
   "note": "Lines are read as the definitions they are, and other lines are refused but for restrictions on parameters; the table follows the last definition, and other definitions are diagnosed, up to the ellipsis, the names of parameters and white space, which are not compared (violated, one theorem each). Parameter lists with a trailing comma or a repeated name are accepted. __FILE__ and __LINE__ are not modelled."
  },
  {
   "property": "C97",
   "status": "partial",
   "theorems": [
    "Verif.Lines.C97_lines_partial",
    "Verif.Lines.C97_include_violated",
    "Verif.Lines.C97_conditional_violated"
   ],
   "note": "Proved where no file has an `#include` behind a `#line` and included files close their conditionals; without either it does not hold, as the violations show. Files are sequences of logical lines with their number of lines of text (C06, C66); `#line` has a valid number."
  },
  {
   "property": "C98",
   "status": "partial",
   "theorems": [
    "Verif.Tags.C98_tags_partial",
    "Verif.Tags.C98_hiding_violated",
    "Verif.Tags.C98_hidden_kind_violated",
    "Verif.Tags.C98_outer_violated",
    "Verif.Tags.C98_alone_violated",
    "Verif.Tags.C98_parameters_violated",
    "Verif.Tags.C98_nested_violated"
   ],
   "note": "Proved when no structure or union is declared with a tag that is visible from an outer scope, no tag among the parameters of a function definition, and no type within its own list of members. Each condition is needed (violations). `enum E` without a list is not modelled."
  },
  {
   "property": "C99",
   "status": "partial",
   "theorems": [
    "Verif.Enums.C99_values_partial",
    "Verif.Enums.C99_greatest_violated",
    "Verif.Enums.C99_range_violated",
    "Verif.Enums.C99_twice_violated",
    "Verif.Enums.C99_next_violated"
   ],
   "note": "Proved for every program C allows in which no constant is the greatest int. None of the diagnostics is given (violations). Constant expressions are functions of the constants in scope; other names are not modelled."
  },
  {
   "property": "C100",
   "status": "partial",
   "theorems": [
    "Verif.Stmt.C100_complete_partial",
    "Verif.Stmt.C100_body_partial",
    "Verif.Stmt.C100_sound_partial",
    "Verif.Stmt.C100_unique",
    "Verif.Stmt.C100_unary_violated",
    "Verif.Stmt.C100_declaration_violated",
    "Verif.Stmt.C100_for_violated"
   ],
   "note": "Sound and complete for the grammar of 6.8. Violated: expression statements that begin with a unary operator other than `*`, `++` and `--` are refused; declarations are accepted as bodies; any token is accepted for the first semicolon of some `for`. Expressions and declarations are single tokens (C94, C28, C84); `asm` is not modelled."
  },
  {
   "property": "C101",
   "status": "partial",
   "theorems": [
    "Verif.OldStyle.C101_types_partial",
    "Verif.OldStyle.C101_order_partial",
    "Verif.OldStyle.C101_diagnosed_partial",
    "Verif.OldStyle.C101_function_violated",
    "Verif.OldStyle.C101_function_global_violated",
    "Verif.OldStyle.C101_storage_violated",
    "Verif.OldStyle.C101_initializer_violated",
    "Verif.OldStyle.C101_comma_violated"
   ],
   "note": "For all definitions C allows without parameters declared as functions. Functions as parameters, storage classes, initializers and lists of declarators with old-style functions are handled wrongly (violated). Qualifiers, tags and constants within the declarations are not modelled."
  },
  {
   "property": "C102",
   "status": "partial",
   "theorems": [
    "Verif.Driver.C102_plan_partial",
    "Verif.Driver.C102_linked_partial",
    "Verif.Driver.C102_linker_options_violated",
    "Verif.Driver.C102_assembler_violated",
    "Verif.Driver.C102_same_name_violated"
   ],
   "note": "For all command lines without -Wl, and -x assembler, which are handled wrongly (violated). Outputs of different files can be the same (violated). The linker is the one for glibc."
  },
  {
   "property": "C103",
   "status": "partial",
   "theorems": [
    "Verif.Assign.C103_allowed",
    "Verif.Assign.C103_diagnosed_partial",
    "Verif.Assign.C103_conditional_partial",
    "Verif.Assign.C103_refused_partial",
    "Verif.Assign.C103_signedness_violated",
    "Verif.Assign.C103_restrict_violated",
    "Verif.Assign.C103_zero_violated",
    "Verif.Assign.C103_null_violated",
    "Verif.Assign.C103_qualified_violated",
    "Verif.Assign.C103_restricted_violated",
    "Verif.Assign.C103_function_violated"
   ],
   "note": "All that C allows is accepted without diagnostic; the converse and the types of conditional expressions hold but for the cases of the seven witnesses.  Pointers to arrays, bit-fields and compatible but different function types are not modelled."
  },
  {
   "property": "C104",
   "status": "partial",
   "theorems": [
    "Verif.Assign.C104_add",
    "Verif.Assign.C104_add_refused",
    "Verif.Assign.C104_sub",
    "Verif.Assign.C104_relation",
    "Verif.Assign.C104_sub_refused_partial",
    "Verif.Assign.C104_relation_refused_partial",
    "Verif.Assign.C104_equal_partial",
    "Verif.Assign.C104_equal_diagnosed_partial",
    "Verif.Assign.C104_difference_violated",
    "Verif.Assign.C104_functions_violated",
    "Verif.Assign.C104_signedness_violated",
    "Verif.Assign.C104_incomplete_violated"
   ],
   "note": "Addition in full, and what C allows of subtraction and relations.  The converses and equality hold but for the cases of the four witnesses.  Variable length arrays and pointers to arrays are not modelled."
  },
  {
   "property": "C105",
   "status": "partial",
   "theorems": [
    "Verif.Assign.C105_binary",
    "Verif.Assign.C105_binary_refused",
    "Verif.Assign.C105_unary",
    "Verif.Assign.C105_unary_refused",
    "Verif.Assign.C105_cast",
    "Verif.Assign.C105_cast_refused_partial",
    "Verif.Assign.C105_cast_violated"
   ],
   "note": "Binary and unary operators in full.  Casts that C allows compile; others are refused but for floating numbers to pointers and pointers to long double.  Bit-fields are not modelled here (C72)."
  },
  {
   "property": "C106",
   "status": "partial",
   "theorems": [
    "Verif.Sizeof.C106_sizeof",
    "Verif.Sizeof.C106_array",
    "Verif.Sizeof.C106_alignof",
    "Verif.Sizeof.C106_refused_partial",
    "Verif.Sizeof.C106_sizeof_violated",
    "Verif.Sizeof.C106_elements_violated"
   ],
   "note": "Sizes of complete types and _Alignof in full.  sizeof and arrays of incomplete types are refused only for arrays without length and functions without prototype; witnesses show the rest accepted.  Variable length arrays and bit-fields are not modelled."
  },
  {
   "property": "C107",
   "status": "partial",
   "theorems": [
    "C107_parameters",
    "C107_parameters_refused_partial",
    "C107_call",
    "C107_comma_violated",
    "C107_void_violated",
    "C107_prototype_violated"
   ],
   "note": "Lists of parameters of C are read as they should be; others are refused but for a trailing comma and a named void, which are accepted. Calls with a prototype are as C says in both directions; without a prototype arguments are refused. A declaration and an expression are one token each."
  }
 ]
}
