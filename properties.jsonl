{"id": "C01", "title": "Hash table behaves as a finite map", "statement": "After any history of insertions, removals, lookups and clears, looking up a key returns exactly the value stored by the first insertion of that key since it was last removed (insertion never replaces a present key), and nothing for a key that is not present; growth and tombstones are invisible.", "quantifier": "all hash functions, all keys and values, all finite operation histories (including every collision pattern, wrap-around and growth point)", "why_tests_cant": "The failures would be in rare probe chains: wrap-around, tombstones left in a chain, rehash while tombstones are present. Tests only reach a handful of chains for one hash function.", "anchors": ["src/util/hash.c: hash_insert, hash_lookup, hash_remove, hash_clear, hash_expand"]}
{"id": "C02", "title": "Interned strings are equal exactly when their bytes are equal", "statement": "Two string handles obtained from the string registry compare equal with the constant-time comparison if and only if the byte sequences they were made from are equal, at any length and including embedded NUL bytes.", "quantifier": "all pairs of byte strings (short and long), all prior intern histories", "why_tests_cant": "Identifier, macro and keyword lookup all reduce to this comparison; a single false equality or inequality for some pair of spellings would miscompile silently.", "anchors": ["include/lacc/string.h: String, str_raw, str_len, str_eq", "src/preprocessor/strtab.c: str_intern, strtab"]}
{"id": "C03", "title": "String handles give back the bytes they were made from", "statement": "The length and the raw bytes read back from a string handle are those that were registered, also after arbitrarily many later registrations and table growths.", "quantifier": "all byte strings and all later registration histories", "why_tests_cant": "Depends on the packing of the length into the last byte at the 15/16 byte boundary and on the table never moving string storage.", "anchors": ["include/lacc/string.h: String, SHORT_STRING_INIT, str_len, str_raw", "src/preprocessor/strtab.c: str_intern"]}
{"id": "C04", "title": "The token lookahead buffer is a FIFO queue", "statement": "For any interleaving of push-back, pop-front and clear, the lookahead buffer delivers elements in the order they were pushed, each exactly once, and indexing gives the n-th undelivered element.", "quantifier": "all element types, all finite operation sequences (all compaction and growth points)", "why_tests_cant": "The buffer compacts in place when the cursor is non-zero and capacity is exhausted; an off-by-one there only shows for particular interleavings.", "anchors": ["include/lacc/deque.h", "include/lacc/array.h"]}
{"id": "C05", "title": "String literals survive printing and re-reading", "statement": "The escaped text written for a string in assembly output or preprocessed output, when read back with C escape rules, denotes exactly the original bytes.", "quantifier": "all byte sequences, including NUL, quotes, backslashes, non-printable and high bytes followed by digits", "why_tests_cant": "Octal escapes followed by a digit character, and bytes at or above 0x80, are corner cases in an unbounded input space.", "anchors": ["src/util/string.c: fprintstr, printchar"]}
{"id": "C06", "title": "Logical line assembly deletes only splices and comments", "statement": "Reading a physical line sequence produces the characters of the source with backslash-newline pairs removed, trigraphs replaced and each comment replaced by one space outside of literals, and nothing else changed.", "quantifier": "all source character sequences", "why_tests_cant": "The reader is a hand-written state machine over unbounded text; interactions between quotes, comments, splices and trigraphs are combinatorial.", "anchors": ["src/preprocessor/input.c: read_line"]}
{"id": "C07", "title": "Punctuators are tokenised by maximal munch", "statement": "For every input beginning with a punctuator, the tokeniser consumes exactly the longest prefix that is a C punctuator and returns the corresponding token.", "quantifier": "all input strings starting with a punctuator character", "why_tests_cant": "The lexer is a nest of hand-written lookahead cases; the claim is over all suffixes.", "anchors": ["src/preprocessor/tokenize.c: tokenize"]}
{"id": "C08", "title": "Integer constants receive the type the standard prescribes", "statement": "The type of an integer constant is the first type in the C99 list for its suffix and radix in which its value fits; a constant that fits none is diagnosed.", "quantifier": "all 64-bit values, all suffix and radix combinations", "why_tests_cant": "Boundaries at 2^31, 2^32, 2^63 for each suffix and radix; exhaustive testing of values is impossible.", "anchors": ["src/preprocessor/tokenize.c: convert_preprocessing_number, constant_integer_type, read_integer_suffix"]}
{"id": "C09", "title": "Conditional inclusion keeps exactly the lines of taken branches", "statement": "For any well nested sequence of #if/#ifdef/#elif/#else/#endif groups, a text line is kept if and only if in every enclosing group the branch it belongs to is the first one whose condition is true (or the #else when none is).", "quantifier": "all nestings, all group lengths, all condition values", "why_tests_cant": "State is a stack of small states; correctness is an induction over nesting depth and group length.", "anchors": ["src/preprocessor/directive.c: push_state, pop_state, preprocess_directive, in_active_block"]}
{"id": "C10", "title": "#if expressions evaluate as the C standard prescribes", "statement": "The value of a controlling #if expression is the one given by C grammar, precedence, associativity and intmax_t/uintmax_t arithmetic; unevaluated operands of &&, || and ?: cause no diagnostics.", "quantifier": "all token sequences forming a constant expression, all operand values", "why_tests_cant": "Unbounded expression trees with unbounded values.", "anchors": ["src/preprocessor/directive.c: preprocess_expression, preprocess_conditional, preprocess_logical_or, preprocess_logical_and, preprocess_inclusive_or, preprocess_exclusive_or, preprocess_and, preprocess_equality, preprocess_relational, preprocess_shift, preprocess_additive, preprocess_multiplicative, preprocess_unary, preprocess_primary"]}
{"id": "C11", "title": "Macro expansion terminates and never re-expands a macro inside its own expansion", "statement": "Expansion of any token list under any set of object-like macro definitions, including mutually recursive ones, terminates; a macro name produced while that macro is being replaced is left alone and stays unavailable for later replacement.", "quantifier": "all finite sets of macro definitions, all input token lists", "why_tests_cant": "Termination and the blue-paint rule quantify over all definition graphs including cycles.", "anchors": ["src/preprocessor/macro.c: expand, expand_line, expand_macro, is_expanded"]}
{"id": "C12", "title": "Adjacent string literals are concatenated before parsing", "statement": "The token stream delivered to the parser never contains two consecutive string literals, the concatenation of each maximal run is delivered as one literal with the bytes in order, and every other token is delivered unchanged and in order.", "quantifier": "all token streams and all lookahead/consume interleavings", "why_tests_cant": "Lookahead depth and buffering interact with line boundaries and with the concatenation; runs may be arbitrarily long.", "anchors": ["src/preprocessor/preprocess.c: add_to_lookahead, read_complete_line, peek, peekn, next"]}
{"id": "C13", "title": "Stringification produces a literal that reads back as the spelling of the argument", "statement": "The text made by the # operator, when lexed as a string literal and converted, is the spelling of the argument with white space normalised to single blanks.", "quantifier": "all argument token lists in which no token is a stray backslash (C gives a stray backslash escape meaning or leaves it undefined)", "why_tests_cant": "Escaping of quotes and backslashes inside string and character tokens is a corner case over unbounded spelling.", "anchors": ["src/preprocessor/macro.c: stringify, stringify_concat, str_write_escaped", "src/preprocessor/tokenize.c: convert_preprocessing_string"]}
{"id": "C14", "title": "Include files are found in the documented search order", "statement": "A quoted include is looked up first next to the including file and then along the search paths in order; an angled include only along the search paths; the first existing file wins.", "quantifier": "all path lists, all file-system contents, all include names", "why_tests_cant": "Quantifies over every directory list and every set of existing files.", "anchors": ["src/preprocessor/input.c: include_file, include_system_file, add_include_search_path, create_path"]}
{"id": "C15", "title": "Command line options reach the handler whose rule they match", "statement": "Every command line argument that is documented by a rule in the option table is passed, with the right argument text, to the callback of that rule; unknown dash options and missing arguments are rejected.", "quantifier": "all option tables and all argument vectors; in particular the option table of the driver", "why_tests_cant": "First-match-wins over a table of patterns: whether a rule is shadowed by an earlier one is a statement about all argument strings.", "anchors": ["src/util/argparse.c: parse_args, match_arg", "src/lacc.c: parse_program_arguments"]}
{"id": "C16", "title": "Struct members without bit-fields are laid out as the System V ABI requires", "statement": "Each member is placed at the lowest offset that is a multiple of its alignment and not below the end of the previous member; the size of the struct is the end of the last member rounded up to the largest member alignment; members of a union all start at offset 0.", "quantifier": "all member lists of any length and all member sizes and alignments", "why_tests_cant": "Separately compiled code relies on every layout, not on a sample of them.", "anchors": ["src/parser/typetree.c: add_member, adjust_member_alignment, type_add_member, type_seal, type_alignment, size_of"]}
{"id": "C17", "title": "Bit-fields are laid out as the System V ABI requires", "statement": "A bit-field never straddles a storage unit of its declared type, occupies the next free bits when it fits, and a zero-width field advances to the next boundary of its declared type.", "quantifier": "all sequences of bit-fields, plain members and zero-width separators", "why_tests_cant": "The packing code has several interacting fast paths; the space of field sequences is unbounded.", "anchors": ["src/parser/typetree.c: type_add_field, pack_field_member, reset_field_alignment, adjust_member_alignment"]}
{"id": "C18", "title": "Members of anonymous structs and unions have the offsets of the enclosing layout", "statement": "Members promoted from an anonymous struct or union have the offset of the anonymous object plus their inner offset, and the anonymous object itself is laid out like a named member of that type.", "quantifier": "all nestings of anonymous aggregates", "why_tests_cant": "Needs to hold for every inner alignment and tail padding combination.", "anchors": ["src/parser/typetree.c: type_add_anonymous_member"]}
{"id": "C19", "title": "Array sizes that do not fit are diagnosed", "statement": "Declaring an array whose total size exceeds LONG_MAX bytes is an error, and otherwise its size is exactly count times element size.", "quantifier": "all element sizes and element counts", "why_tests_cant": "The check is done with 64-bit wrapping arithmetic; only extreme values distinguish right from wrong.", "anchors": ["src/parser/typetree.c: type_create_array"]}
{"id": "C20", "title": "The usual arithmetic conversions give the standard's common type", "statement": "For any two arithmetic operand types the common type is the one C99 6.3.1.8 prescribes for an LP64 target; integer promotion gives int or unsigned int as prescribed.", "quantifier": "all pairs of arithmetic types", "why_tests_cant": "The table determines signedness of every comparison and division; the claim is a complete case analysis against an independently stated rule.", "anchors": ["src/parser/typetree.c: promote_integer, usual_arithmetic_conversion"]}
{"id": "C21", "title": "Type compatibility agrees with the standard", "statement": "Two declarations are accepted as compatible if and only if their types are compatible in the sense of C99 6.2.7.", "quantifier": "all pairs of types of any depth", "why_tests_cant": "Types are unbounded trees; a wrong acceptance links incompatible declarations silently.", "anchors": ["src/parser/typetree.c: is_compatible, type_equal, is_compatible_unqualified"]}
{"id": "C22", "title": "Constant folding of integer operations equals run time evaluation", "statement": "When both operands of an arithmetic, bitwise, shift or comparison operator are constants, the folded constant equals the value C assigns to the operation in the common type (two's complement, LP64), for every case in which C defines it; the compiler itself never executes undefined behaviour while folding.", "quantifier": "all operators, all integer types, all operand values", "why_tests_cant": "2^128 operand combinations per operator; the representation kept in the 64-bit constant must stay normalised.", "anchors": ["src/parser/eval.c: eval_mul, eval_div, eval_mod, eval_add, eval_sub, eval_immediate_compare, eval_and, eval_or, eval_xor, eval_lshift, eval_rshift"]}
{"id": "C23", "title": "Constant conversion between integer types equals C conversion", "statement": "Converting an integer constant to another integer type yields the value C prescribes (modulo reduction for unsigned, two's complement wrap for signed, 0/1 for _Bool) in the compiler's canonical constant representation.", "quantifier": "all source and destination integer types, all values", "why_tests_cant": "Every width/signedness pair over the full 64-bit value range.", "anchors": ["src/parser/eval.c: convert, imm_signed, imm_unsigned"]}
{"id": "C24", "title": "Identifier lookup follows block scoping", "statement": "A name refers to the innermost visible declaration; leaving a scope restores exactly the meaning every name had before the scope was entered.", "quantifier": "all histories of scope entry, declaration, lookup and scope exit, any nesting depth", "why_tests_cant": "Scopes share one array and are undone by counters; a stale or lost entry would only show for particular histories.", "anchors": ["src/parser/symtab.c: push_scope, pop_scope, sym_lookup, sym_add, sym_make_visible"]}
{"id": "C25", "title": "Conflicting redeclarations are diagnosed and compatible ones merged", "statement": "A second declaration of an identifier in the same scope is accepted exactly when the standard permits it, and the resulting linkage and definition state is the composite one.", "quantifier": "all sequences of declarations of one identifier", "why_tests_cant": "The state after n declarations depends on the whole sequence; combinations of linkage, storage state and type.", "anchors": ["src/parser/symtab.c: sym_add, sym_redeclare, sym_apply_type"]}
{"id": "C26", "title": "Static initialisers cover the whole object exactly once", "statement": "The data emitted for an initialised object assigns every byte of the object exactly once, in increasing order, later initialisers override earlier ones for the same element, and bytes without an initialiser are zero.", "quantifier": "all object sizes and all lists of element initialisers in any order with repetitions", "why_tests_cant": "Sorting, overriding and padding interact for arbitrary designator orders.", "anchors": ["src/parser/initializer.c: postprocess_object_initialization, sort_and_trim, initialize_padding, zero_initialize_bytes"]}
{"id": "C27", "title": "Initialised bit-fields keep the values given to them", "statement": "After merging the initialisers of bit-fields that share a storage unit, every field contains the low bits of its initialiser and no other field is disturbed.", "quantifier": "all field positions, widths, values and initialiser orders", "why_tests_cant": "The merge is performed pairwise on masked constants; lost bits depend on widths and order.", "anchors": ["src/parser/initializer.c: merge_assignments, normalize_field_assignment, sort_and_trim, postprocess_object_initialization"]}
{"id": "C28", "title": "Declaration specifiers denote the type the standard prescribes in any order", "statement": "Every multiset of type specifier keywords permitted by C99 6.7.2 is accepted in every order and denotes the prescribed type; every other combination is rejected.", "quantifier": "all finite sequences of type specifier keywords", "why_tests_cant": "All permutations of all multisets, of unbounded length for the rejection half.", "anchors": ["src/parser/declaration.c: declaration_specifiers"]}
{"id": "C29", "title": "A switch statement transfers control to the matching case", "statement": "Executing the generated control flow for a switch reaches the block of the case label equal to the controlling value, else the default block, else the statement after the switch.", "quantifier": "all lists of case labels and all controlling values", "why_tests_cant": "The comparison chain has one test per label; correctness for all lists is an induction.", "anchors": ["src/parser/statement.c: switch_statement, add_switch_case"]}
{"id": "C30", "title": "Loops and conditionals translate to control flow with the C meaning", "statement": "The control flow graph built for if, while, do, for, break and continue executes the same sequence of condition evaluations and statements as the C abstract machine.", "quantifier": "all nestings of control statements, all condition outcomes", "why_tests_cant": "Arbitrary nesting with shared break/continue targets saved and restored by hand.", "anchors": ["src/parser/statement.c: if_statement, while_statement, do_statement, for_statement, statement"]}
{"id": "C31", "title": "Negating a comparison preserves its truth value", "statement": "The expression !(a op b) evaluates to the logical negation of (a op b), also for floating point operands.", "quantifier": "all comparison operators and all operand values including NaN", "why_tests_cant": "Unordered operands are outside what ordinary tests exercise.", "anchors": ["src/parser/expression.c: unary_expression"]}
{"id": "C32", "title": "Integer constant expressions are accepted wherever the standard requires them", "statement": "Any expression built from integer constants with the standard operators, including && and ||, is accepted as a constant expression and has the C value.", "quantifier": "all integer constant expression trees", "why_tests_cant": "Unbounded expression trees.", "anchors": ["src/parser/expression.c: constant_expression, logical_and_expression, logical_or_expression, conditional_expression"]}
{"id": "C33", "title": "Liveness analysis is sound", "statement": "If a variable's value at a program point can be read later before being overwritten, the analysis reports it live there; the analysis terminates.", "quantifier": "all control flow graphs, all statements, all executions", "why_tests_cant": "A fixpoint over arbitrary graphs with loops.", "anchors": ["src/optimizer/liveness.c: live_variable_analysis, uses, defs", "src/optimizer/optimize.c: initialize_dataflow, execute_iterative_dataflow, is_live_after"]}
{"id": "C34", "title": "Dead store elimination does not change behaviour", "statement": "Removing the stores the optimiser considers dead leaves every observable effect and the return value of every execution unchanged.", "quantifier": "all programs, all executions, all optimisation levels", "why_tests_cant": "Wrong elimination needs specific aliasing or partial-write shapes; tests cannot show absence.", "anchors": ["src/optimizer/transform.c: dead_store_elimination", "src/optimizer/optimize.c: optimize"]}
{"id": "C35", "title": "Merging chained assignments does not change behaviour", "statement": "Rewriting t = e; x = t into x = e is only done when it has the same effect.", "quantifier": "all statement pairs, all memory states", "why_tests_cant": "Depends on aliasing between target addresses and the temporary.", "anchors": ["src/optimizer/transform.c: merge_chained_assignment"]}
{"id": "C36", "title": "Optimisation terminates on every program", "statement": "For every function body the optimiser finishes.", "quantifier": "all control flow graphs, including cyclic ones with empty blocks", "why_tests_cant": "A hang needs a particular cycle; absence is not testable.", "anchors": ["src/optimizer/optimize.c: skip_empty_blocks, optimize"]}
{"id": "C37", "title": "Arguments and return values are classified as the System V ABI requires", "statement": "Every type is assigned the eightbyte classes of the System V AMD64 ABI 3.2.3, and so is passed in the same registers or memory as by any other conforming compiler.", "quantifier": "all types up to any nesting", "why_tests_cant": "Types are unbounded trees; only cross-compiler calls would show a difference.", "anchors": ["src/backend/x86_64/abi.c: classify, flatten, merge, combine, has_unaligned_fields"]}
{"id": "C38", "title": "Caller and callee agree on where arguments are passed", "statement": "For every parameter list, the location (register or stack offset) into which the caller places each argument is the location from which the callee takes the corresponding parameter, registers are not used twice, and the stack is 16-byte aligned at the call.", "quantifier": "all argument lists of any length and class", "why_tests_cant": "Interaction of two independently written register allocators over unbounded argument lists.", "anchors": ["src/backend/x86_64/compile.c: push_function_arguments, enter, alloc_register_params, count_register_classifications"]}
{"id": "C39", "title": "Stack frame regions do not overlap and the stack stays aligned", "statement": "Saved registers, register save area, return pointer slot, parameters and locals of a function occupy pairwise disjoint parts of the frame inside the reserved area and %rsp is a multiple of 16 after the prologue.", "quantifier": "all functions: any number of temporaries, parameters and locals of any size, variadic or not", "why_tests_cant": "Offsets are computed by running sums; overlaps only occur for some combinations of features.", "anchors": ["src/backend/x86_64/compile.c: enter, allocate_locals, allocate_registers"]}
{"id": "C40", "title": "Struct assignment writes exactly the bytes of the object", "statement": "Copying an object of n bytes reads exactly the n source bytes and writes exactly the n destination bytes.", "quantifier": "all object sizes and destinations", "why_tests_cant": "Over-write by a few bytes only shows when neighbouring memory is observed.", "anchors": ["src/backend/x86_64/compile.c: emit_memcpy, compile_cast, store_copy_object, slice_type"]}
{"id": "C41", "title": "Comparisons are compiled to the right condition code", "statement": "For every comparison operator, operand type and operand form, the emitted compare and conditional jump or set instruction yields the C result.", "quantifier": "all operators, signedness, widths, operand placements and values (including unordered floating point)", "why_tests_cant": "All value pairs for each of the operand-placement paths, several of which swap operands.", "anchors": ["src/backend/x86_64/compile.c: compile_compare, set_compare_value, compile_block"]}
{"id": "C42", "title": "Memory operands are encoded so that the processor computes the intended address", "statement": "The ModRM, SIB and displacement bytes produced for an address decode, by the processor's rules, to exactly the base, index, scale and displacement requested.", "quantifier": "all base and index registers, scales and 32-bit displacements", "why_tests_cant": "Special cases for rsp, r12, rbp, r13 and missing base interact with the displacement size.", "anchors": ["src/backend/x86_64/encoding.c: encode_modrm_sib_disp, encode_address"]}
{"id": "C43", "title": "Encoded instructions decode to the requested operation and operands", "statement": "For each instruction form the code generator or inline assembler can request, the emitted bytes decode to that operation with those operands and widths.", "quantifier": "all instruction forms, registers, widths and immediates", "why_tests_cant": "Combinatorial in registers, widths and operand forms; wrong forms may be reachable only via inline assembly.", "anchors": ["src/backend/x86_64/encoding.c: encodings, encode, encode_reg_reg, encode_mem_reg, encode_imm_reg, encode_imm_mem, encode_immediate, find_encoding, match_instruction_encoding"]}
{"id": "C44", "title": "Every encoded instruction fits in 15 bytes", "statement": "No instruction encoding exceeds the 15 byte buffer it is written to.", "quantifier": "all instructions", "why_tests_cant": "Only extreme operand combinations approach the limit.", "anchors": ["src/backend/x86_64/encoding.c: encode", "src/backend/x86_64/encoding.h: struct code"]}
{"id": "C45", "title": "Jump displacements reach their labels", "statement": "After a function has been emitted, each jump's 32-bit displacement added to the address of the following instruction gives the offset of its label, for backward and forward jumps.", "quantifier": "all sequences of instructions, labels and jumps", "why_tests_cant": "Forward references are patched after the fact; correctness for all orders is an invariant.", "anchors": ["src/backend/x86_64/elf.c: elf_text_displacement, elf_flush_text_displacements, elf_symbol, elf_text"]}
{"id": "C46", "title": "Object file sections are placed at aligned, non-overlapping file offsets", "statement": "Section contents in the object file do not overlap each other or the headers, appear where the section headers say, and start at a multiple of the section's alignment.", "quantifier": "all section sizes and alignments", "why_tests_cant": "Alignment arithmetic is wrong only for certain remainders.", "anchors": ["src/backend/x86_64/elf.c: elf_chain_offsets, write_sections"]}
{"id": "C47", "title": "Names in the object file string table can be read back", "statement": "The offset recorded for a name is the position at which exactly that NUL-terminated name is found in the finished string table.", "quantifier": "all sequences of names", "why_tests_cant": "Later additions must never disturb earlier ones, over arbitrary histories.", "anchors": ["src/backend/x86_64/elf.c: elf_strtab_add, elf_section_write"]}
{"id": "C48", "title": "The object file symbol table is ordered and indexed correctly", "statement": "All local symbols precede all global ones, the section header's info field is the index of the first global symbol, and the index remembered for each symbol is the position of its entry.", "quantifier": "all sequences of local and global symbol declarations", "why_tests_cant": "Globals are buffered and flushed late; the invariant ranges over all declaration orders.", "anchors": ["src/backend/x86_64/elf.c: elf_symtab_add, elf_symtab_assoc, flush_symtab_globals, elf_symbol"]}
{"id": "C49", "title": "Relocations resolve to the intended address", "statement": "For every instruction referring to a symbol plus offset, the linker's computation from the emitted relocation makes the processor access exactly symbol plus offset.", "quantifier": "all instruction forms with symbol operands, all addends, all final addresses", "why_tests_cant": "Bytes following the displacement field shift the program counter; only some instruction forms have such bytes.", "anchors": ["src/backend/x86_64/encoding.c: encode_address, encode_immediate", "src/backend/x86_64/elf.c: elf_add_relocation, flush_relocations"]}
{"id": "C50", "title": "LEB128 numbers in debug information round trip", "statement": "Decoding the emitted unsigned LEB128 bytes gives the original number and uses exactly the emitted length, which does not exceed the local buffer.", "quantifier": "all 64-bit values", "why_tests_cant": "2^64 values.", "anchors": ["src/backend/x86_64/dwarf.c: ULEB128_encode, dwarf_write_ULEB128"]}
{"id": "C51", "title": "The exit status tells whether compilation succeeded", "statement": "The driver exits with status zero if and only if all inputs were processed without error and the linker, when run, succeeded.", "quantifier": "all error counts and linker outcomes", "why_tests_cant": "Exit statuses are truncated to eight bits by the system; the failing counts are large.", "anchors": ["src/lacc.c: process_file, main", "src/backend/linker.c: invoke_linker"]}
{"id": "C52", "title": "Output files are named after the input as documented", "statement": "The default output name is the last path component of the input with its last suffix replaced by .o, .s or .dot.", "quantifier": "all input path strings", "why_tests_cant": "All strings, including without dots, with dots in directories, with leading dots.", "anchors": ["src/lacc.c: change_file_suffix, add_input_file"]}
{"id": "C53", "title": "Recycling of discarded blocks releases every discarded block", "statement": "When speculative parsing of constant sub-expressions is rolled back, exactly the blocks and statements created since are discarded.", "quantifier": "all numbers of blocks and statements created in between", "why_tests_cant": "Loop-bound bugs show only for particular counts.", "anchors": ["src/parser/parse.c: restore_block"]}
{"id": "C54", "title": "Exactly the needed inline functions are emitted", "statement": "An inline function without an external definition is emitted if and only if it is reachable by references from emitted code, each at most once.", "quantifier": "all reference graphs among inline functions", "why_tests_cant": "Reachability over arbitrary graphs.", "anchors": ["src/parser/parse.c: pop_inline_function, parse"]}
{"id": "C55", "title": "va_arg returns the successive variadic arguments", "statement": "Successive va_arg reads of the types that were passed deliver the passed values in order, for any mix of integer and floating point arguments, regardless of how many are in registers.", "quantifier": "all argument sequences", "why_tests_cant": "Crossing from register save area to overflow area happens at many different points.", "anchors": ["src/backend/x86_64/compile.c: compile__builtin_va_start, compile__builtin_va_arg, enter"]}
{"id": "C56", "title": "Generated code keeps the stack pointer balanced", "statement": "Every code sequence that temporarily pushes a value restores %rsp to its previous value.", "quantifier": "all operand kinds and widths in conversions to long double", "why_tests_cant": "An imbalance only misbehaves when a later call needs alignment.", "anchors": ["src/backend/x86_64/compile.c: load_x87, push, store_caller_saved_registers, load_caller_saved_registers"]}
{"id": "C57", "title": "Long double constants keep their value", "statement": "A long double constant stored in the constant pool is read back with the same value, including the sign of zero and NaN.", "quantifier": "all long double values and pool histories", "why_tests_cant": "Pool lookups use floating comparison, which differs from identity only for -0.0 and NaN.", "anchors": ["src/preprocessor/strtab.c: put_long_double, get_long_double"]}
{"id": "C58", "title": "Register names in inline assembly mean the same registers as in emitted assembly", "statement": "Parsing the printed name of any general purpose register at any width gives back that register and width, and no two registers share a name.", "quantifier": "all 16 registers and 4 widths, all other strings rejected", "why_tests_cant": "Two tables in different files in different orders must agree entry by entry.", "anchors": ["src/backend/x86_64/assembler.c: parse_asm_int_reg", "src/backend/x86_64/assemble.c: regname, reg_name"]}
{"id": "C59", "title": "Preprocessed output re-tokenises to the same tokens", "statement": "Running the tokeniser over the text written by -E yields the token sequence that was written.", "quantifier": "all token sequences", "why_tests_cant": "Adjacent tokens that paste together are specific pairs among all pairs.", "anchors": ["src/preprocessor/preprocess.c: preprocess", "src/preprocessor/preprocess.c: stringify_token"]}
{"id": "C60", "title": "Editing a block's statements leaves other blocks intact", "statement": "Appending to or erasing from one basic block changes only that block's statement sequence; every other block's sequence is unchanged.", "quantifier": "all block layouts in the shared statement array, all edit positions", "why_tests_cant": "All blocks share one array and store index ranges; shifting must fix up every range.", "anchors": ["src/parser/eval.c: append_statement", "src/optimizer/transform.c: statement_array_erase"]}
{"id": "C61", "title": "Escape sequences denote their C values", "statement": "For every string literal, the bytes stored in the program are the ones its escape sequences denote: simple escapes, one to three octal digits, and a maximal run of hexadecimal digits; and the literal ends at its closing quote, not at an escaped one.", "quantifier": "all literal bodies built from ordinary characters, simple, octal and hexadecimal escapes with values below 256", "why_tests_cant": "The digit runs and what follows them are unbounded; a test picks particular escapes, and the failure needs digits that start with 0x.", "anchors": ["src/preprocessor/tokenize.c: convert_escape_sequence", "src/preprocessor/tokenize.c: convert_preprocessing_string", "src/preprocessor/tokenize.c: strtostr"]}
{"id": "C62", "title": "Words are keywords exactly when spelled like one", "statement": "A maximal run of letters, digits and underscores that starts with a letter or underscore is read as one token: the keyword of that spelling if there is one in the selected language standard, an identifier otherwise; and every such word can be a macro name.", "quantifier": "all texts starting with a letter or underscore, both language modes", "why_tests_cant": "The recogniser is a hand-unrolled decision tree over 48 spellings with shared prefixes; the claim is about all continuations.", "anchors": ["src/preprocessor/tokenize.c: tokenize, strtoident, basic_token"]}
{"id": "C63", "title": "Preprocessing numbers are read by maximal munch", "statement": "A text starting with a digit or a period and a digit is read as the longest prefix that is a preprocessing number, including exponent signs.", "quantifier": "all ASCII texts, both language modes", "why_tests_cant": "Exponent signs make the end of the token depend on the previous character; texts are unbounded.", "anchors": ["src/preprocessor/tokenize.c: stringtonum, tokenize"]}
{"id": "C64", "title": "Ill-nested conditional directives are diagnosed", "statement": "A translation unit is accepted only if every #elif, #else and #endif belongs to an open #if group, every #if is closed before the end of input, and no #elif or #else follows an #else of the same group.", "quantifier": "all sequences of directive and text lines, all condition outcomes", "why_tests_cant": "The space of malformed nestings is unbounded; a test suite has a handful of malformed inputs.", "anchors": ["src/preprocessor/directive.c: preprocess_directive", "src/preprocessor/directive.c: pop_state", "src/preprocessor/preprocess.c: preprocess_line"]}
{"id": "C65", "title": "Invalid numeric constants are diagnosed", "statement": "A number token that is not the spelling of an integer or floating constant of C is rejected with a diagnostic; whatever is accepted as an integer has the value and a suffix C gives it.", "quantifier": "all preprocessing numbers", "why_tests_cant": "Invalid spellings are infinitely many and the two host library calls interact.", "anchors": ["src/preprocessor/tokenize.c: convert_preprocessing_number", "src/preprocessor/tokenize.c: read_integer_suffix"]}
{"id": "C66", "title": "Buffering of the source file is invisible", "statement": "The sequence of logical lines obtained from a source file that ends in a newline does not depend on where the file is cut into buffer reads, and every line fits in the line buffer.", "quantifier": "all file contents, buffer sizes and positions of the cuts", "why_tests_cant": "Buffer-boundary faults need particular alignments of splices, comments and quotes with multiples of the buffer size.", "anchors": ["src/preprocessor/input.c: initial_preprocess_line", "src/preprocessor/input.c: read_line"]}
{"id": "C67", "title": "Function-like macro expansion terminates and respects names being replaced", "statement": "Expansion of any line under any finite set of macro definitions, function-like ones included, terminates within the memory of its token arrays; a macro name met while that macro is being replaced is left alone.", "quantifier": "all sets of macro definitions, all token lines", "why_tests_cant": "Termination depends on arbitrary call graphs through macro arguments.", "anchors": ["src/preprocessor/macro.c: expand_macro", "src/preprocessor/macro.c: read_args", "src/preprocessor/macro.c: expand_line"]}
{"id": "C68", "title": "Operators # and ## in replacement lists", "statement": "In a replacement list, `# parameter` becomes the string literal of the argument as written, and `a ## b` joins the last token of the left with the first of the right operand as written, an empty argument being a placemarker; an invalid pasting is diagnosed.", "quantifier": "all replacement lists and arguments", "why_tests_cant": "Placemarker handling depends on combinations of empty arguments in chains of any length.", "anchors": ["src/preprocessor/macro.c: expand_stringify_and_paste"]}
{"id": "C69", "title": "-D options are #define lines", "statement": "Running the compiler with -DNAME=TEXT has the same effect as a first line '#define NAME TEXT', for every text (including texts that contain '='), and -DNAME as '#define NAME 1'.", "quantifier": "for all names without '=' and all texts", "why_tests_cant": "The name and the text are arbitrary strings; a buffer or offset error shows only for particular lengths or for texts that contain a second '='.", "anchors": ["src/lacc.c: define_macro"]}
{"id": "C70", "title": "Members of incomplete type are diagnosed", "statement": "Declaring a struct or union member whose type is void or an incomplete struct or union produces a diagnostic; the compiler neither accepts the declaration nor fails in another way.", "quantifier": "all aggregates under construction and all incomplete member types", "why_tests_cant": "Whether the check is reached before a division by the missing alignment depends on the kind and state of the enclosing aggregate.", "anchors": ["src/parser/typetree.c: add_member, adjust_member_alignment, type_alignment, type_add_member"]}
{"id": "C71", "title": "Derived types mean what they were built from", "statement": "A pointer to T dereferences to T with all its qualifiers at any depth, an array of T or function returning T yields T, adding a qualifier changes only the top level, and building further types never changes earlier ones.", "quantifier": "all types of any depth and all histories of type creation", "why_tests_cant": "Pointers are folded into a 32-bit word in two alternating encodings; every depth and qualifier combination takes another path.", "anchors": ["src/parser/typetree.c: type_create, type_create_pointer, type_create_array, type_create_function, type_deref, type_next, get_type_handle, type_set_const", "include/lacc/type.h: Type"]}
{"id": "C72", "title": "Bit-fields in expressions are promoted as C says", "statement": "A bit-field of unsigned type with fewer than 32 bits takes part in every operator as an int (C99 6.3.1.1p2), whatever its declared type; other bit-fields have their declared type. So s.x - 2 is negative when s.x is 1, and s.x * -1 is -1.", "quantifier": "All expressions over bit-fields of any width and ordinary variables, all values the bit-fields can have", "why_tests_cant": "Whether the promotion is missing is visible only for particular operators together with particular widths and values of the other operand (a negative one, or a result above 31 bits); the number of combinations of operators, nesting, widths and values is unbounded.", "anchors": ["src/parser/eval.c: rvalue, eval_cast, eval_prepare_assign", "src/parser/expression.c: unary_expression"]}
{"id": "C73", "title": "Logical, conditional and comma operators evaluate exactly the operands C evaluates", "statement": "For every expression built with &&, ||, ?:, ! and the comma operator from arbitrary operands, the generated control flow evaluates the operands C evaluates, in C's order, and yields C's value.", "quantifier": "all expression trees over these operators, all operand effects and values", "why_tests_cant": "Operators nest without bound and constant operands take separate paths that skip or recycle blocks.", "anchors": ["src/parser/expression.c: logical_and_expression, logical_or_expression, conditional_expression, unary_expression", "src/parser/eval.c: eval"]}
{"id": "C74", "title": "The linear code of a function does what its flow graph says", "statement": "The code emitted for a function, run from its beginning, executes the statements of the blocks in the order in which the flow graph of the function visits them, returns from the same block in the same state, runs forever when the graph does, and never runs past its end or into a block that was not jumped to. Together with the graph of a function body: the function ends in a state with a returned value exactly when C's abstract machine does.", "quantifier": "all flow graphs (any number of blocks, joins, loops, self loops, both successors equal), all states, all kinds of tests", "why_tests_cant": "The order in which blocks are emitted, which jumps are left out because the next block follows, and which are inverted depend on the whole graph; the number of graphs and of paths through them is unbounded.", "anchors": ["src/backend/x86_64/compile.c: compile_block", "src/parser/parse.c: cfg_block_init", "src/parser/statement.c: statement"]}
{"id": "C75", "title": "Comparing long doubles leaves the x87 register stack empty", "statement": "After a comparison of, or a branch on, long double operands the x87 register stack is as empty as before, and assembly output and object output name the same registers.", "quantifier": "all comparison operators, all operand values, both output formats", "why_tests_cant": "A leftover register changes nothing until much later code needs the whole x87 stack.", "anchors": ["src/backend/x86_64/compile.c: compile_compare, compile_block, x87_stack_pos", "src/backend/x86_64/encoding.c: encode_reg", "src/backend/x86_64/assemble.c: regname"]}
{"id": "C76", "title": "Misplaced labels and jumps are diagnosed", "statement": "A function body is rejected if it has a case or default label outside a switch, two default labels or equal case values in one switch, two labels of one name, a goto without its label, or a break or continue outside a loop or switch; any other body is accepted.", "quantifier": "all statement trees", "why_tests_cant": "Nesting is unbounded and the switch context and label symbols are shared mutable state.", "anchors": ["src/parser/statement.c: statement, switch_statement, add_switch_case", "src/parser/symtab.c: symtab_clear"]}
{"id": "C77", "title": "Every call in an expression is made once, with its own arguments", "statement": "When an expression contains function calls, in operands, in the arguments of other calls, or around commas, the compiled program makes each of the calls exactly once and in an order that C allows; each function receives exactly the arguments written in its own parentheses, converted to the types of its parameters or promoted if they are part of an ellipsis, and the value it returns is used where the call stands.", "quantifier": "For all sequences of integer assignments and expression statements with calls nested to any depth, all declarations of functions, all behaviours of the functions, and all values of the variables for which C defines the result.", "why_tests_cant": "Arguments wait in lists that are reused from call to call while the arguments of inner calls are read, and a call is only made when its value is wanted; the nesting and the mixtures of pending arguments are unbounded, and a wrong argument shows only in what the called function does.", "anchors": ["src/parser/expression.c: push_argument_list, pop_argument_list, postfix, expression", "src/parser/eval.c: eval, eval_call, eval_prepare_arg, eval_prepare_vararg, eval_push_param, eval_expression_statement, eval_prepare_assign", "src/backend/x86_64/compile.c: compile_statement, compile_call, func_args"]}
{"id": "C78", "title": "Symbols of the object file are where their contents are", "statement": "In the object file, a defined function's symbol covers exactly its code and every byte of code belongs to exactly one function; an initialised object's symbol is aligned and is followed by its initialiser's bytes, starting after the initialiser of the object before it; constants hold their bytes; uninitialised objects are aligned, inside .bss and do not overlap; section alignments are multiples of the alignments of the objects inside.", "quantifier": "all translation units", "why_tests_cant": "Positions depend on everything emitted before; overlap or misalignment shows only for certain sequences of sizes and alignments.", "anchors": ["src/backend/x86_64/elf.c: elf_symbol, elf_section_align, elf_data, elf_text, increment_function_size"]}
{"id": "C79", "title": "Compiling several files in one invocation is the same as compiling each alone", "statement": "When several source files are given, each object file is what it would have been had that file been given alone.", "quantifier": "all lists of source files", "why_tests_cant": "State left over from earlier files matters only for particular combinations of sizes.", "anchors": ["src/backend/x86_64/elf.c: elf_section_write, elf_init", "src/lacc.c: process_file, main"]}
{"id": "C80", "title": "The caller receives exactly the value a function returns", "statement": "A function returns the value of an object of any type: the object the caller assigns the result to has, byte for byte, the value of the returned object, at the locations the System V ABI prescribes (%rax, %rdx, %xmm0, %xmm1, or the memory whose address the caller passes, which is then also in %rax); nothing else in memory changes, and the stack pointer, the frame pointer and the registers of the caller's temporaries are as before the call.", "quantifier": "all types of results (except long double), all values, all places of the returned object and of the target, all numbers of saved registers, arguments and locals, all machine states", "why_tests_cant": "Mixed classes, odd sizes, results behind pointers and results that alias the target are combinations; a wrong byte or an overwritten neighbour shows only for particular types and layouts.", "anchors": ["src/backend/x86_64/compile.c: compile_return, compile_call, move_to_from_registers, load_object_to_registers, store_object_from_registers, slice_type, emit_memcpy", "src/backend/x86_64/abi.c: classify"]}
{"id": "C81", "title": "Debug information describes the compiled unit", "statement": "A debugger that reads the debug sections of the object file by the rules of DWARF version 4 finds one compilation unit, whose entry gives the name of the source file, the producer, the language of the chosen standard, the start address of the code and its size; the abbreviation table ends as the format requires.", "quantifier": "all file names, language standards and code sizes", "why_tests_cant": "Debuggers are lenient, and the lengths and offsets depend on the file name and on each other.", "anchors": ["src/backend/x86_64/dwarf.c: dwarf_init, dwarf_flush, dwarf_write_entry, dwarf_write_attribute, dwarf_add_root_info"]}
{"id": "C82", "title": "Inline assembly is assembled as written", "statement": "Each line of an inline assembly template that the compiler accepts becomes exactly the instruction that the GNU assembler manual gives for the text: the operation, the operands in order, their widths, the address, the immediate, and the symbol or label; a template becomes the instructions of its lines in order, and a line that is not valid assembly is rejected.", "quantifier": "all mnemonics known, all registers and widths, immediates, addresses with base, index, scale and displacement, statement operands and labels, with any blanks between them", "why_tests_cant": "A table with widths to be inferred, suffixes and implied operands multiplies into tens of thousands of combinations, and a wrong width still assembles.", "anchors": ["src/backend/x86_64/assembler.c: asmtok, parse__asm__register, parse_asm_address, parse__asm__operand, parse__asm__instruction, assemble_inline", "src/backend/x86_64/encoding.c: mnemonic_match_operands, encodings"]}
{"id": "C83", "title": "Assembly output says what the object file does", "statement": "For every instruction the compiler emits, the line written with -S, read by the rules of the GNU assembler, is the same instruction as the bytes written with -c, read by the rules of the processor: the operation, the operands with their order and widths, the address, the immediate, and the symbol with its offset.", "quantifier": "all instructions of the encoder's table that C43 covers, with every register, width, immediate, address and symbol that can be written", "why_tests_cant": "Tests compile either to assembly or to object code, and compare neither; mnemonic, suffix, operand order and number formatting are printed by code that shares nothing with the encoder but the table.", "anchors": ["src/backend/x86_64/assemble.c: asm_text, asm_address, immediate, regname", "src/backend/x86_64/encoding.c: get_mnemonic, find_encoding, encode, encodings"]}
{"id": "C84", "title": "Declarators have the types that C says", "statement": "A declarator of any depth, made of pointers with qualifiers, arrays, functions with parameters and parentheses, with or without a name, is read as the type that C99 6.7.5 derives from it and the type of the specifiers; its name is found, parameters of array and function type become pointers, and exactly the tokens of the declarator are consumed.", "quantifier": "for all declarators of unbounded depth that C allows, all types of the specifiers, and all tokens that may follow", "why_tests_cant": "Declarators nest inside out without a bound and mix prefix and suffix operators; tests have a few of them, and a wrong order of two derivations gives a type that often compiles.", "anchors": ["src/parser/declaration.c: declarator, direct_declarator, array_declarator, parameter_list, parameter_declarator, pointer", "src/parser/typetree.c: type_patch_declarator, is_complete"]}
{"id": "C85", "title": "Functions are provided to other units as C99 says", "statement": "A function definition with external linkage is emitted as a global symbol, unless every file scope declaration of it has inline and none has extern.", "quantifier": "all sequences of declarations of a function, all units", "why_tests_cant": "The number of declarations and their order are unbounded, and what matters are specifiers on declarations apart from the definition; tests link a single unit.", "anchors": ["src/parser/declaration.c: declaration", "src/parser/parse.c: parse, pop_inline_function"]}
{"id": "C86", "title": "Conversions between arithmetic types at run time yield C's value", "statement": "A conversion that the program does when it runs, by a cast, an assignment or the usual arithmetic conversions, yields the value C99 6.3.1 prescribes: to an integer type the value modulo 2^n (to _Bool, whether it differs from 0), to a floating type the nearest representable number, from a floating type to an integer type the truncated number; and no other variable, temporary or control setting changes.", "quantifier": "all values, all pairs of integer types, float, double and long double, bit-fields of every offset and width, operands in memory, behind pointers and in registers", "why_tests_cant": "The number of values is 2^64 per pair of types; rounding ties, the sign bit of unsigned long and the temporary change of the x87 control word show only for particular values and places.", "anchors": ["src/backend/x86_64/compile.c: load_cast, load_int, load_field, load_float_as_integer, load_integer_as_float, load_x87, load_float_from_long_double, load_integer_from_long_double, store_x87", "src/parser/eval.c: eval_cast"]}
{"id": "C87", "title": "Integer expressions and assignments compute what C prescribes", "statement": "When the program evaluates x = a op b, for the operators + - * / % & | ^ << >>, x = ~a or x = a on integers and C defines the result, x gets exactly that value (unsigned results modulo 2^n, division truncating towards zero), the program does not trap, and nothing else changes: no other byte of memory, no other bit of the storage unit when x is a bit-field, no register that carries another value, not the stack pointer.", "quantifier": "all values of the operands, all integer types after promotion, operands and targets that are constants, addresses, variables in memory or registers, objects behind pointers and bit-fields of any offset and width, also when the target is one of the operands", "why_tests_cant": "The code depends on the combination of where the operands and the target are, and the result on 2^64 values of each operand; a wrong choice shows only for one combination and some values.", "anchors": ["src/backend/x86_64/compile.c: compile_add, compile_sub, compile_not, compile_mul, compile_div, compile_mod, compile_bitwise, compile_shl, compile_shr, compile_cast, compile_assign, store_op, store, bitwise_imm_reg, load, load_int, load_field, operand_equal, is_int_constant"]}
{"id": "C88", "title": "Whole integer expressions and sequences of assignments compute what C says", "statement": "For any sequence of assignments (plain, compound, ++ and --) to integer variables, with expressions of any depth over integer operators, comparisons, ! and casts: if C defines the result, the program is accepted, and the compiled code ends with every variable holding the value that C's rules (promotions, usual arithmetic conversions, conversion on assignment) give; nothing but those variables, the function's temporaries and scratch registers changes, wherever the variables are placed.", "quantifier": "all expressions and programs of assignments, all integer types, all values of variables, all layouts of variables and temporaries that do not overlap, all machine states", "why_tests_cant": "Tests try particular expressions; interactions between nesting depth, spilling of temporaries after the fifth register, operand forms and types are unbounded.", "anchors": ["src/parser/expression.c: unary_expression, cast_expression, multiplicative_expression, additive_expression, shift_expression, relational_expression, equality_expression, assignment_expression", "src/parser/eval.c: eval, eval_assign, eval_cast, eval_copy, eval_unary_plus", "src/backend/x86_64/compile.c: compile_statement, compile_assign, compile_expression, compile_compare, set_compare_value, allocate_registers, allocate_locals"]}
{"id": "C89", "title": "Functions with loops and branches do at run time what C says", "statement": "Take a function whose body is made of if, while, do, for, switch, case, default, goto, labels, break, continue and return over integer expressions and assignments, with !, &&, ||, ?: and the comma operator. If the C standard gives a call of it a meaning that ends, then the machine code, entered at its first instruction with the variables in their places, reaches a return instruction; the variables then have the values the standard says, the result register has the returned value converted to the return type, and nothing outside the variables, temporaries and scratch registers of the function has changed.", "quantifier": "for all function bodies of that form, all integer types and initial values of the variables, all places of variables and temporaries that do not overlap (in particular those the back end chooses), all contents of registers and memory elsewhere, and all numbers of iterations", "why_tests_cant": "The number of programs and of paths through them is unbounded: nested loops, jumps into and out of them, and short-circuit operators inside conditions combine, and every combination with operand types, widths and register or stack places is a separate case; tests sample a few programs and a few inputs, and cannot show that no path through any program leaves a wrong value or a wrong jump.", "anchors": ["src/parser/statement.c: if_statement, do_statement, while_statement, for_statement, switch_statement, statement", "src/parser/expression.c: logical_and_expression, logical_or_expression, conditional_expression, assignment_expression", "src/parser/eval.c: eval_assign, eval_return", "src/backend/x86_64/compile.c: compile_block, compile_statement, compile_return, compile_compare, compile_expression, compile_function"]}
{"id": "C90", "title": "Pointers, array elements and members designate the right objects", "statement": "In a program that dereferences pointers, takes addresses, indexes arrays, selects members with . and ->, adds integers to pointers, subtracts and compares pointers, casts between pointers and integers and assigns through the results, every access reads or writes exactly the bytes of the object that C says the expression designates, and every pointer value is the address C says; nothing else in memory changes.", "quantifier": "for all declarations (types of variables, structures and unions with members at their offsets), all addresses of objects, all memory contents, and all sequences of statements over those expressions whose meaning C defines", "why_tests_cant": "Tests see a few layouts and a few shapes of nested expressions; the operand kinds (direct, address, dereferenced symbol, dereferenced constant), offsets and retyped temporaries combine without limit, and a wrong scale or a lost offset only shows for particular combinations.", "anchors": ["src/parser/eval.c: eval_add, eval_sub, eval_addr, eval_deref, eval_cast, cast_operand, convert, rvalue, prepare_comparison_operands, eval_prepare_assign_pointer, eval_assign", "src/parser/expression.c: primary_expression, postfix_expression, unary_expression, cast_expression", "include/lacc/ir.h: var"]}
{"id": "C91", "title": "Code for pointers, array elements and members does at run time what C says", "statement": "When a program that dereferences pointers, takes addresses, indexes arrays, selects members, does pointer arithmetic and comparisons and assigns through the results is compiled and run, the bytes of every object afterwards are those C says, and no other memory and no register that the caller relies on has changed. The compiler produces code for every such program that C defines.", "quantifier": "for all declarations, all addresses of objects, all memory contents, all sequences of statements of C90, and all placements of temporaries in registers or in the frame that do not overlap", "why_tests_cant": "A wrong width, a lost sign extension or a clobbered register in one addressing form only shows for particular values, register assignments and shapes of expressions; tests run a few of them, on one placement.", "anchors": ["src/backend/x86_64/compile.c: load_int, emit_load, store, store_op, load_address, displacement_from_offset, address_of, location_of, allocated_register, compile_add, compile_sub, compile_mul, compile_div, compile_compare, set_compare_value, compile_cast, compile_assign, compile_statement", "src/parser/eval.c: eval_add, eval_sub, eval_addr, eval_deref, eval_cast, eval_assign"]}
{"id": "C92", "title": "Each expression of an initialiser initialises the element that C says", "statement": "In a list of initialisers between braces for an array, structure or union, each expression is assigned to the element that C99 6.7.8 says: the next one in order, inside inner objects whether or not these have braces of their own, or the one that a designator names; the list is read to its closing brace and every assignment is to an element that can take the value.", "quantifier": "for all types of objects made of scalars, arrays, structures and unions, all lists with inner braces, expressions, string literals and designators in any combination, and all input that follows", "why_tests_cant": "Initialiser lists nest without bound, and each way to leave out braces or use a designator changes where all later expressions go; a set of tests covers a handful of shapes, while errors hide in combinations such as a designator behind an inner object without braces.", "anchors": ["src/parser/initializer.c: initialize_object, initialize_member, initialize_array, initialize_struct, initialize_union, initialize_struct_or_union, next_element, has_next_array_element, assign_initializer_element, read_initializer_element"]}
{"id": "C93", "title": "The assembly listing of a translation unit says what its object file has", "statement": "The text printed with -S, read by the rules of the GNU assembler, has the same bytes of initialised data, string literals and constants with the same padding, the same places that become addresses of symbols, the same instructions, and the same names at the same places, with the same linkage and, for objects without initialiser, the same size and alignment, as the object file made with -c from the same program.", "quantifier": "for all sequences of functions, objects, string literals, constants, data and instructions that a translation unit can consist of, all names and all numbers", "why_tests_cant": "Two separate writers have to agree on every number, string and symbol; tests compare a few programs, while escapes in strings, negative and odd-sized numbers, offsets of addresses and alignment each have their own code in both.", "anchors": ["src/backend/x86_64/assemble.c: asm_symbol, asm_data, asm_flush, asm_init, asm_text, set_section", "src/backend/x86_64/elf.c: elf_symbol, elf_data, elf_text", "src/util/string.c: fprintstr, printchar", "src/backend/x86_64/abi.c: sym_alignment"]}
{"id": "C94", "title": "Expressions are grouped as the grammar of C says", "statement": "Every sequence of tokens that is an expression of C is read to its end as the expression the grammar says: operators bind and group as in C, casts and sizeof of types are told from parenthesised expressions, calls have the arguments written, and whatever is read is an expression of C.", "quantifier": "for all expressions of the grammar, of any length and nesting, all declarations of names, and all tokens that follow", "why_tests_cant": "There are infinitely many combinations of operators; the parser is seventeen functions that call each other, and a wrong call is seen only by expressions with the right two operators side by side.", "anchors": ["src/parser/expression.c: primary_expression, postfix, postfix_expression, unary_expression, cast_expression, multiplicative_expression, additive_expression, shift_expression, relational_expression, equality_expression, and_expression, exclusive_or_expression, inclusive_or_expression, logical_and_expression, logical_or_expression, conditional_expression, assignment_expression, expression"]}
{"id": "C95", "title": "Only lvalues are assigned to", "statement": "An assignment or an increment is accepted if and only if its operand is a modifiable lvalue; expressions that are not lvalues, arrays and objects that are const are diagnosed.", "quantifier": "for all expressions of objects, calls, pointers, arrays, members, bit-fields, arithmetic, casts, conditional and comma expressions and assignments, of any nesting, and all types of objects and members", "why_tests_cant": "Whether an operand is an lvalue is a flag that every operation has to set or clear, and an operation that returns one of its operands unchanged leaves it set; which operands those are depends on types and constants.", "anchors": ["src/parser/eval.c: eval_assign, eval_addr, eval_deref, eval_cast, eval_add, eval_sub, rvalue, eval_unary_plus, eval_neg, create_var, eval_conditional_type", "src/parser/expression.c: conditional_expression, assignment_expression, expression, postfix, unary_expression"]}
{"id": "C96", "title": "A macro is what its last definition says", "statement": "After any directives that are accepted, each name is the macro that its last #define says, unless #undef came later. Defining a macro again is accepted if and only if the definition is the same, and everything else is diagnosed.", "quantifier": "for all sequences of #define and #undef lines, all parameter lists and replacement lists of any length", "why_tests_cant": "A definition is compared with one that may be thousands of lines and several headers away; the ways in which two lists of tokens and parameters differ are unbounded, and a difference that is overlooked shows only where the macro is used.", "anchors": ["src/preprocessor/directive.c: preprocess_define", "src/preprocessor/macro.c: define, undef, macrocmp, tok_cmp"]}
{"id": "C97", "title": "Lines have the names and numbers that C says", "statement": "Every line of a file and of the files it includes has, in diagnostics, `__FILE__` and `__LINE__`, the presumed name and number of C99 6.10.4: lines are counted through comments, splices and blocks that are left out, an included file has its own name and counts from one, the including file goes on behind it with its own, and `#line` sets them for the lines of the same file that follow.", "quantifier": "for all files with any nesting of includes, with any number of lines of text to each logical line, any conditionals that are left out and any `#line` directives", "why_tests_cant": "Tests look at a few numbers; a count lost in a spliced line, a block left out or an include shows only in particular nestings", "anchors": ["src/preprocessor/input.c: getprepline, push_file, pop_file, set_input_file, is_directive", "src/preprocessor/directive.c: preprocess_line_directive, in_active_block"]}
{"id": "C98", "title": "Tags denote the types that C says", "statement": "Each specifier `struct S`, `union S`, with or without a list of members, is the type C99 6.7.2.3 says: a new one or one declared before, complete or not, with declarations of inner scopes hiding those of outer ones until the scope ends; types that are defined twice and tags used with another kind are diagnosed, and nothing else is.", "quantifier": "for all programs of declarations with tags, blocks, prototypes and function definitions of any nesting", "why_tests_cant": "Which declaration a tag refers to depends on everything declared before it in all enclosing scopes; tests use few scopes and seldom the same tag twice", "anchors": ["src/parser/declaration.c: struct_or_union_declaration, enum_declaration, parameter_list", "src/parser/statement.c: block", "src/parser/symtab.c: sym_lookup, sym_add, push_scope, pop_scope"]}
{"id": "C99", "title": "Enumeration constants have the values C says", "statement": "An enumeration constant has the value of its expression, or one more than the constant before it, or zero for the first, in every expression in its scope, which begins right behind its enumerator and is hidden by declarations of inner scopes; constants that are not representable as `int` and names declared twice in a scope are diagnosed.", "quantifier": "for all programs of enumerations and blocks of any nesting, with any constant expressions over the constants in scope", "why_tests_cant": "A value depends on all enumerators before it and on the scopes they are in; tests have few lists, and none at the ends of the range", "anchors": ["src/parser/declaration.c: enumerator_list", "src/parser/symtab.c: sym_add, sym_lookup, sym_redeclare"]}
{"id": "C100", "title": "Statements are grouped as the grammar of C says", "statement": "The tokens of a function body are accepted exactly if they are statements by the grammar of C99 6.8, and they are read as these statements: an `else` belongs to the nearest `if`, a body to its loop, a label to the statement behind it, and what is behind a statement is left alone.", "quantifier": "for all sequences of tokens, with statements of any nesting, for functions with and without a result", "why_tests_cant": "The grammar has infinitely many nestings; tests have a few, and mostly correct ones, so that accepting too much is not seen", "anchors": ["src/parser/statement.c: statement, block, if_statement, do_statement, while_statement, for_statement, switch_statement"]}
{"id": "C101", "title": "Parameters of old-style function definitions have the types of their declarations", "statement": "In a definition with a list of identifiers, such as `int f(a, b) char *b; { ... }`, the parameters are those of the list, in its order, each with the type of its declaration (arrays and functions as pointers) or `int` without one, whatever the order of the declarations and whatever the names are at file scope. In the body each name has that type. Declarations of names that are not in the list or are declared twice, and names of types in the list, are diagnosed.", "quantifier": "all lists of identifiers, all lists of declarations and all names declared before at file scope", "why_tests_cant": "The order of the declarations, missing declarations and names that also exist at file scope combine freely; tests have a few lists.", "anchors": ["src/parser/declaration.c: identifier_list, parameter_declaration_list, make_parameters_visible, init_declarator, declaration", "src/parser/typetree.c: type_add_member, find_type_member", "src/parser/symtab.c: sym_add, sym_lookup"]}
{"id": "C102", "title": "An invocation compiles and links what the command line says", "statement": "Every source file on the command line is processed once, in order, in the language its name or the last -x before it gives, to the output that -o or the default names; the linker gets objects, libraries and options in the order of the command line, between the files that begin and end a program; every output that is compiled for linking is linked. Invocations without inputs, with files that cannot be compiled, or with one -o for several outputs are refused.", "quantifier": "all command lines", "why_tests_cant": "Options, files and modes can come in any order and number, and what an argument means depends on those before and behind it.", "anchors": ["src/lacc.c: flag, option, language, set_output_name, add_input_file, add_linker_library, add_linker_path, add_linker_flag, parse_program_arguments, main", "src/backend/linker.c: init_linker, add_linker_arg, invoke_linker"]}
{"id": "C103", "title": "Assignments and conditional expressions are checked as C says", "statement": "Whatever C99 6.5.16.1 allows to be assigned, passed, returned or used as initializer compiles without a diagnostic; whatever it does not allow gets a warning or an error. The type of a conditional expression is the one of 6.5.15: pointers to compatible types give a pointer to the type with the qualifiers of both, a null pointer constant gives the other type, a pointer to void gives a pointer to void; other pairs of operands are refused.", "quantifier": "For all pairs of a target type and a value, and all pairs of operands of a conditional expression, with any qualifiers and depth of pointers", "why_tests_cant": "There are infinitely many pairs of types; a table of tests covers the combinations somebody thought of, and not each combination of qualifiers, void, null constants and pointer depth.", "anchors": ["src/parser/eval.c: eval_prepare_assign, eval_prepare_assign_pointer, eval_prepare_assign_bool, has_qualifiers, eval_conditional_type, is_nullptr", "src/parser/typetree.c: is_compatible, is_compatible_unqualified, type_apply_qualifiers"]}
{"id": "C104", "title": "Operands of addition, subtraction and comparisons are those C allows", "statement": "a + b, a - b, relations and equality compile without a diagnostic exactly when C99 6.5.6, 6.5.8 and 6.5.9 allow the types of the operands (arithmetic types, pointers to complete types with integers, pointers to compatible types, pointers to void and null pointer constants for equality), and the result has the type C says: that of the usual conversions, of the pointer, long for differences of pointers, int for comparisons.", "quantifier": "For all pairs of operands with types of any depth and qualifiers, any sizes of structures and any set of incomplete ones, and both orders of the operands", "why_tests_cant": "Each test has one pair of types; the rules depend on both types, their order, completeness, constness and on whether a value is a null pointer constant, which gives more combinations than tests have.", "anchors": ["src/parser/eval.c: eval_add, eval_sub, prepare_comparison_operands, eval_cmp_eq, eval_cmp_ne, common_compare_type, eval_cmp_ge, eval_cmp_gt", "src/parser/expression.c: relational_expression, equality_expression", "src/parser/typetree.c: size_of, is_compatible_unqualified"]}
{"id": "C105", "title": "Operands of multiplicative, bitwise, shift and unary operators and of casts are those C allows", "statement": "An expression with *, /, %, &, |, ^, <<, >>, unary +, -, ~, ! or a cast compiles exactly when C allows the types of the operands (arithmetic, integer or scalar; no cast between pointers and floating types), and has the type C says: that of the usual conversions, of the promoted left operand for shifts, of the promoted operand for unary operators, int for !.", "quantifier": "For all operators and all operand types of any depth, size and qualifiers", "why_tests_cant": "Tests show that expressions they contain compile; that no other pair of types is accepted or gets another type is a statement about all types.", "anchors": ["src/parser/eval.c: eval_cast, eval_mul, eval_div, eval_mod, eval_or, eval_xor, eval_and, eval_lshift, eval_rshift, eval_not, eval_neg, eval_unary_plus", "src/parser/expression.c: unary_expression, cast_expression", "src/parser/typetree.c: promote_integer, usual_arithmetic_conversion"]}
{"id": "C106", "title": "sizeof is the size of complete types and is refused for others", "statement": "sizeof applied to a complete type gives its size in bytes; sizeof, _Alignof and arrays of void, functions, incomplete structures and arrays without length are refused.", "quantifier": "For all types, with arrays nested to any depth and of any length, and structures of any size", "why_tests_cant": "Tests look at some sizes; that every incomplete type at every depth of nesting is refused, and that products of lengths are exact, is about all types.", "anchors": ["src/parser/expression.c: unary_expression", "src/parser/typetree.c: is_complete, size_of, type_create_array, type_create_incomplete", "src/parser/declaration.c: array_declarator"]}
{"id": "C107", "title": "Parameters and arguments are matched one to one", "statement": "A list of parameters is accepted if and only if the grammar of C allows it, with arrays and functions adjusted to pointers; a call is accepted if and only if it has as many arguments as the function takes, and each argument is converted to the type of its own parameter, and promoted if it has none.", "quantifier": "For all lists of parameters and all lists of arguments, of any length", "why_tests_cant": "Tests call functions with the right number of arguments; that every wrong number is refused, and that no argument is converted to the type of another parameter, is about all pairs of lists.", "anchors": ["src/parser/declaration.c: parameter_list, direct_declarator", "src/parser/expression.c: postfix", "src/parser/typetree.c: type_add_member, type_seal"]}
