# Verification of lacc: design

Subject: `/repo` (larmel/lacc, a C89 compiler written in C89). The code is read as
text; nothing in `/repo` is built, run or changed. The model is written by hand in
Lean 4 and proofs are checked by Lean's kernel.

## 1. Trusted base

* **Lean 4.33.0 kernel**, and the axioms `propext`, `Classical.choice`, `Quot.sound`.
  No other axiom is used; no `native_decide`, `bv_decide`, `implemented_by`, `unsafe`.
  `decide` / `decide +kernel` only evaluate finite decidable propositions in the kernel.
* **The transcription** of C into Lean. Every model definition cites file and lines.
  A reviewer compares them side by side. Simplifications are said at the definition.
* **The specifications** (files `*/Spec.lean`): C99 rules, System V ABI rules, processor
  decoding rules, ELF rules and finite-map semantics, restated as small definitions that
  do not mention model functions.
* **Memory allocation succeeds** (`malloc`/`realloc` are not modelled) and counters kept in
  C `int` do not overflow 2^31 unless the theorem says otherwise (they are `Nat` in the
  model; where overflow is itself the subject, e.g. C19, C22, machine words are modelled).
* **Data representation**: C arrays are Lean lists or arrays, pointers into hash tables are
  values, C strings are `List UInt8`/`List Char`. Aliasing that matters (shared statement
  array C60, bucket array C01, interned string storage C02) is modelled explicitly.
* **Undefined behaviour** is a distinct outcome (`none`, or a constructor such as
  `Res.ub`/`Outcome.ub`), not a default value; theorems either prove it is not reached or carry the
  precondition in their statement.

Not modelled anywhere: file I/O and libc formatting, host floating point rounding,
`-dot` output (`backend/graphviz`), K&R declarations, DWARF beyond the root entry (dwarf.c writes no other),
the bodies of most `compile_*` instruction selectors other than those listed below
(modelled are calls, entry and exit of functions and their results, `va_start` and `va_arg`, assignment of
structures and unions, conversions, integer expressions and assignments, comparisons, the
order of blocks and the jumps between them, these together as whole function bodies (C89), pointers, array elements and members (C91), the encoder, the inline assembler, the
text of instructions in assembly output, the object file writer, and of the parser
expressions with integers, calls, pointers, arrays, members and bit-fields (C72, C77, C88, C90), initialisers (C26, C27, C92), declarators (C84), the grammar of expressions (C94), lvalues (C95), definitions of macros (C96), names and numbers of lines (C97), tags (C98), enumeration constants (C99), the grammar of statements (C100), old-style function definitions (C101), what is compiled and linked (C102), the checks of assignments and conditional expressions (C103), of operands of additions and comparisons (C104) and of other operators and casts (C105), `sizeof` (C106), lists of parameters and arguments (C107), the flow graph, the bookkeeping of definitions and of inline functions, and the pool of `long
double` constants).  The machine of `Abi/Machine.lean` has unbounded addresses; theorems state
that the stack in use is inside of the 64 bit address space.
Immediates of stores, pushes, comparisons and arithmetic of 8 bytes are sign extended from 32 bits as the
processor does (`encoded`); adding a constant to a pointer register (`addi`) is not limited this way.

## 2. Conventions

* `Verif/<Area>/Model.lean` — transcription; `Spec.lean` — independent specification;
  `Lemmas.lean` — helper lemmas; `Verif/Props/Cnn.lean` — property theorems (names
  `Cnn_...`), each followed by an `example` that instantiates its hypotheses.
* `_partial` suffix: the theorem covers less than the property; the full statement is in
  the comment above together with what is missing.
* `_violated` suffix: proved negation with a concrete witness (a bug in the code).

## 3. Per property: model and proof plan

| id | model | proof |
|----|-------|-------|
| C01 | `src/util/hash.c` whole: bucket array with tombstones, probing, growth | representation invariant (probe-path) by induction on op lists; refinement to a function `key → Option value` |
| C02 | `strtab.c` interning, `String` inline/long representation | representation is injective; invariant: one entry per content |
| C03 | same | read back law + stability under later interns |
| C04 | `include/lacc/deque.h`, `array.h` | simulation relation to an abstract list |
| C05 | `string.c` printchar/fprintstr; spec: C escape reader (and lacc's own `convert_escape_sequence`) | induction over bytes, octal digits always three |
| C06 | `input.c` read_line, read_comment, read_literal, read_trigraph as automata | agreement with translation-phase spec for sources w/o trigraph marks; violations for `??` |
| C07 | `tokenize.c` punctuator switch | equality with longest match over the spelling table |
| C08 | constant_integer_type + suffix reader | against the C99 6.4.4.1 table for all 2^64 values |
| C09 | branch_stack of directive.c | induction over a grammar of nested groups |
| C10 | recursive-descent evaluator of directive.c on token lists | parser/evaluator vs. standard-grammar reference; violations for `==` chains, `\|` chains, short circuit |
| C11 | macro.c expand/expand_line/expand_macro, object-like and function-like macros | termination measure = unpainted macro names; painting invariant |
| C12 | preprocess.c add_to_lookahead/is_lookahead_ready, with deque | stream transducer = run-merge specification |
| C13 | macro.c stringify + tokenize.c convert_preprocessing_string | round trip by induction |
| C14 | input.c include_file/include_system_file/create_path | file system as predicate; first-match spec |
| C15 | argparse.c match_rule/match_arg/parse_args and the option table in lacc.c | rule semantics; the table gives `-Wl,` to the `-W<` rule (finding) |
| C16 | `Layout/Model.lean`: typetree.c add_member, adjust_member_alignment, type_add_member, type_seal; a member type is its size, alignment and flags | induction over member lists vs `Layout/Spec.lean` (`Lowest`, `Placed`, `Largest`) |
| C17 | same: pack_field_member, type_add_field, reset_field_alignment, backing_type_from_bits | invariant `Good` gives no overlap for all declaration lists; simulation with the ABI rule (`AllBits`) for uniform runs; violations elsewhere |
| C18 | same: type_add_anonymous_member | compared with the layout of a named member (`FlattenedAs`); violations for inner alignment, tail padding and fields |
| C19 | same: type_create_array with 64-bit wrapping arithmetic | exact when the product fits; violations with concrete counts |
| C20 | `Types/Model.lean`: promote_integer, usual_arithmetic_conversion, default_argument_promotion | case analysis over all pairs vs the rank rules in `Types/Spec.lean` |
| C21 | same: the 32-bit `Type`, the table of `struct typetree`, type_equal, is_compatible with fuel | `Den` relates representations to C types; the functions decide `=` and a relation `Lax`; `Lax` vs `Compatible` (C99 6.2.7); violations |
| C22 | `Fold/Model.lean`: eval.c constant folding of integers with `BitVec 64` and an outcome for undefined behaviour in the compiler | `Holds` relates constants to (type, value); equality with the value C assigns (`Fold/Spec.lean`, exact integers) for all operators and values; violations |
| C23 | same: convert, imm_signed, imm_unsigned, eval_cast | equality with 6.3.1.3 for all types and values |
| C24 | `Symtab/Model.lean`: the arrays of scopes and the table of globals of symtab.c, sym_lookup, sym_make_visible, sym_add | every operation also gives an event; the table agrees with a stack of maps (`Symtab/Spec.lean`) after all histories, also after leaving any number of scopes |
| C25 | same: sym_redeclare, sym_apply_type, and the choice of storage state in declaration and init_declarator | state machine of 6.2.2/6.9.2 (`stepObj`, `stepFun`), induction over declaration lists; violations |
| C26 | `Init/Model.lean`: sort_and_trim, initialize_padding, zero_initialize_bytes, postprocess_object_initialization, validate_contiguous_initialization on targets (offset, field, size) and values; parsing of the braces and designators is not modelled | memory as bits (`Init/Spec.lean`); sorting commutes separate writes and absorbs repeated ones; padding is exact; violation for a member after its whole structure |
| C27 | `Init/Model.lean`: merge_assignments, normalize_field_assignment | consecutive statements are linked (same unit, same size class); merging preserves the writes and gives whole bytes; five violations |
| C28 | `Specifiers/Model.lean`: the loop of declaration_specifiers and the choice of the type; struct, union and enum bodies are one token | the loop state determines the multiset read so far; finite tables over states and tokens lifted to all token lists by induction; violations |
| C29 | Cfg/Model: switch_statement, add_switch_case, case and default labels; comparison of constants from Fold | C30 plus an induction over clause lists; case conversion by C22 |
| C30 | Cfg/Model: statement.c 82-357, 536-691 and the control operators of expression.c as trees, primitive operations abstract (class `Prim`: any type of operations with any meaning; functions on states are one instance, the expressions of `Expr/` another, C89) | open-block invariants give a graph relation (TrS), then forward simulation with a measure, determinism for the converse |
| C31 | Compare/Model: relational and equality operators, `!` | case analysis over Option Ordering |
| C32 | `Fold/ConstExpr.lean`: constant_expression over expression trees, tracking whether the current block changed | induction over trees: exactly the `decided` trees are accepted, with their C value; violations |
| C33 | `Opt/Model.lean`: liveness.c whole, optimize.c data-flow iteration; `Opt/Spec.lean`: byte memory semantics of the IR, parametric in operators, callees, pointers | relation "agree on what is live" (`Opt/Flow.lean`, `Exec.lean`); chaotic iteration with a potential in either direction (`Solve.lean`); violation for partial stores |
| C34 | transform.c dead_store_elimination, optimize.c optimize (`asm`, VLA left out) | block-by-block simulation (`Transform.lean`, `Whole.lean`), composed over rounds (`Optimize.lean`); four violations |
| C35 | transform.c can_merge, merge_chained_assignment | semantic equality of the pair up to the dead variable; violation when storing through the merged pointer |
| C36 | execute_iterative_dataflow, serialize_basic_blocks, skip_empty_blocks, loop of optimize | rounds weigh less; old solution stays above the new one; jump threading is a stuttering simulation (`Skip.lean`); violation on empty cycles |
| C37 | abi.c whole (`Abi/Model.lean`); the ABI text as `SysV.passing` on the list of basic objects (`Abi/Spec.lean`) | `classify_agrees` by induction over nested types; violations by `decide` |
| C38 | compile.c: emit_load, load_int, load, load_address, push, slice_type, move_to_from_registers, alloc_register_params, push_function_arguments, compile_call, enter, allocate_locals, epilogue (`Abi/Code.lean`), as instructions of a machine with registers and byte memory (`Abi/Machine.lean`) | invariant over argument lists (`StackHolds`, `RegsHold`) from the caller through `enter` to `RegParams`; `SysV.locations` as independent placement |
| C39 | the same frame computation | chain of regions by induction; violations by `decide` |
| C40 | Abi/Assign: compile_cast and store_copy_object for structures and unions, emit_memcpy (`Abi/Copy.lean`), load_x87 and store_x87 for long double; `touches` lists all memory accesses of a run | the copy loop tiles the object, by induction; every access inside of the objects or the pointer variables; violations for sizes 3, 5, 6, 7 and for arguments on the stack  |
| C41 | Compare/Model: compile_compare, set_compare_value, branches of compile_block | flags of CMP/UCOMIS/FUCOMIP from the Intel manual; case analysis, word arithmetic by omega |
| C42 | Encode/Model: encode_modrm_sib_disp, encode_address | independent reader of ModR/M, SIB and displacement (Encode/Decode, from the Intel manual); field arithmetic for all registers, scales and 32-bit displacements; violations: index %rsp, displacement without base |
| C43 | Encode/Model: the whole table `encodings[]` (103 rows), match_instruction_encoding, find_encoding, encode_* | independent decoder for the opcode maps; heads of all instructions decided by evaluation over the finite set of registers and widths, addresses and immediates composed with general lemmas; violations for the forms listed below |
| C44 | same | structural length bound over any row and operands; violation for cmp with an 8-byte immediate |
| C45 | Elf/Model: elf_text, text_displacement, flush_text_displacements, over any list of calls of a translation unit | refinement of the writer to an abstract object; the finished file, read by an independent reader, linked at any address and decoded by Encode/Decode, holds a jump whose target is the place of the label |
| C46 | Elf/Model: elf_section_write, chain_offsets, write_sections | the reader finds the headers and each section's bytes at the offset stated; offsets do not overlap; alignment is refuted with a witness |
| C47 | Elf/Model: strtab_add | every name offset in the file leads to exactly the name given, NUL terminated |
| C48 | Elf/Model: symtab_add, symtab_assoc, flush_symtab_globals, elf_symbol | entries of the file characterised one by one; locals before globals; sh_info is the first global, refuted when there is none |
| C49 | Elf/Model: add_relocation, flush_relocations, elf_data | the linked section, for every base address and every assignment of addresses, decodes to the symbolic operand asked for; data images hold the address plus addend |
| C50 | Dwarf/Model: ULEB128_encode, dwarf_write_ULEB128 | independent reader inverts the encoder; lengths by induction; buffer and assertion violations for all large numbers |
| C51 | main/invoke_linker status | violations (modulo 256, exec failure, signals) |
| C52 | change_file_suffix | string functions vs spec |
| C53 | Unit/Model: cfg_block_init, append_statement, begin_throwaway_block, restore_block (parse.c:122-192); nested to any depth | mutual induction: what is parsed in between only grows the lists, the statements are cut back exactly; violation for the blocks |
| C54 | Unit/Model: parse, pop_inline_function, the driver's loop; a function is its flags and the functions its code refers to | worklist invariant: emitted iff reachable from an emitted root (`Needed`), no function twice |
| C55 | Abi/VaArg: va_start, va_arg, deconstruct_va_arg, on top of the caller and `enter` of C38 | invariant `Pending` (the list says where the next argument is) kept by every read (`va_step`), established by `va_start` after any call (`start_pending`), walked by induction; five violations  |
| C56 | `Conv/Model.lean`: `push`, `load_x87`, `load_cast`, `store_x87` as instruction lists for a machine with byte memory | Proved for every conversion `load_cast` has code for, and for `store_x87`, except signed operands of 2 or 4 bytes behind a pointer converted to `long double`, where `%rsp` ends 8 - size lower (violated). Other sequences that push are under C38 and C39 |
| C57 | LongDouble/Model: put_long_double, get_long_double, literals, unary minus; values are the 80 bit patterns, `==` is the comparison of numbers | proper patterns with the same number are equal but for zeros (`ceq_iff`); pool by induction over any sequence of constants; rounding to 53 bits is exact for values that fit; four violations |
| C58 | Asm/Model.lean: `regname` with its two tables, `parse_asm_int_reg`, `parse__asm__register`, `get_clobbered_register`; names by the manual in Asm/Spec.lean | tables by evaluation, lifted to all words; violation for words that begin with `xmm` |
| C59 | stringify_token/preprocess spacing | violation, partial |
| C62 | tokenize_internal keyword tree | keyword table vs longest word; `_Bool` etc. not expandable (violation) |
| C63 | stringtonum | inductive pp-number grammar, longest prefix |
| C61 | convert_escape_sequence | literal grammar vs converter; violation for `\x0x41` |
| C64 | branch_stack of directive.c | depth invariant; violations for unterminated `#if` and second `#else` |
| C65 | convert_preprocessing_number | inverse of the suffix/digit readers; violation for `08`, `1f` |
| C66 | initial_preprocess_line with arbitrary `fread` chunks | refinement to reading the whole file at once; output bound |
| C67 | expand_line/expand_macro/read_args with function-like macros | painting invariant for every result; nontermination witness |
| C68 | expand_stringify_and_paste | refinement to chains of operands with placemarkers; witnesses |
| C69 | lacc.c define_macro | string function vs spec |
| C70 | same as C16 | division by a zero alignment is the outcome `crash` |
| C71 | same: type_create_*, type_deref, type_next, type_set_* | `Den` is preserved and unique; violations for `restrict`, qualified arrays and the 16-bit reference |
| C60 | `Opt/Array.lean`: append_statement, statement_array_erase, the loops of transform.c on the shared array | frame property; refinement to the list versions used by C34, C35 |
| C72 | Field/Model: `rvalue` and which evaluation functions call it; expressions as in C88, with a table of widths of variables that are bit-fields | Each sub-expression is tracked as either a narrow bit-field itself or something with its C type already; where `rvalue` is called the former becomes the latter. The meaning is that of C88's source language with narrow bit-fields typed `int`. The violation is proved by showing that the code for `s.x * -1` is the same as for an ordinary `unsigned` |
| C73 | Cfg/Model: expression part | instance of C30 |
| C74 | `Linear/`: compile_block with its colouring, labels, omitted and inverted jumps (jump choice shared with C41); graphs of `Cfg/` | depth first emission invariant (each new block laid out once, falls through only into its successor, successors black), then a forward simulation block by block; determinism gives both directions; jumps of parser graphs stay inside (Linear/Graph.lean), composed with C30 |
| C75 | Compare/Model: x87 instruction sequences, register numbering of both back ends | execution on a model of the tagged register stack |
| C76 | Cfg/Model: acceptance part of statement.c and symtab.c:128-133 | the builder refines a checker over label and switch contexts, which is characterised by induction |
| C77 | Call/Model: argument lists with `push_argument_list`, `pop_argument_list`, the call in `postfix`, `eval_prepare_arg`, `eval_prepare_vararg`, `eval_push_param`, `eval_call`, `eval` of a call, comma, `eval_expression_statement`, on top of the operators of Expr (C88). Call/Spec: C's meaning with arbitrary functions, and the meaning of IR_PARAM and calls | induction over expressions and argument lists together; invariant: unused lists are empty, a call that was read but not made has exactly its own parameters pending; executions are unique |
| C78 | Elf/Model: elf_symbol, increment_function_size, section_align | value, size and section of each symbol's entry; functions tile .text, objects are disjoint and aligned |
| C79 | Elf/Model: assembleAll (lacc.c:612-708) with the static capacities of elf.c:103-144 | simulation of runs that differ in capacities; the abort is refuted with a witness |
| C80 | `Abi/Result.lean`: compile_return for objects and the store of the result in compile_call, on the machine of C38 | `Props/C80.lean`, with `SysV.resultRegs` as independent statement of the registers. The slices of an object are assigned as the ABI says (as for C38); loads, epilogue, clean-up and stores are composed, with C38_return_partial for the rest of the state |
| C81 | Dwarf/Model: dwarf.c as it is called for the root entry (three sections, relocations) | an independent DWARF 4 reader applied to the relocated sections finds the unit; missing terminator for every unit |
| C82 | Asm/Model.lean: the tokenizer of templates, registers, addresses, operands, `mnemonic_match_operands` over the encoder's table, `assemble_inline` over `read_line` (C06); Asm/Spec.lean: AT&T mnemonics and their operands by the manual; Asm/Text.lean: how operands and lines are written | the text is parsed to the operands written (Asm/TextLemmas, OperandLemmas); the search in the table does not look at register numbers beyond `%al`/`%cl` nor at values beyond their range, so operands are replaced by representatives (Asm/Match, MatchRep), all of which are evaluated against the manual's meaning (Asm/MatchCheck); bytes by C43; violations by evaluation |
| C83 | Asm/Out.lean: `asm_text`, `asm_address`, `immediate`, `regname`, `get_mnemonic` as the bytes printed, with the two buffers of 256 and 11 bytes; Asm/Gas.lean: an independent reader of lines by the GNU assembler's syntax (mnemonics and operands of Att in Asm/Spec.lean); the processor's reader is that of C43 | `C83_instruction_partial`: for every request of `Good` whose address can be written the line is read as the instruction the bytes are, with the same symbol and offset. Mnemonics by finite checks over representatives (`mnemonic_rep`), operand texts by round-trip lemmas for decimal numbers, names and addresses. Not covered: x87 instructions on registers, an index without scale, symbols with other bases, long names (violated, see findings) |
| C84 | Declarator/Model: declaration.c:56-425 (`parameter_list`, `array_declarator`, `direct_declarator`, `pointer`, `parameter_declarator`) and `type_patch_declarator` on tokens, types as trees; left out: variable lengths, qualifiers in brackets, K&R lists, the test of sizes | Declarator/Spec: the grammar of declarators as trees, their text, and their types as 6.7.5 derives them; induction over the depth of a tree: reading the text of it, with fuel enough, gives type, name and the rest; two violations |
| C85 | Unit/Model: declaration.c:1250-1263 (the flags of a function over its declarations), on top of C54 | same specifiers on all declarations: as C99 says; violation otherwise |
| C86 | `Conv/Num.lean` (rationals, rounding to p bits, ties to even), `Conv/Machine.lean` (SSE and x87 instructions, byte memory, control word), `Conv/Model.lean` (`load_cast` and everything below it) | `Props/C86.lean`. Each pair of kinds of types: result and what is kept. Rounding is proved to give a representable number with none nearer. Violated: `_Bool`, signed fields over 32 bits to real, signed register operands and fields to `long double`, `long double` to the upper half of `unsigned short` and `unsigned long`. Not modelled: NaN and infinities, exponent range (overflow, subnormal results), PIC addressing, constants (C23) |
| C87 | `Arith/Machine.lean` (the machine of C86 with integer arithmetic; division may trap), `Arith/Model.lean`: compile_add, compile_sub, compile_not, compile_mul, compile_div, compile_mod, compile_bitwise, compile_shl, compile_shr, compile_cast and store_op for integers, `Arith/Spec.lean`: the operators as C99 6.5 has them, `none` where it leaves them undefined | `Props/C87.lean`. Loads, operations and stores each with what they leave alone, composed. Violated: a bit-field of a variable as the left operand of `*`. Not modelled: floating operands, PIC, objects at constant addresses |
| C88 | `Expr/Model.lean`: the parser's evaluation of integer operators into assignments of at most two operands (eval.c as_expr, create_var, eval, cast_operand, eval_cast, the eval_* operators, eval_assign, eval_copy, prepare_assign; expression.c for unary, binary, assignment and increment), and code for each statement (compile_assign, compile_compare, set_compare_value); `Expr/Alloc.lean`: allocate_registers and allocate_locals; `Expr/Spec.lean`: values of trees and of statement lists by C99 | `Props/C88.lean`. Two steps. `SoundLemmas.lean`: the statements made from a tree give its value, in a semantics where variables and temporaries have numbers, by induction on the tree with weakest-precondition rules for the parser's monad. `RunLemmas.lean`: for any layout without overlap the code of each statement (by the theorems of C87, C86 and C41) keeps a relation between machine and numbers. |
| C89 | `Flow/Model.lean`: the graph of `Cfg/` where what does not branch is an expression or assignment of `Expr/`, code of every block, tests and returns (compile_block, compile_return, eval_return), laid out by `Linear/` and flattened to instructions and labels; `Flow/Spec.lean`: expressions that may be undefined, the abstract machine of `Cfg/Spec.lean` over them, and a machine with a program counter | `Props/C89.lean`. Five steps, each a forward simulation: source to the machine of the graph, where an undefined value is a state of its own that stays (SourceLemmas); to the graph, by C30 with the addition that only values just computed are read (Cfg/Sim); block by block to code, by the soundness of lowering and of code for statements from C88 (BlockLemmas, WalkLemmas); to the linear code, by C74; to instructions (FlatLemmas) |
| C90 | Ptr/Model: `struct var` with kinds IMMEDIATE, DIRECT, ADDRESS, DEREF of a symbol or a constant; `eval_addr`, `eval_deref`, `rvalue`, `eval_add`, `eval_sub`, comparisons, `eval_cast`, `eval_prepare_assign`, `postfix_expression` and `unary_expression` after parsing; operators on two integers are those of Expr/Model (C88), used through an abstraction of two operands. Ptr/Spec: memory of bytes, objects at addresses, meaning of expressions as lvalues or values. Ptr/Ir: meaning of the statements | induction over expressions; each evaluation function keeps memory and older temporaries, and its result is an operand that designates the object or has the value; offsets of dereferenced symbols stay below 2 GB, which is what `eval_addr` needs; partial: back end, bit-fields, calls |
| C91 | Ptr/Code: `compile_statement`, `compile_assign`, `compile_cast`, `displacement_from_offset`, `address_of` of the statements of C90, on top of Arith (C87) and Expr (C88). Ptr/CodeSpec: where objects and temporaries are, what may change | typing of the statements that the front end makes is carried through the proofs of C90 (`PStmt.Shape`); each accepted statement then leaves the machine and the environment of Ptr/Ir related (`Inv`); temporaries may be read as another type of the same size. Partial: copies of structures (C40), position independent code |
| C92 | Brace/Model: `initialize_object`, `initialize_member`, `initialize_array`, `initialize_struct`, `initialize_union`, `next_element`, `has_next_array_element` on tokens, elements being ways from the object instead of offsets. Brace/Spec: 6.7.8 with a current object and a place in it that moves on (`T.next`, `T.reach`, `T.go`), on syntax trees | the functions for inner objects without braces are shown to use up the items that the specification places in the object, by induction over the type (`mm`), for lists between braces by induction over their size (`lists`). Violated for six kinds of lists; the theorem is for all others. Partial also: a second item for a union, anonymous members, flexible array members |
| C93 | Listing/Model: `asm_symbol`, `asm_data`, `asm_flush` and `asm_init` as the bytes printed, `asm_text` as in C83, and the same calls as those of `elf_symbol`, `elf_data` and `elf_text` (Elf/Object.lean, related to the file by C45 and C47). Listing/Spec: a reader of listings by the manual of the GNU assembler: sections, labels, numbers, strings with escapes, addresses, alignment | each printed line is read as one change of what has been read (`Does`), and after every call the two are the same (`Same`), by induction over the calls. Violated for the alignment of common objects. Not covered: `-fno-common`, debug information |
| C94 | Grammar/Model: the functions of expression.c as a recursive descent parser from tokens to the tree of operations they apply. Grammar/Spec: the rules of C99 6.5, with the left recursion of the standard, and the tree of each | completeness by induction over derivations, where left recursion is shown to be what the loops do; soundness by induction over the depth of the stack. That nothing is ambiguous follows. Violations by the two theorems. Type names, initialisers and the number of parameters are parameters with what is asked of them (`Agree`) |
| C95 | Lval/Model: the flag `lvalue`, kind, symbol, type and offset of variables through `eval_*` and the functions of expression.c; errors by kind. Lval/Spec: the lvalues of C99 6.5 and the part of types needed | the flag is set for lvalues by induction; for the rest, with an invariant on variables (addresses have pointer type, constants are not lvalues, bit-fields are numbers) that holds where nothing is cast. Violations by evaluation |
| C96 | Define/Model: `preprocess_define` on tokens, `macrocmp`, `define` and `undef` on a table that is a function of names. Define/Spec: the syntax of 6.10.3, definitions that are the same, and the definition in force after directives | parameters and replacement by induction over the line; the table by induction over the directives, as `macrocmp` decides equality of what definitions are good for. Violations by evaluation |
| C97 | Lines/Model: the loop of `getprepline` with the stack of files, `current_file_path`, `current_file_line` and `stale`; text, `#include`, `#line`, `#if 0`, `#endif`. Lines/Spec: presumed names and numbers by recursion over files | a file is read to its end whatever is below it on the stack, by induction over files; witnesses for `#line` before `#include` and for an included file that ends in a block that is left out |
| C98 | Tags/Model: `struct_or_union_declaration` and `enum_declaration` on a stack of scopes with types that are numbers; blocks, prototypes and function definitions open and close scopes as the parser does. Tags/Spec: 6.7.2.3 with environments passed inwards | the stack of scopes is related to the environments, by induction over programs; a witness for each condition |
| C99 | Enums/Model: `enumerator_list` with `count`, `sym_add` and `sym_lookup` on a stack of scopes; constant expressions are functions of the constants in scope. Enums/Spec: 6.7.2.2 with environments | scopes related to environments, induction over lists and programs; witnesses for what is not diagnosed |
| C100 | Stmt/Model: `statement`, `block` and the functions for `if`, loops and `switch`, from tokens to trees, with fuel; expressions and declarations are tokens. Stmt/Spec: the grammar of 6.8 as a relation, with the rule for `else` | soundness by induction over fuel, completeness by induction over derivations, uniqueness from completeness; witnesses for what is refused or accepted wrongly |
| C101 | OldStyle/Model: `identifier_list`, `parameter_declaration_list`, `make_parameters_visible` and what they use of `init_declarator` and the table of symbols; types without qualifiers. OldStyle/Spec: what 6.9.1 allows, and the type of a parameter as a relation | the members are the list of identifiers with what the scope says of each, kept by every declaration; converse for what is accepted; witnesses for functions, storage classes, initializers and commas |
| C102 | Driver/Plan: the functions of the option table that are about files and the linker, the loop that removes unknown files by index, `main` and the arguments of the linker with glibc. Driver/PlanSpec: what each argument gives, from the arguments before it | invariant of the fold over arguments; the loop with `array_erase` is a filter; what is compiled is a sublist of what is linked; witnesses for `-Wl,`, `-x assembler` and equal names |
| C103 | `Verif/Assign/Model.lean`: `eval_prepare_assign`, `eval_prepare_assign_pointer`, `has_qualifiers`, `eval_conditional_type`, `is_nullptr`, `is_compatible_unqualified` on trees of types with qualifiers | The constraints of C are two inductive relations, `Assignable` and `CondType`. `C103_allowed`: all that is `Assignable` gives no diagnostic. `C103_diagnosed_partial`: what gives none is `Assignable`, unless the pointed to types differ in signedness or `restrict`, or the value is a null pointer of another type than `void *`. `C103_conditional_partial`: the type is the one of C up to top level qualifiers, unless an operand is `(void *) 0`, structures differ in qualifiers, or a pointer to a `restrict` type meets a pointer to void. `C103_refused_partial`: what C does not allow is refused, unless signedness differs or a pointer to a function meets a pointer to void. Seven witnesses show that each exception is needed. |
| C104 | Assign/Operators: the types in `eval_add`, `eval_sub`, `prepare_comparison_operands` with its exchange of operands, `common_compare_type`, `relational_expression` and `size_of`. Assign/OperatorsSpec: the constraints of C as relations | case analysis over types; addition in full; subtraction, relations and equality both ways, but for pointers to different types, signedness, functions, and `void *` with pointers to incomplete types, each with a witness |
| C105 | Assign/Arith: the types in `eval_mul`, `eval_div`, `eval_mod`, the bitwise and shift operators, unary operators and `eval_cast`. Assign/ArithSpec: integer promotions and the constraints of C as relations | case analysis over operators and types; binary and unary operators in full in both directions; casts but for floating types and pointers, with a witness |
| C106 | Sizeof/Model: `sizeof` and `_Alignof`, `is_complete`, `size_of` with 64 bits, and the end of `array_declarator`. Sizeof/Spec: complete types and their sizes as a relation | induction over types, with products modulo 2^64; `_Alignof` in full; witnesses for `void`, incomplete structures and functions |
| C107 | Calls/Model: `parameter_list` and the arguments in `postfix`, over tokens where a declaration or an expression is one token. Calls/Spec: lists of parameters and arguments, adjustment, number of arguments and conversion by position | induction over the lists in both directions; three witnesses |

The table is the plan; MANIFEST.json has the current status of each claim.

## 4. Findings (code disagrees with property)

Each finding is listed with the theorem that proves it once the model exists (see
MANIFEST.json for theorem names). Candidates collected while reading:

1. DSE removes stores to locals whose address escaped, when the only later reader is a call
   without pointer arguments (`liveness.c` uses).
2. `set_def_bit` treats a partial write through a cast as a full definition.
3. `merge_chained_assignment` moves the evaluation of `*p` lvalues across an assignment to `p`.
4. `volatile` is ignored by both optimisations.
5. `skip_empty_blocks` does not terminate on a cycle of empty blocks.
6. `#if 1 == 2 == 0` is evaluated right-associatively; `0 | 0 | 1` is false (second `|` not
   parsed); `0 && 1/0` is an error.
7. Unterminated `#if` at end of file is not diagnosed by the branch stack.
8. `??` not followed by a trigraph character drops the last character of the line
   (`C06_question_marks_violated`); `??/` before a newline does not splice
   (`C06_trigraph_splice_violated`); `???=` becomes `#` (`C06_three_marks_violated`).
9. `08`, `09` are accepted.
10. `-0.0L` and `0.0L` share a constant pool entry.
11. Zero-width bit-fields add the wrong padding (`struct { int a:21; char:0; char b:3; }`).
12. Anonymous struct members ignore inner alignment.
13. `int a[1l << 62]` has size 0.
14. Type compatibility ignores signedness and `...`.
15. Constant folding `LONG_MIN / -1`, shifts by ≥ 64 execute UB in the compiler.
16. Bit-field initialisers are lost when a merged unit is full.
17. `int long`, `double long` rejected; `float unsigned` accepted.
18. `restore_block` recycles only half of the discarded blocks.
19. `!(a >= b)` is compiled as `b > a`, wrong for NaN.
20. `1 && 1` is not accepted as a constant expression.
21. ABI: `_Bool` members, nested aggregates misclassified.
22. Encoding: several wrong forms (`sub mem, reg`, imm8 to memory with 0x82, byte SI/DI w/o REX).
23. Variadic prologue: register save area overlaps saved registers.
24. `load_x87` of 2/4 byte integers leaves %rsp unbalanced.
25. Section offsets padded by `offset % align`.
26. `sh_info` is 0 for a symbol table without globals.
27. ULEB128 buffer is 8 bytes, 10 needed.
28. Exit status: 256 errors → 0; linker killed or not found → 0.
29. `-Wl,` options are taken by the `-W` rule.
30. `-E` output merges `- -1` to `--1`.
31. `"\x0x41"` is read as `A`: `strtol` with base 16 skips a second `0x` prefix.
32. `_Bool`, `_Alignof`, `__asm` can not be macro names: `#define _Bool char` is rejected (`TOK` instead of `IDN` in the table).
33. `1f` is accepted as a floating constant; digraphs are not recognised.
34. `#define f(x) x`, `#define g f(h)`, `#define h f(g)`: expanding `g` recurses for ever
    (`C67_function_macros_violated`); `#define g f (1` then `g )` reads beyond the token array
    (`C67_argument_beyond_body_violated`).
35. `x ## y ## z` with `x`, `y` empty reads before the token array or pastes to an unrelated token
    (`C68_two_placemarkers_violated`, `C68_pasted_to_neighbour_violated`); `#define m a ##` reads
    beyond the replacement list (`C68_final_paste_violated`); `x ## #y` pastes with `#`
    (`C68_paste_string_violated`); `#define HASH #` is unusable (`C68_hash_body_violated`).
36. A source file whose path is `/x.c` has its quoted includes searched in the current directory, not
    in `/` (`C14_root_directory_violated`); `-I/` fails an assertion
    (`C14_root_search_path_violated`).
37. `-Wl,OPTION` is taken by the earlier `-W` entry and ignored (`C15_linker_options_violated`); the
    literal text of a rule such as `-f[no-]PIC` is accepted (`C15_bracket_text_violated`).
38. Exit status 0 after 256 errors, after failing to start the linker and after the linker was killed
    (`C51_error_count_violated`, `C51_linker_missing_violated`, `C51_linker_killed_violated`).
39. Bit-fields: a field after a plain member that does not end at a unit boundary, fields of different
    declared sizes, and zero-width fields are placed differently from the ABI
    (`C17_after_member_violated`, `C17_straddles_unit_violated`, `C17_mixed_units_violated`,
    `C17_zero_width_violated`).
40. Anonymous struct in struct: inner alignment and tail padding are ignored and bit-fields become plain
    members; the tail padding of an anonymous union is reused (`C18_inner_alignment_violated`,
    `C18_struct_padding_violated`, `C18_fields_violated`, `C18_union_padding_violated`).
41. The array size check wraps: for every element size there is a count that is accepted with a wrong size
    (`C19_array_wraps_violated`, `C19_every_element_size_violated`); a struct may exceed LONG_MAX
    (`C19_struct_too_large_violated`).
42. A struct member of type `void` or of incomplete struct type divides by zero in the compiler
    (`C70_incomplete_in_struct_violated`). A flexible array need not be the last member.
43. Type comparison ignores signedness (`C21_signedness_violated`), the ellipsis (`C21_ellipsis_violated`), promotion
    next to an unprototyped declaration (`C21_unpromoted_violated`) and the identity of structs
    (`C21_structs_violated`); it rejects compatible return types (`C21_return_type_violated`) and does not terminate on
    two recursive structs of the same shape (`C21_recursive_structs_violated`). `char`/`signed char` and
    `long`/`long long` have one representation.
44. `int *restrict *p` loses the qualifier (`C71_restrict_violated`); `typedef int A[3]; const A a;` does not make the
    elements const (`C71_qualified_array_violated`); the 32768th derived type of a translation unit gets a negative
    reference (`C71_many_types_violated`).
45. Constant folding executes undefined behaviour of the host: `LONG_MIN / -1` (a trap on x86), shift counts outside 0..63,
    signed `long` overflow (`C22_long_min_violated`, `C22_shift_count_violated`, `C22_long_overflow_violated`).
46. `1 && 1` and `0 || 1` are rejected as constant expressions: the result is in another block than the one
    constant_expression began with (`C32_logical_and_violated`, in general `C32_rejected_violated`).  `1 ? 2 : 1 / 0` fails
    `assert(def)` in create_var (`C32_unevaluated_violated`).
47. Declarations: `extern int x = 1;` is rejected (`C25_extern_init_violated`); a function may be defined twice
    (`C25_function_twice_violated`); `typedef int x; int x;` (`C25_typedef_violated`) and `{ int x; int x; }`
    (`C25_block_violated`) are accepted; after `int a[3] = {0};` the declaration `extern int a[];` is rejected
    (`C25_array_violated`).
48. Declaration specifiers: `int long` and `double long` are rejected (`C28_long_violated`); `float unsigned`, `_Bool
    signed`, `void unsigned` are accepted (`C28_sign_violated`) and `enum e unsigned` changes the type
    (`C28_enum_unsigned_violated`); `static register` is accepted (`C28_register_violated`); `inline inline` is
    rejected (`C28_inline_violated`).
49. Initialisers (C26): `{ .s = y, .s.a = 1 }` drops the rest of `y`, because sort_and_trim compares only offsets
    (`C26_member_override_violated`).
50. Initialisers (C27): a bit-field unit filled to byte 3, 5, 6 or 7 directly before the next member makes
    initialize_padding emit a store of width 0, which fails the check and with NDEBUG overwrites the unit
    (`C27_odd_byte_violated`).
51. Initialisers (C27): an object that is a single bit-field of full width fails the assertion in
    normalize_field_assignment (`C27_single_field_violated`).
52. Initialisers (C27): designators naming the fields of one unit out of order fail an assertion in initialize_padding
    (`C27_order_violated`).
53. Initialisers (C27): fields of type int filling 32 bits followed by fields of type long in the same unit: the
    merged width is reset to 0 and the next merge fails (`C27_mixed_types_violated`).
54. Initialisers (C27): a variable initialiser for the first field makes the constants of the following fields be
    shifted twice (`C27_variable_violated`).
55. Statements: `break` and `continue` outside loops are accepted and act as a return (`C76_stray_break_violated`);
    duplicate case labels are accepted (`C76_duplicate_case_violated`); `case 0x100000001L` in a switch on int is not
    converted to int (`C29_case_not_converted_violated`).
56. `!(a < b)` with a NaN operand gives 0 (`C31_unordered_violated`).
57. A branch on a long double leaves its value in an x87 register (`C75_truth_violated`); the encoder numbers x87
    registers by reg3(), not x87_stack_pos(), so object code has `fstp %st(2)` where assembly text has `fstp %st(0)`
    (`C75_object_violated`).
58. Liveness takes `*(char *) &x = 0` for an assignment of the whole of `x`, so dead store elimination removes an
    earlier `x = n` (`C33_partial_write_violated`, `C34_partial_write_violated`).
59. With the address of `x` saved in a static variable, `x = n; f();` loses the assignment: a call without pointer
    arguments is not taken to read anything (`C34_escape_violated`).
60. Assignments to automatic `volatile` variables are removed (`C34_volatile_violated`).
61. A discarded call returning a structure loses the temporary for its result, which code generation asserts to exist
    (`C34_aggregate_call_violated`).
62. `p = q; p->next = p;` is merged into `p->next = q;` with `p` unassigned (`C35_self_pointer_violated`).
63. `skip_empty_blocks` does not return for `for (;;) ;` (`C36_empty_loop_violated`).
64. An index register `%rsp` in an inline assembly address is dropped (`C42_rsp_index_violated`); a displacement with
    index but no base fails an assertion (`C42_no_base_violated`).
65. `sub` from memory to register is emitted as `sub` from register to memory, since its table row lacks the direction
    bit (`C43_sub_violated`). The compiler loads both operands itself, inline assembly reaches it.
66. `add`, `and`, `cmp`, `or`, `sub`, `xor` of a one-byte immediate and memory are emitted with opcode 82, invalid in
    64-bit mode (`C43_byte_memory_violated`).
67. `movb $imm, %reg` is emitted with opcode B8+r and one byte of immediate, so that the next three code bytes are
    swallowed (`C43_mov_byte_violated`). Reached by `char c = 5; asm("..." : "+r"(c));`.
68. `%sil`, `%dil`, `%spl`, `%bpl` are encoded without REX prefix in register forms, naming `%dh`, `%bh`, `%ah`, `%ch`
    (`C43_byte_register_violated`, `C43_byte_stack_register_violated`).
69. `movzx` from 4 to 8 bytes extends two bytes (`C43_movzx_violated`); `load_int` avoids it.
70. `cmp` with an 8-byte immediate outside -128..127, and every `test` with an 8-byte immediate, are emitted with
    eight immediate bytes of which the processor reads four (`C43_cmp_immediate_violated`); with a memory operand the
    instruction takes 16 bytes and overflows `code.val[15]` (`C44_cmp_violated`). The encoder is asked for it by no program: the compiler compares with smaller immediates, and inline assembly has no `cmpq` (C82).
71. Floating-point stack registers are off by one in the encoder (`C43_x87_register_violated`, see also
    `C75_object_violated`).
72. `elf_chain_offsets` (elf.c:183-210) pads each section by `offset % align` rather than by the distance to the next
    multiple; a section can then start at an offset that is not a multiple of its `sh_addralign`
    (`Verif.Elf.C46_alignment_violated`).
73. `sh_info` of `.symtab` is set only when a global symbol is added (elf.c:240-261); a file without global symbols
    has `sh_info = 0` instead of one more than the last local symbol (`Verif.Elf.C48_info_violated`).
74. The array `scap` in `elf_section_write` (elf.c:109) is static and survives from one input file to the next while
    sizes restart from zero; `lacc a.c b.c` aborts at `assert(offset)` when the first write to a section for `b.c` is
    not smaller than the capacity left by `a.c` (`Verif.Elf.C79_files_violated`).
75. `elf_text` (elf.c:650-660) drops every instruction whose first byte is 0x90, so `nop` in inline assembly vanishes
    from object files though not from assembly output (part of the hypotheses `Calls` of `Verif.Elf.C49_code`).
76. `flush_relocations` (elf.c:437-477) adds a byte offset to a pointer to structures; harmless because it is called
    once per section with offset zero (modelled as such).
77. A relocation against a symbol that is never declared gets symbol index 0 and so resolves to address zero without a
    diagnostic (elf.c:437-477; excluded by `Calls.names`).
78. `has_unaligned_fields` (abi.c:11-26) asks for offsets to be multiples of the *size* of a member instead of its
    alignment: `struct { int a; char b[3]; }` and `struct { int a; struct { int x, y, z; } s; }` are passed in memory
    where the ABI has registers. Calls between lacc and another compiler go wrong. `Verif.Abi.C37_aligned_violated`,
    `Verif.Abi.C37_nested_violated`.
79. `flatten` (abi.c:40-84) has no case for `_Bool`: passing or returning a structure with a `_Bool` member fails an
    assertion (`Verif.Abi.C37_bool_violated`).
80. `struct { long a; int :32; int :32; }` has an eightbyte of no class; `slice_type` asserts. Excluded by
    `Ordinary.full` in C38.
81. A `long double` (or other 16-aligned object) on the stack after an odd number of eightbytes is at a multiple of 8
    only, both in caller and callee (compile.c:1437-1528, 1793-1809): disagrees with the ABI
    (`Verif.Abi.C38_alignment_violated`).
82. `push` (compile.c:866-880) treats a floating point value as an integer to move it through %rax; if it is a
    temporary in %xmm8 to %xmm15, the encoder makes a move from %r8 to %r15 of it (`Verif.Abi.C38_vector_violated`,
    `Verif.Abi.C38_encoding_violated`). `f(1.0,2.0,3.0,4.0,5.0,6.0,7.0,8.0, x + y)` passes garbage.
83. In functions with a variable number of arguments the register save area begins at %rbp, where the callee saved
    registers have been pushed (compile.c:1840-1857, `reg_save_area_offset = 0` instead of `-reg_offset`): if the
    function uses a temporary in %rbx and is called with a floating point argument, %rbx of the caller is overwritten
    (`Verif.Abi.C39_saved_violated`).
84. Locals and parameters are at multiples of 8 in the frame: `long double` locals are misaligned
    (`Verif.Abi.C39_alignment_violated`).
85. `compile_return` for a result in memory (compile.c:3123-3134) jumps past loading %rax when source and destination
    are the same object, so that the caller may get an undefined %rax (not used by lacc's own callers; read from the
    code, not modelled).
86. `va_arg` with a floating point type and a result kept in %xmm8 to %xmm15: if the argument is on the stack, the
    general purpose register with the same number is loaded instead (compile.c:1956-2131;
    `Verif.Abi.C55_vector_violated`).
87. `va_arg` of a structure passed in registers writes whole eightbytes to the result: `s.a = va_arg(ap, struct F)`
    for `struct F { float f; }` overwrites the neighbour `s.b` (`Verif.Abi.C55_neighbour_violated`); the same for 3
    bytes in a general purpose register.
88. `*p = va_arg(ap, T)` where `ap` is a parameter stops the compiler at the assertion in compile.c:1973
    (`Verif.Abi.C55_pointer_violated`), `va_arg(s.ap, T)` for a `va_list` that is not at offset zero at another one
    (`Verif.Abi.C55_offset_violated`).
89. `va_arg(ap, long double)` does not round the stack address up to a multiple of 16
    (`Verif.Abi.C55_alignment_violated`); lacc's callers do not align either (finding on C38), so only calls from or
    to code of other compilers are affected.
90. `va_arg(ap, int);` as a statement of its own produces an expression without target, which the backend cannot
    compile, so the argument is not consumed; `va_start` with a `va_list` that is a parameter writes over the pointer
    variable itself (read from the code, not modelled).
91. Assignment of a structure or union of 3 bytes copies 4, of 5 to 7 bytes copies 8 (compile.c:2824-2850): the bytes
    behind the target are overwritten, the bytes behind the source are read (`Verif.Abi.C40_width_violated`).
92. A structure passed on the stack is copied in whole eightbytes and so up to 7 bytes behind the object are read
    (compile.c:881-888; `Verif.Abi.C40_push_violated`); at the end of a mapped page this faults.
93. The buffer for LEB128 numbers has 8 bytes where up to 10 are written (`C50_buffer_violated`), and the caller
    asserts a length of 1, so numbers from 128 on abort (`C50_assertion_violated`).
94. `.debug_abbrev` has no terminating zero entry (`C81_terminator_violated`).
95. Inline assembly, last line: a template whose last line does not end in a newline, as in `asm("add %%rax, %%rbx"
    :)`, is accepted and the line dropped silently (`C82_last_line_violated`).
96. Inline assembly, size of variables: `movl $5, %0` and `movl %%eax, %0` with an 8-byte variable store 8 bytes; the
    suffix is only looked at if no operand has a width (`C82_size_violated`).
97. Inline assembly, operand names: `%[a]` skips one character too many, which loses a comma or parenthesis that
    follows and reads past the end of the line at its end (`C82_name_violated`). The project's test has a blank after
    each.
98. Inline assembly, immediates: `$-1` and `$0x10` are rejected, `$` and `$08` are 0 (`C82_immediate_violated`).
99. Inline assembly, `cvtsi2sd (%rax), %xmm0` reads 8 bytes instead of 4 (`C82_cvtsi2sd_violated`).
100. Inline assembly, conditional jumps, `setcc`, instructions without operands and most suffixed names are unknown
    (`C82_missing_violated`), while `j` and `set` are accepted as the overflow condition, `movq %xmm0, %rax` becomes
    `mov %rax, %rax`, registers of different widths are accepted, `(%eax)` is `(%rax)`, and displacements are cut to
    32 bits (`C82_invalid_violated`).
101. `%xmm` and `%xmm007` are accepted as registers, also in clobber lists (`C58_xmm_violated`).
102. Assembly text: an index without scale from inline assembly, `(%rax,%rcx)`, is printed with scale 0, which the
    assembler rejects; the object code takes 0 for 1 (`C83_scale_violated`).
103. Assembly text: names of 250 bytes and more are written past the end of a static array of 256 bytes
    (`C83_long_name_violated`).
104. Assembly text and object code differ for `movb %sil, %al` and `subq (%rax), %rcx`: the text is right, the object
    code is not (`C83_object_violated`).
105. Assembly text: a label operand of `asm goto` used with `mov` is printed as a load from the label, and encoded as
    an immediate (`C83_label_violated`). A call through memory, `call 8(%rax)`, is printed without the `*`; the
    assembler takes it for an indirect call, with a warning.
106. `restore_block` (parse.c:176-192) compares a growing index with a length that shrinks, so only half of the blocks
    created for an operand of `sizeof` or an unreachable branch of `?:` are given back (`C53_blocks_violated`). They
    stay unreferenced in the definition, so only memory is wasted.
107. An inline function with another declaration that is `extern` or has no `inline` is not emitted, although C99
    6.7.4p7 then makes it an external definition: `inline int f(void) { return 1; } extern int f(void);` leaves `f`
    undefined for other units (`C85_external_violated`).
108. `0.0L / 0.0L` and every other long double constant that is NaN aborts the compiler (assertion in put_long_double;
    `C57_nan_violated`); zeros of both signs share an entry, so `(long double) -0.0` after `0.0L` is positive
    (`C57_zero_violated`).
109. Long double literals have the precision of double: `0.1L` is off by 819 units in the last place
    (`C57_literal_violated`; the comment at tokenize.c:255 says so).
110. Unary minus on long double is `0 - x`: `-0.0L` is positive, also at run time for variables
    (`C57_negative_zero_violated`).
111. `1 ? s : t` with structures and a constant condition is rejected: the result goes through eval_cast, which
    accepts scalars only (expression.c:878).
112. A cast to `_Bool` truncates: `(_Bool) x` is 0 for `x` equal to 256 and 2 for 2; `(_Bool) 0.5` of a variable is 0.
    Assignments convert properly (`eval_prepare_assign_bool`), casts do not (src/parser/eval.c:441-480). Theorems
    `C86_bool_violated`, `C86_bool_real_violated`.
113. A signed bit-field of more than 32 bits loses its upper bits when converted to `float` or `double`
    (src/backend/x86_64/compile.c:1007-1064 loads 4 bytes whatever the size of a field). Theorem
    `C86_wide_field_violated`.
114. A signed integer in a register converted to `long double` stops the compiler at the assertion in `load_x87`
    (src/backend/x86_64/compile.c:895-952), as in `long double f(int a, int b) { return a + b; }`. A pointer cast to
    `long double` is not rejected and stops there too. Theorem `C86_ldouble_register_violated`.
115. A signed bit-field converted to `long double` is read with all the bits of its storage unit. Theorem
    `C86_ldouble_field_violated`.
116. `long double` to `unsigned short` gives 32768 for values of 32768 and more, and to `unsigned long` gives 2^63 for
    values of 2^63 and more (`fistp` of the same width, src/backend/x86_64/compile.c:1092-1133). Theorems
    `C86_ldouble_ushort_violated`, `C86_ldouble_ulong_violated`.
117. `(long double) *p` for `int *p` or `short *p` leaves `%rsp` 4 or 6 bytes lower (8 bytes are pushed, but only the
    size of the operand is popped). Theorem `C56_dereferenced_violated`.
118. The constants that `compile_neg` creates once (`c32`, `c64`) are static variables that survive into the next
    translation unit given on the command line, whose object file then refers to a symbol it does not define
    (src/backend/x86_64/compile.c:2517-2552; seen by reading, not modelled).
119. `s.a * x` where `a` is a bit-field of the variable `s` multiplies the whole storage unit: `compile_mul`
    (src/backend/x86_64/compile.c:2581-2591) uses the operand in memory without asking whether it is a field, as
    `compile_div` and `compile_mod` do. With `struct { unsigned a : 3, b : 5; } s = {7, 1}` the product `s.a * 3` is
    45. Theorem `Verif.Arith.C87_product_violated`.
120. `compile_add` with a target in a register that is also an operand, and a constant as the other one, adds `%rax`
    without loading it (src/backend/x86_64/compile.c:2388-2412). The parser makes no such statement, because a
    temporary is never part of what it is assigned. Theorem `Verif.Arith.C87_sum_violated`. In the same way
    `compile_cast` of a temporary in a register to a bit-field (lines 2882-2886) shifts and masks the register of the
    temporary itself; temporaries are not used again after that.
121. `(_Bool) u` with `unsigned u = 256` assigned to a `long` gives 0: the same fault as finding for C86, seen through
    a whole program. Theorem `Verif.Expr.C88_bool_cast_violated`.
122. (C80, `C80_address_violated`) `struct S f(struct S *p) { return *p; }` with a large `struct S` and `x = f(&x)`:
    `compile_return` jumps over the copy when source and result are the same object, and over the instruction that
    puts the address in `%rax`. A caller compiled by another compiler reads the result through `%rax`.
123. (C80, `C80_overlap_violated`) A returned object that partly overlaps the result (members of a union) is copied by
    overlapping moves, and the result is wrong. C allows it: the value of a call is not an object.
124. (C80, `C80_width_violated`) `a[0] = f()` where the elements are structures of 3 (5, 6, 7) bytes: the result is
    stored with 4 (8) bytes straight into the target, so the first byte of `a[1]` is overwritten.
125. `eval_addr` (eval.c:1408) passes the `size_t` offset of a dereferenced member to `var_int`, so `&p->x` is wrong
    when `x` is at 2 GB or more; `C90_member_address_violated`.
126. A cast of an address to an integer narrower than a pointer, `(int) &x` or `(int)(long) &x`, makes the compiler
    abort: `load_int` (compile.c:686) asserts that an ADDRESS operand is loaded with 8 bytes. Outside the models,
    found by reading.
127. Reading through a constant address, `*(int *) 4096`, crashes the compiler: `emit_load` (compile.c:539) takes
    `var_direct(source.value.symbol)` for a DEREF although there is no symbol. Storing through it is handled, except
    for floating values, where `load_int` asserts. Outside the models, found by reading.
128. The results of `&*p` and `p + 0` keep the flag `lvalue`, so `&*p = q;` and `(p + 0) = q;` are accepted. They are
    constraint violations of C99 6.5.16.
129. `assign_field` (eval.c:1579) of a constant to an `unsigned` bit-field of 32 bits gives an immediate of type `int`
    that can be as large as 4294967295, so `(s.u = -1) == -1` is folded to 0 (C99 says that the value has the type of
    the field, so 1). Outside the models, found by reading.
130. `int n = (int) (long) &x;` stops the compiler: `load_int` (compile.c:698-701) asserts that an operand that is the
    address of a variable is loaded as 8 bytes, but a cast to a shorter integer loads it as 4;
    `C91_address_cast_violated`. Storing the pointer in a variable first avoids it.
131. `f(2)(1)`, where `f` returns a pointer to a function, calls `f` with 2 and 1 and what it returns with nothing:
    `postfix` (expression.c:206-210) pushes the parameters of the second call before it evaluates what is called,
    which is the first call; `C77_called_result_violated`. The same for `f()(1)`. Assigning the pointer to a variable
    first avoids it.
132. Bit-fields are not promoted by `* / % & | ^ << >> ~`, unary `+` and `?:` (eval.c:512-1150, 1313, 1827: no call of
    `rvalue`). With `struct { unsigned x : 3; } s` and `s.x == 1`, `long a = s.x * -1` is 4294967295 instead of -1
    (`C72_product_violated`). `s.x / -1`, `~s.x`, and comparisons with their results are wrong in the same way.
133. An expression for a union without braces of its own takes the comma behind it (`next_element` in
    `initialize_union`, initializer.c:222-240). `struct { union { int a, b; } u; int c; } s = {1, 2};` is rejected
    (`C92_union_violated`).
134. After a designator for an earlier element of an array, the number of elements so far is compared with the length
    and not the index (initializer.c:484). `int a[3] = {[2] = 1, [0] = 2, 3};` is rejected (`C92_backwards_violated`).
135. `next_element` does not stop at `[` inside of an element (initializer.c:133-150). `struct P a[2] = {[0].x = 1,
    [1].x = 2};` and `struct P a[2] = {1, [1] = {2}};` are rejected (`C92_index_violated`).
136. After the last member of a structure no designator is read (initializer.c:297-298). `struct P s = {1, 2, .x =
    3};` is rejected (`C92_last_violated`).
137. After a designator for the last member of an inner structure, the next item makes `get_member` read behind the
    members (initializer.c:285, typetree.c:608-616): `struct P a[2] = {[0].y = 1, 2};` fails an assertion, or reads
    memory that is no member if built without assertions (`C92_bounds_violated`).
138. No comma may end the braces around a scalar inside of a list (initializer.c:537-539): `int a[2] = {{1,}, 2};` is
    rejected (`C92_comma_violated`).
139. In the name of a type, a parenthesis before a bracket is taken for a list of parameters (declaration.c:331-346):
    `sizeof(int ([3]))` is rejected (`C84_bracket_violated`).
140. A typedef name in parentheses is always taken for a parameter (declaration.c:331-346): with `typedef char T;`
    outside, `void f(void) { int (T); }` should declare an `int` with the name `T`; the code reads a function without
    a name (`C84_typedef_violated`).
141. Seen in declaration.c and not proved: `int f(int,)` and `int f(void x)` are accepted; an array length inside of
    parentheses is not tested against the size of its elements, as these are void then (`int (a[1UL << 62])`), and
    `count * size_of` may wrap; `int (f(int))[3]`, a function that returns an array, and `int (a[3])(int)`, an array
    of functions, are accepted; `[*]` is rejected in prototypes.
142. Array designators behind the end of an array of known length are not diagnosed (initializer.c, seen when C92 was
    modelled and not proved): `int a[2] = {[5] = 1};`.
143. The listing gives common objects the alignment of their type, the object file that of the symbol, 16 for arrays
    (assemble.c:203 uses `type_alignment`, elf.c:642 `sym_alignment`): `char b[3];` is `.comm b,3,1` with -S. Proved,
    `C93_common_violated`.
144. Seen when modelling and not proved: `asm("nop")` without a colon is rejected (statement.c); `not (%%rax)` in
    inline assembly has no width and is encoded with width 0; a value of type `long double` stored through a pointer
    writes 16 bytes where the type has 10 significant ones, which is within the object; copies of more than 64 bytes
    call `memcpy` without saving temporaries in %xmm8 and above; a label at offset 0 of the text section is taken for
    one that is not set yet; calls with arguments to functions declared without prototype are rejected.
145. Compound literals are not read directly behind `sizeof`, `++` and `--`, because `unary_expression` is called and
    not `cast_expression`: `sizeof (int){1}` is read as `sizeof (int)` with `{1}` left over, and rejected. Proved,
    `C94_literal_violated`.
146. `c ? a : b = d` is read as `(c ? a : b) = d` where C has a syntax error (expression.c:921). Proved,
    `C94_assign_violated`.
147. The flag that says that an operand can be assigned is left set by operations that return an operand as it is:
    `(int) x = 5`, `(1 ? x : y) = 5`, `(x, y) = 5`, `&x = p`, `&*p = q`, `p + 0 = q` and `a + 1 = p` for an array are
    accepted; some of them change an object and others a temporary. `(c ? x : y) = 5` is accepted because new
    temporaries are marked as lvalues (expression.c:898). Proved, `C95_*_violated`.
148. `const` is not looked at in `eval_assign` (eval.c:1763): no assignment to or increment of a constant object is
    diagnosed. Proved, `C95_const_violated`.
149. `& &x` and an assignment to an array (other than of a string literal, which is accepted) stop on assertions
    instead of a message. Proved, `C95_crash_violated`.
150. `1 ? s : t` is rejected for structures, as `eval_cast` takes only scalars (expression.c:878). Proved,
    `C95_record_violated`.
151. Redefinitions that differ only in `...` are accepted, and the first is kept: after `#define F(x, ...) x` and
    `#define F(x, y) x`, `F` takes any number of arguments (macro.c:73, `is_vararg` is not compared). Names of
    parameters and white space are not compared either. Proved, `C96_variadic_violated`, `C96_spelling_violated`.
152. `#define F(x,) x` and `#define F(x, x) x` are accepted (directive.c:628-648). Proved, `C96_parameters_violated`.
    `__VA_ARGS__` in macros without `...` is not diagnosed either (seen, not proved).
153. After an `#include` the name and number set by an earlier `#line` in the including file are lost: they are set to
    those of the file itself (input.c:640-644). 6.10.4 has no such effect; output of a preprocessor or generator that
    is not completely expanded gets wrong diagnostics. Proved, `C97_include_violated`.
154. When an included file ends in a block that is left out (`#if 0` without `#endif`), `getprepline` calls
    `is_directive` with a null pointer (input.c:647-653): the compiler crashes instead of a diagnostic. Proved,
    `C97_conditional_violated`.
155. `#line 010` sets line 8 and `#line 0x10` is accepted (directive.c:690-699): the number is converted as a
    constant, where 6.10.4 has a digit sequence that is decimal. Not modelled.
156. Enumeration constants that are not representable as `int` are truncated without a diagnostic, and `count++` behind
    the constant 0x7fffffff overflows, also when it is the last (declaration.c:543-551). Proved, `C99_range_violated`,
    `C99_greatest_violated`, `C99_next_violated`.
157. A structure or union can not be declared in an inner scope with a tag that is visible from an outer one:
    `struct_or_union_declaration` does not look at the depth of the symbol it finds (declaration.c:489-511;
    `enum_declaration` does). A definition is refused as a redefinition, or as another kind; if the outer type is
    incomplete it is completed, for the outer scope too; `struct S;` does not declare a new type. Proved,
    `C98_hiding_violated`, `C98_hidden_kind_violated`, `C98_outer_violated`, `C98_alone_violated`.
158. Tags declared among the parameters of a function definition are not known in its body (declaration.c:356-364, the
    scope ends with the parentheses): `void f(struct S { int x; } *p) { struct S s; ... }` has an incomplete type.
    Proved, `C98_parameters_violated`.
159. `struct S { struct S { int a; } b; };` is not diagnosed as a redefinition: only the size is looked at, which is
    set at the end of the list (declaration.c:507-517). Proved, `C98_nested_violated`.
160. `enum E;` and `enum E x;` without any definition of `E` are accepted (declaration.c:569-583; 6.7.2.3 p2 forbids
    them). Not modelled.
161. An enumeration constant declared twice in a scope is accepted (declaration.c:545-551): at file scope the symbol
    is given the new value, in a block a second one is added. In a block this goes for any name: `int A; enum { A };`
    is accepted too, as `sym_add` calls `sym_redeclare` only for symbols of file scope (symtab.c:383-452). Proved for
    constants, `C99_twice_violated`.
162. An expression statement that begins with `-`, `+`, `!`, `~`, `&`, `sizeof` or `_Alignof` is taken for a
    declaration and refused (statement.c:665-679): `!p || f(p);`. Proved, `C100_unary_violated`.
163. A declaration is accepted wherever a statement is (statement.c:677-679), such as `if (a) int x;` and `L: int x;`.
    Its scope is then the enclosing block. Proved, `C100_declaration_violated`.
164. In `for`, behind a first expression that does not begin with an identifier any token is taken for the semicolon
    (statement.c:251-255, `next` where `consume` is meant): `for (++i) i; ) ;` is accepted. Proved,
    `C100_for_violated`.
165. A parameter of an old-style definition that is declared as a function stays a function (declaration.c:1072-1074
    adjusts arrays only): `int f(g) int g(); { ... }` has a parameter that is a function with external linkage, and
    not a pointer. If `g` is known at file scope, an assertion fails. Proved, `C101_function_violated` and
    `C101_function_global_violated`.
166. `int f(), g;` is refused (declaration.c:1055-1059): behind a function without prototype anything but `;` is taken
    for declarations of parameters. This refuses correct C89 programs. Proved, `C101_comma_violated`.
167. In old-style definitions `typedef int a;`, `auto int a;`, `int;` and `int a = 1;` are accepted as declarations of
    parameters, and `static` and `extern` end in a failed assertion instead of an error (declaration.c:1070). Proved
    for `typedef` and the initializer, `C101_storage_violated` and `C101_initializer_violated`.
168. An old-style definition gives the function a prototype (declaration.c:949, `type_seal`) with the types as
    declared. A parameter of type `float` is then passed as `float`, where callers in other files that have only `int
    f();` pass `double`. Not in the model.
169. The message of a failed `_Static_assert` is used as a format (declaration.c:1170, `error(str_raw(message))`):
    `_Static_assert(0, "100%s")` is undefined. Not in the model.
170. `-x assembler` only keeps a file from going to the linker as it is; `process_file` then compiles it as C
    (lacc.c:612-674 does not look at the language). Proved, `C102_assembler_violated`.
171. Files of the same name in different directories are compiled to the same object file, which is then linked twice
    (lacc.c:306, 569): `lacc x/a.c y/a.c`. The first file is lost. An existing `a.o` in the working directory is
    overwritten also when only an executable is asked for. Proved, `C102_same_name_violated`.
172. `-fPIE` and `-fno-PIE` are given to the linker as they are (lacc.c:518), where `-f` is an option of its own. Read
    from the table, not in the model of the linker.
173. `-l x` and `-L x` as two arguments read the byte two before the text (lacc.c:422, 434), which is in another
    string; this relies on how the system lays out arguments. Not in the model.
174. `int *p = u;` with `unsigned *u` gives no diagnostic, since `is_compatible` ignores signedness (C103, as C21).
175. `has_qualifiers` does not look at `restrict`: `int **p = q;` with `int *restrict *q` gives no diagnostic (C103).
176. Any null pointer counts as null pointer constant: `int *p = (float *) 0;` gives no diagnostic (C103).
177. `c ? p : (void *) 0` has the type `void *` and not the type of `p`, so `*(c ? p : (void *) 0)` is refused and
    `sizeof *(...)` is of `void` (C103).
178. `c ? s : t` is refused when the structures differ only in qualifiers, as in `const struct S s; struct S t;`
    (C103).
179. `c ? f : p` with a pointer to a function and a `void *` is accepted, which C does not allow (C103).
180. `c ? p : q` with `void *p` and `int *restrict *q` is refused: `type_apply_qualifiers` gives `restrict` to `void`,
    which `type_set_restrict` does not allow (C103).
181. `q - p` with `char *q` and `int *p` is compiled without a diagnostic, and divides by the size of `int`:
    `eval_sub` does not compare the types. `p - q` is refused with the message that the type is incomplete (C104).
182. `f < g` with pointers to functions gives no diagnostic (C104).
183. `p == NULL`, where `NULL` is `((void *) 0)`, gives a warning about incompatible types when `p` points to a
    structure that is not complete, or to a function: `prepare_comparison_operands` asks for a size and does not look
    for null pointer constants (C104).
184. `(int *) d` with a `double d` is compiled, and takes the bits of `d` as address, since only casts from pointers
    to floating types are refused in `eval_cast`; `(long double) p` is compiled as well, since `is_double` is not true
    for `long double` (C105; C11 6.5.4 does not allow either).
185. `sizeof (void)`, `sizeof (struct S)` for a structure without its members, and `sizeof f` for a function with a
    prototype are accepted and are zero: `is_complete` only looks at arrays and functions (C106). `malloc(sizeof
    (struct S))` is so compiled as `malloc(0)`.
186. `struct S a[10];` with an incomplete structure is accepted by `array_declarator` as an array of size zero (C106).
187. After its errors `_Alignof` goes on to `type_alignment`, which has assertions for just these types. Not in the
    model.
188. `int f(int a, );` is accepted: the loop in `parameter_list` ends at the parenthesis also behind a comma. `int
    f(void x);` is accepted as `int f(void)`. Both are constraint or syntax errors in C; proved in
    `C107_comma_violated` and `C107_void_violated`.
189. `int f(); ... f(1)` is refused, because arguments are only read for parameters of the type:
    `C107_prototype_violated` (mentioned in another finding above).
