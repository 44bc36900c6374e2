{
 "claims": [
  {
   "property": "C01",
   "status": "proved",
   "theorems": [
    "Pas.C01_arith",
    "Pas.C01_unary",
    "Pas.C01_bitwise"
   ],
   "note": "NEG/ABS/INC/DEC/NOT, ADD/SUB/MUL and AND/OR/XOR through execute, for all states with the operands inside memory."
  },
  {
   "property": "C02",
   "status": "proved",
   "theorems": [
    "Pas.C02_signed",
    "Pas.C02_unsigned",
    "Pas.C02_zero"
   ],
   "note": "All sixteen comparison instructions."
  },
  {
   "property": "C03",
   "status": "proved",
   "theorems": [
    "Pas.C03_zero",
    "Pas.C03_signed",
    "Pas.C03_unsigned",
    "Pas.C03_jmp"
   ],
   "note": "All conditional jumps and JMP."
  },
  {
   "property": "C04",
   "status": "partial",
   "theorems": [
    "Pas.C04_signed_partial",
    "Pas.C04_mod_exact",
    "Pas.C04_unsigned_partial",
    "Pas.C04_shift_partial",
    "Pas.C04_sra_partial",
    "Pas.C04_undefined_iff",
    "Pas.C04_violation"
   ],
   "note": "The values are proved where C defines them (C04_undefined_iff characterises exactly when it does not); C04_violation: DIV by zero, UMUL overflow and large shift counts are undefined behaviour in the VM, so the property as stated is false."
  },
  {
   "property": "C05",
   "status": "partial",
   "theorems": [
    "Pas.C05_store_word",
    "Pas.C05_store_byte",
    "Pas.C05_load",
    "Pas.C05_store_block_partial",
    "Pas.C05_load_block_partial",
    "Pas.C05_roundtrip_partial",
    "Pas.C05_violation_odd_block",
    "Pas.C05_violation_indexed"
   ],
   "note": "Word and byte stores and loads of every addressing mode are proved in full; block transfers are proved for even sizes (with round trip). C05_violation_odd_block and C05_violation_indexed exhibit the failures."
  },
  {
   "property": "C06",
   "status": "proved",
   "theorems": [
    "Pas.C06_call_return",
    "Pas.C06_level_byte",
    "Pas.C06_level_byte_machine"
   ],
   "note": "Call, intact header, return restores all registers; the level register side condition is an invariant (C06_level_byte). The hypothesis on the library is discharged for the modelled library (Props/Library.lean: machine_keeps, machine_noPc), assuming only that GETENV, SPAWN and the directory operations are ordinary."
  },
  {
   "property": "C07",
   "status": "proved",
   "theorems": [
    "Pas.C07_static_links",
    "Pas.C07_call",
    "Pas.C07_return"
   ],
   "note": "Invariant over every history of calls, returns and header-preserving steps."
  },
  {
   "property": "C08",
   "status": "partial",
   "theorems": [
    "Pas.C08_bad_pc",
    "Pas.C08_illegal",
    "Pas.C08_legal_partial",
    "Pas.C08_violation_longop24",
    "Pas.C08_legal_machine_partial",
    "Pas.C08_longop8"
   ],
   "note": "Bad pc and undefined opcodes are reported with the state unchanged; every defined opcode except LONGOP24 is dispatched. LONGOP24 is rejected by the interpreter (C08_violation_longop24). For the modelled library (machine p) no hypothesis on its routines remains except for GETENV, SPAWN and the directory operations (C08_legal_machine_partial); an undocumented operand of LONGOP8 is reported without other effect (C08_longop8)."
  },
  {
   "property": "C09",
   "status": "partial",
   "theorems": [
    "Pas.C09_fetch_partial",
    "Pas.C09_violation"
   ],
   "note": "Proved when the operand bytes of the instruction lie inside the program; for an instruction cut off at the end the interpreter reads past the code (C09_violation)."
  },
  {
   "property": "C10",
   "status": "partial",
   "theorems": [
    "Pas.C10_startup_partial",
    "Pas.C10_lac",
    "Pas.C10_violation_odd_strings",
    "Pas.C10_violation_wrap",
    "Pas.C10_violation_heap"
   ],
   "note": "Memory map, constants and registers proved when sizes are even and the sum fits 16 bits; violations for odd string sizes, 16-bit wrap-around and unaligned heaps are proved. The standard files are open after start-up: INPUT for reading, OUTPUT for writing, all other slots free (StandardFiles)."
  },
  {
   "property": "C11",
   "status": "proved",
   "theorems": [
    "Pas.C11_operators"
   ],
   "note": "All four operators, all sets, all states."
  },
  {
   "property": "C12",
   "status": "proved",
   "theorems": [
    "Pas.C12_relations"
   ],
   "note": "Equality, inequality and inclusion."
  },
  {
   "property": "C13",
   "status": "partial",
   "theorems": [
    "Pas.C13_member_partial",
    "Pas.C13_violation_64",
    "Pas.C13_include_exclude_partial",
    "Pas.C13_violation_include",
    "Pas.C13_singleton"
   ],
   "note": "Singleton is proved in full. Membership accepts ordinal 64 (C13_violation_64); Include/Exclude lack the range check (C13_violation_include)."
  },
  {
   "property": "C14",
   "status": "partial",
   "theorems": [
    "Pas.C14_subrange_partial",
    "Pas.C14_violation"
   ],
   "note": "Proved for GoodBounds, which is exactly where the code is right; other bounds are refuted by C14_violation."
  },
  {
   "property": "C15",
   "status": "proved",
   "theorems": [
    "Pas.C15_card"
   ],
   "note": "All 2^64 sets."
  },
  {
   "property": "C16",
   "status": "partial",
   "theorems": [
    "Pas.C16_arith_partial",
    "Pas.C16_violation_overflow",
    "Pas.C16_unary_partial",
    "Pas.C16_violation_least",
    "Pas.C16_step",
    "Pas.C16_bitwise",
    "Pas.C16_umul"
   ],
   "note": "INC/DEC/NOT, bitwise and unsigned multiplication exact for all operands; ADD/SUB/MUL/NEG/ABS exact whenever the result fits in 32 bits, undefined otherwise (C16_violation_overflow, C16_violation_least)."
  },
  {
   "property": "C17",
   "status": "partial",
   "theorems": [
    "Pas.C17_zero",
    "Pas.C17_equality_partial",
    "Pas.C17_violation_swapped",
    "Pas.C17_violation_examples",
    "Pas.C17_branch_partial",
    "Pas.C17_branch_zero_partial"
   ],
   "note": "Comparisons with zero, equality and the branch routine are right; the orderings compare in the wrong order (C17_violation_swapped, for all operands) and unsigned < ignores one operand."
  },
  {
   "property": "C18",
   "status": "partial",
   "theorems": [
    "Pas.C18_dup",
    "Pas.C18_widen",
    "Pas.C18_narrow",
    "Pas.C18_violation_xchg"
   ],
   "note": "DUP, widening and narrowing proved; XCHG is wrong (C18_violation_xchg)."
  },
  {
   "property": "C19",
   "status": "partial",
   "theorems": [
    "Pas.C19_blocks_partial",
    "Pas.C19_progress_partial",
    "Pas.C19_violation_overlap",
    "Pas.C19_violation_huge"
   ],
   "note": "Proved for every history in which DISPOSE is applied to the youngest live block (arbitrary program activity in between, requests up to 65520 bytes, heap below 32 KB). For other orders the property is false: C19_violation_overlap gives a history ending with two overlapping live blocks, C19_violation_huge one with a request above 65520 bytes."
  },
  {
   "property": "C20",
   "status": "partial",
   "theorems": [
    "Pas.C20_reuse_partial",
    "Pas.C20_refuse_partial",
    "Pas.C20_violation"
   ],
   "note": "Proved (with the exact converse) for stack-like histories; C20_violation shows that disposing in allocation order loses capacity."
  },
  {
   "property": "C21",
   "status": "partial",
   "theorems": [
    "Pas.C21_outside",
    "Pas.C21_twice_partial",
    "Pas.C21_violation_stale"
   ],
   "note": "Pointers outside the heap region: proved for every state. Disposed twice: proved right after the first DISPOSE in stack-like histories; C21_violation_stale shows that it goes unnoticed once the memory is in use again."
  },
  {
   "property": "C22",
   "status": "partial",
   "theorems": [
    "Pas.C22_assign",
    "Pas.C22_self",
    "Pas.C22_assign_temp_partial"
   ],
   "note": "Assignment from a string that is not a temporary is proved in full for every usable variable (C22_assign, C22_self). Assignment from a temporary (C22_assign_temp_partial) is proved for heap histories in which temporaries are given back youngest first."
  },
  {
   "property": "C23",
   "status": "partial",
   "theorems": [
    "Pas.C23_append_partial",
    "Pas.C23_full",
    "Pas.C23_char_partial",
    "Pas.C23_violation"
   ],
   "note": "Appending is proved when the result fits (C23_append_partial, C23_char_partial) and when it does not (C23_full: nothing happens). The property asks for as much as fits to be appended; C23_violation shows that the code appends nothing."
  },
  {
   "property": "C24",
   "status": "partial",
   "theorems": [
    "Pas.C24_compare_partial",
    "Pas.C24_order",
    "Pas.C24_violation_memcmp"
   ],
   "note": "Proved for every pair of strings, given a memcmp whose results fit into 16 bits. C24_violation_memcmp: with a standard-conforming memcmp returning larger values different strings compare equal."
  },
  {
   "property": "C25",
   "status": "partial",
   "theorems": [
    "Pas.C25_length",
    "Pas.C25_delete_partial",
    "Pas.C25_insert_partial",
    "Pas.C25_charAt_partial",
    "Pas.C25_pos_partial",
    "Pas.C25_dup_partial",
    "Pas.C25_copy_partial",
    "Pas.C25_violation_delete",
    "Pas.C25_violation_delete_zero",
    "Pas.C25_violation_insert",
    "Pas.C25_violation_insert_self",
    "Pas.C25_violation_charAt",
    "Pas.C25_violation_pos",
    "Pas.C25_violation_pos_nul"
   ],
   "note": "Length, Delete, Insert, CharAt, Pos, Copy and duplication are proved for positions inside the string, characters below 128 (CharAt), no NUL characters (Pos). The C25_violation_* theorems show what goes wrong outside these conditions."
  },
  {
   "property": "C26",
   "status": "partial",
   "theorems": [
    "Pas.C26_delete",
    "Pas.C26_insert",
    "Pas.C26_fill",
    "Pas.C26_violation_char",
    "Pas.C26_violation_array"
   ],
   "note": "Delete, Insert and FillChar never write outside buffer and descriptor, for every position and count; assignment is covered by C22_assign, appending a string by C23. C26_violation_char and C26_violation_array: appending a character to a full temporary and storing into a character array do write outside."
  },
  {
   "property": "C27",
   "status": "partial",
   "theorems": [
    "Pas.C27_init",
    "Pas.C27_disjoint",
    "Pas.C27_violation"
   ],
   "note": "Disjointness of all live buffers is proved for every history. C27_violation: only the start of the stack is checked, so buffers can overlap constant data."
  },
  {
   "property": "C28",
   "status": "partial",
   "theorems": [
    "Pas.C28_sizes",
    "Pas.C28_roundtrip",
    "Pas.C28_eof",
    "Pas.C28_machine",
    "Pas.C28_advance",
    "Pas.C28_generate",
    "Pas.C28_violation_long",
    "Pas.C28_advance_machine"
   ],
   "note": "Round trip, sizes, the machine's view and the advance of the program counter are proved for all well-formed programs; violated by long (32-bit) jumps, which are written as four bytes and read as two (C28_violation_long). The hypothesis on the library is discharged for the modelled library (Props/Library.lean: machine_keeps, machine_noPc), assuming only that GETENV, SPAWN and the directory operations are ordinary."
  },
  {
   "property": "C29",
   "status": "partial",
   "theorems": [
    "Pas.C29_operand_partial",
    "Pas.C29_violation_unsigned",
    "Pas.C29_merge_partial",
    "Pas.C29_behaviour_partial"
   ],
   "note": "Operand relocation, whole-program merging and behaviour at the new place are proved for programs without unsigned jumps (behaviour also without calls and returns); violated for the jumps JULT, JUGTE, JUGT, JULTE (C29_violation_unsigned)."
  },
  {
   "property": "C30",
   "status": "partial",
   "theorems": [
    "Pas.C30_unary_partial",
    "Pas.C30_violation_gtz",
    "Pas.C30_fold_partial",
    "Pas.C30_violation_div",
    "Pas.C30_violation_mod",
    "Pas.C30_violation_ult",
    "Pas.C30_violation_udiv",
    "Pas.C30_violation_zero"
   ],
   "note": "Folding of one- and two-operand operators on constants is proved for every operator and operand except those listed in the side conditions; unsound folds (GTZ, DIV/MOD sign, unsigned comparison, UDIV, division by zero) are C30_violation_*."
  },
  {
   "property": "C31",
   "status": "partial",
   "theorems": [
    "Pas.C31_unary_partial",
    "Pas.C31_violation_div",
    "Pas.C31_violation_lt",
    "Pas.C31_adjacent",
    "Pas.C31_push",
    "Pas.C31_constLoad_partial",
    "Pas.C31_violation_zero_sub",
    "Pas.C31_violation_zero_lt",
    "Pas.C31_otherConst_partial",
    "Pas.C31_violation_udiv",
    "Pas.C31_swap_partial",
    "Pas.C31_violation_negate",
    "Pas.C31_neg_add",
    "Pas.C31_address_partial",
    "Pas.C31_violation_las"
   ],
   "note": "Every strength reduction of the unary and binary passes (constant with load, constant operand, swap, addresses) is proved under the stated side conditions; unsound ones are C31_violation_*. The long-integer passes are C62; what the string passes do to a program is C80, how the rules are put together is C81."
  },
  {
   "property": "C32",
   "status": "partial",
   "theorems": [
    "Pas.C32_unary_partial",
    "Pas.C32_violation_jgtz",
    "Pas.C32_branch_partial",
    "Pas.C32_violation_not",
    "Pas.C32_violation_neg"
   ],
   "note": "Every branch rewrite is proved to take the same branch and leave the same stack under BranchOk; unsound ones are C32_violation_*."
  },
  {
   "property": "C33",
   "status": "partial",
   "theorems": [
    "Pas.C33_fetch",
    "Pas.C33_load_twice",
    "Pas.C33_indexed_partial",
    "Pas.C33_violation_indexed",
    "Pas.C33_xchg",
    "Pas.C33_inds_load",
    "Pas.C33_dup_store",
    "Pas.C33_store_load_partial",
    "Pas.C33_violation_byte",
    "Pas.C33_violation_middle",
    "Pas.C33_indexed_store_partial",
    "Pas.C33_violation_lar",
    "Pas.C33_indexed_block_partial"
   ],
   "note": "Every rewrite of the stack-order, load and store passes is proved for variables in the live part of memory; unsound ones (bytes, frame-header crossing, unchecked middle instruction, LAR) are C33_violation_*."
  },
  {
   "property": "C34",
   "status": "partial",
   "theorems": [
    "Pas.C34_finalize_partial",
    "Pas.C34_behaviour_partial",
    "Pas.C34_violation_unsigned"
   ],
   "note": "Structure (C34_finalize_partial) and behaviour (C34_behaviour_partial) of the finalized program are proved for every program without unsigned jumps; for unsigned jumps the finalizer leaves the label number as the target (C34_violation_unsigned)."
  },
  {
   "property": "C35",
   "status": "proved",
   "theorems": [
    "Pas.Link.C35_resolution",
    "Pas.Link.C35_order"
   ],
   "note": "For all symbols of all units, in any order (C35_order); C36_link_partial shows the whole linker uses it."
  },
  {
   "property": "C36",
   "status": "partial",
   "theorems": [
    "Pas.Link.C36_link_partial",
    "Pas.Link.C36_operands",
    "Pas.Link.C36_frame"
   ],
   "note": "C36_frame holds for all programs and relocations. The link theorem needs inputs as the compiler makes them (no jumps on unsigned comparisons, which C29 shows are not moved; relocations of the two known kinds), at most eight inputs (a ninth overflows an array), code below 2^32 bytes and at most 2^24 symbols."
  },
  {
   "property": "C37",
   "status": "partial",
   "theorems": [
    "Pas.Link.C37_lines_partial",
    "Pas.Link.C37_constants_partial",
    "Pas.Link.C37_violation_files",
    "Pas.Link.C37_violation_large"
   ],
   "note": "False for inputs without file names (undefined behaviour, C37_violation_files) and beyond 65536 bytes of constants (C37_violation_large); proved below the limits."
  },
  {
   "property": "C38",
   "status": "partial",
   "theorems": [
    "Pas.Props.C38_roundtrip_partial",
    "Pas.Props.C38_numbers",
    "Pas.Props.C38_cut_section",
    "Pas.Props.C38_truncated",
    "Pas.Props.C38_foreign",
    "Pas.Props.C38_violation_files",
    "Pas.Props.C38_violation_files_example",
    "Pas.Props.C38_violation_debug"
   ],
   "note": "Round trip through writer and reader for every history of building calls with at most one file name, and debug records only with at most one relocation; rejection of every proper prefix and of foreign files. The excluded cases are undefined behaviour of the code (C38_violation_*)."
  },
  {
   "property": "C39",
   "status": "proved",
   "theorems": [
    "Pas.Props.C39_history",
    "Pas.Props.C39_forever",
    "Pas.Props.C39_again"
   ],
   "note": "Every history of additions to a string table."
  },
  {
   "property": "C40",
   "status": "partial",
   "theorems": [
    "Pas.Props.C40_swap16",
    "Pas.Props.C40_swap32",
    "Pas.Props.C40_symtab",
    "Pas.Props.C40_reltab",
    "Pas.Props.C40_linetab",
    "Pas.Props.C40_headers",
    "Pas.Props.C40_violation_filetab",
    "Pas.Props.C40_violation_debug"
   ],
   "note": "Values, headers, symbol, relocation and line tables of any length; the file-name and debug tables cannot be converted (C40_violation_*)."
  },
  {
   "property": "C41",
   "status": "partial",
   "theorems": [
    "Pas.Props.C41_total",
    "Pas.Props.C41_lookup_partial",
    "Pas.Props.C41_single",
    "Pas.Props.C41_violation"
   ],
   "note": "Lookup is exact for addresses before the last entry; at or after it the entry before the last is returned (C41_violation)."
  },
  {
   "property": "C42",
   "status": "partial",
   "theorems": [
    "Pas.Props.C42_readback_partial",
    "Pas.Props.C42_violation",
    "Pas.Props.C42_violation_overrun"
   ],
   "note": "All records come back when each has at most 189 parameters and the last has one; otherwise C42_violation*."
  },
  {
   "property": "C43",
   "status": "partial",
   "theorems": [
    "Pas.C43_string",
    "Pas.C43_char_partial",
    "Pas.C43_violation"
   ],
   "note": "Every text without line breaks and NULs of length other than one, and every ASCII character; characters beyond ASCII get a sign extended value (C43_violation)."
  },
  {
   "property": "C44",
   "status": "partial",
   "theorems": [
    "Pas.C44_identifier",
    "Pas.C44_decimal",
    "Pas.C44_real",
    "Pas.C44_hexadecimal_partial",
    "Pas.C44_violation_dollar",
    "Pas.C44_violation_binary"
   ],
   "note": "Identifiers, decimal literals and %-hexadecimal literals; $ literals are not read as numbers and % literals announced as binary are hexadecimal (C44_violation_*). Real literals denote their digits scaled by their exponent, read as far as the scanner reads them (C44_real); the rounding of strtod is not modelled."
  },
  {
   "property": "C45",
   "status": "proved",
   "theorems": [
    "Pas.C45_recognised",
    "Pas.C45_unique",
    "Pas.C45_words",
    "Pas.C45_alias",
    "Pas.C45_token",
    "Pas.C45_disjoint"
   ],
   "note": "Table search and classification by the tokenizer, for every name and every symbol table."
  },
  {
   "property": "C46",
   "status": "partial",
   "theorems": [
    "Pas.C46_lookup",
    "Pas.C46_level",
    "Pas.C46_restore",
    "Pas.C46_token_partial",
    "Pas.C46_violation"
   ],
   "note": "Table lookup proved for every history of declarations and scopes (C46_lookup, C46_restore); by the tokenizer except for declared names that are alternative spellings of predefined ones (C46_violation)."
  },
  {
   "property": "C47",
   "status": "partial",
   "theorems": [
    "Pas.Src.C47_value_partial",
    "Pas.Src.C47_run_time_partial",
    "Pas.Src.C47_name",
    "Pas.Src.C47_violation_comparison",
    "Pas.Src.C47_violation_parentheses",
    "Pas.Src.C47_violation_or",
    "Pas.Src.C47_violation_overflow",
    "Pas.Src.C47_violation_zero",
    "Pas.Src.C47_violation_succ",
    "Pas.Src.C47_violation_negative"
   ],
   "note": "C47_value_partial: every integer, character and Boolean constant expression (also with ABS, SQR, PRED, SUCC, ORD, CHR) that stays within 32 bits gets exactly its value; C47_run_time_partial: within 16 bits it is the value the compiled expression pushes. Violations: comparisons and parentheses are rejected, integer OR subtracts, larger values differ from the run-time value, division by zero, SUCC(FALSE), negative names. Missing: reals, strings, scalars, ODD, SIZEOF."
  },
  {
   "property": "C48",
   "status": "partial",
   "theorems": [
    "Pas.Src.C48_expression_partial",
    "Pas.Src.C48_violation_boolean_order",
    "Pas.Src.C48_violation_ord",
    "Pas.Src.C48_violation_succ",
    "Pas.Src.C48_violation_abs",
    "Pas.Src.C48_violation_mixed_product",
    "Pas.Src.C48_violation_constant"
   ],
   "note": "16-bit ordinal expressions, with ABS, SQR, PRED, SUCC, ORD, ODD and CHR: compiled without error, typed, and the code pushes exactly the value and changes no word up to the top of the stack, at any place of any program. Violations proved: ordering of Booleans generates no comparison, integer*longint unbalances the stack, constants 32768..65535 become negative integers, ORD(TRUE) is -1, SUCC(FALSE) is not TRUE, ABS refuses short integers. Missing: long integers, reals, strings, sets, other calls, arrays of several dimensions, records, pointers."
  },
  {
   "property": "C49",
   "status": "partial",
   "theorems": [
    "Pas.Src.C49_deterministic",
    "Pas.Src.C49_statement_partial",
    "Pas.Src.C49_violation_case_true",
    "Pas.Src.C49_violation_repeat_continue"
   ],
   "note": "C49_statement_partial: for every correct statement of the modelled language (assignment to variables and elements of arrays, BEGIN/END, IF, WHILE, REPEAT, FOR, CASE, BREAK, CONTINUE, READ and READLN of integers and characters, all nestings) over the 16-bit ordinal types the compiler accepts it without error and the code, wherever it is placed, takes the machine from a state holding the store to one holding the store that the big-step semantics of Pascal prescribes, with the same stack pointer and nothing else below it changed; C49_deterministic: the semantics is a function. Missing: long integers, reals, strings, sets, records, pointers, GOTO, WITH, VAR parameters. Calls of procedures: C72. Violations: CASE with TRUE is rejected, CONTINUE in REPEAT skips the test."
  },
  {
   "property": "C50",
   "status": "partial",
   "theorems": [
    "Pas.Src.C50_for_partial",
    "Pas.Src.C50_violation_short",
    "Pas.Src.C50_violation_order",
    "Pas.Src.C50_violation_word",
    "Pas.Src.C50_violation_maxint"
   ],
   "note": "C50_for_partial: the body is executed exactly once for each value of the range in order, then the loop ends. Missing: limits that are the last integer, words from 32768, short variables, limits mentioning the control variable: all violated (C50_violation_*)."
  },
  {
   "property": "C51",
   "status": "partial",
   "theorems": [
    "Pas.C51_extension_partial",
    "Pas.C51_bounds",
    "Pas.C51_violation",
    "Pas.C51_basename",
    "Pas.C51_parts"
   ],
   "note": "Proved for every path whose directory part has no period (C51_extension_partial), with bounds for every path (C51_bounds) and base names (C51_basename); C51_violation shows that a period in the directory part is taken for the start of the extension."
  },
  {
   "property": "C52",
   "status": "partial",
   "theorems": [
    "Pas.Src.C52_machine_partial",
    "Pas.Src.C52_program_partial"
   ],
   "note": "C52_program_partial: every correct program (heading, CONST definitions with constant expressions over the constants defined before and around, VAR declarations of the ordinal types of at most 16 bits and of arrays of them, nested and recursive procedures with value parameters and local variables, any statements of C49, WRITE, READ) given as tokens is compiled without error, finalized, encoded and linked, and the linked program, loaded into a machine with a large enough stack, stops with eEXIT and with exactly the variable values the big-step semantics prescribes. Missing: functions, VAR parameters, other types, the peephole optimizer in the chain (its rules are C30-C33), (the tokenizer is in C71, the files between the tools are in C78), programs longer than 65535 bytes (programs that do not end are in C83). C52_machine_partial: the same with the modelled library routines in place of an arbitrary library."
  },
  {
   "property": "C53",
   "status": "proved",
   "theorems": [
    "Pas.C53_memory_map",
    "Pas.C53_machine"
   ],
   "note": "Over runs of any length; library routines are assumed to leave the map alone (Lib.Keeps), proved for the modelled ones. The hypothesis on the library is discharged for the modelled library (Props/Library.lean: machine_keeps, machine_noPc), assuming only that GETENV, SPAWN and the directory operations are ordinary."
  },
  {
   "property": "C54",
   "status": "partial",
   "theorems": [
    "Pas.C54_divmod_partial",
    "Pas.C54_udivmod_partial",
    "Pas.C54_violation_zero",
    "Pas.C54_shift_partial"
   ],
   "note": "Exact where C defines the operation; zero divisors are undefined (C54_violation_zero)."
  },
  {
   "property": "C55",
   "status": "proved",
   "theorems": [
    "Pas.C55_push",
    "Pas.C55_index",
    "Pas.C55_xchg",
    "Pas.C55_adjust"
   ],
   "note": "PUSH, PUSHB, UPUSHB, LA, LAS, LAC, LAX, LASX, DUP, XCHG, INDS and INCS for every operand and state with room."
  },
  {
   "property": "C56",
   "status": "partial",
   "theorems": [
    "Pas.C56_layout",
    "Pas.C56_determined",
    "Pas.C56_symbols",
    "Pas.C56_single",
    "Pas.C56_violation_control",
    "Pas.C56_violation_hang",
    "Pas.C56_line_comment_partial",
    "Pas.C56_file",
    "Pas.C56_violation_long_line"
   ],
   "note": "Blanks, the three bracketed comment forms, all symbols, determinism; // comments within the line buffer. Violations: control characters read as token codes, unterminated comments never end, // comments beyond 255 characters."
  },
  {
   "property": "C57",
   "status": "partial",
   "theorems": [
    "Pas.Src.C57_variables_partial",
    "Pas.Src.C57_violation_type",
    "Pas.Src.C57_violation_twice",
    "Pas.Src.C57_violation_predefined",
    "Pas.Src.C57_violation_alias"
   ],
   "note": "C57_variables_partial: for all definitions of ordinal constants, all declarations of ordinal variables of at most 16 bits, and of arrays of them with a range of integers (bounds written as numbers or names of constants), in a program; each constant's name then means the value of its expression. Missing: other types, initial values. (Local variables and parameters: C72.) Violations: undeclared type (null pointer), duplicate names, redeclared predefined names, alias names, an array of 65536 bytes (C73_violation_size)."
  },
  {
   "property": "C58",
   "status": "partial",
   "theorems": [
    "Pas.Src.C58_set_constant_partial",
    "Pas.Src.C58_violation_overwritten",
    "Pas.Src.C58_violation_range",
    "Pas.Src.C58_violation_outside",
    "Pas.Src.C58_violation_difference",
    "Pas.Src.C58_violation_union",
    "Pas.Src.C58_violation_intersection"
   ],
   "note": "C58_set_constant_partial: lists of elements and of ranges that are correct on their own and do not share a word with an earlier item. Violations: a range drops earlier elements of its words, ranges beyond the first word are wrong or written outside the set, difference is reversed, union of three drops the second, intersection is rejected."
  },
  {
   "property": "C59",
   "status": "partial",
   "theorems": [
    "Pas.Popt.C59_terminates_partial",
    "Pas.Popt.C59_succeeds_partial",
    "Pas.Popt.C59_violation_udiv",
    "Pas.Popt.C59_violation_shift",
    "Pas.Popt.C59_violation_zero"
   ],
   "note": "C59_terminates_partial: every program with a label and without oUDIV, any length and relocations; C59_succeeds_partial: without multiplication, division and 32-bit operations the optimizer also never crashes. Violations: constant unsigned division never ends, constant division by zero and a 32-bit shift by a constant crash the optimizer. Missing: exact characterisation of which multiplications and 32-bit operations crash."
  },
  {
   "property": "C60",
   "status": "proved",
   "theorems": [
    "Pas.Popt.C60_structure",
    "Pas.Popt.C60_targets",
    "Pas.Popt.C60_closed"
   ],
   "note": "Over whole optimizer runs (window, string pass, all peephole rules), for every program that has a label before its end, as every compiled program has."
  },
  {
   "property": "C61",
   "status": "partial",
   "theorems": [
    "Pas.Popt.C61_relocations_partial",
    "Pas.Popt.C61_violation_dup",
    "Pas.Popt.C61_violation_store",
    "Pas.Popt.C61_violation_exchange"
   ],
   "note": "C61_relocations_partial: kept relocations are a subsequence, at starts of distinct instructions, in order. Violations: relocations end up on oDUP, loads of different external variables are merged, relocations are lost when loads are exchanged."
  },
  {
   "property": "C63",
   "status": "partial",
   "theorems": [
    "Pas.FloatOps.C63_arith",
    "Pas.FloatOps.C63_functions",
    "Pas.FloatOps.C63_exact",
    "Pas.FloatOps.C63_compare",
    "Pas.FloatOps.C63_compare_special",
    "Pas.FloatOps.C63_float",
    "Pas.FloatOps.C63_trunc_partial",
    "Pas.FloatOps.C63_violation_round",
    "Pas.FloatOps.C63_violation_trunc",
    "Pas.FloatOps.C63_illegal"
   ],
   "note": "C63_compare_special: comparisons with infinities and NaN. The rounding operations of the host (add, sub, mul, div, sqrt, sin, cos, atan, log, exp) are parameters. ROUND does not round (C63_violation_round); TRUNC of values outside the integers is undefined (C63_violation_trunc)."
  },
  {
   "property": "C64",
   "status": "partial",
   "theorems": [
    "Pas.C64_write",
    "Pas.C64_text_unique",
    "Pas.C64_refused",
    "Pas.C64_write_string",
    "Pas.C64_only_sysio"
   ],
   "note": "Proved for integers, words, long integers, long words, characters, ends of line and pages on every open file, for strings that are not temporaries, with the refusal of files that are not open for output; no other instruction touches files. REAL formatting is the host's. Missing: temporary strings (their release is C26), failing streams."
  },
  {
   "property": "C65",
   "status": "partial",
   "theorems": [
    "Pas.C65_read_integer_partial",
    "Pas.C65_read_char_partial",
    "Pas.C65_read_string_partial",
    "Pas.C65_read_string_long",
    "Pas.C65_readln",
    "Pas.C65_refused",
    "Pas.C65_numbers_partial",
    "Pas.C65_roundtrip_partial",
    "Pas.C65_violation_second_number",
    "Pas.C65_violation_end_of_file",
    "Pas.C65_violation_smallest",
    "Pas.C65_violation_long_line",
    "Pas.C65_violation_empty_line",
    "Pas.C65_read_real_partial",
    "Pas.C65_violation_real_blank",
    "Pas.C65_violation_real_exponent",
    "Pas.C65_violation_real_large"
   ],
   "note": "Proved for one item per line of at most 254 characters, with histories of any length and the round trip with WRITELN. Everything behind the first item of a line is lost (C65_violation_second_number), the end of the file is not noticed (C65_violation_end_of_file), -32768 is misread (C65_violation_smallest), empty lines are not recognised (C65_violation_empty_line), longer lines are cut (C65_violation_long_line). READ of a real: the number in decimal notation at the beginning of the line, exactly or up to a bound for the rounding, for all IEEE arithmetics (C65_read_real_partial); blanks in front give 0, exponents are ignored, large whole parts are undefined (C65_violation_real_blank, _real_exponent, _real_large)."
  },
  {
   "property": "C66",
   "status": "proved",
   "theorems": [
    "Pas.C66_alloc",
    "Pas.C66_full",
    "Pas.C66_free",
    "Pas.C66_distinct"
   ],
   "note": "Getting a number, all numbers in use, giving one back, and histories of any length with any other instructions in between: the numbers held are different and are exactly those in use."
  },
  {
   "property": "C67",
   "status": "partial",
   "theorems": [
    "Pas.C67_filepos",
    "Pas.C67_filesize",
    "Pas.C67_seek",
    "Pas.C67_eof_partial",
    "Pas.C67_eoln",
    "Pas.C67_write_block",
    "Pas.C67_read_block",
    "Pas.C67_block_roundtrip",
    "Pas.C67_violation_eof_input",
    "Pas.C67_violation_seekeof"
   ],
   "note": "FILEPOS, FILESIZE, SEEK, EOF and EOLN of named files, blocks of bytes with their round trip. EOF(INPUT) is wrong (C67_violation_eof_input), SEEKEOF and SEEKEOLN take a character too many (C67_violation_seekeof). Missing: EOF of files that grow while they are read."
  },
  {
   "property": "C68",
   "status": "partial",
   "theorems": [
    "Pas.C68_reset",
    "Pas.C68_rewrite",
    "Pas.C68_append",
    "Pas.C68_failed",
    "Pas.C68_close",
    "Pas.C68_file_roundtrip",
    "Pas.C68_assign",
    "Pas.C68_violation_reset_open",
    "Pas.C68_violation_reset_size"
   ],
   "note": "RESET, REWRITE, APPEND, CLOSE, ASSIGN, refusals, and the round trip of a block through a closed file. RESET of an open file is refused (C68_violation_reset_open); RESET with a record size hides the failure (C68_violation_reset_size)."
  },
  {
   "property": "C69",
   "status": "partial",
   "theorems": [
    "Pas.C69_str_partial",
    "Pas.C69_val_partial",
    "Pas.C69_val_overflow",
    "Pas.C69_val_refused",
    "Pas.C69_violation_str_append",
    "Pas.C69_violation_str_negative",
    "Pas.C69_violation_str_upper",
    "Pas.C69_violation_str_long",
    "Pas.C69_violation_val_octal",
    "Pas.C69_violation_val_code",
    "Pas.C69_violation_val_empty"
   ],
   "note": "STR of integers, words and long values within what the code can print, VAL of decimal numbers in and out of range and of texts that are no numbers. STR appends instead of replacing, prints negative integers unsigned, drops the upper half of long values and records a length beyond the buffer; VAL reads leading zeros as octal, accepts the empty text and stores the offending character instead of its position (C69_violation_*)."
  },
  {
   "property": "C70",
   "status": "partial",
   "theorems": [
    "Pas.Src.C70_write_partial",
    "Pas.Src.C70_program_partial",
    "Pas.Src.C70_appends",
    "Pas.Src.C70_constants_partial",
    "Pas.Src.C70_violation_boolean",
    "Pas.Src.C70_violation_string_width",
    "Pas.Src.C70_violation_integer_width",
    "Pas.Src.C70_violation_writeln_file",
    "Pas.Src.C70_violation_negative_width",
    "Pas.Src.C70_violation_comma",
    "Pas.Src.C70_violation_precision"
   ],
   "note": "WRITE and WRITELN to OUTPUT of ordinal values of at most 16 bits with field widths, and of string constants, from the tokens to the standard output: the compiled statement appends the texts of its items in order (C70_write_partial), programs have written what their meaning says (C70_program_partial), and what has been written is never changed (C70_appends). Missing: other files, reals, strings, long integers. Boolean values, widths of string constants, INTEGER widths and writeln(output) are rejected; negative widths are taken modulo 256; C70_constants_partial: the constants stay aligned; write(, x) is accepted, precisions are accepted for integers (C70_violation_*)."
  },
  {
   "property": "C71",
   "status": "partial",
   "theorems": [
    "Pas.Src.C71_tokens_partial",
    "Pas.Src.C71_layout_partial",
    "Pas.Src.C71_unclosed_string",
    "Pas.Src.C71_table",
    "Pas.Src.C71_source_partial"
   ],
   "note": "C71_tokens_partial: the characters of a file are read as the tokens they stand for; C71_layout_partial: white space, comments and case of words do not matter; C71_table: with a symbol table the tokenizer finds for each name the symbol the compiler's model works with; C71_source_partial: from the text of a program to the end of its execution and what it has written. Missing: the tokens of the parts of the language that are not modelled, include files and compiler directives in comments, and what is missing in C52 and C70 (functions, other types, the optimizer). C71_unclosed_string: a file with a string that is not closed on its line is never built. With the files between the tools: C78_source_partial."
  },
  {
   "property": "C72",
   "status": "partial",
   "theorems": [
    "Pas.Src.C72_violation_hide_constant",
    "Pas.Src.C72_deterministic",
    "Pas.Src.C72_appends",
    "Pas.Src.C72_call_partial",
    "Pas.Src.C72_violation_hide",
    "Pas.Src.C72_violation_same_name",
    "Pas.Src.C72_violation_parameters",
    "Pas.Src.C72_violation_parentheses"
   ],
   "note": "C72_call_partial: in the code of every correct program, a call of a procedure with value parameters, executed in any state that holds the variables, does what the meaning of the procedure says and comes back behind the call with the same stack pointer; parameters have the values of the arguments, each call has its own variables, variables of enclosing levels are found through the static links, recursion of any depth (as far as the stack suffices). C72_deterministic: the meaning does not depend on the bound of the depth. C72_appends. Whole programs with procedures: C52_program_partial, C70_program_partial, C71_source_partial. Missing: functions, VAR parameters, procedure parameters, other types. Violations: names of enclosing variables cannot always be redeclared, a local variable may have the name of a parameter, incorrect parameter lists crash the compiler, empty parentheses are accepted."
  },
  {
   "property": "C62",
   "status": "partial",
   "theorems": [
    "Pas.C62_unary_partial",
    "Pas.C62_binary_partial",
    "Pas.C62_shift",
    "Pas.C62_widen",
    "Pas.C62_violation_zero",
    "Pas.C62_violation_equal",
    "Pas.C62_violation_order",
    "Pas.C62_violation_narrow",
    "Pas.C62_violation_shift",
    "Pas.C62_violation_overflow",
    "Pas.C62_violation_folded_order"
   ],
   "note": "C62_unary_partial (one constant operand), C62_binary_partial (both), C62_shift (constant shift), C62_widen (conversion of a 16-bit constant): what one iteration of the optimizer makes of these instructions can replace them in every state. Missing: operations the optimizer gets wrong, shown by the violations: comparisons with zero leave two words, equality with 0 is dropped, order comparisons with 1 and -1 and of two constants differ from the machine (which has the operands reversed), conversion to 16 bits deletes the wrong instruction, shift by 0, undefined arithmetic in the optimizer. The theorems are about windows with just these instructions."
  },
  {
   "property": "C73",
   "status": "partial",
   "theorems": [
    "Pas.Src.C73_violation_size",
    "Pas.Src.C73_places",
    "Pas.Src.C73_read_partial",
    "Pas.Src.C73_assign_partial",
    "Pas.Src.C73_violation_bounds",
    "Pas.Src.C73_violation_dimensions"
   ],
   "note": "C73_places: elements do not overlap and are inside the array; C73_read_partial and C73_assign_partial: the compiled code reads and changes exactly the element whose number is the value of the index expression, if that is in the range. Whole programs that declare and use arrays are in C52, C57, C70 and C71 (example in Props/ArrayProgram.lean). Missing: arrays with several indices, other index and element types, negative bounds. Violations: an index outside of the range, constant or not, is not noticed and other variables are overwritten (C73_violation_bounds); fewer indices than the array has are accepted (C73_violation_dimensions); an array of 65536 characters gets no bytes and shares its place with the next variable (C73_violation_size)."
  },
  {
   "property": "C74",
   "status": "partial",
   "theorems": [
    "Pas.PoffMem.C74_relocations",
    "Pas.PoffMem.C74_line_numbers",
    "Pas.PoffMem.C74_symbols",
    "Pas.PoffMem.C74_tmp_symbols",
    "Pas.PoffMem.C74_file_names",
    "Pas.PoffMem.C74_program",
    "Pas.PoffMem.C74_tmp_program_partial",
    "Pas.PoffMem.C74_tmp_byte",
    "Pas.PoffMem.C74_constants_partial",
    "Pas.PoffMem.C74_strings",
    "Pas.PoffMem.C74_passes_partial",
    "Pas.PoffMem.C74_append",
    "Pas.PoffMem.C74_replace",
    "Pas.PoffMem.C74_violation_clone",
    "Pas.PoffMem.C74_no_relocations",
    "Pas.PoffMem.C74_after_read_partial",
    "Pas.PoffMem.C74_violation_after_read",
    "Pas.PoffMem.C74_violation_bytes",
    "Pas.PoffMem.C74_violation_string"
   ],
   "note": "Proved for every table of a new object file or container, any number of additions, and for the string table also after reading a file. False, with general theorems: the optimizer's copy of the relocations of a file it has read (C74_violation_clone), additions to larger tables that were read (C74_violation_after_read), pieces of 65536 bytes (C74_violation_bytes, C74_violation_string). Debug information of procedures is in C42. malloc does not fail in the model; sizes stay below 2^32."
  },
  {
   "property": "C75",
   "status": "partial",
   "theorems": [
    "Pas.C75_session",
    "Pas.C75_violation_next",
    "Pas.C75_go",
    "Pas.C75_go_arrives",
    "Pas.C75_step",
    "Pas.C75_next_partial",
    "Pas.C75_run",
    "Pas.C75_run_arrives",
    "Pas.C75_reset",
    "Pas.C75_looking",
    "Pas.C75_set",
    "Pas.C75_clear",
    "Pas.C75_watchpoint",
    "Pas.C75_address",
    "Pas.C75_default",
    "Pas.C75_number",
    "Pas.C75_letters",
    "Pas.C75_repeat",
    "Pas.C75_status",
    "Pas.C75_display",
    "Pas.C75_violation_display",
    "Pas.C75_violation_outside",
    "Pas.C75_violation_watch",
    "Pas.C75_violation_shown",
    "Pas.C75_violation_address",
    "Pas.C75_violation_line",
    "Pas.C75_violation_silent"
   ],
   "note": "Proved for every session, state and program: transparency (C75_session, C75_looking), GO, STEP, RUN with and without the debugger, RESET, breakpoints, watchpoint, command lines, displays. Missing and false: NEXT stops when the address behind the call is reached in another activation (C75_violation_next), NEXT and the displays read outside of the code (C75_violation_outside, C75_violation_display), the watchpoint cannot be set again (C75_violation_watch) and is shown by a test on the wrong number (C75_violation_shown), addresses are cut to 16 bits (C75_violation_address), long lines are searched beyond their end (C75_violation_line), running off the code is silent (C75_violation_silent). The texts of the displays are not modelled, only what they read."
  },
  {
   "property": "C76",
   "status": "partial",
   "theorems": [
    "Pas.Props.C76_total",
    "Pas.Props.C76_listing_total",
    "Pas.Props.C76_line_partial",
    "Pas.Props.C76_unambiguous_line",
    "Pas.Props.C76_notation",
    "Pas.Props.C76_listing_partial",
    "Pas.Props.C76_unambiguous",
    "Pas.Props.C76_compiler_partial",
    "Pas.Props.C76_violation_long_jump",
    "Pas.Props.C76_violation_destination",
    "Pas.Props.C76_violation_compiler",
    "Pas.Props.C76_violation_float",
    "Pas.Props.C76_violation_level",
    "Pas.Props.C76_violation_undefined",
    "Pas.Props.C76_violation_function",
    "Pas.Props.C76_violation_cut_off",
    "Pas.Props.C76_violation_heading"
   ],
   "note": "Proved: the disassembler stays within its tables for every byte string and line table; for every program of defined instructions each line shows the name and operands, the listing is as specified (C76_listing_partial) and determines the program (C76_unambiguous); the compiler's listing agrees with the bytes it writes except for long operations. False: long jumps are shown as other operations and their destinations as instructions (C76_violation_long_jump, _destination); the compiler shows every long operation as DNOP or DJEQUZ (_compiler); flags of FLOAT, undefined opcodes and function codes are not shown (_float, _undefined, _function); levels above 127 are negative (_level); a cut off instruction is completed (_cut_off); the last heading is missing (_heading)."
  },
  {
   "property": "C77",
   "status": "partial",
   "theorems": [
    "Pas.C77_array_to_string_partial",
    "Pas.C77_char_to_string_partial",
    "Pas.C77_empty_string_partial",
    "Pas.C77_string_to_array_partial",
    "Pas.C77_violation_overrun",
    "Pas.C77_violation_rest"
   ],
   "note": "Proved: the conversions of arrays, characters and nothing to temporary strings, within stack-like heap histories (C77_array_to_string_partial, C77_char_to_string_partial, C77_empty_string_partial); a string that fits is stored at the beginning of the array and nothing outside is changed (C77_string_to_array_partial). False: longer strings are stored behind the array as well (C77_violation_overrun); a shorter string is followed by the old contents of the array, which then does not read as the string (C77_violation_rest)."
  },
  {
   "property": "C78",
   "status": "partial",
   "theorems": [
    "Pas.Chain.C78_files_partial",
    "Pas.Chain.C78_source_partial",
    "Pas.Chain.C78_refused",
    "Pas.Chain.C78_link_refused",
    "Pas.Chain.C78_violation_unit",
    "Pas.Chain.C78_violation_reloc"
   ],
   "note": "C78_files_partial: the object a program has been compiled to, put into the object file by whatever calls, written, read and finalized by the optimizer program, written, read by the linker, linked, written, and read by the loader gives exactly the linked program, its constant data, entry point and size. C78_source_partial: from the text of a program through all these files to what the run writes and the values of the variables. C78_refused, C78_link_refused: files of another kind are refused. Missing: object files with symbols and line numbers, several object files, the optimizer's rules in between (C30-C33). False in general: a program and a unit from different source files are linked, but the loader writes behind its table of file names (C78_violation_unit); the optimizer program writes behind a block of no bytes if the file has a relocation (C78_violation_reloc)."
  },
  {
   "property": "C79",
   "status": "partial",
   "theorems": [
    "Pas.Src.C79_read_partial",
    "Pas.Src.C79_numbers_partial",
    "Pas.Src.C79_total",
    "Pas.Src.C79_violation_end",
    "Pas.Src.C79_violation_second_number",
    "Pas.Src.C79_violation_second_char",
    "Pas.Src.C79_violation_empty_line"
   ],
   "note": "C79_read_partial: every READ and READLN of integer and character variables from the standard input is accepted and gives the variables the values in the input, in order, and leaves the rest; C79_numbers_partial: readln of any number of different variables with one number in each line. C79_total: from the text of a program that adds up numbers to what it writes, for every input. Whole programs that read: C70_program_partial, C71_source_partial and C78_source_partial now quantify over every standard input. Missing: other files, reals, strings, elements of arrays. False in general: the rest of a line is lost after the first value read from it (C79_violation_second_number, C79_violation_second_char), the end of a line is not read as a blank (C79_violation_end), an empty line is read as 0 (C79_violation_empty_line)."
  },
  {
   "property": "C80",
   "status": "proved",
   "theorems": [
    "Pas.Popt.C80_only_copies",
    "Pas.Popt.C80_unchanged"
   ],
   "note": "C80_only_copies: for every program, what the string pass hands on is the program without some copies of constants whose next use only reads them (Spec DropDup); C80_unchanged: a program with no copy directly behind the load of a constant keeps every instruction. Programs of the compiler have the size of the allocation between the two, so the pass never does anything to them (example copySample)."
  },
  {
   "property": "C81",
   "status": "proved",
   "theorems": [
    "Pas.Popt.C81_rules"
   ],
   "note": "C81_rules: for every program, the optimized program comes about by C80 and then by applications of the rules to neighbouring instructions of a block (Spec Rewrites, rules listed in Applies). What the rules keep is C30-C33 and C62; one of them (narrow, see C62_violation_narrow) deletes a wrong instruction and is listed as it is."
  },
  {
   "property": "C82",
   "status": "partial",
   "theorems": [
    "Pas.Accept.C82_expression_partial",
    "Pas.Accept.C82_any_expression_partial",
    "Pas.Accept.C82_errors_stay",
    "Pas.Accept.C82_statement_partial",
    "Pas.Accept.C82_block_partial",
    "Pas.Accept.C82_violation_product",
    "Pas.Accept.C82_violation_sign",
    "Pas.Accept.C82_violation_order",
    "Pas.Accept.C82_violation_read",
    "Pas.Accept.C82_violation_comma",
    "Pas.Accept.C82_violation_file",
    "Pas.Accept.C82_violation_case",
    "Pas.Accept.C82_file_partial",
    "Pas.Accept.C82_build_partial",
    "Pas.Accept.C82_program_partial",
    "Pas.Accept.C82_constant",
    "Pas.Accept.C82_declared_partial",
    "Pas.Accept.C82_procedure_block_partial",
    "Pas.Accept.C82_procedure_errors_stay",
    "Pas.Accept.C82_violation_twice",
    "Pas.Accept.C82_violation_semicolon",
    "Pas.Accept.C82_violation_empty",
    "Pas.Accept.C82_violation_parameter"
   ],
   "note": "C82_statement_partial, C82_block_partial, C82_expression_partial, C82_any_expression_partial: for every sequence of tokens and every state of the compiler, what is compiled without an error is a sentence of a grammar with types, Spec/Accept.lean (Form, Stm with the rules `checked`); C82_errors_stay, C82_procedure_errors_stay: errors are not taken back. C82_program_partial, C82_procedure_block_partial: the same for whole programs with constants, variables, arrays and nested procedures with parameters (Spec/AcceptProg.lean: Program, Block, Procs, Decls); C82_declared_partial: every name in the statements is declared; C82_constant: the definition of a constant is an expression with its value. Missing: the rules of Pascal that the compiler does not check, as `pascal` against `checked` shows and as is proved for one case each (C82_violation_product: 2 * TRUE, _sign: + before a character, _order: 'A' < 'B' taken for a character, _read, _comma, _file: separators of READ and WRITE, _case: constants of another type; C82_violation_twice: a name twice in one list, _semicolon, _empty, _parameter: declarations); the types that are not modelled (REAL, STRING, sets, records, pointers). C82_file_partial and C82_build_partial carry this to source files: an object file is written, or an executable program made, only if the tokenizer found no error and the tokens are PROGRAM followed by a program."
  },
  {
   "property": "C83",
   "status": "partial",
   "theorems": [
    "Pas.Src.C83_three_cases",
    "Pas.Src.C83_one_case",
    "Pas.Src.C83_program_partial",
    "Pas.Src.C83_agrees_partial",
    "Pas.Src.C83_source_partial"
   ],
   "note": "C83_three_cases: every execution of statements ends, goes on forever (a coinductive meaning, Spec/Forever.lean) or goes wrong; C83_one_case: only one of these. C83_program_partial: the linked program of statements that go on forever has, after any number of instructions, neither stopped nor met an error, and whatever text the statements have written at any moment of an execution, ending or not, is the standard output after some number of instructions. C83_agrees_partial: if the statements do not go wrong, the machine, with the modelled library routines, stops only with eEXIT and only if they end, with their values and their text, and runs on exactly if they go on forever; no undefined behaviour or error code in between. C83_source_partial: the same from the source file through the compiler, the object file, the optimizer program (which finalizes only), the linker program and the loader. Missing: what is missing in C52, and calls that are nested without bound (they need stack without bound)."
  },
  {
   "property": "C84",
   "status": "partial",
   "theorems": [
    "Pas.Src.C84_tokens_partial",
    "Pas.Src.C84_inside_partial",
    "Pas.Src.C84_program_partial",
    "Pas.Src.C84_whole_partial",
    "Pas.Src.C84_violation_end"
   ],
   "note": "C84_tokens_partial: for every text file (lines of at most 254 characters without control characters, each with its end), if the tokenizer reports no error then the text spells the tokens it delivers (Spec/Spelling.lean: a complete list of what tokens and gaps are, including the quirks: bytes above 127 are skipped, a percent sign alone is a number). C84_program_partial: with C82, what is compiled without an error is the text of a program. C84_inside_partial: if the last line has no closing brace and no star, the tokens up to the first question mark are spelled in the file itself; C84_whole_partial: then the whole program is. C84_violation_end: at the end of the file the last line is read again and again, so that a file whose only period is in a comment and whose last comment is not closed is compiled. Missing: control characters (C56_violation_control), lines of 255 characters and more (C56_violation_long_line), files whose last line has no end."
  },
  {
   "property": "C85",
   "status": "partial",
   "theorems": [
    "Pas.Props.C85_table_partial",
    "Pas.Props.C85_reject_partial",
    "Pas.Props.C85_lookup_partial",
    "Pas.Props.C85_listing_partial",
    "Pas.Props.C85_violation_check",
    "Pas.Props.C85_violation_entry"
   ],
   "note": "C85_table_partial: for every object, if its lines and file names can be read and every line belongs to one of the files, the table has exactly the recorded lines with the names of their files, sorted by their offsets (for every sorting order of the host, Sorts). C85_lookup_partial: with C38 and C41, from any history of calls that builds an object, through the file, to the result of a lookup after any history of lookups. C85_listing_partial: with C76, the listing. C85_reject_partial: a line with the number of a file that does not exist, other than the first one behind the last, is the end of it. C85_violation_check: a line whose file number is just behind the last file passes the check, and the name is read outside of the table. C85_violation_entry: with an entry size of zero the table is read forever. Missing: addresses at or behind the last line (C41_violation), objects with several file names (C38_violation_files), tables of 2^31 bytes; the memory of the table."
  },
  {
   "property": "C86",
   "status": "partial",
   "theorems": [
    "Pas.Prun.C86_number",
    "Pas.Prun.C86_run_partial",
    "Pas.Prun.C86_source_partial",
    "Pas.Prun.C86_refused",
    "Pas.Prun.C86_one_name",
    "Pas.Prun.C86_not_loaded",
    "Pas.Prun.C86_violation_alloc",
    "Pas.Prun.C86_violation_size",
    "Pas.Prun.C86_violation_name",
    "Pas.Prun.C86_violation_heap"
   ],
   "note": "C86_run_partial: for every list of proper options (heap below 32768, stack at least 1024, sizes below 65536, -d) and every file name of at most 40 characters with its extension, prun loads that file and starts it with areas of at least the sizes asked for, one after the other, and at most 8 bytes more in all. C86_source_partial: with C78, from the text of a program to what it writes under prun. C86_refused, C86_one_name, C86_not_loaded: what is refused. C86_number: how sizes are read. C86_violation_alloc: the documented -a is refused. C86_violation_size: -s 65536 is accepted and gives no stack at all, start-up is undefined. C86_violation_heap: -n 64 makes start-up undefined for a program with two bytes of constants. C86_violation_name: too long a name is not reported, an uninitialized one is used. Missing: the four violations; sizes near 2^31; the splitting of the command line by getopt_long."
  },
  {
   "property": "C87",
   "status": "proved",
   "theorems": [
    "Pas.PoffOwn.C87_owned",
    "Pas.PoffOwn.C87_all_released",
    "Pas.PoffOwn.C87_violation_read"
   ],
   "note": "C87_owned: for every history of calls that keeps to the rules (Known.after, stated on the calls alone), nothing is undefined and every allocated block is held by exactly one pointer of an existing handle, container or the program. C87_all_released: nothing is left at the end. C87_violation_read: why a file may be read into a new handle only: otherwise memory is lost. Not modelled: the tables of line numbers, debug information and labels that belong to no handle, names that point into the string table of a handle, allocations that fail."
  },
  {
   "property": "C88",
   "status": "partial",
   "theorems": [
    "Pas.Link.C88_symbols",
    "Pas.PoffOwn.C88_popt",
    "Pas.PoffOwn.C88_prun",
    "Pas.PoffOwn.C88_refused",
    "Pas.PoffOwn.C88_violation_load",
    "Pas.PoffOwn.C88_plink_partial",
    "Pas.PoffOwn.C88_violation_link"
   ],
   "note": "C88_popt: the optimizer, whatever the file has, whatever its passes add and whatever realloc does, frees and uses everything at most as often as allowed and leaves nothing allocated. C88_prun, C88_refused: the same for loading and releasing a program and for files that are refused. C88_plink_partial: the linker, for any number of files, never frees twice or uses what is freed, and what is left allocated at the end are only the constants extracted from the input files. C88_violation_link: these are never freed. C88_symbols: the linker releases every container of a symbol exactly once, whatever symbols the files have, and until then every symbol number refers to an existing one. C88_violation_load: when there is no memory for the machine the loader uses a null pointer. Missing: the violations; tables that belong to no handle; other runs in which malloc fails."
  },
  {
   "property": "C89",
   "status": "partial",
   "theorems": [
    "Pas.LabelTab.C89_labels",
    "Pas.LabelTab.C89_finalize",
    "Pas.LabelTab.C89_relocations",
    "Pas.LabelTab.C89_violation_release"
   ],
   "note": "C89_labels: for every sequence of additions and questions, with up to 2^29 - 256 entries in each of the two tables, nothing is written or read outside of the arrays, every question gets the value added first with that label to that table, or -1, and the tables can be released. C89_finalize: these are the answers the model of the finalization (C34) works with. C89_relocations: the same for the linker's list of relocations: each is kept at its place. C89_violation_release: a label that is added after the release is written to freed memory, the pointers are not cleared (the optimizer releases once, at its end). Missing: the violation; more entries, for which the size of the array no longer fits into 32 bits; malloc that fails."
  },
  {
   "property": "C90",
   "status": "partial",
   "theorems": [
    "Pas.MkConfig.C90_header_partial",
    "Pas.MkConfig.C90_violation_backslash",
    "Pas.MkConfig.C90_violation_name",
    "Pas.MkConfig.C90_violation_long",
    "Pas.MkConfig.C90_program",
    "Pas.MkConfig.C90_violation_path"
   ],
   "note": "C90_header_partial: for every configuration file whose lines, the last perhaps without its end, are empty, comments or settings (blanks around the equal sign, values with texts in quotes, anything behind the value), the header is the guard with exactly the definitions the settings stand for, in order. C90_violation_backslash: a text that ends with an escaped backslash is not ended by its quote. C90_program: the program writes this header for the file .config of the directory it is given, and fails without output if there is no such file or the number of arguments is another. C90_violation_name: any character is accepted between name and equal sign. C90_violation_long: what stands behind the 4095th character of a comment is read as a line of its own and can define a variable. C90_violation_path: the name of the file is cut after 4095 characters, and another file is read. Missing: the violations; settings longer than 4094 characters; strdup without memory."
  },
  {
   "property": "C91",
   "status": "partial",
   "theorems": [
    "Pas.RelocDump.C91_relocations_partial",
    "Pas.RelocDump.C91_violation_kind",
    "Pas.RelocDump.C91_violation_size",
    "Pas.SymDump.C91_symbols_partial",
    "Pas.SymDump.C91_violation_symbol_kind"
   ],
   "note": "C91_relocations_partial: for every table of relocations of known kinds, any symbols below 2^24 and any places, the listing is its head and one line per relocation, in order, from which kind, symbol and place can be read back; the same for the temporary table. C91_violation_kind: a relocation of an unknown kind, anywhere in the table, makes it read behind the array of names. C91_violation_size: with entries of size 0 in the file the listing does not end. C91_symbols_partial: the same for every table of symbols of known kinds with their names in the table of strings. C91_violation_symbol_kind: a symbol of an unknown kind makes it read behind the array of names. Missing: the violations, names that are not in the table of strings, and other sizes of entries."
  }
 ]
}
