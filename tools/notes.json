{
 "C01": [
  "proved",
  "NEG/ABS/INC/DEC/NOT, ADD/SUB/MUL and AND/OR/XOR through execute, for all states with the operands inside memory."
 ],
 "C02": [
  "proved",
  "All sixteen comparison instructions."
 ],
 "C03": [
  "proved",
  "All conditional jumps and JMP."
 ],
 "C04": [
  "partial",
  "The values are proved where C defines them (C04_undefined_iff characterises exactly when it does not); C04_violation: DIV by zero, UMUL overflow and large shift counts are undefined behaviour in the VM, so the property as stated is false."
 ],
 "C05": [
  "partial",
  "Word and byte stores and loads of every addressing mode are proved in full; block transfers are proved for even sizes (with round trip). C05_violation_odd_block and C05_violation_indexed exhibit the failures."
 ],
 "C06": [
  "proved",
  "Call, intact header, return restores all registers; the level register side condition is an invariant (C06_level_byte). The hypothesis on the library is discharged for the modelled library (Props/Library.lean: machine_keeps, machine_noPc), assuming only that GETENV, SPAWN and the directory operations are ordinary."
 ],
 "C07": [
  "proved",
  "Invariant over every history of calls, returns and header-preserving steps."
 ],
 "C53": [
  "proved",
  "Over runs of any length; library routines are assumed to leave the map alone (Lib.Keeps), proved for the modelled ones. The hypothesis on the library is discharged for the modelled library (Props/Library.lean: machine_keeps, machine_noPc), assuming only that GETENV, SPAWN and the directory operations are ordinary."
 ],
 "C08": [
  "partial",
  "Bad pc and undefined opcodes are reported with the state unchanged; every defined opcode except LONGOP24 is dispatched. LONGOP24 is rejected by the interpreter (C08_violation_longop24). For the modelled library (machine p) no hypothesis on its routines remains except for GETENV, SPAWN and the directory operations (C08_legal_machine_partial); an undocumented operand of LONGOP8 is reported without other effect (C08_longop8)."
 ],
 "C09": [
  "partial",
  "Proved when the operand bytes of the instruction lie inside the program; for an instruction cut off at the end the interpreter reads past the code (C09_violation)."
 ],
 "C10": [
  "partial",
  "Memory map, constants and registers proved when sizes are even and the sum fits 16 bits; violations for odd string sizes, 16-bit wrap-around and unaligned heaps are proved. The standard files are open after start-up: INPUT for reading, OUTPUT for writing, all other slots free (StandardFiles)."
 ],
 "C11": [
  "proved",
  "All four operators, all sets, all states."
 ],
 "C12": [
  "proved",
  "Equality, inequality and inclusion."
 ],
 "C13": [
  "partial",
  "Singleton is proved in full. Membership accepts ordinal 64 (C13_violation_64); Include/Exclude lack the range check (C13_violation_include)."
 ],
 "C14": [
  "partial",
  "Proved for GoodBounds, which is exactly where the code is right; other bounds are refuted by C14_violation."
 ],
 "C15": [
  "proved",
  "All 2^64 sets."
 ],
 "C16": [
  "partial",
  "INC/DEC/NOT, bitwise and unsigned multiplication exact for all operands; ADD/SUB/MUL/NEG/ABS exact whenever the result fits in 32 bits, undefined otherwise (C16_violation_overflow, C16_violation_least)."
 ],
 "C17": [
  "partial",
  "Comparisons with zero, equality and the branch routine are right; the orderings compare in the wrong order (C17_violation_swapped, for all operands) and unsigned < ignores one operand."
 ],
 "C18": [
  "partial",
  "DUP, widening and narrowing proved; XCHG is wrong (C18_violation_xchg)."
 ],
 "C54": [
  "partial",
  "Exact where C defines the operation; zero divisors are undefined (C54_violation_zero)."
 ],
 "C19": [
  "partial",
  "Proved for every history in which DISPOSE is applied to the youngest live block (arbitrary program activity in between, requests up to 65520 bytes, heap below 32 KB). For other orders the property is false: C19_violation_overlap gives a history ending with two overlapping live blocks, C19_violation_huge one with a request above 65520 bytes."
 ],
 "C20": [
  "partial",
  "Proved (with the exact converse) for stack-like histories; C20_violation shows that disposing in allocation order loses capacity."
 ],
 "C21": [
  "partial",
  "Pointers outside the heap region: proved for every state. Disposed twice: proved right after the first DISPOSE in stack-like histories; C21_violation_stale shows that it goes unnoticed once the memory is in use again."
 ],
 "C28": [
  "partial",
  "Round trip, sizes, the machine's view and the advance of the program counter are proved for all well-formed programs; violated by long (32-bit) jumps, which are written as four bytes and read as two (C28_violation_long). The hypothesis on the library is discharged for the modelled library (Props/Library.lean: machine_keeps, machine_noPc), assuming only that GETENV, SPAWN and the directory operations are ordinary."
 ],
 "C29": [
  "partial",
  "Operand relocation, whole-program merging and behaviour at the new place are proved for programs without unsigned jumps (behaviour also without calls and returns); violated for the jumps JULT, JUGTE, JUGT, JULTE (C29_violation_unsigned)."
 ],
 "C22": [
  "partial",
  "Assignment from a string that is not a temporary is proved in full for every usable variable (C22_assign, C22_self). Assignment from a temporary (C22_assign_temp_partial) is proved for heap histories in which temporaries are given back youngest first."
 ],
 "C23": [
  "partial",
  "Appending is proved when the result fits (C23_append_partial, C23_char_partial) and when it does not (C23_full: nothing happens). The property asks for as much as fits to be appended; C23_violation shows that the code appends nothing."
 ],
 "C24": [
  "partial",
  "Proved for every pair of strings, given a memcmp whose results fit into 16 bits. C24_violation_memcmp: with a standard-conforming memcmp returning larger values different strings compare equal."
 ],
 "C25": [
  "partial",
  "Length, Delete, Insert, CharAt, Pos, Copy and duplication are proved for positions inside the string, characters below 128 (CharAt), no NUL characters (Pos). The C25_violation_* theorems show what goes wrong outside these conditions."
 ],
 "C26": [
  "partial",
  "Delete, Insert and FillChar never write outside buffer and descriptor, for every position and count; assignment is covered by C22_assign, appending a string by C23. C26_violation_char and C26_violation_array: appending a character to a full temporary and storing into a character array do write outside."
 ],
 "C27": [
  "partial",
  "Disjointness of all live buffers is proved for every history. C27_violation: only the start of the stack is checked, so buffers can overlap constant data."
 ],
 "C55": [
  "proved",
  "PUSH, PUSHB, UPUSHB, LA, LAS, LAC, LAX, LASX, DUP, XCHG, INDS and INCS for every operand and state with room."
 ],
 "C34": [
  "partial",
  "Structure (C34_finalize_partial) and behaviour (C34_behaviour_partial) of the finalized program are proved for every program without unsigned jumps; for unsigned jumps the finalizer leaves the label number as the target (C34_violation_unsigned)."
 ],
 "C30": [
  "partial",
  "Folding of one- and two-operand operators on constants is proved for every operator and operand except those listed in the side conditions; unsound folds (GTZ, DIV/MOD sign, unsigned comparison, UDIV, division by zero) are C30_violation_*."
 ],
 "C31": [
  "partial",
  "Every strength reduction of the unary and binary passes (constant with load, constant operand, swap, addresses) is proved under the stated side conditions; unsound ones are C31_violation_*. The long-integer passes are C62; what the string passes do to a program is C80, how the rules are put together is C81."
 ],
 "C32": [
  "partial",
  "Every branch rewrite is proved to take the same branch and leave the same stack under BranchOk; unsound ones are C32_violation_*."
 ],
 "C33": [
  "partial",
  "Every rewrite of the stack-order, load and store passes is proved for variables in the live part of memory; unsound ones (bytes, frame-header crossing, unchecked middle instruction, LAR) are C33_violation_*."
 ],
 "C38": [
  "partial",
  "Round trip through writer and reader for every history of building calls with at most one file name, and debug records only with at most one relocation; rejection of every proper prefix and of foreign files. The excluded cases are undefined behaviour of the code (C38_violation_*)."
 ],
 "C39": [
  "proved",
  "Every history of additions to a string table."
 ],
 "C40": [
  "partial",
  "Values, headers, symbol, relocation and line tables of any length; the file-name and debug tables cannot be converted (C40_violation_*)."
 ],
 "C41": [
  "partial",
  "Lookup is exact for addresses before the last entry; at or after it the entry before the last is returned (C41_violation)."
 ],
 "C42": [
  "partial",
  "All records come back when each has at most 189 parameters and the last has one; otherwise C42_violation*."
 ],
 "C35": [
  "proved",
  "For all symbols of all units, in any order (C35_order); C36_link_partial shows the whole linker uses it."
 ],
 "C36": [
  "partial",
  "C36_frame holds for all programs and relocations. The link theorem needs inputs as the compiler makes them (no jumps on unsigned comparisons, which C29 shows are not moved; relocations of the two known kinds), at most eight inputs (a ninth overflows an array), code below 2^32 bytes and at most 2^24 symbols."
 ],
 "C37": [
  "partial",
  "False for inputs without file names (undefined behaviour, C37_violation_files) and beyond 65536 bytes of constants (C37_violation_large); proved below the limits."
 ],
 "C43": [
  "partial",
  "Every text without line breaks and NULs of length other than one, and every ASCII character; characters beyond ASCII get a sign extended value (C43_violation)."
 ],
 "C44": [
  "partial",
  "Identifiers, decimal literals and %-hexadecimal literals; $ literals are not read as numbers and % literals announced as binary are hexadecimal (C44_violation_*). Real literals denote their digits scaled by their exponent, read as far as the scanner reads them (C44_real); the rounding of strtod is not modelled."
 ],
 "C45": [
  "proved",
  "Table search and classification by the tokenizer, for every name and every symbol table."
 ],
 "C46": [
  "partial",
  "Table lookup proved for every history of declarations and scopes (C46_lookup, C46_restore); by the tokenizer except for declared names that are alternative spellings of predefined ones (C46_violation)."
 ],
 "C56": [
  "partial",
  "Blanks, the three bracketed comment forms, all symbols, determinism; // comments within the line buffer. Violations: control characters read as token codes, unterminated comments never end, // comments beyond 255 characters."
 ],
 "C51": [
  "partial",
  "Proved for every path whose directory part has no period (C51_extension_partial), with bounds for every path (C51_bounds) and base names (C51_basename); C51_violation shows that a period in the directory part is taken for the start of the extension."
 ],
 "C48": [
  "partial",
  "16-bit ordinal expressions, with ABS, SQR, PRED, SUCC, ORD, ODD and CHR: compiled without error, typed, and the code pushes exactly the value and changes no word up to the top of the stack, at any place of any program. Violations proved: ordering of Booleans generates no comparison, integer*longint unbalances the stack, constants 32768..65535 become negative integers, ORD(TRUE) is -1, SUCC(FALSE) is not TRUE, ABS refuses short integers. Missing: long integers, reals, strings, sets, other calls, arrays of several dimensions, records, pointers."
 ],
 "C49": [
  "partial",
  "C49_statement_partial: for every correct statement of the modelled language (assignment to variables and elements of arrays, BEGIN/END, IF, WHILE, REPEAT, FOR, CASE, BREAK, CONTINUE, READ and READLN of integers and characters, all nestings) over the 16-bit ordinal types the compiler accepts it without error and the code, wherever it is placed, takes the machine from a state holding the store to one holding the store that the big-step semantics of Pascal prescribes, with the same stack pointer and nothing else below it changed; C49_deterministic: the semantics is a function. Missing: long integers, reals, strings, sets, records, pointers, GOTO, WITH, VAR parameters. Calls of procedures: C72. Violations: CASE with TRUE is rejected, CONTINUE in REPEAT skips the test."
 ],
 "C50": [
  "partial",
  "C50_for_partial: the body is executed exactly once for each value of the range in order, then the loop ends. Missing: limits that are the last integer, words from 32768, short variables, limits mentioning the control variable: all violated (C50_violation_*)."
 ],
 "C52": [
  "partial",
  "C52_program_partial: every correct program (heading, CONST definitions with constant expressions over the constants defined before and around, VAR declarations of the ordinal types of at most 16 bits and of arrays of them, nested and recursive procedures with value parameters and local variables, any statements of C49, WRITE, READ) given as tokens is compiled without error, finalized, encoded and linked, and the linked program, loaded into a machine with a large enough stack, stops with eEXIT and with exactly the variable values the big-step semantics prescribes. Missing: functions, VAR parameters, other types, the peephole optimizer in the chain (its rules are C30-C33), (the tokenizer is in C71, the files between the tools are in C78), programs longer than 65535 bytes (programs that do not end are in C83). C52_machine_partial: the same with the modelled library routines in place of an arbitrary library."
 ],
 "C57": [
  "partial",
  "C57_variables_partial: for all definitions of ordinal constants, all declarations of ordinal variables of at most 16 bits, and of arrays of them with a range of integers (bounds written as numbers or names of constants), in a program; each constant's name then means the value of its expression. Missing: other types, initial values. (Local variables and parameters: C72.) Violations: undeclared type (null pointer), duplicate names, redeclared predefined names, alias names, an array of 65536 bytes (C73_violation_size)."
 ],
 "C47": [
  "partial",
  "C47_value_partial: every integer, character and Boolean constant expression (also with ABS, SQR, PRED, SUCC, ORD, CHR) that stays within 32 bits gets exactly its value; C47_run_time_partial: within 16 bits it is the value the compiled expression pushes. Violations: comparisons and parentheses are rejected, integer OR subtracts, larger values differ from the run-time value, division by zero, SUCC(FALSE), negative names. Missing: reals, strings, scalars, ODD, SIZEOF."
 ],
 "C58": [
  "partial",
  "C58_set_constant_partial: lists of elements and of ranges that are correct on their own and do not share a word with an earlier item. Violations: a range drops earlier elements of its words, ranges beyond the first word are wrong or written outside the set, difference is reversed, union of three drops the second, intersection is rejected."
 ],
 "C59": [
  "partial",
  "C59_terminates_partial: every program with a label and without oUDIV, any length and relocations; C59_succeeds_partial: without multiplication, division and 32-bit operations the optimizer also never crashes. Violations: constant unsigned division never ends, constant division by zero and a 32-bit shift by a constant crash the optimizer. Missing: exact characterisation of which multiplications and 32-bit operations crash."
 ],
 "C60": [
  "proved",
  "Over whole optimizer runs (window, string pass, all peephole rules), for every program that has a label before its end, as every compiled program has."
 ],
 "C61": [
  "partial",
  "C61_relocations_partial: kept relocations are a subsequence, at starts of distinct instructions, in order. Violations: relocations end up on oDUP, loads of different external variables are merged, relocations are lost when loads are exchanged."
 ],
 "C63": [
  "partial",
  "C63_compare_special: comparisons with infinities and NaN. The rounding operations of the host (add, sub, mul, div, sqrt, sin, cos, atan, log, exp) are parameters. ROUND does not round (C63_violation_round); TRUNC of values outside the integers is undefined (C63_violation_trunc)."
 ],
 "C64": [
  "partial",
  "Proved for integers, words, long integers, long words, characters, ends of line and pages on every open file, for strings that are not temporaries, with the refusal of files that are not open for output; no other instruction touches files. REAL formatting is the host's. Missing: temporary strings (their release is C26), failing streams."
 ],
 "C65": [
  "partial",
  "Proved for one item per line of at most 254 characters, with histories of any length and the round trip with WRITELN. Everything behind the first item of a line is lost (C65_violation_second_number), the end of the file is not noticed (C65_violation_end_of_file), -32768 is misread (C65_violation_smallest), empty lines are not recognised (C65_violation_empty_line), longer lines are cut (C65_violation_long_line). READ of a real: the number in decimal notation at the beginning of the line, exactly or up to a bound for the rounding, for all IEEE arithmetics (C65_read_real_partial); blanks in front give 0, exponents are ignored, large whole parts are undefined (C65_violation_real_blank, _real_exponent, _real_large)."
 ],
 "C66": [
  "proved",
  "Getting a number, all numbers in use, giving one back, and histories of any length with any other instructions in between: the numbers held are different and are exactly those in use."
 ],
 "C67": [
  "partial",
  "FILEPOS, FILESIZE, SEEK, EOF and EOLN of named files, blocks of bytes with their round trip. EOF(INPUT) is wrong (C67_violation_eof_input), SEEKEOF and SEEKEOLN take a character too many (C67_violation_seekeof). Missing: EOF of files that grow while they are read."
 ],
 "C68": [
  "partial",
  "RESET, REWRITE, APPEND, CLOSE, ASSIGN, refusals, and the round trip of a block through a closed file. RESET of an open file is refused (C68_violation_reset_open); RESET with a record size hides the failure (C68_violation_reset_size)."
 ],
 "C69": [
  "partial",
  "STR of integers, words and long values within what the code can print, VAL of decimal numbers in and out of range and of texts that are no numbers. STR appends instead of replacing, prints negative integers unsigned, drops the upper half of long values and records a length beyond the buffer; VAL reads leading zeros as octal, accepts the empty text and stores the offending character instead of its position (C69_violation_*)."
 ],
 "C70": [
  "partial",
  "WRITE and WRITELN to OUTPUT of ordinal values of at most 16 bits with field widths, and of string constants, from the tokens to the standard output: the compiled statement appends the texts of its items in order (C70_write_partial), programs have written what their meaning says (C70_program_partial), and what has been written is never changed (C70_appends). Missing: other files, reals, strings, long integers. Boolean values, widths of string constants, INTEGER widths and writeln(output) are rejected; negative widths are taken modulo 256; C70_constants_partial: the constants stay aligned; write(, x) is accepted, precisions are accepted for integers (C70_violation_*)."
 ],
 "C71": [
  "partial",
  "C71_tokens_partial: the characters of a file are read as the tokens they stand for; C71_layout_partial: white space, comments and case of words do not matter; C71_table: with a symbol table the tokenizer finds for each name the symbol the compiler's model works with; C71_source_partial: from the text of a program to the end of its execution and what it has written. Missing: the tokens of the parts of the language that are not modelled, include files and compiler directives in comments, and what is missing in C52 and C70 (functions, other types, the optimizer). C71_unclosed_string: a file with a string that is not closed on its line is never built. With the files between the tools: C78_source_partial."
 ],
 "C72": [
  "partial",
  "C72_call_partial: in the code of every correct program, a call of a procedure with value parameters, executed in any state that holds the variables, does what the meaning of the procedure says and comes back behind the call with the same stack pointer; parameters have the values of the arguments, each call has its own variables, variables of enclosing levels are found through the static links, recursion of any depth (as far as the stack suffices). C72_deterministic: the meaning does not depend on the bound of the depth. C72_appends. Whole programs with procedures: C52_program_partial, C70_program_partial, C71_source_partial. Missing: functions, VAR parameters, procedure parameters, other types. Violations: names of enclosing variables cannot always be redeclared, a local variable may have the name of a parameter, incorrect parameter lists crash the compiler, empty parentheses are accepted."
 ],
 "C62": [
  "partial",
  "C62_unary_partial (one constant operand), C62_binary_partial (both), C62_shift (constant shift), C62_widen (conversion of a 16-bit constant): what one iteration of the optimizer makes of these instructions can replace them in every state. Missing: operations the optimizer gets wrong, shown by the violations: comparisons with zero leave two words, equality with 0 is dropped, order comparisons with 1 and -1 and of two constants differ from the machine (which has the operands reversed), conversion to 16 bits deletes the wrong instruction, shift by 0, undefined arithmetic in the optimizer. The theorems are about windows with just these instructions."
 ],
 "C73": [
  "partial",
  "C73_places: elements do not overlap and are inside the array; C73_read_partial and C73_assign_partial: the compiled code reads and changes exactly the element whose number is the value of the index expression, if that is in the range. Whole programs that declare and use arrays are in C52, C57, C70 and C71 (example in Props/ArrayProgram.lean). Missing: arrays with several indices, other index and element types, negative bounds. Violations: an index outside of the range, constant or not, is not noticed and other variables are overwritten (C73_violation_bounds); fewer indices than the array has are accepted (C73_violation_dimensions); an array of 65536 characters gets no bytes and shares its place with the next variable (C73_violation_size)."
 ],
 "C74": [
  "partial",
  "Proved for every table of a new object file or container, any number of additions, and for the string table also after reading a file. False, with general theorems: the optimizer's copy of the relocations of a file it has read (C74_violation_clone), additions to larger tables that were read (C74_violation_after_read), pieces of 65536 bytes (C74_violation_bytes, C74_violation_string). Debug information of procedures is in C42. malloc does not fail in the model; sizes stay below 2^32."
 ],
 "C75": [
  "partial",
  "Proved for every session, state and program: transparency (C75_session, C75_looking), GO, STEP, RUN with and without the debugger, RESET, breakpoints, watchpoint, command lines, displays. Missing and false: NEXT stops when the address behind the call is reached in another activation (C75_violation_next), NEXT and the displays read outside of the code (C75_violation_outside, C75_violation_display), the watchpoint cannot be set again (C75_violation_watch) and is shown by a test on the wrong number (C75_violation_shown), addresses are cut to 16 bits (C75_violation_address), long lines are searched beyond their end (C75_violation_line), running off the code is silent (C75_violation_silent). The texts of the displays are not modelled, only what they read."
 ],
 "C76": [
  "partial",
  "Proved: the disassembler stays within its tables for every byte string and line table; for every program of defined instructions each line shows the name and operands, the listing is as specified (C76_listing_partial) and determines the program (C76_unambiguous); the compiler's listing agrees with the bytes it writes except for long operations. False: long jumps are shown as other operations and their destinations as instructions (C76_violation_long_jump, _destination); the compiler shows every long operation as DNOP or DJEQUZ (_compiler); flags of FLOAT, undefined opcodes and function codes are not shown (_float, _undefined, _function); levels above 127 are negative (_level); a cut off instruction is completed (_cut_off); the last heading is missing (_heading)."
 ],
 "C77": [
  "partial",
  "Proved: the conversions of arrays, characters and nothing to temporary strings, within stack-like heap histories (C77_array_to_string_partial, C77_char_to_string_partial, C77_empty_string_partial); a string that fits is stored at the beginning of the array and nothing outside is changed (C77_string_to_array_partial). False: longer strings are stored behind the array as well (C77_violation_overrun); a shorter string is followed by the old contents of the array, which then does not read as the string (C77_violation_rest)."
 ],
 "C78": [
  "partial",
  "C78_files_partial: the object a program has been compiled to, put into the object file by whatever calls, written, read and finalized by the optimizer program, written, read by the linker, linked, written, and read by the loader gives exactly the linked program, its constant data, entry point and size. C78_source_partial: from the text of a program through all these files to what the run writes and the values of the variables. C78_refused, C78_link_refused: files of another kind are refused. Missing: object files with symbols and line numbers, several object files, the optimizer's rules in between (C30-C33). False in general: a program and a unit from different source files are linked, but the loader writes behind its table of file names (C78_violation_unit); the optimizer program writes behind a block of no bytes if the file has a relocation (C78_violation_reloc)."
 ],
 "C79": [
  "partial",
  "C79_read_partial: every READ and READLN of integer and character variables from the standard input is accepted and gives the variables the values in the input, in order, and leaves the rest; C79_numbers_partial: readln of any number of different variables with one number in each line. C79_total: from the text of a program that adds up numbers to what it writes, for every input. Whole programs that read: C70_program_partial, C71_source_partial and C78_source_partial now quantify over every standard input. Missing: other files, reals, strings, elements of arrays. False in general: the rest of a line is lost after the first value read from it (C79_violation_second_number, C79_violation_second_char), the end of a line is not read as a blank (C79_violation_end), an empty line is read as 0 (C79_violation_empty_line)."
 ],
 "C80": [
  "proved",
  "C80_only_copies: for every program, what the string pass hands on is the program without some copies of constants whose next use only reads them (Spec DropDup); C80_unchanged: a program with no copy directly behind the load of a constant keeps every instruction. Programs of the compiler have the size of the allocation between the two, so the pass never does anything to them (example copySample)."
 ],
 "C81": [
  "proved",
  "C81_rules: for every program, the optimized program comes about by C80 and then by applications of the rules to neighbouring instructions of a block (Spec Rewrites, rules listed in Applies). What the rules keep is C30-C33 and C62; one of them (narrow, see C62_violation_narrow) deletes a wrong instruction and is listed as it is."
 ],
 "C82": [
  "partial",
  "C82_statement_partial, C82_block_partial, C82_expression_partial, C82_any_expression_partial: for every sequence of tokens and every state of the compiler, what is compiled without an error is a sentence of a grammar with types, Spec/Accept.lean (Form, Stm with the rules `checked`); C82_errors_stay, C82_procedure_errors_stay: errors are not taken back. C82_program_partial, C82_procedure_block_partial: the same for whole programs with constants, variables, arrays and nested procedures with parameters (Spec/AcceptProg.lean: Program, Block, Procs, Decls); C82_declared_partial: every name in the statements is declared; C82_constant: the definition of a constant is an expression with its value. Missing: the rules of Pascal that the compiler does not check, as `pascal` against `checked` shows and as is proved for one case each (C82_violation_product: 2 * TRUE, _sign: + before a character, _order: 'A' < 'B' taken for a character, _read, _comma, _file: separators of READ and WRITE, _case: constants of another type; C82_violation_twice: a name twice in one list, _semicolon, _empty, _parameter: declarations); the types that are not modelled (REAL, STRING, sets, records, pointers). C82_file_partial and C82_build_partial carry this to source files: an object file is written, or an executable program made, only if the tokenizer found no error and the tokens are PROGRAM followed by a program."
 ],
 "C83": [
  "partial",
  "C83_three_cases: every execution of statements ends, goes on forever (a coinductive meaning, Spec/Forever.lean) or goes wrong; C83_one_case: only one of these. C83_program_partial: the linked program of statements that go on forever has, after any number of instructions, neither stopped nor met an error, and whatever text the statements have written at any moment of an execution, ending or not, is the standard output after some number of instructions. C83_agrees_partial: if the statements do not go wrong, the machine, with the modelled library routines, stops only with eEXIT and only if they end, with their values and their text, and runs on exactly if they go on forever; no undefined behaviour or error code in between. C83_source_partial: the same from the source file through the compiler, the object file, the optimizer program (which finalizes only), the linker program and the loader. Missing: what is missing in C52, and calls that are nested without bound (they need stack without bound)."
 ],
 "C84": [
  "partial",
  "C84_tokens_partial: for every text file (lines of at most 254 characters without control characters, each with its end), if the tokenizer reports no error then the text spells the tokens it delivers (Spec/Spelling.lean: a complete list of what tokens and gaps are, including the quirks: bytes above 127 are skipped, a percent sign alone is a number). C84_program_partial: with C82, what is compiled without an error is the text of a program. C84_inside_partial: if the last line has no closing brace and no star, the tokens up to the first question mark are spelled in the file itself; C84_whole_partial: then the whole program is. C84_violation_end: at the end of the file the last line is read again and again, so that a file whose only period is in a comment and whose last comment is not closed is compiled. Missing: control characters (C56_violation_control), lines of 255 characters and more (C56_violation_long_line), files whose last line has no end."
 ],
 "C85": [
  "partial",
  "C85_table_partial: for every object, if its lines and file names can be read and every line belongs to one of the files, the table has exactly the recorded lines with the names of their files, sorted by their offsets (for every sorting order of the host, Sorts). C85_lookup_partial: with C38 and C41, from any history of calls that builds an object, through the file, to the result of a lookup after any history of lookups. C85_listing_partial: with C76, the listing. C85_reject_partial: a line with the number of a file that does not exist, other than the first one behind the last, is the end of it. C85_violation_check: a line whose file number is just behind the last file passes the check, and the name is read outside of the table. C85_violation_entry: with an entry size of zero the table is read forever. Missing: addresses at or behind the last line (C41_violation), objects with several file names (C38_violation_files), tables of 2^31 bytes; the memory of the table."
 ],
 "C86": [
  "partial",
  "C86_run_partial: for every list of proper options (heap below 32768, stack at least 1024, sizes below 65536, -d) and every file name of at most 40 characters with its extension, prun loads that file and starts it with areas of at least the sizes asked for, one after the other, and at most 8 bytes more in all. C86_source_partial: with C78, from the text of a program to what it writes under prun. C86_refused, C86_one_name, C86_not_loaded: what is refused. C86_number: how sizes are read. C86_violation_alloc: the documented -a is refused. C86_violation_size: -s 65536 is accepted and gives no stack at all, start-up is undefined. C86_violation_heap: -n 64 makes start-up undefined for a program with two bytes of constants. C86_violation_name: too long a name is not reported, an uninitialized one is used. Missing: the four violations; sizes near 2^31; the splitting of the command line by getopt_long."
 ],
 "C87": [
  "proved",
  "C87_owned: for every history of calls that keeps to the rules (Known.after, stated on the calls alone), nothing is undefined and every allocated block is held by exactly one pointer of an existing handle, container or the program. C87_all_released: nothing is left at the end. C87_violation_read: why a file may be read into a new handle only: otherwise memory is lost. Not modelled: the tables of line numbers, debug information and labels that belong to no handle, names that point into the string table of a handle, allocations that fail."
 ],
 "C88": [
  "partial",
  "C88_popt: the optimizer, whatever the file has, whatever its passes add and whatever realloc does, frees and uses everything at most as often as allowed and leaves nothing allocated. C88_prun, C88_refused: the same for loading and releasing a program and for files that are refused. C88_plink_partial: the linker, for any number of files, never frees twice or uses what is freed, and what is left allocated at the end are only the constants extracted from the input files. C88_violation_link: these are never freed. C88_symbols: the linker releases every container of a symbol exactly once, whatever symbols the files have, and until then every symbol number refers to an existing one. C88_violation_load: when there is no memory for the machine the loader uses a null pointer. Missing: the violations; tables that belong to no handle; other runs in which malloc fails."
 ],
 "C89": [
  "partial",
  "C89_labels: for every sequence of additions and questions, with up to 2^29 - 256 entries in each of the two tables, nothing is written or read outside of the arrays, every question gets the value added first with that label to that table, or -1, and the tables can be released. C89_finalize: these are the answers the model of the finalization (C34) works with. C89_relocations: the same for the linker's list of relocations: each is kept at its place. C89_violation_release: a label that is added after the release is written to freed memory, the pointers are not cleared (the optimizer releases once, at its end). Missing: the violation; more entries, for which the size of the array no longer fits into 32 bits; malloc that fails."
 ],
 "C90": [
  "partial",
  "C90_header_partial: for every configuration file whose lines, the last perhaps without its end, are empty, comments or settings (blanks around the equal sign, values with texts in quotes, anything behind the value), the header is the guard with exactly the definitions the settings stand for, in order. C90_violation_backslash: a text that ends with an escaped backslash is not ended by its quote. C90_program: the program writes this header for the file .config of the directory it is given, and fails without output if there is no such file or the number of arguments is another. C90_violation_name: any character is accepted between name and equal sign. C90_violation_long: what stands behind the 4095th character of a comment is read as a line of its own and can define a variable. C90_violation_path: the name of the file is cut after 4095 characters, and another file is read. Missing: the violations; settings longer than 4094 characters; strdup without memory."
 ],
 "C91": [
  "partial",
  "C91_relocations_partial: for every table of relocations of known kinds, any symbols below 2^24 and any places, the listing is its head and one line per relocation, in order, from which kind, symbol and place can be read back; the same for the temporary table. C91_violation_kind: a relocation of an unknown kind, anywhere in the table, makes it read behind the array of names. C91_violation_size: with entries of size 0 in the file the listing does not end. C91_symbols_partial: the same for every table of symbols of known kinds with their names in the table of strings. C91_violation_symbol_kind: a symbol of an unknown kind makes it read behind the array of names. Missing: the violations, names that are not in the table of strings, and other sizes of entries."
 ]
}
