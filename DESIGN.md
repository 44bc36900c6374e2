# Formal model of patacongo/Pascal in Lean 4

Source modelled: `/repo` (Pascal compiler `pascal/`, optimizer `insn16/popt`,
linker `plink/`, object-file library `libpoff/`, instruction library
`insn16/libinsn`, virtual machine `insn16/libexec`, utilities `libpas/`).
Lean project: `/verif/lean` (`lake build`). Properties: `properties.jsonl`.
Status per property: `MANIFEST.json`. Mutation log: `seeded/LOG.jsonl`.

## Conventions

* `Verif/Model/*.lean` – executable model, function by function, each
  definition citing file and lines of `/repo`.
* `Verif/Spec/*.lean` – small specifications that do not mention the model.
* `Verif/Lemmas/*.lean` – helper lemmas.
* `Verif/Props/*.lean` – property theorems (one file per group) with an
  `example` next to each showing its hypotheses are satisfiable.
* Undefined C behaviour (division by zero, bad shift counts, accesses outside
  the allocated arrays, signed overflow) is a separate outcome `ub`;
  a C loop that provably never ends is the outcome `hang`.
* When the code violates the English property, the theorem `Cxx_violation…`
  proves the negation with a concrete witness, and `Cxx_…_partial` proves the
  strongest statement we have for the rest; both are listed in MANIFEST.json.

## Trusted base

* Lean 4.33.0 kernel; axioms at most `propext`, `Classical.choice`,
  `Quot.sound` (no `sorry`, no `native_decide`, no `bv_decide`, no own axioms).
* Mathlib is used in the proofs about the value of reals that are read (`Verif/*/RealRead.lean`: rational
  numbers, `linarith`, `ring`, `positivity`, `field_simp`) and nowhere else.
* The hand translation C → Lean (every definition cites its source lines).
* C semantics assumed: two's complement `int16_t`/`int32_t`, conversions to
  narrower types wrap, `>>` of a negative value is arithmetic and `<<` of a
  negative value shifts the bit pattern (documented GCC/Clang behaviour),
  `int` is 32 bits, little-endian host (`SWAPNEEDED` configuration, i.e.
  `CONFIG_ENDIAN_BIG` unset).
* The axioms each theorem depends on are listed in `AXIOMS.md` (generated by `tools/axioms.py`).
* What is modelled and what is not: section *Modelled and not modelled* at the end of this file, and
  `COVERAGE.md` (generated by `tools/coverage.py`: the lines of each C file that the comments of the model cite).
* Not trusted: the specifications (`Verif/Spec`) are to be read, not trusted to be used; every theorem of
  `MANIFEST.json` can be read from its statement, the specification it mentions and the model functions it
  mentions.

## Plan per property

| Id | Model | Proof |
|----|-------|-------|
| C01–C04 | `pexec8` over a word memory with registers; UB outcome for zero divisors, bad shift counts, unsigned product overflow | per-opcode theorems against integer specs (`Int.bmod`, `Int.tdiv`), violation witnesses for C04 |
| C05 | load/store opcodes of `pexec8/24/32`, loops as recursion on the size | read-over-write lemmas, induction on block size |
| C06–C07 | `libexec_ProcedureCall`, `oRET`, `libexec_GetBaseAddress` | invariant over all call/return histories: frames form a chain with levels decreasing by one along static links |
| C08–C10 | `libexec_Execute`, `libexec_Initialize/Reset` | case split over all 256 opcodes; arithmetic for the memory map; violation witnesses |
| C11–C15 | `libexec_setops.c` on four 16-bit words | bitwise extensionality against `Nat → Prop` sets; exact characterization of the subrange bug |
| C16–C18 | `libexec_longops.c` | two-word ↔ `BitVec 32` isomorphism; violation witnesses for the swapped comparisons |
| C19–C21 | `libexec_heap.c` chunk headers in memory | invariants by induction over operations where they hold; violation histories |
| C22–C27 | `libexec_stringlib.c` on the byte view of memory | refinement to `List Byte` operations; violations |
| C28–C29 | `insn_AddOpCode`, `insn_GetOpCode`, `insn_Relocate`, VM fetch | round trip by induction on the program |
| C30–C33 | rewrite rules of `popt_*.c` on op lists | for each rule: equality of VM effect; violation witness for each unsound rule |
| C34 | `popt_finalize.c` pass1/pass3 | simulation between label semantics and address semantics |
| C35–C37 | `plsym.c`, `plreloc.c`, `plink.c` merging | refinement to a finite map; induction over input files |
| C38–C40 | `libpoff` writer/reader on byte lists | round trip by parsing lemmas; involution by bit extensionality |
| C41 | `poffFindLineNumber` incl. hint | loop invariant for the binary search; violation at the last entry |
| C42 | debug record iteration | violation + partial |
| C43–C46, C56 | the tokenizer `pas_GetToken` with its line buffer, reserved word table, symbol table and scopes | induction over the input string; sortedness of the whole table by kernel computation, lifted by a lemma; scopes as a representation invariant over event histories |
| C47 | `pas_constexpr.c`, `pas_constfunc.c` on expression trees (`Model/ConstExpr.lean`) | violation + partial |
| C48–C50 | code generation for expressions/statements as functions from ASTs | compiler-correctness by induction on big-step semantics |
| C51 | `extension`, `pbasename` on character lists | case analysis; violation |
| C53–C54 | see `properties.jsonl` | invariants over `execute` and the encoding |
| C55 | constants, addresses, DUP/XCHG, INDS/INCS of the VM | per-opcode theorems |
| C52 | composition of C28, C34, C48, C49 | composition theorem |
| C53 | all opcodes of the VM, any number of steps | invariant by induction |
| C54 | 32-bit division and shifts of `libexec_longops.c` | per-opcode theorems |
| C56 | `pas_token.c` white space, comments, symbols | induction over the skipped text |
| C57 | `pas_block.c` constant definitions and variable declarations, symbol table | induction over the declarations (the values of constants by C47); violations |
| C58 | set constants of `pas_constexpr.c` (`Model/ConstExpr.lean`) as bit sets | violation + partial |
| C59 | the driver of the optimizer, its window and all its passes over instruction lists (`Model/Optimize.lean`); a weight of the window decreases with every rewrite | violation + partial |
| C60 | same model; every rewrite is an edit that keeps labels, calls, returns and line marks and invents no jump target | invariant over all rewrites and window moves |
| C61 | same model with the relocation of each window entry and the relocation output | violation + partial |
| C62 | `popt_LongUnaryOptimize`, `popt_LongBinaryOptimize` (`Model/Optimize.lean`) against `libexec_LongOperation8` (`Model/LongOps.lean`); one iteration on a window with the constants and the operation | per operation, all constants and states; violations; partial |
| C63 | `libexec_FloatOps` on IEEE binary64 bit patterns; the rounding operations of the host are parameters; comparisons, conversion, negation exact | violation + partial |
| C64 | `libexec_sysio` write operations over a host with files as byte lists; text described by decimal notation and justification only; all other instructions keep the files | partial |
| C65 | `libexec_sysio` read operations; one item per line; histories of READ and READLN by induction; round trip with C64 | violation + partial |
| C66 | file table of `libexec_sysio`; histories: induction over executions with arbitrary other instructions, every other instruction keeps which numbers are in use | induction, proved |
| C67 | positions as part of the stream of the model; each operation described by its results and what stays; blocks there and back | violation + partial |
| C68 | `libexec_OpenFile` over a host that may refuse; round trip REWRITE, write, CLOSE, RESET, read | violation + partial |
| C69 | `libexec_StringOperations` cases STR and VAL with `snprintf` and `strtol` as functions on byte lists; decimal notation specified independently of the code | violation + partial |
| C70 | `pas_WriteProc` … `pas_WriteFieldWidth`, the read-only data of string constants; the meaning of statements is over variables and the text written so far; simulation as for C49, programs as for C52 with the file routines of the machine | violation + partial |
| C71 | the file read token by token until the period (`Model/Source.lean`), then the chain of C52; how tokens are written is specified independently (`Spec/Source.lean`) | induction over the text; composition with C43–C46, C56 and C70; partial |
| C72 | `pas_ProcedureDeclaration`, `pas_FormalParameterList`, `pas_Block` and procedure statements (`Model/Block.lean`, `Model/Compile.lean`); the meaning of a program is defined by the depth of its calls (`Spec/Calls.lean`), programs with nested declarations and scopes in `Spec/Program.lean` | induction over the depth of calls, with the simulation of C49 for the statements; layout of nested code by induction over the declarations; violations; partial |
| C73 | `pas_ArrayIndex`, the indexed cases of factors and assignments (`Model/Compile.lean`), array types and their places (`Model/Block.lean`), the indexed loads and stores of the machine; the elements are variables of the store (`Spec/Pascal.lean`) | the simulation of C48 and C49 with one more expression and statement; violations; partial |
| C74 | the memory of the tables of `libpoff` with its allocations (`Model/PoffMem.lean`): allocation, growth, writes, traversal, the relocation containers of the optimizer; an access outside a block is undefined | invariant over all histories of additions: contents are the concatenation; violations; partial |
| C75 | the debugger with its commands, breakpoints, trace and command lines (`Model/Debugger.lean`), on top of the machine; displays are represented by what they read | the loop is shown equal to a course of the machine's own instructions (`Spec/Debugger.lean`) by induction, the ring of the trace by an invariant, sessions by induction over the lines |
| C76 | the disassembler with its tables, entry by entry, and the loop of the listing program (`Model/Disasm.lean`); names and operand kinds are specified again from the header files (`Spec/Listing.lean`) | the tables are compared with the specification by the kernel over all opcodes; lines by cases on the kind of operands with the printed numbers for all values; unambiguity by reading lines back; the listing by induction over the instructions with the search in the line table of C41 |
| C77 | the string library functions for arrays and characters (`Model/Strings.lean`), the histories of temporary strings with these calls added (`Spec/Strings.lean`) | one step of the machine for all states, the heap invariant of C25/C26 for the temporary; what the stored array holds, byte by byte |
| C78 | the programs around the passes: what `popt`, `plink` and the loader read from a file and write to the next (`Model/Chain.lean`, on the object files of C38-C40); what a correct object file holds (`Spec/Chain.lean`) | the invariant of C38 for what is written, the round trip of C38 at each border, and C71 for the program itself |
| C79 | `pas_ReadProc` … `pas_ReadText`; the state of the meaning of statements has the input that is left and whether something of its first line has been read; simulation as for C49 with the read operations of C65; a program with a loop over its input from its text to its output | violation + partial |
| C80 | the string pass with its window and its repetitions (`Model/Optimize.lean`); what may be left out is specified on lists of instructions (`Spec/Optimize.lean`: `DropDup`) | the window and the table of pointers always list the same program, by induction over the rounds and the shifts of the window |
| C81 | the local pass in the same way; rewriting by rules is specified on lists (`Spec/Optimize.lean`: `Rewrites`) | as C80, one lemma per rule; composition with C80 |
| C82 | the compiler of C49 and C60 on arbitrary tokens; the grammar with types is a separate specification (`Spec/Accept.lean`), in two versions: the rules of Pascal and those the compiler checks; whole programs with declarations are in `Spec/AcceptProg.lean` | induction over the fuel of the parser: each function either adds to the number of errors or has read a sentence of its kind; for declarations with the table of names before and after; for source files, by unfolding the steps of the compiler up to the object file, and because the only period of a program is its last token |
| C83 | the chain of C52; the meaning of programs that do not end and of those that go wrong is a separate specification (`Spec/Forever.lean`): a set of situations each of which comes to another one of the set | from any such situation `n` steps of the code are made, by induction on `n` and the size of the statement; marks between instructions are counted; what is written by the same lemmas with another goal; the three cases by coinduction |
| C84 | the tokenizer of C43–C46 and C56 on arbitrary files; what all tokens and gaps are is a separate specification (`Spec/Spelling.lean`) | for each loop of the tokenizer, which characters it has read when it ends (`Reads`); induction over the fuel; then a token or a comment that begins in the file ends in it, by the characters it cannot contain |
| C85 | `poffGetLineNumber`, `poffReadLineNumberTable` (`Model/LineTable.lean`) on any object; `qsort` is any function that sorts | induction over the loop next to that of the raw line numbers; composition with C38, C41 and C76 |
| C86 | `prun_ParseArgs` and `main` of `prun.c` (`Model/Prun.lean`) after `getopt_long` has split the command line, with `atoi` | induction over the options (the last of a kind counts); composition with C10, C51 and C78 |
| C87 | the pointers of the handles and containers of `libpoff` and the blocks they hold (`Model/PoffOwn.lean`); a double free and a use of a freed handle are undefined | invariant over all histories: allocated blocks and pointers correspond one to one |
| C88 | the calls of the optimizer, the loader and the linker to the functions of C87, with any additions between them (end of `Model/PoffOwn.lean`); the release of the linker's symbols (`Model/LinkFree.lean`) | each sequence keeps to the rules of C87 (induction over additions and files), then C87; the sorted list has every container once |
| C89 | the two arrays of labels with their allocation (`Model/LabelTab.lean`); accesses outside of them are undefined | invariant: the first cells hold the entries in order, the size is that of the array |
| C90 | `tools/mkconfig.c` on lists of bytes (`Model/MkConfig.lean`) | grammar of lines (`Spec/MkConfig.lean`), induction over each of the scanning loops |
| C91 | `libpoff/pfdreloc.c`, `pfdtreloc.c`, `pfdsymbol.c` on the bytes of the table (`Model/RelocDump.lean`, `Model/SymDump.lean`) | lines that can be read back (`Spec/RelocDump.lean`, `Spec/SymDump.lean`), induction over the table |

No property is planned as not expressible. Floating-point rounding, OS calls (GETENV, SPAWN), directory
operations and the parser's error recovery are outside the model.

The library routines called by the interpreter are put together in `Model/Library.lean` (`machine p`, for a
platform `p` with the host's arithmetic, files and the routines that are not modelled). Theorems about the
interpreter take an arbitrary library with the properties they need; `Props/Library.lean` proves that
`machine p` has these properties (`machine_keeps`, `machine_noPc`, `machine_legal`) and restates the theorems.

## Disagreements between the code and the properties

Each is a theorem with a concrete witness (`Cxx_violation…`).

* C04: division and modulus by zero and shift counts outside 0–15 are undefined C behaviour.
* C13–C15: subrange set constructors lose or add elements; see `Props/Sets.lean`.
* C16–C18: 32-bit comparison operations with swapped results, signed overflow, `oLONGOP24`
  opcode value `0x7f` clashes with the argument flags; see `Props/Long.lean`.
* C19–C21: out-of-order DISPOSE makes NEW hand out overlapping blocks; requests above 65520 bytes
  overflow; see `Props/Heap.lean`.
* C22–C27 (`Props/Strings3.lean`): appending what does not fit appends nothing; the result of
  `memcmp` is cut to 16 bits; `Delete`/`Insert` behind the end or at position 0 corrupt the length;
  `Insert(s, s, p)` reads characters it has already overwritten; `CharAt` sign-extends; `Pos` with
  a start behind the end searches foreign memory, and stops at NUL characters; appending a
  character to a full temporary and storing a string into a short character array write outside
  the destination; string storage may overlap constant data.
* C28–C29 (`Props/Encoding.lean`): see the violation theorems there.
* C34: `pass3` does not list JULT, JUGTE, JUGT, JULTE, so jumps on unsigned comparisons keep the
  label number as their target (`C34_violation_unsigned`).
* C30: folding GTZ of a constant, DIV and MOD of constants with different signs, unsigned
  comparisons and UDIV give another constant than the machine; division by a constant zero is
  undefined behaviour of the optimizer itself (`C30_violation_*`).
* C31: DIV by a power of two becomes an arithmetic shift (wrong for negative numbers); `x < 0` and
  the like on constants, `0 - x` and `0 < x` lose the sign or the strictness; UDIV by -1; an address
  in a frame moved over the frame header (`C31_violation_*`).
* C32: JGTZ on constants, NOT on non-boolean words and NEG before ordering jumps
  (`C32_violation_*`).
* C33: storing a byte and loading it again keeps the whole word; the instruction between a constant
  index and an indexed store is not checked to be a load; indexes over the frame header; LAR
  exchanged with another load (`C33_violation_*`).
* C38, C40: the file-name table is swapped with a byte index used as a word index, so a file with two
  names cannot be read; the debug table is swapped with the size of the relocation table as bound and
  a parameter count that has already been swapped (`C38_violation_*`, `C40_violation_*`).
* C41: an address at or behind the last line entry is attributed to the entry before it
  (`C41_violation`).
* C42: a last debug record without parameters is not returned, and a record with many parameters
  overruns its buffer (`C42_violation*`).
* C37: an input without file names makes the linker use an uninitialised offset; constants beyond
  the first 65536 bytes are addressed modulo 65536 (`C37_violation_*`).
* C43: a character literal beyond ASCII gets a sign-extended value (`C43_violation`).
* C44: `$1F` is not read as a number; `%101`, announced as binary, is read as hexadecimal
  (`C44_violation_dollar`, `C44_violation_binary`).
* C46: a declared name that is also an alternative spelling of a predefined one (`text`, `int64`,
  `longint`, `close`, ...) cannot be reached (`C46_violation`).
* C56: the bytes 1 to 8 are read as the token codes for identifiers and constants; an unterminated
  comment makes the compiler loop for ever; a `//` comment ends at the end of the 255-byte line
  buffer (`C56_violation_control`, `C56_violation_hang`, `C56_violation_long_line`).
* C51: a period in the directory part of a path is taken for the start of the extension
  (`C51_violation`).
- C48: `b1 < b2` (also `<=`, `>`, `>=`) on Booleans or characters is accepted and generates no
  comparison (`C48_violation_boolean_order`); `integer * longint` is accepted and leaves two words on
  the stack (`C48_violation_mixed_product`); constants from 32768 to 65535 are accepted as negative
  Integers (`C48_violation_constant`); ORD(TRUE) is -1 (`C48_violation_ord`), SUCC(FALSE) is not TRUE and
  PRED(TRUE) is not FALSE (`C48_violation_succ`), ABS refuses short integers (`C48_violation_abs`).
- C49: a CASE constant TRUE has the token value 0xffffffff and is rejected with an overflow error
  (`pas_statement.c` 1781-1870); negative constants are rejected as well. Proved:
  `C49_violation_case_true`.
- C49: CONTINUE in a REPEAT jumps to the beginning of the body, the UNTIL condition is not evaluated
  (`pas_statement.c` 1587-1640). Proved: `C49_violation_repeat_continue`.
- C50: FOR with a one-byte control variable loads and stores words (`pas_statement.c` 1922-2054), so the
  neighbouring byte is overwritten (`C50_violation_short`); the limit is evaluated after the control
  variable has been assigned (`C50_violation_order`); a loop up to 32767 or down to -32768 never ends
  (`C50_violation_maxint`); words are compared as signed numbers (`C50_violation_word`).
- C57: a variable of an undeclared type makes the compiler use a null pointer after the error message
  (`pas_TypeDenoter`, `C57_violation_type`); `var a, a : integer` is accepted
  (`C57_violation_twice`); a predefined name can be redeclared by the first declaration after VAR only
  (`C57_violation_predefined`); a variable named like an alternative spelling of a predefined type can
  be declared but not be used (`C57_violation_alias`).
- C47: the relational operator is not skipped before the second operand (`pas_constexpr.c` 874-900), so
  that no comparison is accepted (`C47_violation_comparison`, for all operands); parentheses are not
  accepted (`C47_violation_parentheses`); integer OR subtracts (`C47_violation_or`); constants are
  computed in 32 bits, expressions in 16 (`C47_violation_overflow`); DIV and MOD by zero are executed
  by the compiler (`C47_violation_zero`); SUCC(FALSE) is 1 (`C47_violation_succ`); a negative constant
  becomes a long integer where its name is used (`C47_violation_negative`). By reading only: ODD of a
  constant calls pas_Expression at the closing parenthesis and is always rejected.
- C58: a range replaces the words it touches (`C58_violation_overwritten`); ranges that begin after the
  first 16 elements get wrong bits (`C58_violation_range`); `[10..27]` is stored outside of the set
  (`C58_violation_outside`); the difference is taken the wrong way round (`C58_violation_difference`);
  a union of three sets loses the second (`C58_violation_union`); the intersection is always an error
  (`C58_violation_intersection`).
- C59: `oUDIV` with two constants is not folded but counted as a change (`popt_constants.c`), the pass never
  ends (`C59_violation_udiv`); constant division by zero is executed by the optimizer
  (`C59_violation_zero`); PUSH followed by a 32-bit operation looks at the entry before the window
  (`popt_longconst.c`, `C59_violation_shift`).
- C61: an entry turned into oDUP keeps its relocation (`C61_violation_dup`, `C61_violation_store`), and
  the equality of two loads ignores relocations, so that variables of different units at the same offset
  are confused (`C61_violation_dup`); relocations must come in the order of the instructions, so that
  exchanging two loads loses all later relocations (`C61_violation_exchange`).
- C63: ROUND is `(int16_t)` of the operand, exactly like TRUNC (`libexec_float.c`, `C63_violation_round`);
  TRUNC and ROUND of a value outside -32768..32767 are undefined behaviour (`C63_violation_trunc`).
- C65: READ of an integer or a character reads a whole line into the I/O buffer and drops what follows the
  first item (`C65_violation_second_number`); at the end of the file the old buffer is converted again
  (`C65_violation_end_of_file`); `libexec_ConvertInteger` limits negative numbers to -32767
  (`C65_violation_smallest`); `libexec_CheckEoln` needs a line of at least two characters, so that an empty
  line is read as a newline character and READLN skips the line after it (`C65_violation_empty_line`); lines
  of 255 characters and more are cut in two (`C65_violation_long_line`).
- C67: EOF of the standard input is FALSE until a READ has failed (`C67_violation_eof_input`); SEEKEOF and
  SEEKEOLN take the first character that is not blank from the file (`C67_violation_seekeof`). By reading
  only: SEEKEOLN at the end of the file is FALSE.
- C68: RESET of an open file is an error (`C68_violation_reset_open`); RESETR and REWRITER overwrite the error of
  the open (`libexec_sysio.c` 1368-1391, `C68_violation_reset_size`). By reading only: ASSIGNFILE does not
  free a temporary name string.
- C69: STR appends to the variable instead of replacing its contents (`C69_violation_str_append`; the compiler does not
  empty it either, `pas_procedure.c` 1776-1851), prints negative integers as unsigned (`C69_violation_str_negative`),
  prints only the lower 16 bits of long values (`C69_violation_str_upper`) and stores the length the text would have
  had when it does not fit (`C69_violation_str_long`). VAL reads "010" as octal (`C69_violation_val_octal`), takes ''
  for a number (`C69_violation_val_empty`) and stores the offending character, not its position
  (`C69_violation_val_code`).
- C70: Boolean values cannot be written (`C70_violation_boolean`); string constants cannot have a field width
  (`C70_violation_string_width`, the colon is looked for before the constant has been read over); INTEGER
  expressions cannot be field widths (`C70_violation_integer_width`); `writeln(output)` is rejected
  (`C70_violation_writeln_file`); negative widths are taken modulo 256 (`C70_violation_negative_width`);
  `write(, x)` and `write(output x)` are accepted (`C70_violation_comma`). A precision is accepted for integers and, if negative,
  replaces the field width (`C70_violation_precision`).
- C72: with a variable `x` in an enclosing block, `var y : integer; x : integer;` is rejected in a procedure but
  `var x : integer; y : integer;` is accepted (`C72_violation_hide`, and for constants `C72_violation_hide_constant`: the first name of a later declaration is looked up in
  the whole symbol table, `pas_block.c` 3345-3370); a local variable may have the name of a parameter
  (`C72_violation_same_name`); two parameters of the same name, a parameter without or with an unknown type make
  the compiler use an unset or null pointer (`C72_violation_parameters`); `q()` is accepted
  (`C72_violation_parentheses`).
- C73: an index outside of the range of the array is noticed neither by the compiler nor at run time, and the
  assignment changes another variable or the frame of the procedure (`C73_violation_bounds`); `a[i]` is accepted for an
  array with two indices (`C73_violation_dimensions`). By reading only: with more indices than the array has, the compiler
  reports an error and then uses a null pointer (`pas_expression.c` 4240-4310). The size of an array is computed with
  16 bits, so that `array [0..65535] of char` has no bytes and the next variable has the same place
  (`C73_violation_size`). By reading only: `pas_IntAlignRequired` (`pas_block.c` 2902-2930) asks for a kind `sARRAY` that
  types never have, so that every array of more than one byte is aligned.
- C62: comparisons of a long constant with zero leave two words (`C62_violation_zero`); `x = 0` loses the operator
  (`C62_violation_equal`); `x < 1` and the like and comparisons for order of two constants are not what the machine
  computes, which takes the operands in the other order (`C62_violation_order`, `C62_violation_folded_order`); the
  conversion to 16 bits stays and the instruction behind it is deleted (`C62_violation_narrow`); a shift by 0 loses
  a word (`C62_violation_shift`); constant division by zero and overflow are undefined in the optimizer
  (`C62_violation_overflow`).
- C74: `poffReadFile` does not record the size of the blocks it allocates. So the optimizer copies the relocations of a
  file into a block of 0 bytes (`C74_violation_clone`, every file with a relocation), and a symbol, relocation or line
  number added to a table that was read with 64 or more (512 or more) entries shrinks the table and is written outside
  (`C74_violation_after_read`). The number of bytes to add is cut to 16 bits when room is made (`C74_violation_bytes`,
  `C74_violation_string`). By reading only: `poffAddProgByte` records 4096 bytes for its block of 8096, which is harmless.
- C75: `NEXT` over a call of a recursive procedure stops in a deeper activation (`C75_violation_next`); at a program
  counter outside of the code it reads the byte there (`C75_violation_outside`). Displays read the operands of an
  instruction beyond the last byte of the code (`C75_violation_display`). `WS` refuses to set the watchpoint again,
  against the help text (`C75_violation_watch`); the status tests the word number of the watchpoint as if it were its
  address (`C75_violation_shown`). Addresses are cut to 16 bits (`C75_violation_address`), lines without white space are
  searched beyond their end (`C75_violation_line`), a program that runs off its code stops without a message
  (`C75_violation_silent`). By reading only: at the end of the input the last command is repeated for ever.
- C76: the opcode of the long jumps (0x7f) lacks the bit for a 16-bit operand, so the listing shows `DJEQUZ` as `DNOP` and
  so on (`C76_violation_long_jump`) and the destination as instructions (`C76_violation_destination`). The compiler's own
  listing of long operations always uses entry 0 of the table of names (`C76_violation_compiler`). Flags of `FLOAT`,
  undefined opcodes and function codes are hidden (`C76_violation_float`, `C76_violation_undefined`,
  `C76_violation_function`), levels above 127 are negative (`C76_violation_level`), an instruction that is cut off is
  completed by ones (`C76_violation_cut_off`), the last heading is missing (`C76_violation_heading`). By reading only:
  the names of two long jumps in the listing (`DUJGT`, `DUJLTE`) are not those of the header (`DJUGT`, `DJULTE`).
- C77: storing a string into an array of characters uses the length of the string and never the size of the array: longer
  strings overwrite what follows (`C77_violation_overrun`), shorter ones leave the old characters behind them, and the array
  then reads as a mixture (`C77_violation_rest`). The clipping is computed into a
  variable that is not used afterwards.
- C65: READ of a real does not skip blanks (`C65_violation_real_blank`), ignores exponents (`C65_violation_real_exponent`)
  and collects the whole part in an `int32_t` without a check (`C65_violation_real_large`). The accuracy
  (`C65_read_real_partial`) is proved with rational numbers for every arithmetic whose results are off by less than a unit of
  the last place (`Spec/RealRead.lean`); that there is one is proved (`ieee_exists`).
- C78: a program and a unit from two source files are linked, but the executable has two file names and the loader writes
  behind the table it has allocated (`C78_violation_unit`, see C38). The optimizer program copies the relocations of an object
  file (the compiler writes one for each access to a variable of a unit) into a block of no bytes (`C78_violation_reloc`).
- C79: READ of a number or a character takes a whole line: a second value in the line is lost (`C79_violation_second_number`,
  `C79_violation_second_char`), a character behind the last one of a line is the first one of the next line, not a blank
  (`C79_violation_end`), and an empty line before a number is read as 0 (`C79_violation_empty_line`).
* C80: the string optimization looks for a copy directly behind the load of the constant; the compiler
  always generates the load of an allocation size between them, so the optimization never applies to
  compiled programs. Nothing wrong follows from it; it is recorded because C80 is then about programs
  that other tools generate.
- C82: the compiler does not check all it should. The operands of `*`, DIV, MOD, AND may have different types
  (`C82_violation_product`), a sign may stand before any value (`C82_violation_sign`), `'A' < 'B'` where a character is wanted is
  taken for one (`C82_violation_order`), an array may be used with fewer indices than it has, the constants of CASE may have
  another type than the value (`C82_violation_case`), READ takes colons between its variables (`C82_violation_read`) and a comma
  in front of them (`C82_violation_comma`), and the comma behind a file may be left out (`C82_violation_file`).
  In declarations a name may occur twice in one list (`C82_violation_twice`), the last semicolon may be missing
  (`C82_violation_semicolon`), nothing need be behind VAR or CONST (`C82_violation_empty`), and a local variable may hide a
  parameter of the same procedure (`C82_violation_parameter`).
- C84: at the end of the source file `pas_SkipLine` delivers a question mark, and `pas_GetLine` has set the pointer back to the start of
  the line buffer, which still holds the last line; it is read again and again. So a comment that is not closed can end in the second
  reading of the last line, and the program `program p;` / `begin end (* } . *) {` is compiled without an error although its only period is
  in a comment (`C84_violation_end`). If no comment can end in the last line nothing is read beyond the file before a question mark
  (`C84_inside_partial`), so that a program that is compiled is in the file as a whole (`C84_whole_partial`).
- C85: the check of the file number of a line is off by one: the number just behind the last file passes, and the name is read outside of the
  table (`C85_violation_check`). The size of the entries is taken from the file; if it is zero the table is read forever
  (`C85_violation_entry`).
- C86: the documented option `-a` of `prun` is refused (`C86_violation_alloc`). `-s 65536` and larger sizes are accepted and cut to 16 bits
  (`C86_violation_size`); a heap as documented makes the start-up undefined where its beginning is no multiple of 16 (`C86_violation_heap`). The
  result of `extension` is not looked at, a name of more than 40 characters leaves the name of the file uninitialized (`C86_violation_name`).
- C87: reading a file into a handle that already has data loses the memory of these data (`C87_violation_read`); the tools always use a new
  handle.
- C88: the linker never frees the constants it extracts from an input file (`C88_violation_link`). When `libexec_Initialize` finds no memory and
  returns a null pointer, `libexec_Load` frees `st->ispace` through that pointer (`C88_violation_load`,
  `insn16/libexec/libexec_load.c:136-141`).
- C89: the tables of labels are released but their pointers and sizes are kept, so that the next label is written to freed memory
  (`C89_violation_release`); the optimizer releases them once, when it is done.
- C90: a text that ends with an escaped backslash is not ended by its quote (`C90_violation_backslash`); any character is accepted between a
  name and the equal sign (`C90_violation_name`); a comment ends after 4095 characters, and what follows can define a variable
  (`C90_violation_long`); the name of the file is cut after 4095 characters (`C90_violation_path`).
- C91: listing a relocation or a symbol of an unknown kind reads behind the array of names (`C91_violation_kind`,
  `C91_violation_symbol_kind`); with entries of size 0 the listing
  does not end (`C91_violation_size`).

## Wrong programs

`tools/seed.py` edits the model in a scratch copy the way a bug would change the program, rebuilds, and appends one line
per attempt to `seeded/LOG.jsonl`. Outcomes: `survived` (everything still builds), `caught` (a proof fails), `survived,
then caught` (a theorem was tightened or added, named in `tightened`, and the same edit now fails), `invalid` (the edited
definition itself is rejected, which says nothing about theorems). `level` is `property` if a theorem or example of
`Verif/Props` fails directly, and `lemma` if a supporting lemma fails first: the modules with the property theorems import
it and are then not tried, so such an attempt shows that the proof breaks, not which property theorem would be false.
Entries without `level` are from before it was recorded; about two thirds of those are of the second kind.

## Modelled and not modelled

`COVERAGE.md` gives the lines. In words:

Modelled in full (all opcodes, routines or rules): the instruction execution `libexec_run.c`, 32-bit operations
`libexec_longops.c`, sets `libexec_setops.c`, heap `libexec_heap.c`, strings `libexec_stringlib.c`, file and text
I/O `libexec_sysio.c` except directories, the instruction encoding `insn_addopcode.c`, `insn_getopcode.c`,
`insn_relocate.c`, the optimizer `popt_*.c` with its driver, the finalizer `popt_finalize.c`, the linker
`plink.c`, `plsym.c`, `plreloc.c`, the object file writer and reader `pfw*.c`, `pfr*.c`, `pfread.c`, `pfswap.c`,
the tokenizer `pas_token.c`, constant expressions `pas_constexpr.c`, file names `libpas`.

Modelled in part:

* `pas_expression.c`, `pas_statement.c`, `pas_procedure.c`, `pas_stdfunc.c` (`Model/Compile.lean`): expressions and
  assignments of ordinal types (16 and 32 bits), IF, WHILE, REPEAT, FOR, CASE, compound statements, WRITE and WRITELN
  of integers, characters and string constants, READ and READLN of integers and characters, procedure calls with value parameters, elements of arrays, the standard functions ABS, SQR, PRED, SUCC, ORD, ODD, CHR. Not
  modelled: reals, sets, strings, arrays of other than ordinal elements, records, pointers, files in expressions; VAR parameters and calls of
  functions; WITH, GOTO; READ of other types and the other standard procedures.
* `pas_block.c` (`Model/Block.lean`): constants, variables of simple types and arrays of them with ranges of integers, procedures with value parameters. Not
  modelled: the other type declarations, functions, VAR parameters, labels; `pas_initializer.c` only as far as simple variables need it.
* `popt.c`, `plink.c` (main programs), `libexec_load.c` (`Model/Chain.lean`): object files with relocations or line numbers are `ub` in
  the optimizer; debug information of the executable is not read by the modelled loader.
* `pas_symtable.c` (`Model/Names.lean`): the table as a list with scopes; the types of entries only where they matter.
* `libexec_float.c` (`Model/FloatOps.lean`): the rounding operations of the host (+, -, *, /, the functions) are parameters;
  comparisons, negation, absolute value and conversions are exact on IEEE binary64 patterns.
* `libexec_oslib.c`: EXIT, NEW, DISPOSE; GETENV and SPAWN are parameters (`Platform`).
* The host: `fopen`, `fgets`, `fwrite`, `fseek`, `snprintf`, `strtol`, `strstr`, `memcpy` are modelled by their C meaning
  (`Model/SysIo.lean`, `Model/Convert.lean`, `Model/Strings.lean`); reads and writes do not fail half way, no other process
  changes the files.

Not modelled at all: `pas_unit.c` (units), the texts printed by `libexec_debug.c` (its logic is in `Model/Debugger.lean`), the
options and the other tables printed by `plist.c` (its listing of the program is in `Model/Disasm.lean`), the directory operations of `libexec_sysio.c`, the listings of headers and line numbers
(`pfdhdr.c`, `pfdlineno.c`; those of relocations and symbols are in `Model/RelocDump.lean` and `Model/SymDump.lean`), the rest of the temporary
containers of `libpoff` (`pfd*.c`; who owns the memory is in `Model/PoffOwn.lean`, those that hold relocations, symbols and program bytes are in
`Model/PoffMem.lean`, in the models of the programs that use them they are lists), `pofferr.c`, the splitting of the command line of `prun.c` (the options are in `Model/Prun.lean`), `pstart_main.c` and the argument
parsing of the other programs, listing and error files, memory exhaustion of the host.
