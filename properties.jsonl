{"id": "C01", "title": "Arithmetic and logic instructions compute the wrapped 16-bit result and touch nothing else", "statement": "Executing NEG/ABS/INC/DEC/NOT or ADD/SUB/MUL/AND/OR/XOR replaces the operands on top of the data stack by the mathematical result reduced to a 16-bit two's-complement value; no other memory word and no other register except the stack pointer and the program counter (which moves to the next instruction) changes.", "quantifier": "every instruction of the group, every operand pair, every machine state with the operands inside the stack memory", "why_tests_cant": "2^32 operand pairs per instruction times every stack position and memory content", "anchors": ["insn16/libexec/libexec_run.c: pexec8", "insn16/include/libexec.h: POP, PUSH, TOS"]}
{"id": "C02", "title": "Comparison instructions return exactly TRUE (-1) or FALSE (0) according to the signed or unsigned order", "statement": "After `a; b; LT` the top of stack is -1 if a<b as signed integers and 0 otherwise; likewise for EQU, NEQ, GTE, GT, LTE, the zero comparisons, and the unsigned ULT/UGTE/UGT/ULTE, with exactly one value left in place of the operands.", "quantifier": "all operand pairs and states", "why_tests_cant": "exhaustive over signedness boundaries and every state", "anchors": ["insn16/libexec/libexec_run.c: pexec8"]}
{"id": "C03", "title": "Conditional jumps are taken exactly when the comparison holds", "statement": "A conditional jump pops its one or two operands and transfers control to its 16-bit target iff the comparison it names holds (the same relation as the comparison instruction of that name); otherwise control falls through to the next instruction. Memory is unchanged.", "quantifier": "all jump opcodes, all operands, all targets, all states", "why_tests_cant": "the branch decision must be right on every operand pair", "anchors": ["insn16/libexec/libexec_run.c: pexec24"]}
{"id": "C04", "title": "Division, modulo, multiplication and shifts are well defined for every operand a Pascal program can supply", "statement": "DIV/MOD/UDIV/UMOD return the quotient truncated towards zero and the matching remainder, UMUL the product modulo 2^16, SLL/SRL/SRA the shifted value, and no operand makes the virtual machine itself execute an undefined C operation.", "quantifier": "all operand pairs", "why_tests_cant": "the bad operands (zero divisor, large shift count, large unsigned product) are isolated points", "anchors": ["insn16/libexec/libexec_run.c: pexec8 (oDIV, oMOD, oUDIV, oUMOD, oUMUL, oSLL, oSRL, oSRA)"]}
{"id": "C05", "title": "Loads return what the last store wrote, and stores change only their destination", "statement": "After a word, byte or block store to a variable, a load of the same kind from that variable yields the stored value; every byte outside the destination (and the consumed operand slots) is unchanged. Byte loads are sign extended by LDB-type and zero extended by ULDB-type instructions.", "quantifier": "all addresses, values, block sizes and memory contents", "why_tests_cant": "aliasing, odd addresses and block lengths are unbounded combinations", "anchors": ["insn16/libexec/libexec_run.c: pexec8 (oLDI,oSTI,oLDIB,oSTIB,oLDIM,oSTIM), pexec24 (oLD,oST,oLDM,oSTM,...), pexec32 (oLDS,oSTS,...)"]}
{"id": "C06", "title": "A procedure call followed by return restores the caller", "statement": "If PCAL is executed and the callee leaves its five-word frame header intact and the stack pointer at the top of that header, RET resumes at the instruction after the PCAL with the caller's frame pointer, stack pointer, string-stack pointer and static level restored exactly, and no word of memory at or below the caller's top of stack modified by the call/return pair.", "quantifier": "every call depth, every level, every machine state", "why_tests_cant": "the property must hold for every call history and every body", "anchors": ["insn16/libexec/libexec_run.c: libexec_ProcedureCall, pexec8 (oRET), pexec32 (oPCAL)"]}
{"id": "C07", "title": "Static links always reach the lexically enclosing activation", "statement": "In every state reachable by any sequence of calls and returns, a level-relative access with level difference d reaches the activation record found by following the lexical nesting d steps outward (whose level is the current level minus d), and a call to a routine of level n makes that record's static link the most recent enclosing activation of level n-1, or reports a nesting-level error and nothing else.", "quantifier": "all histories of PCAL/RET with arbitrary levels", "why_tests_cant": "unbounded call histories including recursion", "anchors": ["insn16/libexec/libexec_run.c: libexec_ProcedureCall, libexec_GetBaseAddress"]}
{"id": "C08", "title": "Invalid opcodes and bad program counters are reported without side effects", "statement": "When the byte at the program counter is not an executable instruction, execution stops with the illegal-opcode error, and when the program counter is outside the program it stops with the bad-PC error; in both cases memory, stack and frame registers are unchanged.", "quantifier": "all 256 opcode bytes, all states", "why_tests_cant": "must hold for every byte and every state", "anchors": ["insn16/libexec/libexec_run.c: libexec_Execute, pexec8, pexec16, pexec24, pexec32"]}
{"id": "C09", "title": "Instruction fetch never reads outside the loaded program", "statement": "Executing one instruction only inspects program bytes at addresses below the program size.", "quantifier": "all programs and program counters", "why_tests_cant": "only a truncated last instruction shows the failure", "anchors": ["insn16/libexec/libexec_run.c: libexec_Execute"]}
{"id": "C10", "title": "Start-up memory map: disjoint regions and readable constants", "statement": "After initialization the string stack, constant data, stack and heap occupy disjoint consecutive areas that fit the allocation, the initial frame is a level-0 frame, and the constant at offset k of the constant section is what LAC k makes the program read.", "quantifier": "all requested region sizes and constant sections", "why_tests_cant": "odd and large sizes", "anchors": ["insn16/libexec/libexec_run.c: libexec_Initialize, libexec_Reset"]}
{"id": "C11", "title": "Set union, intersection, difference and symmetric difference are the mathematical operations", "statement": "For sets A (pushed first) and B, the four binary set operators leave exactly A∪B, A∩B, A\\B, A△B as a set of 0..63, consuming both operands and changing nothing below them.", "quantifier": "all pairs of 64-element sets and all machine states", "why_tests_cant": "2^128 operand pairs", "anchors": ["insn16/libexec/libexec_setops.c: libexec_intersection, libexec_union, libexec_difference, libexec_symmetricdiff, libexec_SetOperations"]}
{"id": "C12", "title": "Set comparisons decide equality, inequality and inclusion", "statement": "A = B and A <> B are decided exactly, and A <= B is TRUE iff every element of A is in B.", "quantifier": "all pairs of sets", "why_tests_cant": "2^128 operand pairs", "anchors": ["insn16/libexec/libexec_setops.c: libexec_equality, libexec_nonequality, libexec_contains", "pascal/pas_expression.c: pas_Expression (tLE -> setCONTAINS)"]}
{"id": "C13", "title": "Membership, include, exclude and singleton treat every ordinal correctly", "statement": "`x in S` is TRUE iff the ordinal x (relative to the subrange minimum) is in S; Include/Exclude add/remove exactly that element; a singleton constructor yields exactly {x}; an out-of-range element is reported as a value-range error and never touches memory outside the set.", "quantifier": "all elements (including out of range), offsets and sets", "why_tests_cant": "boundary elements 0, 63, 64 and negative ones", "anchors": ["insn16/libexec/libexec_setops.c: libexec_member, libexec_include, libexec_exclude, libexec_singleton"]}
{"id": "C14", "title": "The set subrange constructor [a..b] yields exactly the elements from a to b", "statement": "For 0<=a<=b<=63, the result contains x iff a<=x<=b, and the operation terminates.", "quantifier": "all bounds a, b", "why_tests_cant": "only some bound pairs fail", "anchors": ["insn16/libexec/libexec_setops.c: libexec_subrange"]}
{"id": "C15", "title": "Card returns the number of elements", "statement": "CARD of a set leaves the number of its elements.", "quantifier": "all 2^64 sets", "why_tests_cant": "2^64 sets", "anchors": ["insn16/libexec/libexec_setops.c: libexec_card, libexec_BitsInWord"]}
{"id": "C16", "title": "LongInteger arithmetic is exact modulo 2^32", "statement": "32-bit ADD/SUB/MUL/NEG/ABS/NOT/AND/OR/XOR/INC/DEC on the two-word representation leave the result modulo 2^32 and change nothing else.", "quantifier": "all 2^64 operand pairs and states", "why_tests_cant": "carry between the two words", "anchors": ["insn16/libexec/libexec_longops.c: libexec_LongOperation8"]}
{"id": "C17", "title": "LongInteger comparisons follow the signed/unsigned order of the operands", "statement": "After pushing a then b, the 32-bit comparison `a op b` leaves TRUE iff the relation holds between a and b in that order.", "quantifier": "all pairs", "why_tests_cant": "asymmetric comparisons must be right for all pairs", "anchors": ["insn16/libexec/libexec_longops.c: libexec_LongOperation8 (oDLT, oDGTE, oDGT, oDLTE, oDULT, ...)"]}
{"id": "C18", "title": "LongInteger stack shuffles and conversions are faithful", "statement": "DUP duplicates, XCHG exchanges two long values, conversions from 16 bits sign/zero extend, conversion to 16 bits truncates.", "quantifier": "all values and states", "why_tests_cant": "overlapping word moves", "anchors": ["insn16/libexec/libexec_longops.c: libexec_LongOperation8 (oDDUP, oDXCHG, oCNV, oUCNV, oDCNV)"]}
{"id": "C19", "title": "Heap blocks are disjoint and inside the heap", "statement": "For every history of NEW and DISPOSE, every block handed out lies inside the heap area, is at least as large as requested, and does not overlap a block that is still allocated.", "quantifier": "all histories of allocations and frees and all request sizes", "why_tests_cant": "unbounded histories", "anchors": ["insn16/libexec/libexec_heap.c: libexec_Alloc, libexec_Free, libexec_AddChunkToFreeList, libexec_DisposeChunk"]}
{"id": "C20", "title": "Disposed memory can be allocated again", "statement": "After disposing everything the heap can again satisfy a request for the size it could satisfy initially.", "quantifier": "all histories", "why_tests_cant": "leaks appear only after particular orders of frees", "anchors": ["insn16/libexec/libexec_heap.c: libexec_AddChunkToFreeList, libexec_RemoveChunkFromFreeList, libexec_DisposeChunk"]}
{"id": "C21", "title": "Bad pointers given to DISPOSE are rejected", "statement": "Disposing a pointer outside the heap, or one already disposed, is reported as an error and leaves the heap unchanged.", "quantifier": "all pointers and heap states", "why_tests_cant": "any address", "anchors": ["insn16/libexec/libexec_heap.c: libexec_Free, libexec_Dispose"]}
{"id": "C22", "title": "String assignment copies the source clipped to the destination capacity", "statement": "After s := t the destination holds the first min(length t, capacity s) characters of t, the bytes outside the destination buffer and its length field are unchanged.", "quantifier": "all strings, capacities and memory contents", "why_tests_cant": "all lengths around the capacity, aliasing", "anchors": ["insn16/libexec/libexec_stringlib.c: libexec_StrCpy"]}
{"id": "C23", "title": "String concatenation appends as much as fits", "statement": "After concatenation the destination holds the old contents followed by as many characters of the source as the capacity allows; nothing outside the destination buffer changes.", "quantifier": "all strings and capacities", "why_tests_cant": "boundary lengths; overflow only in rare combinations", "anchors": ["insn16/libexec/libexec_stringlib.c: libexec_StrCat, libexec_StrCatC"]}
{"id": "C24", "title": "String comparison is the lexicographic order", "statement": "The comparison of two strings has the sign of the lexicographic order of their character sequences; in particular it is a total order, and 0 exactly for equal strings.", "quantifier": "all pairs of strings", "why_tests_cant": "transitivity and totality are universally quantified", "anchors": ["insn16/libexec/libexec_stringlib.c: libexec_StringOperations (lbSTRCMP)"]}
{"id": "C25", "title": "Copy, Pos, Insert and Delete follow their Pascal definitions for every position and count", "statement": "Copy(s,i,n) yields the n characters from position i; Pos finds the first occurrence at or after the start; Insert splices the source before position i; Delete removes n characters from position i; arguments outside the string are clipped.", "quantifier": "all strings, positions and counts", "why_tests_cant": "unsigned wrap-around at odd positions", "anchors": ["insn16/libexec/libexec_stringlib.c: libexec_StringOperations (lbCOPYSUBSTR, lbFINDSUBSTR, lbINSERTSTR, lbDELSUBSTR)"]}
{"id": "C26", "title": "String operations never write outside the destination buffer", "statement": "No string library operation modifies a byte outside the destination string's buffer and descriptor (or fixed-size character array).", "quantifier": "all strings and capacities", "why_tests_cant": "memory corruption only for particular sizes", "anchors": ["insn16/libexec/libexec_stringlib.c: libexec_Str2BStr, libexec_StrCatC, libexec_StrCpy, libexec_FillChar"]}
{"id": "C27", "title": "String storage handed out at initialization is disjoint from other data", "statement": "Buffers given to string variables are disjoint from each other, lie inside the string stack and never overlap constant data.", "quantifier": "all sequences of string initializations", "why_tests_cant": "depends on the history of allocations", "anchors": ["insn16/libexec/libexec_stringlib.c: libexec_StrInit", "insn16/libexec/libexec_run.c: libexec_Reset"]}
{"id": "C28", "title": "Instruction encoding round trip", "statement": "Decoding the byte sequence produced for any list of instructions yields exactly that list and the sizes add up; every consumer (optimizer, linker, VM) advances by the number of bytes that were emitted.", "quantifier": "all instruction sequences of any length with any operands", "why_tests_cant": "unbounded programs", "anchors": ["insn16/libinsn/insn_addopcode.c: insn_AddOpCode", "insn16/libinsn/insn_getopcode.c: insn_GetOpCode", "insn16/libexec/libexec_run.c: libexec_Execute", "insn16/libinsn/insn_genlongop.c"]}
{"id": "C29", "title": "Relocation moves every code address by the load offset and nothing else", "statement": "Relocating an instruction adds the program offset to its operand iff the operand is a program address (any jump or call), adds the constant-data offset iff it is a constant address, and leaves all other operands alone; a program relocated by k behaves at k as the original at 0.", "quantifier": "all instructions and offsets", "why_tests_cant": "every jump opcode must be covered", "anchors": ["insn16/libinsn/insn_relocate.c: insn_Relocate", "plink/plink.c: plink_MergeProgramData"]}
{"id": "C30", "title": "Folding of constant expressions preserves the value", "statement": "Every rewrite of a unary/binary operation on constants into a constant leaves on the stack what the original instructions leave.", "quantifier": "all constants and machine states", "why_tests_cant": "extreme constants (0x8000, 0xffff) are the failing points", "anchors": ["insn16/popt/popt_constants.c: popt_UnaryOptimize, popt_BinaryOptimize"]}
{"id": "C31", "title": "Strength reductions preserve the value", "statement": "Every rewrite of an operation with a special constant operand (x+0, x*2^k, x div 2^k, x-1, ...) into a cheaper one yields the same value for all x.", "quantifier": "all runtime values x", "why_tests_cant": "negative and extreme values", "anchors": ["insn16/popt/popt_constants.c: popt_BinaryOptimize"]}
{"id": "C32", "title": "Branch simplifications preserve control flow", "statement": "Fusing or inverting comparisons and conditional jumps, and folding jumps on constants, takes the same branch and leaves the same stack for every operand.", "quantifier": "all operand values", "why_tests_cant": "non-boolean values and overflow points", "anchors": ["insn16/popt/popt_branch.c: popt_BranchOptimize"]}
{"id": "C33", "title": "Load/store simplifications preserve memory and stack", "statement": "Replacing load/store pairs, duplicate pushes and stack reorderings leaves the same memory and stack.", "quantifier": "all states", "why_tests_cant": "value truncation in byte stores, aliasing", "anchors": ["insn16/popt/popt_loadstore.c: popt_LoadOptimize, popt_StoreOptimize, popt_StackOrderOptimize"]}
{"id": "C34", "title": "Label resolution: every jump goes to the instruction that carried its label", "statement": "After finalization no label pseudo-instruction remains, all other instructions are preserved in order, and the operand of every jump or call is the byte address of the first real instruction following the definition of its label.", "quantifier": "all label-annotated programs", "why_tests_cant": "arbitrary programs and label placements", "anchors": ["insn16/popt/popt_finalize.c: pass1, pass3, popt_Finalization", "libpoff/pflabel.c"]}
{"id": "C35", "title": "Symbol resolution: a definition anywhere satisfies every reference, duplicates and missing symbols are rejected", "statement": "Linking succeeds iff every referenced (name,kind) has exactly one definition among the inputs, and then every reference resolves to the value of that definition (shifted by its unit's load offset), independently of the order of symbols in the inputs.", "quantifier": "all multisets of symbols over any number of files", "why_tests_cant": "orderings and combinations are unbounded", "anchors": ["plink/plsym.c: insertSymbol, mergeSymbols, verifySymbols"]}
{"id": "C36", "title": "Relocations patch exactly the referenced instruction operands", "statement": "Applying the relocations sets the 16-bit operand of each relocated call or data reference to the value of its symbol's definition and changes no other program byte.", "quantifier": "all programs, relocation lists and symbols", "why_tests_cant": "any number of relocations", "anchors": ["plink/plreloc.c: mergeRelocations, applyRelocations", "insn16/libinsn/insn_relocate.c: insn_FixupProcedureCall, insn_FixupFrameOffset"]}
{"id": "C37", "title": "Linked constant data, file names and line numbers keep their meaning", "statement": "After linking, constant references denote the same bytes as in their own unit, and each line-number entry designates the same source file and the shifted address.", "quantifier": "all lists of input files", "why_tests_cant": "any number of inputs", "anchors": ["plink/plink.c: plink_MergeRoData, plink_MergeFileNames, plink_MergeLineNumbers", "libpoff/pfirodata.c"]}
{"id": "C38", "title": "Object file round trip", "statement": "Reading a file written by the object-file writer restores the same program, constants, symbols, relocations, file names, line numbers, strings and header fields; truncated or foreign files are rejected.", "quantifier": "all object contents", "why_tests_cant": "all section size combinations", "anchors": ["libpoff/pfwrite.c: poffWriteFile", "libpoff/pfread.c: poffReadFile", "libpoff/pfswap.c"]}
{"id": "C39", "title": "String table: every added string is retrievable at the returned index forever", "statement": "The index returned for a string denotes that string after any number of later additions; adding it again returns an index denoting the same string and does not grow the table.", "quantifier": "all sequences of additions", "why_tests_cant": "unbounded histories", "anchors": ["libpoff/pfwstring.c: poffAddString, poffFindString", "libpoff/pfrstring.c: poffGetString"]}
{"id": "C40", "title": "Byte-order conversion is an involution that preserves every field", "statement": "Swapping a 16/32-bit value twice gives the value back, one swap reverses its bytes, and converting tables to file order and back is the identity.", "quantifier": "all values and tables", "why_tests_cant": "2^32 values, all table lengths", "anchors": ["libpas/pswap.c: poffSwap16, poffSwap32", "libpoff/pfswap.c"]}
{"id": "C41", "title": "Line lookup returns the closest preceding line entry", "statement": "For a line table sorted by address, looking up an address returns the last entry whose address is not greater, or none if all are greater, independently of previous lookups.", "quantifier": "all sorted tables, addresses and lookup histories", "why_tests_cant": "search off-by-one at the end of the table; hint state", "anchors": ["libpoff/pflineno.c: poffFindLineNumber"]}
{"id": "C42", "title": "Debug function information can be read back completely", "statement": "Every function record stored in the debug section is returned by iterating over it.", "quantifier": "all lists of records", "why_tests_cant": "record sizes vary", "anchors": ["libpoff/pfrdbgfunc.c: poffGetDebugFuncInfo", "libpoff/pfwdbgfunc.c", "libpoff/pfswap.c: poffSwapDebugData"]}
{"id": "C43", "title": "Tokenizer: string literals denote their contents", "statement": "For every text w, scanning the Pascal literal obtained by quoting w (doubling quotes) yields a token denoting exactly w and consumes exactly the literal.", "quantifier": "all strings", "why_tests_cant": "quotes in all positions", "anchors": ["pascal/pas_token.c: pas_StringToken"]}
{"id": "C44", "title": "Tokenizer: identifiers and numbers are maximal munch and denote their value", "statement": "An identifier token is the longest run of identifier characters, case-insensitively matched; a decimal literal denotes its value when it fits; a $ literal denotes its hexadecimal value; a real literal denotes its digits scaled by its exponent.", "quantifier": "all inputs", "why_tests_cant": "all lengths", "anchors": ["pascal/pas_token.c: pas_Identifier, pas_UnsignedNumber, pas_UnsignedHexadecimal"]}
{"id": "C45", "title": "Reserved words are recognized in any case and nothing else is", "statement": "A name is classified as a reserved word iff it, or the standard name for which it is an alternative spelling, equals a table entry ignoring case, and with that entry's token.", "quantifier": "all names", "why_tests_cant": "infinitely many names; the search exits early and relies on table order", "anchors": ["pascal/pas_symtable.c: pas_FindReservedWord"]}
{"id": "C46", "title": "Name lookup finds the innermost declaration", "statement": "Looking up a name returns the most recently declared visible symbol with that name ignoring case; leaving a scope restores exactly the outer meaning of every name.", "quantifier": "all nesting histories of declarations", "why_tests_cant": "unbounded histories", "anchors": ["pascal/pas_symtable.c: pas_FindSymbol, pas_AddSymbol"]}
{"id": "C47", "title": "Constant expressions evaluate like their run-time counterparts", "statement": "A constant declaration's value equals the value the compiled expression would have at run time.", "quantifier": "all constant expressions", "why_tests_cant": "unbounded nesting and operator mixes", "anchors": ["pascal/pas_constexpr.c: pas_ConstantExpression, pas_ConstantSimpleExpression, pas_ConstantTerm, pas_ConstantFactor"]}
{"id": "C48", "title": "Compiled expressions leave exactly their value on the stack", "statement": "Executing the code generated for an integer/word/boolean expression pushes exactly one word holding the expression's value and changes no variable.", "quantifier": "all expressions and variable contents", "why_tests_cant": "unbounded expression trees", "anchors": ["pascal/pas_expression.c: pas_Expression, pas_SimpleExpression, pas_Term, pas_Factor", "pascal/pas_stdfunc.c: pas_StandardFunction", "pascal/pas_codegen.c"]}
{"id": "C49", "title": "Compiled control statements implement the source semantics", "statement": "Executing the code generated for assignments, compound statements, IF, WHILE, REPEAT, CASE and FOR transforms variables as the Pascal semantics says and leaves the stack height unchanged.", "quantifier": "all statement nestings, all inputs, all numbers of iterations", "why_tests_cant": "unbounded nesting and iteration counts", "anchors": ["pascal/pas_statement.c: pas_IfStatement, pas_WhileStatement, pas_RepeatStatement, pas_CaseStatement, pas_ForStatement"]}
{"id": "C50", "title": "FOR loops execute once for each value of the range", "statement": "FOR v := a TO b executes its body exactly for a, a+1, ..., b (not at all when a>b) and then terminates; DOWNTO symmetrically.", "quantifier": "all bounds of the loop variable's type", "why_tests_cant": "fails only at the largest value / for unsigned variables", "anchors": ["pascal/pas_statement.c: pas_ForStatement"]}
{"id": "C51", "title": "File name utilities", "statement": "Replacing or appending an extension yields the base name with that extension, fails cleanly when it does not fit, and never overruns the output buffer; the base name has no directory part.", "quantifier": "all names and buffer sizes", "why_tests_cant": "dots in directory names, buffer boundaries", "anchors": ["libpas/pextension.c: extension", "libpas/pbasename.c"]}
{"id": "C52", "title": "End to end: the loaded program behaves like the compiled one", "statement": "Generating, finalizing, encoding, linking and executing a compiled statement list on the virtual machine ends with exactly the variable values prescribed by the source semantics, for every terminating program of the modelled subset.", "quantifier": "all terminating programs of the subset", "why_tests_cant": "composition of all phases over unbounded programs", "anchors": ["pascal/pas_statement.c", "insn16/popt/popt_finalize.c", "insn16/libinsn/insn_addopcode.c", "insn16/libexec/libexec_run.c"]}
{"id": "C53", "title": "The memory map never changes while a program runs", "statement": "However many instructions are executed, the size of the data memory and the boundaries of the string stack, constant data, Pascal stack and heap regions stay what start-up made them.", "quantifier": "all programs, all numbers of executed instructions", "why_tests_cant": "must hold after unboundedly many instructions of every kind", "anchors": ["insn16/libexec/libexec_run.c:pexec8,pexec16,pexec24,pexec32"]}
{"id": "C54", "title": "LongInteger division, remainder and shifts are exact", "statement": "32-bit DIV truncates towards zero with MOD the matching remainder, unsigned DIV/MOD are the natural quotient and remainder, and shifts by 0..31 multiply or divide by the power of two; a zero divisor is reported as a run-time error.", "quantifier": "all operand pairs and shift counts", "why_tests_cant": "2^64 operand pairs; zero divisors and the least integer are corner cases", "anchors": ["insn16/libexec/libexec_longops.c: libexec_LongOperation8 (oDDIV, oDMOD, oDUDIV, oDUMOD, oDSLL, oDSRL, oDSRA)"]}
{"id": "C55", "title": "Constants, addresses and stack shuffles put exactly the documented words on the stack", "statement": "Push instructions put their constant (sign or zero extended) or the documented address on top of the stack, DUP copies and XCHG exchanges the top words, and INDS/INCS move the stack pointer by exactly their operand; nothing else in memory changes.", "quantifier": "all operand values, all stack contents with room", "why_tests_cant": "2^16 operands times all stack states", "anchors": ["insn16/libexec/libexec_run.c: pexec8 (oDUP, oXCHG), pexec16 (oPUSHB, oUPUSHB), pexec24 (oPUSH, oINDS, oINCS, oLA, oLAC, oLAX), pexec32 (oLAS, oLASX)"]}
{"id": "C56", "title": "White space and comments separate tokens and symbols are read longest first", "statement": "White space and comments of each of the four kinds, in any number and order, are equivalent to nothing before a token; reading is deterministic; every special symbol of the language is read as itself, two-character symbols before their first character; reading always ends.", "quantifier": "all sequences of blanks and comments, all symbols and what follows them", "why_tests_cant": "unbounded comments with stars and slashes in every position", "anchors": ["pascal/pas_token.c: pas_GetToken, pas_SkipLine", "pascal/pas_token.c: getCharacter"]}
{"id": "C57", "title": "Variable declarations give every variable its own place and name", "statement": "Constants and variables declared with new, different names are accepted; each name, in upper or lower case, then means the value of the constant's expression, or its own variable of the declared type; the variables do not overlap, are aligned, and lie within the space the program reserves; predefined names keep their meaning. Errors in declarations are reported, not ignored.", "quantifier": "all sequences of constant definitions and variable declarations", "why_tests_cant": "unbounded numbers of names, types and alignments", "anchors": ["pascal/pas_block.c: pas_DeclareConst, pas_ConstantDefinitionGroup, pas_DeclareVar, pas_VariableDeclarationGroup", "pascal/pas_symtable.c: pas_FindSymbol, pas_AddSymbol", "pascal/pas_token.c: getToken, getLevelToken"]}
{"id": "C58", "title": "Set constants contain exactly the listed elements", "statement": "A set constant written as a list of elements and ranges denotes exactly these elements, and union, difference and intersection of set constants are the set operations.", "quantifier": "all lists of elements and ranges, all base types", "why_tests_cant": "2^64 sets, ranges crossing word boundaries", "anchors": ["pascal/pas_constexpr.c: pas_ConstantFactor, pas_GetConstantSubSet, pas_AddBitSetElements, pas_ConstantSimpleExpression"]}
{"id": "C59", "title": "The optimizer always finishes", "statement": "Given any p-code program and any relocations, the optimizer ends and yields a program; it neither loops for ever nor crashes.", "quantifier": "all programs, of any length, all relocation lists", "why_tests_cant": "rewriting to a fixed point could cycle on some combination of instructions; unbounded programs", "anchors": ["insn16/popt/popt_local.c: popt_LocalOptimization", "insn16/popt/popt_strings.c, popt_peephole.c, popt_constants.c, popt_longconst.c, popt_branch.c, popt_loadstore.c"]}
{"id": "C60", "title": "The optimizer keeps the skeleton of the program", "statement": "The optimized program ends with its only oEND; its labels, procedure calls, returns and line numbers are those of the program, unchanged and in the same order; it is not longer; every jump goes to a label that a jump of the program went to, so no jump loses its label.", "quantifier": "all programs, of any length", "why_tests_cant": "any sequence of rewrites over a sliding window of instructions", "anchors": ["insn16/popt/popt_local.c: popt_LocalOptimization, popt_UpdateOpCodePtrs", "insn16/popt/popt_peephole.c", "insn16/popt/popt_branch.c"]}
{"id": "C61", "title": "The optimizer keeps relocations with their instructions", "statement": "After optimization every relocation is attached to the instruction it was attached to before, at the new offset of that instruction, unless that instruction has been removed together with its relocation.", "quantifier": "all programs and relocation lists", "why_tests_cant": "every rewrite can move, merge or drop instructions that carry relocations", "anchors": ["insn16/popt/popt_local.c: setupPointer, getPCode, popt_UpdateOpCodePtrs", "insn16/popt/popt_loadstore.c", "insn16/popt/popt_peephole.c"]}
{"id": "C63", "title": "REAL arithmetic computes with the right operands and exact comparisons", "statement": "REAL operations take their operands in the order written, converting integer operands exactly; sums, products, quotients and functions are the host's correctly rounded ones, negation, absolute value and the six comparisons are exact; TRUNC drops the fraction, ROUND rounds to the nearest integer; undefined operations are reported.", "quantifier": "all operand bit patterns, all mixtures of REAL and integer operands", "why_tests_cant": "2^128 operand pairs, subnormal numbers, signed zeros, each operand possibly an integer", "anchors": ["insn16/libexec/libexec_float.c: libexec_FloatOps, libexec_GetFpArguments", "include/pas_fpops.h"]}
{"id": "C64", "title": "WRITE writes exactly the decimal notation, right-justified, and nothing else", "statement": "WRITE of an integer, word, long integer, long word, character or string writes its (decimal) notation, padded with blanks on the left to the field width, at the current place of the file, and WRITELN the end of the line; other files, memory and file numbers are untouched; a file that is not open for output is refused and nothing is written; no other instruction changes a file.", "quantifier": "all values, field widths, files, positions and contents", "why_tests_cant": "2^32 values times field widths times unbounded file contents", "anchors": ["insn16/libexec/libexec_sysio.c: libexec_sysio, libexec_WriteInteger, libexec_WriteWord, libexec_WriteLongInteger, libexec_WriteLongWord, libexec_WriteChar, libexec_WriteString, libexec_GetFormat"]}
{"id": "C65", "title": "READ gets back what was typed or written", "statement": "READ of an integer skips blanks and stores the number that follows, READ of a real skips blanks and stores the number that follows, up to rounding, READ of a character the next character, READ of a string the rest of the line; what has not been read stays for the next READ; READLN goes to the next line. What WRITELN wrote is read back by READ. Numbers in a file are read in their order.", "quantifier": "all texts, all histories of READ and READLN", "why_tests_cant": "unbounded texts and histories; ends of lines and files in every position", "anchors": ["insn16/libexec/libexec_sysio.c: libexec_ReadInteger, libexec_ReadChar, libexec_ReadString, libexec_ReadLn, libexec_CheckEoln, libexec_ConvertInteger, libexec_ConvertReal, libexec_ReadReal"]}
{"id": "C66", "title": "A file number is never given out twice", "statement": "The number a program gets for a new file is below 8 and is not one it still holds; after it has been given back it is neither in use nor open; when 8 files are in use the program is told so and nothing changes; giving back a number that is not in use is refused.", "quantifier": "all executions: any sequence of getting and giving back file numbers with any other instructions in between", "why_tests_cant": "unbounded histories and all instructions in between", "anchors": ["insn16/libexec/libexec_sysio.c: libexec_AllocateFile, libexec_FreeFile, libexec_sysio"]}
{"id": "C67", "title": "Positions in files: SEEK, FILEPOS, FILESIZE, EOF, EOLN, blocks", "statement": "SEEK sets the position and nothing else, FILEPOS returns it, FILESIZE returns the length of the file and leaves the position, EOF is true exactly at the end of the file, EOLN exactly behind the end of a line; a block of bytes written is read back unchanged; SEEKEOF and SEEKEOLN skip blanks only.", "quantifier": "all positions, files, contents and block sizes", "why_tests_cant": "unbounded contents and positions", "anchors": ["insn16/libexec/libexec_sysio.c: libexec_Eof, libexec_Eoln, libexec_FilePos, libexec_FileSize, libexec_Seek, libexec_SeekEof, libexec_SeekEoln, libexec_ReadBinary, libexec_WriteBinary"]}
{"id": "C68", "title": "Opening and closing files", "statement": "RESET opens an existing file for reading at its beginning and changes no file; REWRITE empties the file and opens it for output; APPEND opens it at its end and keeps its text; other files and file numbers are untouched; a failure is reported and changes nothing; CLOSE keeps what was written, so that a file written, closed and reset is read back unchanged; RESET of an open file goes back to its beginning.", "quantifier": "all file names, contents, tables of open files and hosts", "why_tests_cant": "unbounded names, contents and histories", "anchors": ["insn16/libexec/libexec_sysio.c: libexec_AssignFile, libexec_OpenFile, libexec_CloseFile, libexec_RecordSize, libexec_sysio"]}
{"id": "C69", "title": "STR and VAL convert between numbers and texts", "statement": "STR makes the string variable hold the decimal notation of the value, right-justified in the field, and changes nothing else. VAL of the decimal notation of an integer in range stores this integer and the code 0; out of range it is an error and nothing is stored; for a text that is no number it stores the position of the first offending character.", "quantifier": "all values, field widths, string variables and texts", "why_tests_cant": "2^32 values times field widths, unbounded texts", "anchors": ["insn16/libexec/libexec_stringlib.c: libexec_StringOperations (lbINTSTR, lbWORDSTR, lbLONGSTR, lbULONGSTR, lbVAL)"]}
{"id": "C70", "title": "WRITE and WRITELN append the texts of their items", "statement": "WRITE and WRITELN statements with numbers, characters (with optional field widths) and string constants are accepted; when the compiled program executes them, the decimal notation or the characters of the items, right-justified in their fields, are appended to the standard output in the order of the items, for WRITELN followed by an end of line; nothing else is changed.", "quantifier": "all lists of items, all expressions and values, all programs that contain such statements, all contents of the output before", "why_tests_cant": "unbounded item lists, programs and values", "anchors": ["pascal/pas_procedure.c: pas_WriteProc, pas_WritelnProc, pas_WriteProcCommon, pas_WriteText, pas_WriteFieldWidth, pas_GenerateFileNumber", "libpoff/pfwrodata.c: poffAddRoDataString", "insn16/libexec/libexec_sysio.c: libexec_WriteInteger"]}
{"id": "C71", "title": "The text of a program determines what it does", "statement": "A source file with the text of a correct program, with any white space and comments between its tokens and any mixture of upper and lower case, is compiled, linked and run with exactly the effects that the meaning of its statements prescribes; two files with the same tokens give the same executable.", "quantifier": "all source files that spell a correct program, all layouts and comments, all initial machine states", "why_tests_cant": "unbounded files, layouts and programs", "anchors": ["pascal/pas_token.c: getToken, primeTokenizer", "pascal/pas_main.c: main", "pascal/pas_program.c: pas_Program", "insn16/libexec/libexec_run.c: libexec_Execute"]}
{"id": "C72", "title": "Calling a procedure executes its statements with its own parameters and variables", "statement": "A call of a declared procedure evaluates the arguments, executes the statements of the procedure with the parameters having these values and with local variables of its own for each activation, and continues behind the call; assignments to variables of the enclosing blocks are seen by the caller, assignments to parameters and local variables are not, also if the procedure is called recursively or declared inside other procedures.", "quantifier": "all programs with procedures (nested and recursive), all arguments, all depths of recursion for which the stack suffices, all machine states at the call", "why_tests_cant": "unbounded nesting, recursion depth and programs", "anchors": ["pascal/pas_block.c: pas_ProcedureDeclaration, pas_FormalParameterList, pas_Block", "pascal/pas_statement.c: pas_ProcStatement", "pascal/pas_procedure.c: pas_ActualParameterList", "insn16/libexec/libexec_run.c: libexec_ProcedureCall, oRET"]}
{"id": "C62", "title": "Arithmetic on long constants is done by the optimizer as the machine would do it", "statement": "Where an operation on 32-bit numbers has constant operands (one, both, or a shift count, or a 16-bit constant made 32 bits long), the optimized instructions leave the same stack, memory and registers as the original ones whenever these run.", "quantifier": "all constants in all encodings, all long operations, all machine states", "why_tests_cant": "2^64 pairs of constants times all operations and states", "anchors": ["insn16/popt/popt_longconst.c: popt_LongUnaryOptimize, popt_LongBinaryOptimize", "insn16/libexec/libexec_longops.c: libexec_LongOperation8"]}
{"id": "C73", "title": "An element of an array is a variable of its own", "statement": "`a[i]` with an index in the range of the array is the value last assigned to the element with this number; `a[i] := e` gives this element the value of the expression and leaves all other elements and variables as they are. An index outside the range is reported. Declared arrays have their own bytes.", "quantifier": "all array variables with a range of integers and ordinal elements, all index and value expressions, all machine states that hold the variables", "why_tests_cant": "unbounded expressions, 2^16 indices times all layouts and states", "anchors": ["pascal/pas_expression.c: pas_ArrayIndex, pas_Factor, pas_BaseFactor, pas_SimpleFactor", "pascal/pas_statement.c: pas_Assignment, pas_SimpleAssignment, pas_ComplexAssignment", "pascal/pas_block.c: pas_NewComplexType, pas_GetArrayIndexType, pas_GetArrayBaseType, pas_DeclareVar", "insn16/libexec/libexec_run.c: oLDSX, oLDSXB, oULDSXB, oSTSX, oSTSXB"]}
{"id": "C74", "title": "What is added to an object file stays in it, and memory is never overrun", "statement": "Symbols, strings, relocations, file names, line numbers, program bytes and constants added to an object file in memory are all kept, in the order of the additions, and each call returns the place of what it added, however many are added; the relocations an optimizer pass leaves are exactly those the next pass reads; no call reads or writes outside the memory it has allocated.", "quantifier": "all sequences of additions of any length, new object files and object files read from disk, all contents of fresh memory", "why_tests_cant": "tables grow at thresholds that small inputs never reach; fresh memory has arbitrary contents", "anchors": ["libpoff/pfwsymbol.c: poffAddSymbol", "libpoff/pfwreloc.c: poffAddRelocation", "libpoff/pftreloc.c: poffCloneRelocations, poffAddTmpRelocation", "libpoff/pftgetreloc.c: poffNextTmpRelocation", "libpoff/pftprog.c: poffAddTmpProgByte, poffWriteTmpProgBytes", "libpoff/pfwstring.c: poffAddString", "libpoff/pfwrodata.c: poffAddRoDataString", "insn16/popt/popt_reloc.c: createRelocationHandles, swapRelocationHandles"]}
{"id": "C75", "title": "The debugger executes the program and nothing else", "statement": "In the interactive debugger, the machine is changed by executing its instructions and by resetting it, and by nothing else. GO, RUN, STEP and NEXT execute exactly the instructions up to the first breakpoint, error or end of the program (STEP: one; NEXT: up to the return of a call), and say why they stopped. A program started with RUN ends in the state in which it ends without the debugger. The trace shows the last sixteen instructions in order. Breakpoints are set and cleared as named, at most eight, all different. Addresses typed in hexadecimal are the addresses meant.", "quantifier": "every program, every machine state, every sequence of typed command lines, any number of instructions executed between stops", "why_tests_cant": "breakpoints and traces depend on the whole history of commands and instructions; a test follows one session", "anchors": ["insn16/libexec/libexec_debug.c: libexec_DebugLoop, pdbg_ExecCommand, pdbg_DebugPCode, pdbg_AddBreakPoint, pdbg_DeleteBreakPoint, pdbg_CheckBreakPoint, pdbg_PrintTraceArray, pdbg_ReadHex, pdbg_ReadDecimal"]}
{"id": "C76", "title": "The listing of a program says which instructions it consists of", "statement": "The listing of a program shows every instruction in order, each with its address, its name and its operands, and the place in the source where that changes; the program can be read back from its listing. The listing the compiler writes beside the program shows the same instructions.", "quantifier": "every program, every table of line numbers, every instruction with every operand", "why_tests_cant": "the listing is what a user inspects to find out what was compiled; tests look at the lines of a few programs, not at whether two programs can look alike", "anchors": ["insn16/libinsn/insn_disasm.c: insn_DisassemblePCode", "insn16/libinsn/insn_dislongop.c: insn_DisassembleLongOpCode", "insn16/plist/plist.c: plist_DumpProgramData", "insn16/libinsn/insn_generate.c: insn_Generate", "insn16/libinsn/insn_genlongop.c: insn_GenerateLongOperation"]}
{"id": "C77", "title": "Arrays of characters, characters and strings are converted into each other without loss", "statement": "An array of characters converted to a string gives the characters of the array; a character gives the string of that character; a string assigned to an array of characters is stored in the array, cut off at its size, and the array then reads as this string; nothing else is changed.", "quantifier": "every array, every string, every size, every heap", "why_tests_cant": "the lengths of array and string are independent and unbounded; the result depends on what the memory held before", "anchors": ["insn16/libexec/libexec_stringlib.c: libexec_BStr2Str, libexec_Str2BStr, libexec_StringOperations", "pascal/pas_expression.c: pas_Factor", "pascal/pas_statement.c: pas_ArrayAssignment"]}
{"id": "C78", "title": "The tools hand a program on through their files without changing it", "statement": "What the compiler puts into the object file, the optimizer reads and writes again, the linker reads and writes as an executable and the loader reads: the machine gets exactly the program, the constant data, the entry point and the size that the compiler and the linker computed, so that a program text run through all the tools and their files does what the program means. A file of another kind is refused by the linker and by the loader.", "quantifier": "every program, every order of calls that fill the object file, every size below the limits, all sizes of the memory regions", "why_tests_cant": "each tool works on what the one before has written; a field that is dropped or moved at one border shows only for some programs", "anchors": ["insn16/popt/popt.c: readPoffFile, writePoffFile, main", "insn16/popt/popt_finalize.c: popt_Finalization", "plink/plink.c: main, plink_LoadInputFiles, plink_WirteOutputFile", "plink/plsym.c: writeSymbols", "insn16/libexec/libexec_load.c: libexec_Load", "libpoff/pfread.c: poffReadFile", "libpoff/pfwrite.c: poffWriteFile", "libpoff/pfdbgdiscard.c: poffDiscardDebugFuncInfo"]}
{"id": "C79", "title": "Programs read what is in their input", "statement": "READ gives its variables, in order, the values that are in the standard input: integers with blanks and ends of lines before them, characters one after the other, the end of a line as a blank; READLN then goes on to the next line. Nothing else is changed, and what a program computes from its input is what its statements mean.", "quantifier": "every list of variables, every input, every program that reads, any number of READs", "why_tests_cant": "what a READ delivers depends on everything read before and on the whole text of the input; a test has a few inputs", "anchors": ["pascal/pas_procedure.c: pas_ReadProc, pas_ReadlnProc, pas_ReadProcCommon, pas_ReadText, pas_GenerateFileNumber", "insn16/libexec/libexec_sysio.c: libexec_ReadInteger, libexec_ReadChar, libexec_ReadLn", "pascal/pas_expression.c: pas_VarParameter"]}
{"id": "C80", "title": "The string optimizations leave out copies of constants and nothing else", "statement": "What the string optimizations of the optimizer make of a program is the program without some of the copies of string constants that are made only to be read by the next operation; every other instruction is still there, with its operands, in its order, and a program that copies no constant is not changed.", "quantifier": "every program, every number of passes", "why_tests_cant": "the optimizer works through a window that is shifted over a program of any length, with passes repeated until nothing changes", "anchors": ["insn16/popt/popt_strconst.c: popt_StringConstOptimize", "insn16/popt/popt_strings.c: popt_StringOptimization"]}
{"id": "C81", "title": "The optimizer changes a program by its rules only", "statement": "Whatever program goes in, the optimized program comes about from it by leaving out copies of string constants and by replacing instructions that are executed one after the other according to one of the optimizer's rules, any number of times; no instruction is lost, doubled, moved or changed in any other way, and no rule is applied across a label, a call or a return.", "quantifier": "every program, every number of passes and of rule applications", "why_tests_cant": "the instructions lie in a window with a table of pointers to those that count; a slip in the bookkeeping shows only where windows end or rules follow each other", "anchors": ["insn16/popt/popt_local.c: popt_LocalOptimization", "insn16/popt/popt_peephole.c: popt_SetupPeephole, popt_UpdatePeephole", "insn16/popt/popt_constants.c: popt_UnaryOptimize, popt_BinaryOptimize", "insn16/popt/popt_loadstore.c: popt_LoadOptimize, popt_StoreOptimize", "insn16/popt/popt_branch.c: popt_BranchOptimize"]}
{"id": "C82", "title": "What the compiler accepts is a correct program", "statement": "If the compiler reports no error for a program, a block, a statement or an expression, then what it has read is a sentence of the language: names are declared before they are used and only once in a scope, nothing is missing or left over, the operands of every operator have types it is defined for, assigned values and parameters have the types of the variables, conditions are Boolean, BREAK and CONTINUE are in loops. An error that has been reported is not forgotten.", "quantifier": "every sequence of tokens, correct or not, of any length and nesting, every state of the compiler", "why_tests_cant": "there are infinitely many wrong programs; tests try a few wrong ones and see that an error is reported", "anchors": ["pascal/pas_expression.c: pas_Expression, pas_SimpleExpression, pas_Term, pas_Factor, pas_ArrayIndex", "pascal/pas_statement.c: pas_Statement, pas_Assignment, pas_CompoundStatement, pas_IfStatement, pas_WhileStatement, pas_RepeatStatement, pas_ForStatement, pas_CaseStatement, pas_ProcStatement", "pascal/pas_procedure.c: pas_ReadProc, pas_WriteProc, pas_ActualParameterList", "pascal/pas_block.c: pas_Block, pas_ConstantDefinitionGroup, pas_VariableDeclarationGroup, pas_ProcedureDeclaration, pas_FormalParameterList, pas_TypeDenoter", "pascal/pas_program.c: pas_Program"]}
{"id": "C83", "title": "Programs that do not end run on, and programs stop only where they end", "statement": "A program whose statements go on forever, an interactive or embedded one say, runs forever: it does not stop, there is no error, and everything it writes on the way is written. A program whose statements do not go wrong (no division by zero, no index out of bounds, no variable without a value ...) and that does stop has come to the end of its statements, with their values and their text; there is never an error and nothing undefined on the way.", "quantifier": "every program of the subset, terminating or not, every number of executed instructions", "why_tests_cant": "no test runs forever, and none can tell a program that does not end from one that takes long", "anchors": ["pascal/pas_statement.c: pas_WhileStatement, pas_RepeatStatement, pas_ForStatement", "insn16/libexec/libexec_run.c", "insn16/popt/popt_finalize.c"]}
{"id": "C84", "title": "The compiler reads what is written in the source file", "statement": "Whatever a source file contains, every token the compiler takes from it without an error stands there: the characters of the file are the tokens in order, with only white space and comments between them, each token as long as it can be, names and strings with exactly their characters, numbers with their value. So what is compiled without an error is the program that the text is, and nothing is read where the file does not have it.", "quantifier": "every text file and every number of tokens", "why_tests_cant": "the files are without bound, and tests try correct programs", "anchors": ["pascal/pas_token.c: getToken, pas_GetCharacter, pas_SkipLine, pas_GetLine, pas_Identifier, pas_StringToken, pas_UnsignedNumber", "pascal/pas_main.c"]}
{"id": "C85", "title": "Source positions in an object file are found again", "statement": "The line numbers recorded in an object file are read back completely, each with the name of its file, whatever order they were recorded in; looking up an address then gives the recorded file and line of the closest entry at or before it, and the listing of the program shows every instruction below the heading with its file and line. An object file in which a line refers to a file that does not exist is rejected.", "quantifier": "every object file, every number and order of lines and files, every history of lookups, every order among equal addresses that sorting may choose", "why_tests_cant": "tables have any length, the sort order of equal entries is not determined, and malformed files are rarely tested", "anchors": ["libpoff/pfrlineno.c: poffGetLineNumber", "libpoff/pflineno.c: poffReadLineNumberTable, poffFindLineNumber", "insn16/plist/plist.c: plist_DumpProgramData"]}
{"id": "C86", "title": "The run-time runs the named program with the memory asked for", "statement": "prun runs the executable named on the command line, with .o added to a name without extension, in a machine whose stack, string area and heap have at least the sizes given with -s, -t and -n, the last of each counting, or the documented ones if nothing is given, and hardly more; under the debugger exactly if -d is given. Sizes below or above the documented limits, unknown options, more or fewer than one file name and files that are not executables are refused and nothing is run.", "quantifier": "every list of options and arguments, every file name, every executable and every initial contents of the memory", "why_tests_cant": "there are infinitely many command lines, and sizes matter in sum and through their alignment", "anchors": ["insn16/prun/prun.c: prun_ParseArgs, main", "insn16/libexec/libexec_load.c: libexec_Load", "insn16/libexec/libexec_run.c: libexec_Initialize, libexec_Reset", "libpas/pextension.c: extension"]}
{"id": "C87", "title": "Every block of memory of the object file library is released exactly once", "statement": "A program that uses object file handles and containers for temporary data, each between its creation and its destruction, that reads a file into a new handle only and frees or gives back once what it has extracted, never makes the library free a block twice or use one that has been freed; at any time every allocated block belongs to exactly one handle, one container or the program; and when all of them are gone nothing is left allocated.", "quantifier": "every history of calls, every number of handles and containers, every decision of realloc to move a block", "why_tests_cant": "ownership goes from container to handle to program and back; a block that is lost or freed twice shows in rare histories only, and often not at all", "anchors": ["libpoff/pfhandle.c: poffCreateHandle, poffDestroyHandle", "libpoff/pfread.c: poffReadFile", "libpoff/pfxprog.c: poffExtractProgramData", "libpoff/pfxrodata.c: poffExtractRoData", "libpoff/pfiprog.c: poffInsertProgramData", "libpoff/pfirodata.c: poffAppendRoData", "libpoff/pfrelease.c: poffReleaseProgData", "libpoff/pfdbgdiscard.c: poffDiscardDebugFuncInfo", "libpoff/pfproghandle.c", "libpoff/pfrelochandle.c", "libpoff/pfsymhandle.c", "libpoff/pftprog.c: poffReplaceProgData", "libpoff/pftreloc.c: poffCloneRelocations, poffReplaceRelocationTable", "libpoff/pftsymbol.c: poffReplaceSymbolTable"]}
{"id": "C88", "title": "The tools release the memory of the object file library", "statement": "The optimizer, the linker and the loader use the object file library within its rules: none of them makes it free a block twice or use one that has been freed, and when they are done nothing of it is left allocated, also when a file is refused.", "quantifier": "every object file, every number of input files, every sequence of additions by the passes, every decision of realloc to move a block", "why_tests_cant": "leaks and double frees do not show in what the tools write, and containers are created, swapped and given back over several passes", "anchors": ["insn16/popt/popt.c: main", "insn16/popt/popt_reloc.c: createRelocationHandles, swapRelocationHandles, destroyRelocationHandles", "insn16/popt/popt_strings.c: popt_StringOptimization", "insn16/popt/popt_local.c: popt_LocalOptimization", "insn16/popt/popt_finalize.c: popt_Finalization", "plink/plink.c: plink_LoadInputFiles, plink_MergeRoData, main", "plink/plreloc.c: applyRelocations", "plink/plsym.c: insertSymbol, releaseSymbols", "insn16/libexec/libexec_load.c: libexec_Load", "insn16/libexec/libexec_run.c: libexec_Release"]}
{"id": "C89", "title": "The tables of labels remember every label", "statement": "Any number of labels can be added to the tables of defined and undefined labels, in any order and between questions; nothing is ever written or read outside of the memory of the tables, and asking for a label gives the program offset or symbol it was first added with, or the answer that it is not there; the two tables do not disturb each other. The same holds for the list of relocations of the linker, which gives each relocation back at its place. Once released, the tables are empty and can be used again.", "quantifier": "every sequence of additions and questions, every label and value", "why_tests_cant": "the tables are moved and enlarged as they grow, in steps that small programs never reach", "anchors": ["libpoff/pflabel.c: poffAddToDefinedLabelTable, poffAddToUndefinedLabelTable, poffGetSymIndexForUndefinedLabel, poffGetPcForDefinedLabel, poffReleaseLabelReferences", "plink/plreloc.c: addRelocToList, mergeRelocations, releaseRelocations"]}
{"id": "C90", "title": "The configuration header says what the configuration file says", "statement": "For every configuration file the generated header defines exactly the variables that are set: a variable with the value y as 1, with m as 2, with any other value as that value, and it undefines those with n or without value; in the order of the file, one line each, with comments and empty lines left out and blanks around names and values ignored; values in quotes are kept as they are, with what is in the quotes. Other lines are refused. Without such a file, or with other arguments than a directory, nothing is written and the program fails.", "quantifier": "every configuration file, with any number of lines, names, values, blanks and comments", "why_tests_cant": "there are infinitely many files, and blanks, quotes, backslashes and comments can come in any combination", "anchors": ["tools/mkconfig.c: main, pas_GenerateDefinitions, pas_ParseLine, pas_ReadLine, pas_FindValueEnd, pas_FindNameEnd, pas_SkipSpaces"]}
{"id": "C91", "title": "The listing of an object file shows its relocations and symbols", "statement": "The listing of the relocation table of an object file, and of the temporary table, shows every relocation on one line, in order, with its kind, the number of its symbol and the place of the instruction, so that the numbers can be read back from the line; the listing of the symbol table shows every symbol on one line, in order, with its name, kind, flags, alignment, value and size; nothing outside of the tables is read, and the listing ends, whatever the file contains.", "quantifier": "every table of relocations or symbols, of any length and with any entries, and every damaged table", "why_tests_cant": "a listing is looked at by people and compared for a few small programs; damaged files are not listed in tests", "anchors": ["libpoff/pfdreloc.c: poffDumpRelocTable", "libpoff/pfdtreloc.c: poffDumpTmpRelocTable", "libpoff/pfdsymbol.c: poffDumpSymbolTable"]}
