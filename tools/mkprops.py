#!/usr/bin/env python3
"""Regenerates properties.jsonl from the table below."""
import json, os
P = []
def p(id, title, statement, quantifier, why, *anchors):
    P.append(dict(id=id, title=title, statement=statement, quantifier=quantifier,
                  why_tests_cant=why, anchors=list(anchors)))

RUN = "insn16/libexec/libexec_run.c"
p("C01", "Arithmetic and logic instructions compute the wrapped 16-bit result and touch nothing else",
  "Executing NEG/ABS/INC/DEC/NOT or ADD/SUB/MUL/AND/OR/XOR replaces the operands on top of the data stack by the mathematical result reduced to a 16-bit two's-complement value; no other memory word and no other register except the stack pointer and the program counter (which moves to the next instruction) changes.",
  "every instruction of the group, every operand pair, every machine state with the operands inside the stack memory",
  "2^32 operand pairs per instruction times every stack position and memory content",
  RUN+": pexec8", "insn16/include/libexec.h: POP, PUSH, TOS")
p("C02", "Comparison instructions return exactly TRUE (-1) or FALSE (0) according to the signed or unsigned order",
  "After `a; b; LT` the top of stack is -1 if a<b as signed integers and 0 otherwise; likewise for EQU, NEQ, GTE, GT, LTE, the zero comparisons, and the unsigned ULT/UGTE/UGT/ULTE, with exactly one value left in place of the operands.",
  "all operand pairs and states", "exhaustive over signedness boundaries and every state", RUN+": pexec8")
p("C03", "Conditional jumps are taken exactly when the comparison holds",
  "A conditional jump pops its one or two operands and transfers control to its 16-bit target iff the comparison it names holds (the same relation as the comparison instruction of that name); otherwise control falls through to the next instruction. Memory is unchanged.",
  "all jump opcodes, all operands, all targets, all states", "the branch decision must be right on every operand pair",
  RUN+": pexec24")
p("C04", "Division, modulo, multiplication and shifts are well defined for every operand a Pascal program can supply",
  "DIV/MOD/UDIV/UMOD return the quotient truncated towards zero and the matching remainder, UMUL the product modulo 2^16, SLL/SRL/SRA the shifted value, and no operand makes the virtual machine itself execute an undefined C operation.",
  "all operand pairs", "the bad operands (zero divisor, large shift count, large unsigned product) are isolated points",
  RUN+": pexec8 (oDIV, oMOD, oUDIV, oUMOD, oUMUL, oSLL, oSRL, oSRA)")
p("C05", "Loads return what the last store wrote, and stores change only their destination",
  "After a word, byte or block store to a variable, a load of the same kind from that variable yields the stored value; every byte outside the destination (and the consumed operand slots) is unchanged. Byte loads are sign extended by LDB-type and zero extended by ULDB-type instructions.",
  "all addresses, values, block sizes and memory contents", "aliasing, odd addresses and block lengths are unbounded combinations",
  RUN+": pexec8 (oLDI,oSTI,oLDIB,oSTIB,oLDIM,oSTIM), pexec24 (oLD,oST,oLDM,oSTM,...), pexec32 (oLDS,oSTS,...)")
p("C06", "A procedure call followed by return restores the caller",
  "If PCAL is executed and the callee leaves its five-word frame header intact and the stack pointer at the top of that header, RET resumes at the instruction after the PCAL with the caller's frame pointer, stack pointer, string-stack pointer and static level restored exactly, and no word of memory at or below the caller's top of stack modified by the call/return pair.",
  "every call depth, every level, every machine state", "the property must hold for every call history and every body",
  RUN+": libexec_ProcedureCall, pexec8 (oRET), pexec32 (oPCAL)")
p("C07", "Static links always reach the lexically enclosing activation",
  "In every state reachable by any sequence of calls and returns, a level-relative access with level difference d reaches the activation record found by following the lexical nesting d steps outward (whose level is the current level minus d), and a call to a routine of level n makes that record's static link the most recent enclosing activation of level n-1, or reports a nesting-level error and nothing else.",
  "all histories of PCAL/RET with arbitrary levels", "unbounded call histories including recursion",
  RUN+": libexec_ProcedureCall, libexec_GetBaseAddress")
p("C08", "Invalid opcodes and bad program counters are reported without side effects",
  "When the byte at the program counter is not an executable instruction, execution stops with the illegal-opcode error, and when the program counter is outside the program it stops with the bad-PC error; in both cases memory, stack and frame registers are unchanged.",
  "all 256 opcode bytes, all states", "must hold for every byte and every state", RUN+": libexec_Execute, pexec8, pexec16, pexec24, pexec32")
p("C09", "Instruction fetch never reads outside the loaded program",
  "Executing one instruction only inspects program bytes at addresses below the program size.",
  "all programs and program counters", "only a truncated last instruction shows the failure", RUN+": libexec_Execute")
p("C10", "Start-up memory map: disjoint regions and readable constants",
  "After initialization the string stack, constant data, stack and heap occupy disjoint consecutive areas that fit the allocation, the initial frame is a level-0 frame, and the constant at offset k of the constant section is what LAC k makes the program read.",
  "all requested region sizes and constant sections", "odd and large sizes", RUN+": libexec_Initialize, libexec_Reset")
S="insn16/libexec/libexec_setops.c"
p("C11", "Set union, intersection, difference and symmetric difference are the mathematical operations",
  "For sets A (pushed first) and B, the four binary set operators leave exactly A∪B, A∩B, A\\B, A△B as a set of 0..63, consuming both operands and changing nothing below them.",
  "all pairs of 64-element sets and all machine states", "2^128 operand pairs", S+": libexec_intersection, libexec_union, libexec_difference, libexec_symmetricdiff, libexec_SetOperations")
p("C12", "Set comparisons decide equality, inequality and inclusion",
  "A = B and A <> B are decided exactly, and A <= B is TRUE iff every element of A is in B.",
  "all pairs of sets", "2^128 operand pairs", S+": libexec_equality, libexec_nonequality, libexec_contains","pascal/pas_expression.c: pas_Expression (tLE -> setCONTAINS)")
p("C13", "Membership, include, exclude and singleton treat every ordinal correctly",
  "`x in S` is TRUE iff the ordinal x (relative to the subrange minimum) is in S; Include/Exclude add/remove exactly that element; a singleton constructor yields exactly {x}; an out-of-range element is reported as a value-range error and never touches memory outside the set.",
  "all elements (including out of range), offsets and sets", "boundary elements 0, 63, 64 and negative ones", S+": libexec_member, libexec_include, libexec_exclude, libexec_singleton")
p("C14", "The set subrange constructor [a..b] yields exactly the elements from a to b",
  "For 0<=a<=b<=63, the result contains x iff a<=x<=b, and the operation terminates.",
  "all bounds a, b", "only some bound pairs fail", S+": libexec_subrange")
p("C15", "Card returns the number of elements",
  "CARD of a set leaves the number of its elements.", "all 2^64 sets", "2^64 sets", S+": libexec_card, libexec_BitsInWord")
L="insn16/libexec/libexec_longops.c"
p("C16", "LongInteger arithmetic is exact modulo 2^32",
  "32-bit ADD/SUB/MUL/NEG/ABS/NOT/AND/OR/XOR/INC/DEC on the two-word representation leave the result modulo 2^32 and change nothing else.",
  "all 2^64 operand pairs and states", "carry between the two words", L+": libexec_LongOperation8")
p("C17", "LongInteger comparisons follow the signed/unsigned order of the operands",
  "After pushing a then b, the 32-bit comparison `a op b` leaves TRUE iff the relation holds between a and b in that order.",
  "all pairs", "asymmetric comparisons must be right for all pairs", L+": libexec_LongOperation8 (oDLT, oDGTE, oDGT, oDLTE, oDULT, ...)")
p("C18", "LongInteger stack shuffles and conversions are faithful",
  "DUP duplicates, XCHG exchanges two long values, conversions from 16 bits sign/zero extend, conversion to 16 bits truncates.",
  "all values and states", "overlapping word moves", L+": libexec_LongOperation8 (oDDUP, oDXCHG, oCNV, oUCNV, oDCNV)")
H="insn16/libexec/libexec_heap.c"
p("C19", "Heap blocks are disjoint and inside the heap",
  "For every history of NEW and DISPOSE, every block handed out lies inside the heap area, is at least as large as requested, and does not overlap a block that is still allocated.",
  "all histories of allocations and frees and all request sizes", "unbounded histories", H+": libexec_Alloc, libexec_Free, libexec_AddChunkToFreeList, libexec_DisposeChunk")
p("C20", "Disposed memory can be allocated again",
  "After disposing everything the heap can again satisfy a request for the size it could satisfy initially.",
  "all histories", "leaks appear only after particular orders of frees", H+": libexec_AddChunkToFreeList, libexec_RemoveChunkFromFreeList, libexec_DisposeChunk")
p("C21", "Bad pointers given to DISPOSE are rejected",
  "Disposing a pointer outside the heap, or one already disposed, is reported as an error and leaves the heap unchanged.",
  "all pointers and heap states", "any address", H+": libexec_Free, libexec_Dispose")
T="insn16/libexec/libexec_stringlib.c"
p("C22", "String assignment copies the source clipped to the destination capacity",
  "After s := t the destination holds the first min(length t, capacity s) characters of t, the bytes outside the destination buffer and its length field are unchanged.",
  "all strings, capacities and memory contents", "all lengths around the capacity, aliasing", T+": libexec_StrCpy")
p("C23", "String concatenation appends as much as fits",
  "After concatenation the destination holds the old contents followed by as many characters of the source as the capacity allows; nothing outside the destination buffer changes.",
  "all strings and capacities", "boundary lengths; overflow only in rare combinations", T+": libexec_StrCat, libexec_StrCatC")
p("C24", "String comparison is the lexicographic order",
  "The comparison of two strings has the sign of the lexicographic order of their character sequences; in particular it is a total order, and 0 exactly for equal strings.",
  "all pairs of strings", "transitivity and totality are universally quantified", T+": libexec_StringOperations (lbSTRCMP)")
p("C25", "Copy, Pos, Insert and Delete follow their Pascal definitions for every position and count",
  "Copy(s,i,n) yields the n characters from position i; Pos finds the first occurrence at or after the start; Insert splices the source before position i; Delete removes n characters from position i; arguments outside the string are clipped.",
  "all strings, positions and counts", "unsigned wrap-around at odd positions", T+": libexec_StringOperations (lbCOPYSUBSTR, lbFINDSUBSTR, lbINSERTSTR, lbDELSUBSTR)")
p("C26", "String operations never write outside the destination buffer",
  "No string library operation modifies a byte outside the destination string's buffer and descriptor (or fixed-size character array).",
  "all strings and capacities", "memory corruption only for particular sizes", T+": libexec_Str2BStr, libexec_StrCatC, libexec_StrCpy, libexec_FillChar")
p("C27", "String storage handed out at initialization is disjoint from other data",
  "Buffers given to string variables are disjoint from each other, lie inside the string stack and never overlap constant data.",
  "all sequences of string initializations", "depends on the history of allocations", T+": libexec_StrInit", "insn16/libexec/libexec_run.c: libexec_Reset")
I="insn16/libinsn/"
p("C28", "Instruction encoding round trip",
  "Decoding the byte sequence produced for any list of instructions yields exactly that list and the sizes add up; every consumer (optimizer, linker, VM) advances by the number of bytes that were emitted.",
  "all instruction sequences of any length with any operands", "unbounded programs", I+"insn_addopcode.c: insn_AddOpCode", I+"insn_getopcode.c: insn_GetOpCode", RUN+": libexec_Execute", I+"insn_genlongop.c")
p("C29", "Relocation moves every code address by the load offset and nothing else",
  "Relocating an instruction adds the program offset to its operand iff the operand is a program address (any jump or call), adds the constant-data offset iff it is a constant address, and leaves all other operands alone; a program relocated by k behaves at k as the original at 0.",
  "all instructions and offsets", "every jump opcode must be covered", I+"insn_relocate.c: insn_Relocate", "plink/plink.c: plink_MergeProgramData")
O="insn16/popt/"
p("C30", "Folding of constant expressions preserves the value",
  "Every rewrite of a unary/binary operation on constants into a constant leaves on the stack what the original instructions leave.",
  "all constants and machine states", "extreme constants (0x8000, 0xffff) are the failing points", O+"popt_constants.c: popt_UnaryOptimize, popt_BinaryOptimize")
p("C31", "Strength reductions preserve the value",
  "Every rewrite of an operation with a special constant operand (x+0, x*2^k, x div 2^k, x-1, ...) into a cheaper one yields the same value for all x.",
  "all runtime values x", "negative and extreme values", O+"popt_constants.c: popt_BinaryOptimize")
p("C32", "Branch simplifications preserve control flow",
  "Fusing or inverting comparisons and conditional jumps, and folding jumps on constants, takes the same branch and leaves the same stack for every operand.",
  "all operand values", "non-boolean values and overflow points", O+"popt_branch.c: popt_BranchOptimize")
p("C33", "Load/store simplifications preserve memory and stack",
  "Replacing load/store pairs, duplicate pushes and stack reorderings leaves the same memory and stack.",
  "all states", "value truncation in byte stores, aliasing", O+"popt_loadstore.c: popt_LoadOptimize, popt_StoreOptimize, popt_StackOrderOptimize")
p("C34", "Label resolution: every jump goes to the instruction that carried its label",
  "After finalization no label pseudo-instruction remains, all other instructions are preserved in order, and the operand of every jump or call is the byte address of the first real instruction following the definition of its label.",
  "all label-annotated programs", "arbitrary programs and label placements", O+"popt_finalize.c: pass1, pass3, popt_Finalization","libpoff/pflabel.c")
K="plink/"
p("C35", "Symbol resolution: a definition anywhere satisfies every reference, duplicates and missing symbols are rejected",
  "Linking succeeds iff every referenced (name,kind) has exactly one definition among the inputs, and then every reference resolves to the value of that definition (shifted by its unit's load offset), independently of the order of symbols in the inputs.",
  "all multisets of symbols over any number of files", "orderings and combinations are unbounded", K+"plsym.c: insertSymbol, mergeSymbols, verifySymbols")
p("C36", "Relocations patch exactly the referenced instruction operands",
  "Applying the relocations sets the 16-bit operand of each relocated call or data reference to the value of its symbol's definition and changes no other program byte.",
  "all programs, relocation lists and symbols", "any number of relocations", K+"plreloc.c: mergeRelocations, applyRelocations", I+"insn_relocate.c: insn_FixupProcedureCall, insn_FixupFrameOffset")
p("C37", "Linked constant data, file names and line numbers keep their meaning",
  "After linking, constant references denote the same bytes as in their own unit, and each line-number entry designates the same source file and the shifted address.",
  "all lists of input files", "any number of inputs", K+"plink.c: plink_MergeRoData, plink_MergeFileNames, plink_MergeLineNumbers","libpoff/pfirodata.c")
F="libpoff/"
p("C38", "Object file round trip",
  "Reading a file written by the object-file writer restores the same program, constants, symbols, relocations, file names, line numbers, strings and header fields; truncated or foreign files are rejected.",
  "all object contents", "all section size combinations", F+"pfwrite.c: poffWriteFile", F+"pfread.c: poffReadFile", F+"pfswap.c")
p("C39", "String table: every added string is retrievable at the returned index forever",
  "The index returned for a string denotes that string after any number of later additions; adding it again returns an index denoting the same string and does not grow the table.",
  "all sequences of additions", "unbounded histories", F+"pfwstring.c: poffAddString, poffFindString", F+"pfrstring.c: poffGetString")
p("C40", "Byte-order conversion is an involution that preserves every field",
  "Swapping a 16/32-bit value twice gives the value back, one swap reverses its bytes, and converting tables to file order and back is the identity.",
  "all values and tables", "2^32 values, all table lengths", "libpas/pswap.c: poffSwap16, poffSwap32", F+"pfswap.c")
p("C41", "Line lookup returns the closest preceding line entry",
  "For a line table sorted by address, looking up an address returns the last entry whose address is not greater, or none if all are greater, independently of previous lookups.",
  "all sorted tables, addresses and lookup histories", "search off-by-one at the end of the table; hint state", F+"pflineno.c: poffFindLineNumber")
p("C42", "Debug function information can be read back completely",
  "Every function record stored in the debug section is returned by iterating over it.",
  "all lists of records", "record sizes vary", F+"pfrdbgfunc.c: poffGetDebugFuncInfo", F+"pfwdbgfunc.c", F+"pfswap.c: poffSwapDebugData")
C="pascal/"
p("C43", "Tokenizer: string literals denote their contents",
  "For every text w, scanning the Pascal literal obtained by quoting w (doubling quotes) yields a token denoting exactly w and consumes exactly the literal.",
  "all strings", "quotes in all positions", C+"pas_token.c: pas_StringToken")
p("C44", "Tokenizer: identifiers and numbers are maximal munch and denote their value",
  "An identifier token is the longest run of identifier characters, case-insensitively matched; a decimal literal denotes its value when it fits; a $ literal denotes its hexadecimal value; a real literal denotes its digits scaled by its exponent.",
  "all inputs", "all lengths", C+"pas_token.c: pas_Identifier, pas_UnsignedNumber, pas_UnsignedHexadecimal")
p("C45", "Reserved words are recognized in any case and nothing else is",
  "A name is classified as a reserved word iff it, or the standard name for which it is an alternative spelling, equals a table entry ignoring case, and with that entry's token.",
  "all names", "infinitely many names; the search exits early and relies on table order", C+"pas_symtable.c: pas_FindReservedWord")
p("C46", "Name lookup finds the innermost declaration",
  "Looking up a name returns the most recently declared visible symbol with that name ignoring case; leaving a scope restores exactly the outer meaning of every name.",
  "all nesting histories of declarations", "unbounded histories", C+"pas_symtable.c: pas_FindSymbol, pas_AddSymbol")
p("C47", "Constant expressions evaluate like their run-time counterparts",
  "A constant declaration's value equals the value the compiled expression would have at run time.",
  "all constant expressions", "unbounded nesting and operator mixes", C+"pas_constexpr.c: pas_ConstantExpression, pas_ConstantSimpleExpression, pas_ConstantTerm, pas_ConstantFactor")
p("C48", "Compiled expressions leave exactly their value on the stack",
  "Executing the code generated for an integer/word/boolean expression pushes exactly one word holding the expression's value and changes no variable.",
  "all expressions and variable contents", "unbounded expression trees", C+"pas_expression.c: pas_Expression, pas_SimpleExpression, pas_Term, pas_Factor", C+"pas_stdfunc.c: pas_StandardFunction", C+"pas_codegen.c")
p("C49", "Compiled control statements implement the source semantics",
  "Executing the code generated for assignments, compound statements, IF, WHILE, REPEAT, CASE and FOR transforms variables as the Pascal semantics says and leaves the stack height unchanged.",
  "all statement nestings, all inputs, all numbers of iterations", "unbounded nesting and iteration counts", C+"pas_statement.c: pas_IfStatement, pas_WhileStatement, pas_RepeatStatement, pas_CaseStatement, pas_ForStatement")
p("C50", "FOR loops execute once for each value of the range",
  "FOR v := a TO b executes its body exactly for a, a+1, ..., b (not at all when a>b) and then terminates; DOWNTO symmetrically.",
  "all bounds of the loop variable's type", "fails only at the largest value / for unsigned variables", C+"pas_statement.c: pas_ForStatement")
p("C51", "File name utilities",
  "Replacing or appending an extension yields the base name with that extension, fails cleanly when it does not fit, and never overruns the output buffer; the base name has no directory part.",
  "all names and buffer sizes", "dots in directory names, buffer boundaries", "libpas/pextension.c: extension", "libpas/pbasename.c")
p("C52", "End to end: the loaded program behaves like the compiled one",
  "Generating, finalizing, encoding, linking and executing a compiled statement list on the virtual machine ends with exactly the variable values prescribed by the source semantics, for every terminating program of the modelled subset.",
  "all terminating programs of the subset", "composition of all phases over unbounded programs", C+"pas_statement.c", O+"popt_finalize.c", I+"insn_addopcode.c", RUN)
p("C53", "The memory map never changes while a program runs",
  "However many instructions are executed, the size of the data memory and the boundaries of the string stack, constant data, Pascal stack and heap regions stay what start-up made them.",
  "all programs, all numbers of executed instructions", "must hold after unboundedly many instructions of every kind", RUN+":pexec8,pexec16,pexec24,pexec32")
p("C54", "LongInteger division, remainder and shifts are exact",
  "32-bit DIV truncates towards zero with MOD the matching remainder, unsigned DIV/MOD are the natural quotient and remainder, and shifts by 0..31 multiply or divide by the power of two; a zero divisor is reported as a run-time error.",
  "all operand pairs and shift counts", "2^64 operand pairs; zero divisors and the least integer are corner cases", "insn16/libexec/libexec_longops.c: libexec_LongOperation8 (oDDIV, oDMOD, oDUDIV, oDUMOD, oDSLL, oDSRL, oDSRA)")
p("C55", "Constants, addresses and stack shuffles put exactly the documented words on the stack",
  "Push instructions put their constant (sign or zero extended) or the documented address on top of the stack, DUP copies and XCHG exchanges the top words, and INDS/INCS move the stack pointer by exactly their operand; nothing else in memory changes.",
  "all operand values, all stack contents with room", "2^16 operands times all stack states", "insn16/libexec/libexec_run.c: pexec8 (oDUP, oXCHG), pexec16 (oPUSHB, oUPUSHB), pexec24 (oPUSH, oINDS, oINCS, oLA, oLAC, oLAX), pexec32 (oLAS, oLASX)")
p("C56", "White space and comments separate tokens and symbols are read longest first",
  "White space and comments of each of the four kinds, in any number and order, are equivalent to nothing before a token; reading is deterministic; every special symbol of the language is read as itself, two-character symbols before their first character; reading always ends.",
  "all sequences of blanks and comments, all symbols and what follows them", "unbounded comments with stars and slashes in every position", C+"pas_token.c: pas_GetToken, pas_SkipLine", C+"pas_token.c: getCharacter")
p("C57", "Variable declarations give every variable its own place and name",
  "Constants and variables declared with new, different names are accepted; each name, in upper or lower case, then means the value of the constant's expression, or its own variable of the declared type; the variables do not overlap, are aligned, and lie within the space the program reserves; predefined names keep their meaning. Errors in declarations are reported, not ignored.",
  "all sequences of constant definitions and variable declarations", "unbounded numbers of names, types and alignments", C+"pas_block.c: pas_DeclareConst, pas_ConstantDefinitionGroup, pas_DeclareVar, pas_VariableDeclarationGroup", C+"pas_symtable.c: pas_FindSymbol, pas_AddSymbol", C+"pas_token.c: getToken, getLevelToken")
p("C58", "Set constants contain exactly the listed elements",
  "A set constant written as a list of elements and ranges denotes exactly these elements, and union, difference and intersection of set constants are the set operations.",
  "all lists of elements and ranges, all base types", "2^64 sets, ranges crossing word boundaries", C+"pas_constexpr.c: pas_ConstantFactor, pas_GetConstantSubSet, pas_AddBitSetElements, pas_ConstantSimpleExpression")
p("C59", "The optimizer always finishes",
  "Given any p-code program and any relocations, the optimizer ends and yields a program; it neither loops for ever nor crashes.",
  "all programs, of any length, all relocation lists", "rewriting to a fixed point could cycle on some combination of instructions; unbounded programs", O+"popt_local.c: popt_LocalOptimization", O+"popt_strings.c, popt_peephole.c, popt_constants.c, popt_longconst.c, popt_branch.c, popt_loadstore.c")
p("C60", "The optimizer keeps the skeleton of the program",
  "The optimized program ends with its only oEND; its labels, procedure calls, returns and line numbers are those of the program, unchanged and in the same order; it is not longer; every jump goes to a label that a jump of the program went to, so no jump loses its label.",
  "all programs, of any length", "any sequence of rewrites over a sliding window of instructions", O+"popt_local.c: popt_LocalOptimization, popt_UpdateOpCodePtrs", O+"popt_peephole.c", O+"popt_branch.c")
p("C61", "The optimizer keeps relocations with their instructions",
  "After optimization every relocation is attached to the instruction it was attached to before, at the new offset of that instruction, unless that instruction has been removed together with its relocation.",
  "all programs and relocation lists", "every rewrite can move, merge or drop instructions that carry relocations", O+"popt_local.c: setupPointer, getPCode, popt_UpdateOpCodePtrs", O+"popt_loadstore.c", O+"popt_peephole.c")
p("C63", "REAL arithmetic computes with the right operands and exact comparisons",
  "REAL operations take their operands in the order written, converting integer operands exactly; sums, products, quotients and functions are the host's correctly rounded ones, negation, absolute value and the six comparisons are exact; TRUNC drops the fraction, ROUND rounds to the nearest integer; undefined operations are reported.",
  "all operand bit patterns, all mixtures of REAL and integer operands", "2^128 operand pairs, subnormal numbers, signed zeros, each operand possibly an integer", "insn16/libexec/libexec_float.c: libexec_FloatOps, libexec_GetFpArguments", "include/pas_fpops.h")
p("C64", "WRITE writes exactly the decimal notation, right-justified, and nothing else",
  "WRITE of an integer, word, long integer, long word, character or string writes its (decimal) notation, padded with blanks on the left to the field width, at the current place of the file, and WRITELN the end of the line; other files, memory and file numbers are untouched; a file that is not open for output is refused and nothing is written; no other instruction changes a file.",
  "all values, field widths, files, positions and contents", "2^32 values times field widths times unbounded file contents", "insn16/libexec/libexec_sysio.c: libexec_sysio, libexec_WriteInteger, libexec_WriteWord, libexec_WriteLongInteger, libexec_WriteLongWord, libexec_WriteChar, libexec_WriteString, libexec_GetFormat")
p("C65", "READ gets back what was typed or written",
  "READ of an integer skips blanks and stores the number that follows, READ of a real skips blanks and stores the number that follows, up to rounding, READ of a character the next character, READ of a string the rest of the line; what has not been read stays for the next READ; READLN goes to the next line. What WRITELN wrote is read back by READ. Numbers in a file are read in their order.",
  "all texts, all histories of READ and READLN", "unbounded texts and histories; ends of lines and files in every position", "insn16/libexec/libexec_sysio.c: libexec_ReadInteger, libexec_ReadChar, libexec_ReadString, libexec_ReadLn, libexec_CheckEoln, libexec_ConvertInteger, libexec_ConvertReal, libexec_ReadReal")
p("C66", "A file number is never given out twice",
  "The number a program gets for a new file is below 8 and is not one it still holds; after it has been given back it is neither in use nor open; when 8 files are in use the program is told so and nothing changes; giving back a number that is not in use is refused.",
  "all executions: any sequence of getting and giving back file numbers with any other instructions in between", "unbounded histories and all instructions in between", "insn16/libexec/libexec_sysio.c: libexec_AllocateFile, libexec_FreeFile, libexec_sysio")
p("C67", "Positions in files: SEEK, FILEPOS, FILESIZE, EOF, EOLN, blocks",
  "SEEK sets the position and nothing else, FILEPOS returns it, FILESIZE returns the length of the file and leaves the position, EOF is true exactly at the end of the file, EOLN exactly behind the end of a line; a block of bytes written is read back unchanged; SEEKEOF and SEEKEOLN skip blanks only.",
  "all positions, files, contents and block sizes", "unbounded contents and positions", "insn16/libexec/libexec_sysio.c: libexec_Eof, libexec_Eoln, libexec_FilePos, libexec_FileSize, libexec_Seek, libexec_SeekEof, libexec_SeekEoln, libexec_ReadBinary, libexec_WriteBinary")
p("C68", "Opening and closing files",
  "RESET opens an existing file for reading at its beginning and changes no file; REWRITE empties the file and opens it for output; APPEND opens it at its end and keeps its text; other files and file numbers are untouched; a failure is reported and changes nothing; CLOSE keeps what was written, so that a file written, closed and reset is read back unchanged; RESET of an open file goes back to its beginning.",
  "all file names, contents, tables of open files and hosts", "unbounded names, contents and histories", "insn16/libexec/libexec_sysio.c: libexec_AssignFile, libexec_OpenFile, libexec_CloseFile, libexec_RecordSize, libexec_sysio")
p("C69", "STR and VAL convert between numbers and texts",
  "STR makes the string variable hold the decimal notation of the value, right-justified in the field, and changes nothing else. VAL of the decimal notation of an integer in range stores this integer and the code 0; out of range it is an error and nothing is stored; for a text that is no number it stores the position of the first offending character.",
  "all values, field widths, string variables and texts", "2^32 values times field widths, unbounded texts", "insn16/libexec/libexec_stringlib.c: libexec_StringOperations (lbINTSTR, lbWORDSTR, lbLONGSTR, lbULONGSTR, lbVAL)")
p("C70", "WRITE and WRITELN append the texts of their items",
  "WRITE and WRITELN statements with numbers, characters (with optional field widths) and string constants are accepted; when the compiled program executes them, the decimal notation or the characters of the items, right-justified in their fields, are appended to the standard output in the order of the items, for WRITELN followed by an end of line; nothing else is changed.",
  "all lists of items, all expressions and values, all programs that contain such statements, all contents of the output before", "unbounded item lists, programs and values", "pascal/pas_procedure.c: pas_WriteProc, pas_WritelnProc, pas_WriteProcCommon, pas_WriteText, pas_WriteFieldWidth, pas_GenerateFileNumber", "libpoff/pfwrodata.c: poffAddRoDataString", "insn16/libexec/libexec_sysio.c: libexec_WriteInteger")
p("C71", "The text of a program determines what it does",
  "A source file with the text of a correct program, with any white space and comments between its tokens and any mixture of upper and lower case, is compiled, linked and run with exactly the effects that the meaning of its statements prescribes; two files with the same tokens give the same executable.",
  "all source files that spell a correct program, all layouts and comments, all initial machine states", "unbounded files, layouts and programs", "pascal/pas_token.c: getToken, primeTokenizer", "pascal/pas_main.c: main", "pascal/pas_program.c: pas_Program", "insn16/libexec/libexec_run.c: libexec_Execute")
p("C72", "Calling a procedure executes its statements with its own parameters and variables",
  "A call of a declared procedure evaluates the arguments, executes the statements of the procedure with the parameters having these values and with local variables of its own for each activation, and continues behind the call; assignments to variables of the enclosing blocks are seen by the caller, assignments to parameters and local variables are not, also if the procedure is called recursively or declared inside other procedures.",
  "all programs with procedures (nested and recursive), all arguments, all depths of recursion for which the stack suffices, all machine states at the call", "unbounded nesting, recursion depth and programs", "pascal/pas_block.c: pas_ProcedureDeclaration, pas_FormalParameterList, pas_Block", "pascal/pas_statement.c: pas_ProcStatement", "pascal/pas_procedure.c: pas_ActualParameterList", "insn16/libexec/libexec_run.c: libexec_ProcedureCall, oRET")
p("C62", "Arithmetic on long constants is done by the optimizer as the machine would do it",
  "Where an operation on 32-bit numbers has constant operands (one, both, or a shift count, or a 16-bit constant made 32 bits long), the optimized instructions leave the same stack, memory and registers as the original ones whenever these run.",
  "all constants in all encodings, all long operations, all machine states", "2^64 pairs of constants times all operations and states", "insn16/popt/popt_longconst.c: popt_LongUnaryOptimize, popt_LongBinaryOptimize", "insn16/libexec/libexec_longops.c: libexec_LongOperation8")
p("C73", "An element of an array is a variable of its own",
  "`a[i]` with an index in the range of the array is the value last assigned to the element with this number; `a[i] := e` gives this element the value of the expression and leaves all other elements and variables as they are. An index outside the range is reported. Declared arrays have their own bytes.",
  "all array variables with a range of integers and ordinal elements, all index and value expressions, all machine states that hold the variables", "unbounded expressions, 2^16 indices times all layouts and states", "pascal/pas_expression.c: pas_ArrayIndex, pas_Factor, pas_BaseFactor, pas_SimpleFactor", "pascal/pas_statement.c: pas_Assignment, pas_SimpleAssignment, pas_ComplexAssignment", "pascal/pas_block.c: pas_NewComplexType, pas_GetArrayIndexType, pas_GetArrayBaseType, pas_DeclareVar", "insn16/libexec/libexec_run.c: oLDSX, oLDSXB, oULDSXB, oSTSX, oSTSXB")
p("C74", "What is added to an object file stays in it, and memory is never overrun",
  "Symbols, strings, relocations, file names, line numbers, program bytes and constants added to an object file in memory are all kept, in the order of the additions, and each call returns the place of what it added, however many are added; the relocations an optimizer pass leaves are exactly those the next pass reads; no call reads or writes outside the memory it has allocated.",
  "all sequences of additions of any length, new object files and object files read from disk, all contents of fresh memory", "tables grow at thresholds that small inputs never reach; fresh memory has arbitrary contents", "libpoff/pfwsymbol.c: poffAddSymbol", "libpoff/pfwreloc.c: poffAddRelocation", "libpoff/pftreloc.c: poffCloneRelocations, poffAddTmpRelocation", "libpoff/pftgetreloc.c: poffNextTmpRelocation", "libpoff/pftprog.c: poffAddTmpProgByte, poffWriteTmpProgBytes", "libpoff/pfwstring.c: poffAddString", "libpoff/pfwrodata.c: poffAddRoDataString", "insn16/popt/popt_reloc.c: createRelocationHandles, swapRelocationHandles")
p("C75", "The debugger executes the program and nothing else",
  "In the interactive debugger, the machine is changed by executing its instructions and by resetting it, and by nothing else. GO, RUN, STEP and NEXT execute exactly the instructions up to the first breakpoint, error or end of the program (STEP: one; NEXT: up to the return of a call), and say why they stopped. A program started with RUN ends in the state in which it ends without the debugger. The trace shows the last sixteen instructions in order. Breakpoints are set and cleared as named, at most eight, all different. Addresses typed in hexadecimal are the addresses meant.",
  "every program, every machine state, every sequence of typed command lines, any number of instructions executed between stops",
  "breakpoints and traces depend on the whole history of commands and instructions; a test follows one session",
  "insn16/libexec/libexec_debug.c: libexec_DebugLoop, pdbg_ExecCommand, pdbg_DebugPCode, pdbg_AddBreakPoint, pdbg_DeleteBreakPoint, pdbg_CheckBreakPoint, pdbg_PrintTraceArray, pdbg_ReadHex, pdbg_ReadDecimal")

p("C76", "The listing of a program says which instructions it consists of",
  "The listing of a program shows every instruction in order, each with its address, its name and its operands, and the place in the source where that changes; the program can be read back from its listing. The listing the compiler writes beside the program shows the same instructions.",
  "every program, every table of line numbers, every instruction with every operand",
  "the listing is what a user inspects to find out what was compiled; tests look at the lines of a few programs, not at whether two programs can look alike",
  "insn16/libinsn/insn_disasm.c: insn_DisassemblePCode", "insn16/libinsn/insn_dislongop.c: insn_DisassembleLongOpCode", "insn16/plist/plist.c: plist_DumpProgramData", "insn16/libinsn/insn_generate.c: insn_Generate", "insn16/libinsn/insn_genlongop.c: insn_GenerateLongOperation")

p("C77", "Arrays of characters, characters and strings are converted into each other without loss",
  "An array of characters converted to a string gives the characters of the array; a character gives the string of that character; a string assigned to an array of characters is stored in the array, cut off at its size, and the array then reads as this string; nothing else is changed.",
  "every array, every string, every size, every heap", "the lengths of array and string are independent and unbounded; the result depends on what the memory held before",
  "insn16/libexec/libexec_stringlib.c: libexec_BStr2Str, libexec_Str2BStr, libexec_StringOperations", "pascal/pas_expression.c: pas_Factor", "pascal/pas_statement.c: pas_ArrayAssignment")

p("C78", "The tools hand a program on through their files without changing it",
  "What the compiler puts into the object file, the optimizer reads and writes again, the linker reads and writes as an executable and the loader reads: the machine gets exactly the program, the constant data, the entry point and the size that the compiler and the linker computed, so that a program text run through all the tools and their files does what the program means. A file of another kind is refused by the linker and by the loader.",
  "every program, every order of calls that fill the object file, every size below the limits, all sizes of the memory regions", "each tool works on what the one before has written; a field that is dropped or moved at one border shows only for some programs",
  "insn16/popt/popt.c: readPoffFile, writePoffFile, main", "insn16/popt/popt_finalize.c: popt_Finalization", "plink/plink.c: main, plink_LoadInputFiles, plink_WirteOutputFile", "plink/plsym.c: writeSymbols", "insn16/libexec/libexec_load.c: libexec_Load", "libpoff/pfread.c: poffReadFile", "libpoff/pfwrite.c: poffWriteFile", "libpoff/pfdbgdiscard.c: poffDiscardDebugFuncInfo")

p("C79", "Programs read what is in their input",
  "READ gives its variables, in order, the values that are in the standard input: integers with blanks and ends of lines before them, characters one after the other, the end of a line as a blank; READLN then goes on to the next line. Nothing else is changed, and what a program computes from its input is what its statements mean.",
  "every list of variables, every input, every program that reads, any number of READs", "what a READ delivers depends on everything read before and on the whole text of the input; a test has a few inputs",
  "pascal/pas_procedure.c: pas_ReadProc, pas_ReadlnProc, pas_ReadProcCommon, pas_ReadText, pas_GenerateFileNumber", "insn16/libexec/libexec_sysio.c: libexec_ReadInteger, libexec_ReadChar, libexec_ReadLn", "pascal/pas_expression.c: pas_VarParameter")

p("C80", "The string optimizations leave out copies of constants and nothing else",
  "What the string optimizations of the optimizer make of a program is the program without some of the copies of string constants that are made only to be read by the next operation; every other instruction is still there, with its operands, in its order, and a program that copies no constant is not changed.",
  "every program, every number of passes", "the optimizer works through a window that is shifted over a program of any length, with passes repeated until nothing changes",
  "insn16/popt/popt_strconst.c: popt_StringConstOptimize", "insn16/popt/popt_strings.c: popt_StringOptimization")

p("C81", "The optimizer changes a program by its rules only",
  "Whatever program goes in, the optimized program comes about from it by leaving out copies of string constants and by replacing instructions that are executed one after the other according to one of the optimizer's rules, any number of times; no instruction is lost, doubled, moved or changed in any other way, and no rule is applied across a label, a call or a return.",
  "every program, every number of passes and of rule applications", "the instructions lie in a window with a table of pointers to those that count; a slip in the bookkeeping shows only where windows end or rules follow each other",
  "insn16/popt/popt_local.c: popt_LocalOptimization", "insn16/popt/popt_peephole.c: popt_SetupPeephole, popt_UpdatePeephole", "insn16/popt/popt_constants.c: popt_UnaryOptimize, popt_BinaryOptimize", "insn16/popt/popt_loadstore.c: popt_LoadOptimize, popt_StoreOptimize", "insn16/popt/popt_branch.c: popt_BranchOptimize")

p("C82", "What the compiler accepts is a correct program",
  "If the compiler reports no error for a program, a block, a statement or an expression, then what it has read is a sentence of the language: names are declared before they are used and only once in a scope, nothing is missing or left over, the operands of every operator have types it is defined for, assigned values and parameters have the types of the variables, conditions are Boolean, BREAK and CONTINUE are in loops. An error that has been reported is not forgotten.",
  "every sequence of tokens, correct or not, of any length and nesting, every state of the compiler", "there are infinitely many wrong programs; tests try a few wrong ones and see that an error is reported",
  "pascal/pas_expression.c: pas_Expression, pas_SimpleExpression, pas_Term, pas_Factor, pas_ArrayIndex", "pascal/pas_statement.c: pas_Statement, pas_Assignment, pas_CompoundStatement, pas_IfStatement, pas_WhileStatement, pas_RepeatStatement, pas_ForStatement, pas_CaseStatement, pas_ProcStatement", "pascal/pas_procedure.c: pas_ReadProc, pas_WriteProc, pas_ActualParameterList", "pascal/pas_block.c: pas_Block, pas_ConstantDefinitionGroup, pas_VariableDeclarationGroup, pas_ProcedureDeclaration, pas_FormalParameterList, pas_TypeDenoter", "pascal/pas_program.c: pas_Program")

p("C83", "Programs that do not end run on, and programs stop only where they end",
  "A program whose statements go on forever, an interactive or embedded one say, runs forever: it does not stop, there is no error, and everything it writes on the way is written. A program whose statements do not go wrong (no division by zero, no index out of bounds, no variable without a value ...) and that does stop has come to the end of its statements, with their values and their text; there is never an error and nothing undefined on the way.",
  "every program of the subset, terminating or not, every number of executed instructions", "no test runs forever, and none can tell a program that does not end from one that takes long",
  C+"pas_statement.c: pas_WhileStatement, pas_RepeatStatement, pas_ForStatement", RUN, "insn16/popt/popt_finalize.c")

p("C84", "The compiler reads what is written in the source file",
  "Whatever a source file contains, every token the compiler takes from it without an error stands there: the characters of the file are the tokens in order, with only white space and comments between them, each token as long as it can be, names and strings with exactly their characters, numbers with their value. So what is compiled without an error is the program that the text is, and nothing is read where the file does not have it.",
  "every text file and every number of tokens", "the files are without bound, and tests try correct programs",
  C+"pas_token.c: getToken, pas_GetCharacter, pas_SkipLine, pas_GetLine, pas_Identifier, pas_StringToken, pas_UnsignedNumber", C+"pas_main.c")

p("C85", "Source positions in an object file are found again",
  "The line numbers recorded in an object file are read back completely, each with the name of its file, whatever order they were recorded in; looking up an address then gives the recorded file and line of the closest entry at or before it, and the listing of the program shows every instruction below the heading with its file and line. An object file in which a line refers to a file that does not exist is rejected.",
  "every object file, every number and order of lines and files, every history of lookups, every order among equal addresses that sorting may choose", "tables have any length, the sort order of equal entries is not determined, and malformed files are rarely tested",
  "libpoff/pfrlineno.c: poffGetLineNumber", "libpoff/pflineno.c: poffReadLineNumberTable, poffFindLineNumber", "insn16/plist/plist.c: plist_DumpProgramData")

p("C86", "The run-time runs the named program with the memory asked for",
  "prun runs the executable named on the command line, with .o added to a name without extension, in a machine whose stack, string area and heap have at least the sizes given with -s, -t and -n, the last of each counting, or the documented ones if nothing is given, and hardly more; under the debugger exactly if -d is given. Sizes below or above the documented limits, unknown options, more or fewer than one file name and files that are not executables are refused and nothing is run.",
  "every list of options and arguments, every file name, every executable and every initial contents of the memory", "there are infinitely many command lines, and sizes matter in sum and through their alignment",
  "insn16/prun/prun.c: prun_ParseArgs, main", "insn16/libexec/libexec_load.c: libexec_Load", "insn16/libexec/libexec_run.c: libexec_Initialize, libexec_Reset", "libpas/pextension.c: extension")

p("C87", "Every block of memory of the object file library is released exactly once",
  "A program that uses object file handles and containers for temporary data, each between its creation and its destruction, that reads a file into a new handle only and frees or gives back once what it has extracted, never makes the library free a block twice or use one that has been freed; at any time every allocated block belongs to exactly one handle, one container or the program; and when all of them are gone nothing is left allocated.",
  "every history of calls, every number of handles and containers, every decision of realloc to move a block", "ownership goes from container to handle to program and back; a block that is lost or freed twice shows in rare histories only, and often not at all",
  "libpoff/pfhandle.c: poffCreateHandle, poffDestroyHandle", "libpoff/pfread.c: poffReadFile", "libpoff/pfxprog.c: poffExtractProgramData", "libpoff/pfxrodata.c: poffExtractRoData", "libpoff/pfiprog.c: poffInsertProgramData", "libpoff/pfirodata.c: poffAppendRoData", "libpoff/pfrelease.c: poffReleaseProgData", "libpoff/pfdbgdiscard.c: poffDiscardDebugFuncInfo", "libpoff/pfproghandle.c", "libpoff/pfrelochandle.c", "libpoff/pfsymhandle.c", "libpoff/pftprog.c: poffReplaceProgData", "libpoff/pftreloc.c: poffCloneRelocations, poffReplaceRelocationTable", "libpoff/pftsymbol.c: poffReplaceSymbolTable")

p("C88", "The tools release the memory of the object file library",
  "The optimizer, the linker and the loader use the object file library within its rules: none of them makes it free a block twice or use one that has been freed, and when they are done nothing of it is left allocated, also when a file is refused.",
  "every object file, every number of input files, every sequence of additions by the passes, every decision of realloc to move a block", "leaks and double frees do not show in what the tools write, and containers are created, swapped and given back over several passes",
  "insn16/popt/popt.c: main", "insn16/popt/popt_reloc.c: createRelocationHandles, swapRelocationHandles, destroyRelocationHandles", "insn16/popt/popt_strings.c: popt_StringOptimization", "insn16/popt/popt_local.c: popt_LocalOptimization", "insn16/popt/popt_finalize.c: popt_Finalization", "plink/plink.c: plink_LoadInputFiles, plink_MergeRoData, main", "plink/plreloc.c: applyRelocations", "plink/plsym.c: insertSymbol, releaseSymbols", "insn16/libexec/libexec_load.c: libexec_Load", "insn16/libexec/libexec_run.c: libexec_Release")

p("C89", "The tables of labels remember every label",
  "Any number of labels can be added to the tables of defined and undefined labels, in any order and between questions; nothing is ever written or read outside of the memory of the tables, and asking for a label gives the program offset or symbol it was first added with, or the answer that it is not there; the two tables do not disturb each other. The same holds for the list of relocations of the linker, which gives each relocation back at its place. Once released, the tables are empty and can be used again.",
  "every sequence of additions and questions, every label and value", "the tables are moved and enlarged as they grow, in steps that small programs never reach",
  "libpoff/pflabel.c: poffAddToDefinedLabelTable, poffAddToUndefinedLabelTable, poffGetSymIndexForUndefinedLabel, poffGetPcForDefinedLabel, poffReleaseLabelReferences", "plink/plreloc.c: addRelocToList, mergeRelocations, releaseRelocations")

p("C90", "The configuration header says what the configuration file says",
  "For every configuration file the generated header defines exactly the variables that are set: a variable with the value y as 1, with m as 2, with any other value as that value, and it undefines those with n or without value; in the order of the file, one line each, with comments and empty lines left out and blanks around names and values ignored; values in quotes are kept as they are, with what is in the quotes. Other lines are refused. Without such a file, or with other arguments than a directory, nothing is written and the program fails.",
  "every configuration file, with any number of lines, names, values, blanks and comments", "there are infinitely many files, and blanks, quotes, backslashes and comments can come in any combination",
  "tools/mkconfig.c: main, pas_GenerateDefinitions, pas_ParseLine, pas_ReadLine, pas_FindValueEnd, pas_FindNameEnd, pas_SkipSpaces")

p("C91", "The listing of an object file shows its relocations and symbols",
  "The listing of the relocation table of an object file, and of the temporary table, shows every relocation on one line, in order, with its kind, the number of its symbol and the place of the instruction, so that the numbers can be read back from the line; the listing of the symbol table shows every symbol on one line, in order, with its name, kind, flags, alignment, value and size; nothing outside of the tables is read, and the listing ends, whatever the file contains.",
  "every table of relocations or symbols, of any length and with any entries, and every damaged table", "a listing is looked at by people and compared for a few small programs; damaged files are not listed in tests",
  "libpoff/pfdreloc.c: poffDumpRelocTable", "libpoff/pfdtreloc.c: poffDumpTmpRelocTable", "libpoff/pfdsymbol.c: poffDumpSymbolTable")

if __name__ == "__main__":
    here = os.path.dirname(os.path.abspath(__file__))
    with open(os.path.join(here, "..", "properties.jsonl"), "w") as f:
        for q in P: f.write(json.dumps(q, ensure_ascii=False)+"\n")
    print(len(P))
