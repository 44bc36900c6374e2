/-! Opcode numbers of the 16-bit instruction set: `insn16/include/insn16.h`.

Each constructor is the `#define` of the same name (lower case, without the leading `o`);
the comment gives the line of the `#define`. -/
namespace Pas

/-- 8-bit machine byte (`uint8_t`).  Used throughout, e.g. `insn16/popt/popt.h` 55. -/
abbrev Byte := BitVec 8
/-- 16-bit machine word (`ustack_t`, `pasSize_t` = `uint16_t`:
`insn16/include/libexec.h` 145, `include/pas_machine.h` 163). -/
abbrev Word := BitVec 16

/-- Symbolic opcodes, `insn16/include/insn16.h` 152-441. -/
inductive Op where
  | nop  -- oNOP, line 150
  | neg  -- oNEG, line 154
  | abs_  -- oABS, line 155
  | inc  -- oINC, line 156
  | dec  -- oDEC, line 157
  | not_  -- oNOT, line 158
  | add  -- oADD, line 162
  | sub  -- oSUB, line 163
  | mul  -- oMUL, line 164
  | div_  -- oDIV, line 165
  | mod_  -- oMOD, line 166
  | sll  -- oSLL, line 167
  | srl  -- oSRL, line 168
  | sra  -- oSRA, line 169
  | or_  -- oOR, line 170
  | and_  -- oAND, line 171
  | equz  -- oEQUZ, line 175
  | neqz  -- oNEQZ, line 176
  | ltz  -- oLTZ, line 177
  | gtez  -- oGTEZ, line 178
  | gtz  -- oGTZ, line 179
  | ltez  -- oLTEZ, line 180
  | equ  -- oEQU, line 186
  | neq  -- oNEQ, line 187
  | lt  -- oLT, line 188
  | gte  -- oGTE, line 189
  | gt  -- oGT, line 190
  | lte  -- oLTE, line 191
  | ldi  -- oLDI, line 197
  | ldib  -- oLDIB, line 198
  | uldib  -- oULDIB, line 199
  | ldim  -- oLDIM, line 200
  | sti  -- oSTI, line 204
  | stib  -- oSTIB, line 206
  | stim  -- oSTIM, line 207
  | dup  -- oDUP, line 211
  | xchg  -- oXCHG, line 213
  | ret  -- oRET, line 226
  | umul  -- oUMUL, line 232
  | udiv  -- oUDIV, line 233
  | umod  -- oUMOD, line 234
  | ult  -- oULT, line 235
  | ugte  -- oUGTE, line 236
  | ugt  -- oUGT, line 237
  | ulte  -- oULTE, line 238
  | xor_  -- oXOR, line 242
  | end_  -- oEND, line 246
  | float  -- oFLOAT, line 254
  | setop  -- oSETOP, line 258
  | longop8  -- oLONGOP8, line 262
  | osop  -- oOSOP, line 266
  | pushb  -- oPUSHB, line 270
  | upushb  -- oUPUSHB, line 271
  | jequz  -- oJEQUZ, line 281
  | jneqz  -- oJNEQZ, line 282
  | jltz  -- oJLTZ, line 283
  | jgtez  -- oJGTEZ, line 284
  | jgtz  -- oJGTZ, line 285
  | jltez  -- oJLTEZ, line 286
  | jmp  -- oJMP, line 290
  | jequ  -- oJEQU, line 296
  | jneq  -- oJNEQ, line 297
  | jlt  -- oJLT, line 298
  | jgte  -- oJGTE, line 299
  | jgt  -- oJGT, line 300
  | jlte  -- oJLTE, line 301
  | ld  -- oLD, line 307
  | ldb  -- oLDB, line 308
  | uldb  -- oULDB, line 309
  | ldm  -- oLDM, line 310
  | st  -- oST, line 314
  | stb  -- oSTB, line 316
  | stm  -- oSTM, line 317
  | ldx  -- oLDX, line 321
  | ldxb  -- oLDXB, line 322
  | uldxb  -- oULDXB, line 323
  | ldxm  -- oLDXM, line 324
  | stx  -- oSTX, line 328
  | stxb  -- oSTXB, line 330
  | stxm  -- oSTXM, line 331
  | la  -- oLA, line 335
  | lac  -- oLAC, line 339
  | lar  -- oLAR, line 340
  | push  -- oPUSH, line 344
  | inds  -- oINDS, line 345
  | incs  -- oINCS, line 346
  | strlib  -- oSTRLIB, line 350
  | sysio  -- oSYSIO, line 357
  | lax  -- oLAX, line 361
  | jult  -- oJULT, line 367
  | jugte  -- oJUGTE, line 368
  | jugt  -- oJUGT, line 369
  | julte  -- oJULTE, line 370
  | label  -- oLABEL, line 376
  | pcal  -- oPCAL, line 392
  | lds  -- oLDS, line 398
  | ldsb  -- oLDSB, line 399
  | uldsb  -- oULDSB, line 400
  | ldsm  -- oLDSM, line 401
  | sts  -- oSTS, line 405
  | stsb  -- oSTSB, line 407
  | stsm  -- oSTSM, line 408
  | ldsx  -- oLDSX, line 412
  | ldsxb  -- oLDSXB, line 413
  | uldsxb  -- oULDSXB, line 414
  | ldsxm  -- oLDSXM, line 415
  | stsx  -- oSTSX, line 419
  | stsxb  -- oSTSXB, line 421
  | stsxm  -- oSTSXM, line 422
  | las  -- oLAS, line 428
  | lasx  -- oLASX, line 429
  | longop24  -- oLONGOP24, line 433
  | line  -- oLINE, line 441
deriving DecidableEq, Repr

/-- The byte of each opcode (values of the `#define`s). `longop24` is `(016|o8|0x37)`
in the source (line 433): `016` is octal 14, so the value is 0x7f, not 0xf7. -/
def Op.toByte : Op → Byte
  | .nop => 0x00#8
  | .neg => 0x01#8
  | .abs_ => 0x02#8
  | .inc => 0x03#8
  | .dec => 0x04#8
  | .not_ => 0x05#8
  | .add => 0x06#8
  | .sub => 0x07#8
  | .mul => 0x08#8
  | .div_ => 0x09#8
  | .mod_ => 0x0a#8
  | .sll => 0x0b#8
  | .srl => 0x0c#8
  | .sra => 0x0d#8
  | .or_ => 0x0e#8
  | .and_ => 0x0f#8
  | .equz => 0x10#8
  | .neqz => 0x11#8
  | .ltz => 0x12#8
  | .gtez => 0x13#8
  | .gtz => 0x14#8
  | .ltez => 0x15#8
  | .equ => 0x18#8
  | .neq => 0x19#8
  | .lt => 0x1a#8
  | .gte => 0x1b#8
  | .gt => 0x1c#8
  | .lte => 0x1d#8
  | .ldi => 0x20#8
  | .ldib => 0x21#8
  | .uldib => 0x22#8
  | .ldim => 0x23#8
  | .sti => 0x24#8
  | .stib => 0x26#8
  | .stim => 0x27#8
  | .dup => 0x28#8
  | .xchg => 0x2a#8
  | .ret => 0x2f#8
  | .umul => 0x37#8
  | .udiv => 0x38#8
  | .umod => 0x39#8
  | .ult => 0x3a#8
  | .ugte => 0x3b#8
  | .ugt => 0x3c#8
  | .ulte => 0x3d#8
  | .xor_ => 0x3e#8
  | .end_ => 0x3f#8
  | .float => 0x70#8
  | .setop => 0x71#8
  | .longop8 => 0x72#8
  | .osop => 0x73#8
  | .pushb => 0x74#8
  | .upushb => 0x75#8
  | .jequz => 0x90#8
  | .jneqz => 0x91#8
  | .jltz => 0x92#8
  | .jgtez => 0x93#8
  | .jgtz => 0x94#8
  | .jltez => 0x95#8
  | .jmp => 0x96#8
  | .jequ => 0x98#8
  | .jneq => 0x99#8
  | .jlt => 0x9a#8
  | .jgte => 0x9b#8
  | .jgt => 0x9c#8
  | .jlte => 0x9d#8
  | .ld => 0xa0#8
  | .ldb => 0xa1#8
  | .uldb => 0xa2#8
  | .ldm => 0xa3#8
  | .st => 0xa4#8
  | .stb => 0xa6#8
  | .stm => 0xa7#8
  | .ldx => 0xa8#8
  | .ldxb => 0xa9#8
  | .uldxb => 0xaa#8
  | .ldxm => 0xab#8
  | .stx => 0xac#8
  | .stxb => 0xae#8
  | .stxm => 0xaf#8
  | .la => 0xb0#8
  | .lac => 0xb1#8
  | .lar => 0xb2#8
  | .push => 0xb3#8
  | .inds => 0xb4#8
  | .incs => 0xb5#8
  | .strlib => 0xb6#8
  | .sysio => 0xb7#8
  | .lax => 0xb8#8
  | .jult => 0xba#8
  | .jugte => 0xbb#8
  | .jugt => 0xbc#8
  | .julte => 0xbd#8
  | .label => 0xbf#8
  | .pcal => 0xc8#8
  | .lds => 0xe0#8
  | .ldsb => 0xe1#8
  | .uldsb => 0xe2#8
  | .ldsm => 0xe3#8
  | .sts => 0xe4#8
  | .stsb => 0xe6#8
  | .stsm => 0xe7#8
  | .ldsx => 0xe8#8
  | .ldsxb => 0xe9#8
  | .uldsxb => 0xea#8
  | .ldsxm => 0xeb#8
  | .stsx => 0xec#8
  | .stsxb => 0xee#8
  | .stsxm => 0xef#8
  | .las => 0xf0#8
  | .lasx => 0xf8#8
  | .longop24 => 0x7f#8
  | .line => 0xff#8

/-- All opcodes.  `insn16/include/insn16.h` 150-441. -/
def Op.all : List Op := [.nop, .neg, .abs_, .inc, .dec, .not_, .add, .sub, .mul, .div_, .mod_, .sll, .srl, .sra, .or_, .and_, .equz, .neqz, .ltz, .gtez, .gtz, .ltez, .equ, .neq, .lt, .gte, .gt, .lte, .ldi, .ldib, .uldib, .ldim, .sti, .stib, .stim, .dup, .xchg, .ret, .umul, .udiv, .umod, .ult, .ugte, .ugt, .ulte, .xor_, .end_, .float, .setop, .longop8, .osop, .pushb, .upushb, .jequz, .jneqz, .jltz, .jgtez, .jgtz, .jltez, .jmp, .jequ, .jneq, .jlt, .jgte, .jgt, .jlte, .ld, .ldb, .uldb, .ldm, .st, .stb, .stm, .ldx, .ldxb, .uldxb, .ldxm, .stx, .stxb, .stxm, .la, .lac, .lar, .push, .inds, .incs, .strlib, .sysio, .lax, .jult, .jugte, .jugt, .julte, .label, .pcal, .lds, .ldsb, .uldsb, .ldsm, .sts, .stsb, .stsm, .ldsx, .ldsxb, .uldsxb, .ldsxm, .stsx, .stsxb, .stsxm, .las, .lasx, .longop24, .line]

/-- The opcode named by a byte, if any (the `case` labels of the C `switch`es).
`insn16/libexec/libexec_run.c` 272-688, 698-741, 751-1137, 1147-1362. -/
def Op.ofByte (b : Byte) : Option Op := Op.all.find? (fun o => o.toByte == b)

theorem Op.mem_all (o : Op) : o ∈ Op.all := by cases o <;> decide

theorem Op.toByte_inj {a b : Op} (h : a.toByte = b.toByte) : a = b := by
  have key : ∀ a ∈ Op.all, ∀ b ∈ Op.all, a.toByte = b.toByte → a = b := by decide +kernel
  exact key a a.mem_all b b.mem_all h

theorem Op.ofByte_toByte (o : Op) : Op.ofByte o.toByte = some o := by
  cases o <;> decide

theorem Op.toByte_ofByte {b : Byte} {o : Op} (h : Op.ofByte b = some o) : o.toByte = b := by
  have := List.find?_some h
  simpa using this

/-- `o8` bit: instruction has an 8-bit argument (`insn16.h` line 51). -/
def hasArg8 (b : Byte) : Bool := b &&& 0x40#8 != 0#8
/-- `o16` bit: instruction has a 16-bit argument (`insn16.h` line 50). -/
def hasArg16 (b : Byte) : Bool := b &&& 0x80#8 != 0#8

/-- Number of bytes an opcode byte announces (`insn_AddOpCode`, `insn_GetOpCode`).
`insn16/libinsn/insn_addopcode.c` 54-82, `insn16/libinsn/insn_getopcode.c` 64-130. -/
def insnSize (b : Byte) : Nat :=
  1 + (if hasArg8 b then 1 else 0) + (if hasArg16 b then 2 else 0)

end Pas
