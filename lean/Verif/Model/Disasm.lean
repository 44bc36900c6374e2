import Verif.Model.Insn
import Verif.Model.Poff
import Verif.Model.SysIo

/-! The disassembler (`insn16/libinsn/insn_disasm.c`, `insn_dislongop.c`), the program listing of
`plist` (`insn16/plist/plist.c`) and the listing the compiler writes while it generates code
(`insn_generate.c`, `insn_genlongop.c`, with `CONFIG_DEBUG`).  Output to a stream is the text that
is added to it; failures of the stream are not modelled. -/
namespace Pas.Disasm

/-- The characters of a C string literal (ASCII).  As in `insn16/libinsn/insn_disasm.c` 91-524. -/
def txt (s : String) : List Byte := s.toList.map fun c => BitVec.ofNat 8 c.toNat

/-- Formats of the 8-bit operand, `insn16/libinsn/insn_disasm.c` 63-68. -/
inductive Fmt8 where
  | noarg8 | shortint | shortword | fpOP | setOP | osOP
deriving DecidableEq, Repr

/-- Formats of the 16-bit operand, `insn16/libinsn/insn_disasm.c` 70-77. -/
inductive Fmt16 where
  | noarg16 | hex | decimal | udecimal | labelDec | xOP | lbOP | comment
deriving DecidableEq, Repr

/-- An entry of `opTable`; `MKFMT` packs both formats into one byte and `ARG8FMT`, `ARG16FMT`
unpack them.  `insn16/libinsn/insn_disasm.c` 79-96. -/
structure Info where
  opName : String
  fmt8 : Fmt8
  fmt16 : Fmt16

/-- `insn16/libinsn/insn_disasm.c` 91 and `insn_dislongop.c` 77. -/
def invOp : String := "Invalid Opcode"
/-- `insn16/libinsn/insn_disasm.c` 470. -/
def invXOp : String := "Invalid SYSIO"
/-- `insn16/libinsn/insn_disasm.c` 486. -/
def invSetOp : String := "Invalid SETOP"
/-- `insn16/libinsn/insn_disasm.c` 495. -/
def invOSOp : String := "Invalid OSOP"
/-- `insn16/libinsn/insn_disasm.c` 502. -/
def invLbOp : String := "Invalid runtime code"
/-- `insn16/libinsn/insn_disasm.c` 514. -/
def invFpOp : String := "Invalid FP Operation"

/-- `opTable`, `insn16/libinsn/insn_disasm.c` 92-467: name and formats of every opcode byte. -/
def opTable : List Info :=
  [⟨"NOP  ", .noarg8, .noarg16⟩, ⟨"NEG  ", .noarg8, .noarg16⟩, ⟨"ABS  ", .noarg8, .noarg16⟩, ⟨"INC  ", .noarg8, .noarg16⟩,  -- 0x00
   ⟨"DEC  ", .noarg8, .noarg16⟩, ⟨"NOT  ", .noarg8, .noarg16⟩, ⟨"ADD  ", .noarg8, .noarg16⟩, ⟨"SUB  ", .noarg8, .noarg16⟩,  -- 0x04
   ⟨"MUL  ", .noarg8, .noarg16⟩, ⟨"DIV  ", .noarg8, .noarg16⟩, ⟨"MOD  ", .noarg8, .noarg16⟩, ⟨"SLL  ", .noarg8, .noarg16⟩,  -- 0x08
   ⟨"SRL  ", .noarg8, .noarg16⟩, ⟨"SRA  ", .noarg8, .noarg16⟩, ⟨"OR   ", .noarg8, .noarg16⟩, ⟨"AND  ", .noarg8, .noarg16⟩,  -- 0x0c
   ⟨"EQUZ ", .noarg8, .noarg16⟩, ⟨"NEQZ ", .noarg8, .noarg16⟩, ⟨"LTZ  ", .noarg8, .noarg16⟩, ⟨"GTEZ ", .noarg8, .noarg16⟩,  -- 0x10
   ⟨"GTZ  ", .noarg8, .noarg16⟩, ⟨"LTEZ ", .noarg8, .noarg16⟩, ⟨invOp, .noarg8, .noarg16⟩, ⟨invOp, .noarg8, .noarg16⟩,  -- 0x14
   ⟨"EQU  ", .noarg8, .noarg16⟩, ⟨"NEQ  ", .noarg8, .noarg16⟩, ⟨"LT   ", .noarg8, .noarg16⟩, ⟨"GTE  ", .noarg8, .noarg16⟩,  -- 0x18
   ⟨"GT   ", .noarg8, .noarg16⟩, ⟨"LTE  ", .noarg8, .noarg16⟩, ⟨invOp, .noarg8, .noarg16⟩, ⟨invOp, .noarg8, .noarg16⟩,  -- 0x1c
   ⟨"LDI  ", .noarg8, .noarg16⟩, ⟨"LDIB ", .noarg8, .noarg16⟩, ⟨"ULDIB", .noarg8, .noarg16⟩, ⟨"LDIM ", .noarg8, .noarg16⟩,  -- 0x20
   ⟨"STI  ", .noarg8, .noarg16⟩, ⟨invOp, .noarg8, .noarg16⟩, ⟨"STIB ", .noarg8, .noarg16⟩, ⟨"STIM ", .noarg8, .noarg16⟩,  -- 0x24
   ⟨"DUP  ", .noarg8, .noarg16⟩, ⟨invOp, .noarg8, .noarg16⟩, ⟨"XCHG ", .noarg8, .noarg16⟩, ⟨invOp, .noarg8, .noarg16⟩,  -- 0x28
   ⟨invOp, .noarg8, .noarg16⟩, ⟨invOp, .noarg8, .noarg16⟩, ⟨invOp, .noarg8, .noarg16⟩, ⟨"RET  ", .noarg8, .noarg16⟩,  -- 0x2c
   ⟨invOp, .noarg8, .noarg16⟩, ⟨invOp, .noarg8, .noarg16⟩, ⟨invOp, .noarg8, .noarg16⟩, ⟨invOp, .noarg8, .noarg16⟩,  -- 0x30
   ⟨invOp, .noarg8, .noarg16⟩, ⟨invOp, .noarg8, .noarg16⟩, ⟨invOp, .noarg8, .noarg16⟩, ⟨"UMUL ", .noarg8, .noarg16⟩,  -- 0x34
   ⟨"UDIV ", .noarg8, .noarg16⟩, ⟨"UMOD ", .noarg8, .noarg16⟩, ⟨"ULT  ", .noarg8, .noarg16⟩, ⟨"UGTE ", .noarg8, .noarg16⟩,  -- 0x38
   ⟨"UGT  ", .noarg8, .noarg16⟩, ⟨"ULTE ", .noarg8, .noarg16⟩, ⟨"XOR  ", .noarg8, .noarg16⟩, ⟨"END  ", .noarg8, .noarg16⟩,  -- 0x3c
   ⟨invOp, .noarg8, .noarg16⟩, ⟨invOp, .noarg8, .noarg16⟩, ⟨invOp, .noarg8, .noarg16⟩, ⟨invOp, .noarg8, .noarg16⟩,  -- 0x40
   ⟨invOp, .noarg8, .noarg16⟩, ⟨invOp, .noarg8, .noarg16⟩, ⟨invOp, .noarg8, .noarg16⟩, ⟨invOp, .noarg8, .noarg16⟩,  -- 0x44
   ⟨invOp, .noarg8, .noarg16⟩, ⟨invOp, .noarg8, .noarg16⟩, ⟨invOp, .noarg8, .noarg16⟩, ⟨invOp, .noarg8, .noarg16⟩,  -- 0x48
   ⟨invOp, .noarg8, .noarg16⟩, ⟨invOp, .noarg8, .noarg16⟩, ⟨invOp, .noarg8, .noarg16⟩, ⟨invOp, .noarg8, .noarg16⟩,  -- 0x4c
   ⟨invOp, .noarg8, .noarg16⟩, ⟨invOp, .noarg8, .noarg16⟩, ⟨invOp, .noarg8, .noarg16⟩, ⟨invOp, .noarg8, .noarg16⟩,  -- 0x50
   ⟨invOp, .noarg8, .noarg16⟩, ⟨invOp, .noarg8, .noarg16⟩, ⟨invOp, .noarg8, .noarg16⟩, ⟨invOp, .noarg8, .noarg16⟩,  -- 0x54
   ⟨invOp, .noarg8, .noarg16⟩, ⟨invOp, .noarg8, .noarg16⟩, ⟨invOp, .noarg8, .noarg16⟩, ⟨invOp, .noarg8, .noarg16⟩,  -- 0x58
   ⟨invOp, .noarg8, .noarg16⟩, ⟨invOp, .noarg8, .noarg16⟩, ⟨invOp, .noarg8, .noarg16⟩, ⟨invOp, .noarg8, .noarg16⟩,  -- 0x5c
   ⟨invOp, .noarg8, .noarg16⟩, ⟨invOp, .noarg8, .noarg16⟩, ⟨invOp, .noarg8, .noarg16⟩, ⟨invOp, .noarg8, .noarg16⟩,  -- 0x60
   ⟨invOp, .noarg8, .noarg16⟩, ⟨invOp, .noarg8, .noarg16⟩, ⟨invOp, .noarg8, .noarg16⟩, ⟨invOp, .noarg8, .noarg16⟩,  -- 0x64
   ⟨invOp, .noarg8, .noarg16⟩, ⟨invOp, .noarg8, .noarg16⟩, ⟨invOp, .noarg8, .noarg16⟩, ⟨invOp, .noarg8, .noarg16⟩,  -- 0x68
   ⟨invOp, .noarg8, .noarg16⟩, ⟨invOp, .noarg8, .noarg16⟩, ⟨invOp, .noarg8, .noarg16⟩, ⟨invOp, .noarg8, .noarg16⟩,  -- 0x6c
   ⟨"FLOAT", .fpOP, .noarg16⟩, ⟨"SETOP", .setOP, .noarg16⟩, ⟨invOp, .noarg8, .noarg16⟩, ⟨"OSOP", .osOP, .noarg16⟩,  -- 0x70
   ⟨"PUSHB", .shortint, .noarg16⟩, ⟨"UPUSHB", .shortword, .noarg16⟩, ⟨invOp, .noarg8, .noarg16⟩, ⟨invOp, .noarg8, .noarg16⟩,  -- 0x74
   ⟨invOp, .noarg8, .noarg16⟩, ⟨invOp, .noarg8, .noarg16⟩, ⟨invOp, .noarg8, .noarg16⟩, ⟨invOp, .noarg8, .noarg16⟩,  -- 0x78
   ⟨invOp, .noarg8, .noarg16⟩, ⟨invOp, .noarg8, .noarg16⟩, ⟨invOp, .noarg8, .noarg16⟩, ⟨invOp, .noarg8, .noarg16⟩,  -- 0x7c
   ⟨invOp, .noarg8, .noarg16⟩, ⟨invOp, .noarg8, .noarg16⟩, ⟨invOp, .noarg8, .noarg16⟩, ⟨invOp, .noarg8, .noarg16⟩,  -- 0x80
   ⟨invOp, .noarg8, .noarg16⟩, ⟨invOp, .noarg8, .noarg16⟩, ⟨invOp, .noarg8, .noarg16⟩, ⟨invOp, .noarg8, .noarg16⟩,  -- 0x84
   ⟨invOp, .noarg8, .noarg16⟩, ⟨invOp, .noarg8, .noarg16⟩, ⟨invOp, .noarg8, .noarg16⟩, ⟨invOp, .noarg8, .noarg16⟩,  -- 0x88
   ⟨invOp, .noarg8, .noarg16⟩, ⟨invOp, .noarg8, .noarg16⟩, ⟨invOp, .noarg8, .noarg16⟩, ⟨invOp, .noarg8, .noarg16⟩,  -- 0x8c
   ⟨"JEQUZ", .noarg8, .hex⟩, ⟨"JNEQZ", .noarg8, .hex⟩, ⟨"JLTZ ", .noarg8, .hex⟩, ⟨"JGTEZ", .noarg8, .hex⟩,  -- 0x90
   ⟨"JGTZ ", .noarg8, .hex⟩, ⟨"JLTEZ", .noarg8, .hex⟩, ⟨"JMP  ", .noarg8, .hex⟩, ⟨invOp, .noarg8, .noarg16⟩,  -- 0x94
   ⟨"JEQU ", .noarg8, .hex⟩, ⟨"JNEQ ", .noarg8, .hex⟩, ⟨"JLT  ", .noarg8, .hex⟩, ⟨"JGTE ", .noarg8, .hex⟩,  -- 0x98
   ⟨"JGT  ", .noarg8, .hex⟩, ⟨"JLTE ", .noarg8, .hex⟩, ⟨invOp, .noarg8, .noarg16⟩, ⟨invOp, .noarg8, .noarg16⟩,  -- 0x9c
   ⟨"LD   ", .noarg8, .udecimal⟩, ⟨"LDB  ", .noarg8, .udecimal⟩, ⟨"ULDB ", .noarg8, .udecimal⟩, ⟨"LDM  ", .noarg8, .udecimal⟩,  -- 0xa0
   ⟨"ST   ", .noarg8, .udecimal⟩, ⟨invOp, .noarg8, .noarg16⟩, ⟨"STB  ", .noarg8, .udecimal⟩, ⟨"STM  ", .noarg8, .udecimal⟩,  -- 0xa4
   ⟨"LDX  ", .noarg8, .udecimal⟩, ⟨"LDXB ", .noarg8, .udecimal⟩, ⟨"ULDXB", .noarg8, .udecimal⟩, ⟨"LDXM ", .noarg8, .udecimal⟩,  -- 0xa8
   ⟨"STX  ", .noarg8, .udecimal⟩, ⟨invOp, .noarg8, .noarg16⟩, ⟨"STXB ", .noarg8, .udecimal⟩, ⟨"STXM ", .noarg8, .udecimal⟩,  -- 0xac
   ⟨"LA   ", .noarg8, .udecimal⟩, ⟨"LAC  ", .noarg8, .hex⟩, ⟨"LAR  ", .noarg8, .decimal⟩, ⟨"PUSH ", .noarg8, .decimal⟩,  -- 0xb0
   ⟨"INDS ", .noarg8, .decimal⟩, ⟨"INCS ", .noarg8, .decimal⟩, ⟨"LIB  ", .noarg8, .lbOP⟩, ⟨"SYSIO", .noarg8, .xOP⟩,  -- 0xb4
   ⟨"LAX  ", .noarg8, .udecimal⟩, ⟨invOp, .noarg8, .noarg16⟩, ⟨"JULT ", .noarg8, .hex⟩, ⟨"JUGTE", .noarg8, .hex⟩,  -- 0xb8
   ⟨"JUGT ", .noarg8, .hex⟩, ⟨"JULTE", .noarg8, .hex⟩, ⟨invOp, .noarg8, .noarg16⟩, ⟨"LABEL", .noarg8, .labelDec⟩,  -- 0xbc
   ⟨invOp, .noarg8, .noarg16⟩, ⟨invOp, .noarg8, .noarg16⟩, ⟨invOp, .noarg8, .noarg16⟩, ⟨invOp, .noarg8, .noarg16⟩,  -- 0xc0
   ⟨invOp, .noarg8, .noarg16⟩, ⟨invOp, .noarg8, .noarg16⟩, ⟨invOp, .noarg8, .noarg16⟩, ⟨invOp, .noarg8, .noarg16⟩,  -- 0xc4
   ⟨"PCAL ", .shortint, .hex⟩, ⟨invOp, .noarg8, .noarg16⟩, ⟨invOp, .noarg8, .noarg16⟩, ⟨invOp, .noarg8, .noarg16⟩,  -- 0xc8
   ⟨invOp, .noarg8, .noarg16⟩, ⟨invOp, .noarg8, .noarg16⟩, ⟨invOp, .noarg8, .noarg16⟩, ⟨invOp, .noarg8, .noarg16⟩,  -- 0xcc
   ⟨invOp, .noarg8, .noarg16⟩, ⟨invOp, .noarg8, .noarg16⟩, ⟨invOp, .noarg8, .noarg16⟩, ⟨invOp, .noarg8, .noarg16⟩,  -- 0xd0
   ⟨invOp, .noarg8, .noarg16⟩, ⟨invOp, .noarg8, .noarg16⟩, ⟨invOp, .noarg8, .noarg16⟩, ⟨invOp, .noarg8, .noarg16⟩,  -- 0xd4
   ⟨invOp, .noarg8, .noarg16⟩, ⟨invOp, .noarg8, .noarg16⟩, ⟨invOp, .noarg8, .noarg16⟩, ⟨invOp, .noarg8, .noarg16⟩,  -- 0xd8
   ⟨invOp, .noarg8, .noarg16⟩, ⟨invOp, .noarg8, .noarg16⟩, ⟨invOp, .noarg8, .noarg16⟩, ⟨invOp, .noarg8, .noarg16⟩,  -- 0xdc
   ⟨"LDS  ", .shortint, .decimal⟩, ⟨"LDSB ", .shortint, .decimal⟩, ⟨"ULDSB", .shortint, .decimal⟩, ⟨"LDSM ", .shortint, .decimal⟩,  -- 0xe0
   ⟨"STS  ", .shortint, .decimal⟩, ⟨invOp, .noarg8, .noarg16⟩, ⟨"STSB ", .shortint, .decimal⟩, ⟨"STSM ", .shortint, .decimal⟩,  -- 0xe4
   ⟨"LDSX ", .shortint, .decimal⟩, ⟨"LDSXB", .shortint, .decimal⟩, ⟨"ULDSXB", .shortint, .decimal⟩, ⟨"LDSXM", .shortint, .decimal⟩,  -- 0xe8
   ⟨"STSX ", .shortint, .decimal⟩, ⟨invOp, .noarg8, .noarg16⟩, ⟨"STSXB", .shortint, .decimal⟩, ⟨"STSXM", .shortint, .decimal⟩,  -- 0xec
   ⟨"LAS  ", .shortint, .decimal⟩, ⟨invOp, .noarg8, .noarg16⟩, ⟨invOp, .noarg8, .noarg16⟩, ⟨invOp, .noarg8, .noarg16⟩,  -- 0xf0
   ⟨invOp, .noarg8, .noarg16⟩, ⟨invOp, .noarg8, .noarg16⟩, ⟨invOp, .noarg8, .noarg16⟩, ⟨invOp, .noarg8, .noarg16⟩,  -- 0xf4
   ⟨"LASX ", .shortint, .decimal⟩, ⟨invOp, .noarg8, .noarg16⟩, ⟨invOp, .noarg8, .noarg16⟩, ⟨invOp, .noarg8, .noarg16⟩,  -- 0xf8
   ⟨invOp, .noarg8, .noarg16⟩, ⟨invOp, .noarg8, .noarg16⟩, ⟨invOp, .noarg8, .noarg16⟩, ⟨"LINE ", .shortword, .comment⟩]  -- 0xfc

/-- `xName`, `insn16/libinsn/insn_disasm.c` 471-484: SYSIO sub-functions. -/
def xName : List String :=
  [invXOp, "ALLOCFILE", "FREEFILE", "EOF", "EOLN", "FILEPOS",
   "FILESIZE", "SEEK", "SEEKEOF", "SEEKEOLN", "ASSIGNFILE", "RESET",
   "RESETR", "REWRITE", "REWRITER", "APPEND", "CLOSEFILE", "READLN",
   "READPG", "READBIN", "READINT", "READCHR", "READSTR", "READRL",
   "WRITELN", "WRITEPG", "WRITEBIN", "WRITEINT", "WRITEWORD", "WRITELONG",
   "WRITEULONG", "WRITECHR", "WRITESTR", "WRITERL", "FLUSH", "CHDIR",
   "GETDIR", "MKDIR", "RMDIR", "OPENDIR", "READDIR", "FILEINFO",
   "REWINDDIR", "CLOSEDIR"]

/-- `sName`, `insn16/libinsn/insn_disasm.c` 487-493: set operations. -/
def sName : List String :=
  [invSetOp, "EMPTY", "INTERSECTION", "UNION", "DIFFERENCE", "SYMDIFF",
   "EQUAL", "NEQUAL", "CONTAINS", "MEMBER", "INCLUDE", "EXCLUDE",
   "CARD", "SINGLETON", "SUBRANGE"]

/-- `osName`, `insn16/libinsn/insn_disasm.c` 496-500: operating system functions. -/
def osName : List String :=
  ["EXIT", "NEW", "DISPOSE", "GETENV", "SPAWN"]

/-- `lbName`, `insn16/libinsn/insn_disasm.c` 503-512: run-time library functions. -/
def lbName : List String :=
  ["STRCPY", "STRCPY2", "STRCPYX", "STRCPYX2", "BSTR2STR", "STR2BSTR",
   "STR2BSTRX", "STRINIT", "STRTMP", "STRDUP", "MKSTKC", "STRCAT",
   "STRCATC", "STRCMP", "STRLEN", "COPYSUBSTR", "FINDSUBSTR", "INSERTSTR",
   "DELSUBSTR", "FILLCHAR ", "CHARAT", "INTSTR", "WORDSTR", "LONGSTR",
   "ULONGSTR ", "REALSTR", "VAL"]

/-- `fpName`, `insn16/libinsn/insn_disasm.c` 515-524: floating point operations. -/
def fpName : List String :=
  [invFpOp, "FLOAT", "TRUNC", "ROUND", "ADD", "SUB",
   "MUL", "DIV", "MOD", invFpOp, "EQU", "NEQ",
   "LT", "GTE", "GT", "LTE", "NEG", "ABS",
   "SQR", "SQRT", "SIN", "COS", "ATAN", "LN",
   "EXP"]

/-- `g_longOpTable8`, `insn16/libinsn/insn_dislongop.c` 88-157. The format of every entry is without operands. -/
def longOpTable8 : List String :=
  ["DNOP", "DNEG  ", "DABS  ", "DINC  ", "DDEC  ", "DNOT  ",
   "DADD  ", "DSUB  ", "DMUL  ", "DDIV  ", "DMOD  ", "DSLL  ",
   "DSRL  ", "DSRA  ", "DOR   ", "DAND  ", "DEQUZ ", "DNEQZ ",
   "DLTZ  ", "DGTEZ ", "DGTZ  ", "DLTEZ ", "DEQU  ", "DNEQ  ",
   "DLT   ", "DGTE  ", "DGT   ", "DLTE  ", "DDUP  ", "DXCHG ",
   "CNVD  ", "UCNVD ", "DCNV  ", "DUMUL ", "DUDIV ", "DUMOD ",
   "DULT  ", "DUGTE ", "DUGT  ", "DULTE ", "DXOR  "]

/-- `g_longOpTable24`, `insn16/libinsn/insn_dislongop.c` 168-193. The format of every entry is `HEX`. -/
def longOpTable24 : List String :=
  ["DJEQUZ", "DJNEQZ", "DJLTZ ", "DJGTEZ", "DJGTZ ", "DJLTEZ",
   "DJEQU ", "DJNEQ ", "DJLT  ", "DJGTE ", "DJGT  ", "DJLTE ",
   "DJULT ", "DJUGTE", "DUJGT ", "DUJLTE"]

/-- Reading an array of constants; outside the array is undefined behaviour.
`insn16/libinsn/insn_disasm.c` 535-536, 598, 609, 620, 664, 675. -/
def entry {α : Type} (t : List α) (i : Nat) : Res α :=
  match t[i]? with
  | some e => .ok e
  | none => .ub

/-- `MAX_FOP`, `include/pas_fpops.h` 91. -/
def maxFop : Nat := 0x19
/-- `MAX_SETOP`, `include/pas_setops.h` 80. -/
def maxSetop : Nat := 0x0f
/-- `MAX_OSOP`, `include/pas_oslib.h` 121. -/
def maxOsop : Nat := 0x05
/-- `MAX_XOP`, `include/pas_sysio.h` 113. -/
def maxXop : Nat := 0x2c
/-- `MAX_LBOP`, `include/pas_stringlib.h` 394. -/
def maxLbop : Nat := 0x1b

/-- A digit of the conversion `%x`.  Used in `insn16/libinsn/insn_disasm.c` 541, 648. -/
def hexChar (d : Nat) : Byte := if d < 10 then BitVec.ofNat 8 (48 + d) else BitVec.ofNat 8 (87 + d)

/-- The conversions `%04x` of 16 bits and `%08x` of 32 bits: `w` digits.
`insn16/libinsn/insn_disasm.c` 541, 648; `insn16/plist/plist.c` 273. -/
def hexN : Nat → Nat → List Byte
  | 0, _ => []
  | w + 1, n => hexN w (n / 16) ++ [hexChar (n % 16)]

/-- A name from a table of names when the code is below the limit, another text otherwise.
`insn16/libinsn/insn_disasm.c` 596-626, 662-680. -/
def nameOr (t : List String) (max code : Nat) (inv : String) : Res (List Byte) :=
  if code < max then do
    let s ← entry t code
    .ok (txt s)
  else .ok (txt inv)

/-- The 8-bit operand of an instruction, `insn16/libinsn/insn_disasm.c` 581-631. -/
def arg8Text (f : Fmt8) (a : Byte) : Res (List Byte) :=
  match f with
  | .shortword => .ok (SysIo.fmtU a.toNat)
  | .shortint => .ok (SysIo.fmtD a.toInt)
  | .fpOP => nameOr fpName maxFop (a.toNat % 64) invFpOp
  | .setOP => nameOr sName maxSetop a.toNat invSetOp
  | .osOP => nameOr osName maxOsop a.toNat invOSOp
  | .noarg8 => .ok []

/-- The 16-bit operand of an instruction, `insn16/libinsn/insn_disasm.c` 641-687. -/
def arg16Text (f : Fmt16) (a : Word) : Res (List Byte) :=
  match f with
  | .decimal | .comment => .ok (SysIo.fmtD a.toInt)
  | .hex => .ok (txt "0x" ++ hexN 4 a.toNat)
  | .udecimal => .ok (SysIo.fmtU a.toNat)
  | .xOP => nameOr xName maxXop a.toNat invXOp
  | .lbOP => nameOr lbName maxLbop a.toNat invLbOp
  | .noarg16 | .labelDec => .ok []

/-- The beginning of the line, `insn16/libinsn/insn_disasm.c` 538-551. -/
def indentText (f : Fmt16) (a : Word) : List Byte :=
  match f with
  | .labelDec => txt "L" ++ hexN 4 a.toNat ++ txt ":  "
  | .comment => txt "; "
  | _ => txt "        "

/-- `insn_DisassemblePCode`, `insn16/libinsn/insn_disasm.c` 528-693: the line that is written. -/
def disassemble (i : OpType) : Res (List Byte) := do
  let info ← entry opTable i.op.toNat
  let indent := indentText info.fmt16 i.arg2
  if info.fmt16 = .comment then
    let args : List Byte :=
      if hasArg8 i.op then
        SysIo.fmtD i.arg1.toNat ++ (if hasArg16 i.op then txt ":" ++ SysIo.fmtD i.arg2.toNat else [])
      else if hasArg16 i.op then SysIo.fmtD i.arg2.toNat
      else []
    .ok (indent ++ txt info.opName ++ txt " " ++ args ++ [10#8])
  else do
    let name : List Byte := if info.fmt16 = .labelDec then [] else txt info.opName ++ txt " "
    let a1 ← (if hasArg8 i.op then arg8Text info.fmt8 i.arg1 else .ok [] : Res (List Byte))
    let sep : List Byte := if hasArg8 i.op && hasArg16 i.op then txt ", " else []
    let a2 ← (if hasArg16 i.op then arg16Text info.fmt16 i.arg2 else .ok [] : Res (List Byte))
    .ok (indent ++ name ++ a1 ++ sep ++ a2 ++ [10#8])

/-- The `switch` of `insn_DisassembleLongOpCode` with its fall-through cases, `insn_dislongop.c`
210-231: the name, if there is one. -/
def longName (i : OpType) : Option String :=
  let index := i.arg1.toNat % 64
  if hasArg8 i.op then
    if !hasArg16 i.op && decide (index < longOpTable8.length) then longOpTable8[index]?
    else if index < longOpTable24.length then longOpTable24[index]?
    else none
  else none

/-- `insn_DisassembleLongOpCode`, `insn16/libinsn/insn_dislongop.c` 202-256.  An entry with the
format `HEX` is only reached with `o16` set (a table of 16 names lies within the first 16 indices of
the table of 41), so the operand is shown exactly when the opcode has one. -/
def disassembleLong (i : OpType) : List Byte :=
  match longName i with
  | none => txt "        " ++ txt invOp ++ [10#8]
  | some s =>
    txt "        " ++ txt s ++ txt " " ++
      (if hasArg16 i.op then txt "0x" ++ hexN 4 i.arg2.toNat else []) ++ [10#8]

/-- The choice between the two disassemblers, `insn16/plist/plist.c` 275-284. -/
def line (i : OpType) : Res (List Byte) :=
  if i.op = Op.longop8.toByte ∨ i.op = Op.longop24.toByte then .ok (disassembleLong i)
  else disassemble i

/-- Reading an instruction, `insn16/plist/plist.c` 233-253 (`none`: end of the program section).
At the end of the section `poffGetProgByte` returns -1; the left shift of this value
(line 250) is taken with two's complement, as in `insn_GetOpCode`. -/
def fetch (p : List Byte) : Option (OpType × Nat × List Byte) :=
  match p with
  | [] => none
  | op :: rest =>
    let (a1, rest, n1) : Byte × List Byte × Nat :=
      if hasArg8 op then (eofByte (getByte rest).1, (getByte rest).2, 1) else (0, rest, 0)
    let (a2, rest, n2) : Word × List Byte × Nat :=
      if hasArg16 op then
        let (h, rest) := getByte rest
        let (l, rest) := getByte rest
        (eofByte h ++ eofByte l, rest, 2)
      else (0, rest, 0)
    some (⟨op, a1, a2⟩, 1 + n1 + n2, rest)

/-- The heading of a line, `insn16/plist/plist.c` 262; the line number is unsigned and is printed
with `%d`. -/
def heading (e : Poff.LineEntry) : List Byte :=
  [10#8] ++ e.filename ++ txt ":" ++ SysIo.fmtD (BitVec.ofNat 32 e.lineno).toInt ++ [10#8]

/-- The loop of `plist_DumpProgramData`, `insn16/plist/plist.c` 230-289, with the line number table
`t`.  `prev` is `g_prevLineNumberIndex`; `last` is the index of the entry `lastln` points to (the
entry found is the one with the new value of `g_prevLineNumberIndex`).  Every round reads a byte at
least, so a `fuel` of one more than the number of bytes is enough. -/
def dumpLoop (t : List Poff.LineEntry) : Nat → List Byte → BitVec 32 → Nat → Option Nat →
    Res (List Byte)
  | 0, _, _, _, _ => .hang
  | fuel + 1, p, pc, prev, last =>
    match fetch p with
    | none => .ok []
    | some (i, size, rest) => do
      let (ln, prev) ← Poff.findLine t prev pc.toNat
      let (head, last) : List Byte × Option Nat := match ln with
        | none => ([], last)
        | some e => if last = some prev then ([], last) else (heading e, some prev)
      let l ← line i
      let more ← dumpLoop t fuel rest (pc + BitVec.ofNat 32 size) prev last
      .ok (head ++ hexN 8 pc.toNat ++ txt " " ++ l ++ more)

/-- `plist_DumpProgramData`, `insn16/plist/plist.c` 215-294; `t` is the line number table that
`poffReadLineNumberTable` has read. -/
def dump (t : List Poff.LineEntry) (p : List Byte) : Res (List Byte) :=
  dumpLoop t (p.length + 1) p 0#32 0 none

/-- What `insn16_Generate` adds to the listing of the compiler, `insn_generate.c` 191-204, 235. -/
def listed (op : Op) (arg1 : Word) (arg2 : BitVec 32) : Res (List Byte) :=
  disassemble ⟨op.toByte, arg1.setWidth 8, arg2.setWidth 16⟩

/-- What `insn16_longOpcodeGenerate` adds to the listing of the compiler for the long operation
with the code `b`, `insn_genlongop.c` 148-160, 197: `arg1` is always 0 (lines 204-214). -/
def listedLong (b : Byte) (arg2 : BitVec 32) : List Byte :=
  disassembleLong ⟨b, 0#8, arg2.setWidth 16⟩

end Pas.Disasm
