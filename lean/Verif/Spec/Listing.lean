import Verif.Model.Insn
import Verif.Spec.Files
import Verif.Spec.Poff

/-! # What a listing of a program says

The names of the instructions and of their functions are those of the header files
(`insn16/include/insn16.h`, `insn16/include/longops.h`, `include/pas_*.h`); how an operand is to be
read (address, level, signed or unsigned number) is said by the comments there.  The disassembler and
its tables are not mentioned. -/
namespace Pas.Spec.Listing

/-- The characters of a text. -/
def letters (s : String) : List Byte := s.toList.map fun c => BitVec.ofNat 8 c.toNat

/-- The name of an instruction: the constant of `insn16/include/insn16.h` 150-441 without its first
letter.  (The listing abbreviates `STRLIB` to `LIB`.) -/
def mnemonic : Op → String
  | .nop => "NOP"
  | .neg => "NEG"
  | .abs_ => "ABS"
  | .inc => "INC"
  | .dec => "DEC"
  | .not_ => "NOT"
  | .add => "ADD"
  | .sub => "SUB"
  | .mul => "MUL"
  | .div_ => "DIV"
  | .mod_ => "MOD"
  | .sll => "SLL"
  | .srl => "SRL"
  | .sra => "SRA"
  | .or_ => "OR"
  | .and_ => "AND"
  | .equz => "EQUZ"
  | .neqz => "NEQZ"
  | .ltz => "LTZ"
  | .gtez => "GTEZ"
  | .gtz => "GTZ"
  | .ltez => "LTEZ"
  | .equ => "EQU"
  | .neq => "NEQ"
  | .lt => "LT"
  | .gte => "GTE"
  | .gt => "GT"
  | .lte => "LTE"
  | .ldi => "LDI"
  | .ldib => "LDIB"
  | .uldib => "ULDIB"
  | .ldim => "LDIM"
  | .sti => "STI"
  | .stib => "STIB"
  | .stim => "STIM"
  | .dup => "DUP"
  | .xchg => "XCHG"
  | .ret => "RET"
  | .umul => "UMUL"
  | .udiv => "UDIV"
  | .umod => "UMOD"
  | .ult => "ULT"
  | .ugte => "UGTE"
  | .ugt => "UGT"
  | .ulte => "ULTE"
  | .xor_ => "XOR"
  | .end_ => "END"
  | .float => "FLOAT"
  | .setop => "SETOP"
  | .longop8 => "LONGOP8"
  | .osop => "OSOP"
  | .pushb => "PUSHB"
  | .upushb => "UPUSHB"
  | .jequz => "JEQUZ"
  | .jneqz => "JNEQZ"
  | .jltz => "JLTZ"
  | .jgtez => "JGTEZ"
  | .jgtz => "JGTZ"
  | .jltez => "JLTEZ"
  | .jmp => "JMP"
  | .jequ => "JEQU"
  | .jneq => "JNEQ"
  | .jlt => "JLT"
  | .jgte => "JGTE"
  | .jgt => "JGT"
  | .jlte => "JLTE"
  | .ld => "LD"
  | .ldb => "LDB"
  | .uldb => "ULDB"
  | .ldm => "LDM"
  | .st => "ST"
  | .stb => "STB"
  | .stm => "STM"
  | .ldx => "LDX"
  | .ldxb => "LDXB"
  | .uldxb => "ULDXB"
  | .ldxm => "LDXM"
  | .stx => "STX"
  | .stxb => "STXB"
  | .stxm => "STXM"
  | .la => "LA"
  | .lac => "LAC"
  | .lar => "LAR"
  | .push => "PUSH"
  | .inds => "INDS"
  | .incs => "INCS"
  | .strlib => "LIB"
  | .sysio => "SYSIO"
  | .lax => "LAX"
  | .jult => "JULT"
  | .jugte => "JUGTE"
  | .jugt => "JUGT"
  | .julte => "JULTE"
  | .label => "LABEL"
  | .pcal => "PCAL"
  | .lds => "LDS"
  | .ldsb => "LDSB"
  | .uldsb => "ULDSB"
  | .ldsm => "LDSM"
  | .sts => "STS"
  | .stsb => "STSB"
  | .stsm => "STSM"
  | .ldsx => "LDSX"
  | .ldsxb => "LDSXB"
  | .uldsxb => "ULDSXB"
  | .ldsxm => "LDSXM"
  | .stsx => "STSX"
  | .stsxb => "STSXB"
  | .stsxm => "STSXM"
  | .las => "LAS"
  | .lasx => "LASX"
  | .longop24 => "LONGOP24"
  | .line => "LINE"

/-- The long operations with the codes 0x40, 0x41, ..., `insn16/include/longops.h` 52-118. -/
def longNames : List String :=
  ["DNOP", "DNEG", "DABS", "DINC", "DDEC", "DNOT", "DADD", "DSUB",
   "DMUL", "DDIV", "DMOD", "DSLL", "DSRL", "DSRA", "DOR", "DAND",
   "DEQUZ", "DNEQZ", "DLTZ", "DGTEZ", "DGTZ", "DLTEZ", "DEQU", "DNEQ",
   "DLT", "DGTE", "DGT", "DLTE", "DDUP", "DXCHG", "CNVD", "UCNVD",
   "DCNV", "DUMUL", "DUDIV", "DUMOD", "DULT", "DUGTE", "DUGT", "DULTE",
   "DXOR"]

/-- Floating point operations, `include/pas_fpops.h` 60-89. -/
def floatNames : List (Nat × String) :=
  [(1, "FLOAT"), (2, "TRUNC"), (3, "ROUND"), (4, "ADD"), (5, "SUB"), (6, "MUL"), (7, "DIV"), (8, "MOD"),
   (10, "EQU"), (11, "NEQ"), (12, "LT"), (13, "GTE"), (14, "GT"), (15, "LTE"), (16, "NEG"), (17, "ABS"),
   (18, "SQR"), (19, "SQRT"), (20, "SIN"), (21, "COS"), (22, "ATAN"), (23, "LN"), (24, "EXP")]

/-- Set operations, `include/pas_setops.h` 65-78; three names are abbreviated. -/
def setNames : List (Nat × String) :=
  [(1, "EMPTY"), (2, "INTERSECTION"), (3, "UNION"), (4, "DIFFERENCE"), (5, "SYMDIFF"), (6, "EQUAL"), (7, "NEQUAL"), (8, "CONTAINS"),
   (9, "MEMBER"), (10, "INCLUDE"), (11, "EXCLUDE"), (12, "CARD"), (13, "SINGLETON"), (14, "SUBRANGE")]

/-- Operating system functions, `include/pas_oslib.h` 55-119. -/
def osNames : List (Nat × String) :=
  [(0, "EXIT"), (1, "NEW"), (2, "DISPOSE"), (3, "GETENV"), (4, "SPAWN")]

/-- Input and output functions, `include/pas_sysio.h` 57-111; some names are abbreviated. -/
def sysioNames : List (Nat × String) :=
  [(1, "ALLOCFILE"), (2, "FREEFILE"), (3, "EOF"), (4, "EOLN"), (5, "FILEPOS"), (6, "FILESIZE"), (7, "SEEK"), (8, "SEEKEOF"),
   (9, "SEEKEOLN"), (10, "ASSIGNFILE"), (11, "RESET"), (12, "RESETR"), (13, "REWRITE"), (14, "REWRITER"), (15, "APPEND"), (16, "CLOSEFILE"),
   (17, "READLN"), (18, "READPG"), (19, "READBIN"), (20, "READINT"), (21, "READCHR"), (22, "READSTR"), (23, "READRL"), (24, "WRITELN"),
   (25, "WRITEPG"), (26, "WRITEBIN"), (27, "WRITEINT"), (28, "WRITEWORD"), (29, "WRITELONG"), (30, "WRITEULONG"), (31, "WRITECHR"), (32, "WRITESTR"),
   (33, "WRITERL"), (34, "FLUSH"), (35, "CHDIR"), (36, "GETDIR"), (37, "MKDIR"), (38, "RMDIR"), (39, "OPENDIR"), (40, "READDIR"),
   (41, "FILEINFO"), (42, "REWINDDIR"), (43, "CLOSEDIR")]

/-- Functions of the run-time library, `include/pas_stringlib.h` 63-392. -/
def libNames : List (Nat × String) :=
  [(0, "STRCPY"), (1, "STRCPY2"), (2, "STRCPYX"), (3, "STRCPYX2"), (4, "BSTR2STR"), (5, "STR2BSTR"), (6, "STR2BSTRX"), (7, "STRINIT"),
   (8, "STRTMP"), (9, "STRDUP"), (10, "MKSTKC"), (11, "STRCAT"), (12, "STRCATC"), (13, "STRCMP"), (14, "STRLEN"), (15, "COPYSUBSTR"),
   (16, "FINDSUBSTR"), (17, "INSERTSTR"), (18, "DELSUBSTR"), (19, "FILLCHAR"), (20, "CHARAT"), (21, "INTSTR"), (22, "WORDSTR"), (23, "LONGSTR"),
   (24, "ULONGSTR"), (25, "REALSTR"), (26, "VAL")]

/-- How the operands of an instruction are to be read. -/
inductive Kind where
  /-- no operands -/
  | none
  /-- a signed number of 8 bits -/
  | signed8
  /-- an unsigned number of 8 bits -/
  | unsigned8
  /-- an address of 16 bits -/
  | target
  /-- an unsigned number of 16 bits -/
  | unsigned16
  /-- a signed number of 16 bits -/
  | signed16
  /-- a nesting level and an address -/
  | levelTarget
  /-- a nesting level and a signed offset in the frame -/
  | levelOffset
  /-- the code of a function, 8 bits -/
  | function8
  /-- the code of a function, 16 bits -/
  | function16
  /-- the code of a long operation, 8 bits -/
  | long
  /-- the number of a label -/
  | label
  /-- a source file and a line number -/
  | source
deriving DecidableEq

/-- The operands of every instruction, `insn16/include/insn16.h` 150-441.  The long jumps are not
dealt with here. -/
def kind : Op → Kind
  | .pushb => .signed8
  | .upushb => .unsigned8
  | .jequz | .jneqz | .jltz | .jgtez | .jgtz | .jltez | .jmp
  | .jequ | .jneq | .jlt | .jgte | .jgt | .jlte
  | .jult | .jugte | .jugt | .julte | .lac => .target
  | .ld | .ldb | .uldb | .ldm | .st | .stb | .stm | .ldx | .ldxb | .uldxb | .ldxm
  | .stx | .stxb | .stxm | .la | .lax => .unsigned16
  | .lar | .push | .inds | .incs => .signed16
  | .pcal => .levelTarget
  | .lds | .ldsb | .uldsb | .ldsm | .sts | .stsb | .stsm | .ldsx | .ldsxb | .uldsxb | .ldsxm
  | .stsx | .stsxb | .stsxm | .las | .lasx => .levelOffset
  | .float | .setop | .osop => .function8
  | .strlib | .sysio => .function16
  | .longop8 | .longop24 => .long
  | .label => .label
  | .line => .source
  | _ => .none

/-- The functions an instruction chooses from. -/
def functions : Op → List (Nat × String)
  | .float => floatNames
  | .setop => setNames
  | .osop => osNames
  | .strlib => libNames
  | .sysio => sysioNames
  | _ => []

/-- `l` is the notation of `n` in `w` hexadecimal digits. -/
structure Hex (l : List Byte) (w n : Nat) : Prop where
  length : l.length = w
  digits : ∀ b ∈ l, (48 ≤ b.toNat ∧ b.toNat ≤ 57) ∨ (97 ≤ b.toNat ∧ b.toNat ≤ 102)
  value : l.foldl (fun v b => 16 * v + (if b.toNat ≤ 57 then b.toNat - 48 else b.toNat - 87)) 0 = n

/-- The text consists of blanks. -/
def Blank (l : List Byte) : Prop := ∀ b ∈ l, b = 32#8

/-- An address of 16 bits: `0x` and four digits. -/
def Address (l : List Byte) (a : Word) : Prop := ∃ h, l = letters "0x" ++ h ∧ Hex h 4 a.toNat

/-- `l` shows the operands of the instruction with the opcode `o`. -/
def Operands (o : Op) (a1 : Byte) (a2 : Word) (l : List Byte) : Prop :=
  match kind o with
  | .none => l = []
  | .signed8 => DecimalInt l a1.toInt
  | .unsigned8 => Decimal l a1.toNat
  | .target => Address l a2
  | .unsigned16 => Decimal l a2.toNat
  | .signed16 => DecimalInt l a2.toInt
  | .levelTarget => ∃ x y, l = x ++ letters ", " ++ y ∧ Decimal x a1.toNat ∧ Address y a2
  | .levelOffset => ∃ x y, l = x ++ letters ", " ++ y ∧ Decimal x a1.toNat ∧ DecimalInt y a2.toInt
  | .function8 => ∃ s bl, (a1.toNat, s) ∈ functions o ∧ l = letters s ++ bl ∧ Blank bl
  | .function16 => ∃ s bl, (a2.toNat, s) ∈ functions o ∧ l = letters s ++ bl ∧ Blank bl
  | .long | .label | .source => False

/-- `l` is the line of an instruction: eight blanks, the name, and behind a blank at least the
operands; a long operation is shown as an instruction of its own; a label begins the line; the
place in the source is a comment. -/
inductive Line : OpType → List Byte → Prop
  | insn {o : Op} {a1 : Byte} {a2 : Word} {bl args : List Byte} (hb : Blank bl)
      (ha : Operands o a1 a2 args) :
      Line ⟨o.toByte, a1, a2⟩
        (letters "        " ++ letters (mnemonic o) ++ letters " " ++ bl ++ args ++ letters "\n")
  | long {s : String} {a1 : Byte} {a2 : Word} {bl : List Byte} (hb : Blank bl)
      (hs : longNames[a1.toNat - 0x40]? = some s) (h1 : 0x40 ≤ a1.toNat) :
      Line ⟨Op.longop8.toByte, a1, a2⟩
        (letters "        " ++ letters s ++ letters " " ++ bl ++ letters "\n")
  | label {a1 : Byte} {a2 : Word} {h bl : List Byte} (hb : Blank bl) (hh : Hex h 4 a2.toNat) :
      Line ⟨Op.label.toByte, a1, a2⟩ (letters "L" ++ h ++ letters ":" ++ bl ++ letters "\n")
  | source {a1 : Byte} {a2 : Word} {x y bl : List Byte} (hb : Blank bl) (hx : Decimal x a1.toNat)
      (hy : Decimal y a2.toNat) :
      Line ⟨Op.line.toByte, a1, a2⟩
        (letters "; LINE" ++ letters " " ++ bl ++ x ++ letters ":" ++ y ++ letters "\n")

/-- The opcode of the instruction is defined, operands it does not have are 0, a function it calls
is defined, and a level is less than 128. -/
structure Proper (i : OpType) : Prop where
  defined : ∃ o, i.op = o.toByte ∧
    ((kind o = .levelTarget ∨ kind o = .levelOffset) → i.arg1.toNat < 128) ∧
    (kind o = .function8 → ∃ s, (i.arg1.toNat, s) ∈ functions o) ∧
    (kind o = .function16 → ∃ s, (i.arg2.toNat, s) ∈ functions o) ∧
    (kind o = .long → o = .longop8 ∧ 0x40 ≤ i.arg1.toNat ∧ i.arg1.toNat < 0x40 + longNames.length)
  unused8 : hasArg8 i.op = false → i.arg1 = 0#8
  unused16 : hasArg16 i.op = false → i.arg2 = 0#16

/-- The bytes of an instruction. -/
def encoded (i : OpType) : List Byte :=
  [i.op] ++ (if hasArg8 i.op then [i.arg1] else []) ++
    (if hasArg16 i.op then [BitVec.ofNat 8 (i.arg2.toNat / 256), BitVec.ofNat 8 (i.arg2.toNat % 256)] else [])

/-- The heading for a place in the source: an empty line, then the file name and the line number. -/
def Heading (e : Poff.LineEntry) (l : List Byte) : Prop :=
  ∃ n, Decimal n e.lineno ∧ l = letters "\n" ++ e.filename ++ letters ":" ++ n ++ letters "\n"

/-- `text` is the listing of the instructions `is`, the first of which has the address `a`: a line
for each of them, with its address in eight digits; in front of it a heading when it belongs to
another place in the source than the last one that was shown (`last`).  `t` is the table of places. -/
inductive Listing (t : List Poff.LineEntry) : Option Poff.LineEntry → Nat → List OpType → List Byte → Prop
  | nil {last a} : Listing t last a [] []
  | first {last a i is h l r} (he : ∀ f ∈ t, a < f.offset) (hh : Hex h 8 a) (hl : Line i l)
      (hr : Listing t last (a + (encoded i).length) is r) :
      Listing t last a (i :: is) (h ++ letters " " ++ l ++ r)
  | same {e a i is h l r} (he : LineFor t a e) (hh : Hex h 8 a) (hl : Line i l)
      (hr : Listing t (some e) (a + (encoded i).length) is r) :
      Listing t (some e) a (i :: is) (h ++ letters " " ++ l ++ r)
  | next {last e a i is g h l r} (he : LineFor t a e) (hn : last ≠ some e) (hg : Heading e g)
      (hh : Hex h 8 a) (hl : Line i l) (hr : Listing t (some e) (a + (encoded i).length) is r) :
      Listing t last a (i :: is) (g ++ h ++ letters " " ++ l ++ r)

end Pas.Spec.Listing
