import Verif.Model.Opcodes
import Verif.Model.Insn

/-! The part of the compiler that translates expressions and statements over the ordinal types:
`pascal/pas_expression.c`, `pascal/pas_statement.c`, `pascal/pas_codegen.c` and
`insn16/libinsn/insn_generate.c`.

The compiler reads tokens (`pas_token.c` is modelled in `Verif.Model.Token`); the tokens here carry
what `getToken` leaves in `g_token`, `g_tknUInt` and `g_tknPtr`.  The functions of the compiler that
call each other are given a number of nested calls they may use; `none` means that it does not
suffice, or that a part of the language is reached that is not modelled: reals, strings, sets,
records, arrays without an index, pointers, subranges, functions other than ABS, SQR, PRED, SUCC, ORD, ODD and CHR of
ordinal values, type casts, GOTO, WITH and standard procedures
other than BREAK, CONTINUE, WRITE and WRITELN of ordinal values and string constants, and READ and
READLN of variables of type INTEGER and CHAR; declared
procedures have value parameters of ordinal types only. -/
namespace Pas.Comp

/-- `exprType_t`, `pas_expression.h`: the ordinal ones and `exprUnknown`, `exprAnyOrdinal`.
`pascal/pas_expression.h` 103-145. -/
inductive ET where
  | unknown | anyOrdinal | integer | word | shortInteger | shortWord | longInteger | longWord
  | char | boolean
  deriving DecidableEq, Repr

/-- Kinds of variables, `pas_tkndefs.h`: sINT, sWORD, sBOOLEAN, sSHORTINT, sSHORTWORD, sCHAR,
sLONGINT, sLONGWORD.  `pascal/pas_tkndefs.h` 85-92. -/
inductive Kind where
  | int | word | bool | shortInt | shortWord | char | longInt | longWord
  deriving DecidableEq, Repr

/-- The symbol table entry of a variable: kind, `sLevel` and `vOffset` (`pas_defns.h`).  Variables
imported from units are not modelled.  `pascal/pas_defns.h` 223-241. -/
structure Var where
  kind : Kind
  level : Nat
  off : Int
  deriving DecidableEq, Repr

/-- The symbol table entry of a procedure: `sLevel`, `pLabel` and the kinds of its parameters, the
symbols that follow it (`pNParms`, `pas_defns.h`).  Only value parameters of ordinal types are
modelled.  `pascal/pas_defns.h` 192-202, 223-241. -/
structure ProcSym where
  level : Nat
  label : Nat
  parms : List Kind
  deriving DecidableEq, Repr

/-- The symbol table entry of an array (`sARRAY`): the kind of its elements, `sLevel`, `vOffset`, and for
each dimension the lowest index and the unit of the index in bytes (`tMinValue`, `tAllocSize` of the
index types that follow the array type, `tIndex`).  Only arrays of ordinal types that are indexed by
subranges of integers are modelled.  `pascal/pas_defns.h` 160-190, 223-241. -/
structure ArrSym where
  kind : Kind
  level : Nat
  off : Int
  dims : List (Nat × Nat)
  deriving DecidableEq, Repr

/-- Tokens.  `proc` is a procedure (`sPROC`), `arr` an array (`sARRAY`), `file` is a file variable at this offset of the outermost level (`sTEXTFILE`), `str` a
string constant (`tSTRING_CONST`) with its characters (`g_tokenString`, without the terminator).
`pascal/pas_tkndefs.h` 52-171. -/
inductive Tk where
  | ident
  | int (n : BitVec 32) | bool (n : BitVec 32) | char (n : BitVec 32)
  | var (v : Var)
  | plus | minus | or_ | xor_ | bar | symdiff
  | mul | div_ | fdiv | mod_ | and_ | shl | shr | amp
  | eq | ne | lt | le | gt | ge | in_
  | lparen | rparen | not_ | tilde
  | assign | if_ | then_ | else_ | while_ | do_ | repeat_ | until_ | for_ | to_ | downto_
  | case_ | of_ | colon | comma | semi | begin_ | end_ | break_ | continue_ | period
  | file (off : Nat) | str (t : List Byte) | write_ | writeln_ | read_ | readln_
  | proc (q : ProcSym)
  | arr (a : ArrSym) | lbracket | rbracket
  | other (code : Nat)
  deriving DecidableEq, Repr

/-- The state of the compiler: the tokens that have not been read (the first one is `g_token`), the
code generated so far, the number of errors, `g_label`, `g_continueLabel`, `g_breakLabel` and
`g_stackAdjust` of `pas_statement.c` 205-214, and the read-only data of the object file. -/
structure CS where
  toks : List Tk
  out : List OpType
  errs : Nat
  label : Word
  cont : Word
  brk : Word
  adj : Int
  ro : List Byte

/-- `g_level`, `FP->include`, `FP->line` when so many tokens are left, and the byte found behind string
constants of even length (it is not initialized; as a simplification always the same).
`pascal/pas_main.h` 95, `libpoff/pfwrodata.c` 147-176. -/
structure Cfg where
  level : Nat
  line : Nat → Byte × Word
  pad : Byte

/-- `g_token`; after the last token the period is seen for ever.  `pascal/pas_main.h` 74. -/
def CS.tok (s : CS) : Tk := s.toks.headD .period

/-- `getToken()`.  `pascal/pas_token.c` 827-1040. -/
def CS.next (s : CS) : CS := { s with toks := s.toks.tail }

/-- `error(...)`, `pas_error.c`: the error is counted (which one it is is not recorded; the limit of
the number of errors is not modelled).  `pascal/pas_error.c` 178-195. -/
def CS.err (s : CS) : CS := { s with errs := s.errs + 1 }

/-- `if (g_token != t) error(...); else getToken();`.  As in `pascal/pas_statement.c` 1040-1052. -/
def CS.expect (s : CS) (t : Tk) : CS := if s.tok = t then s.next else s.err

/-- `insn16_Generate`, `insn_generate.c` 155-180. -/
def gen (o : Op) (arg1 arg2 : Int) (s : CS) : CS :=
  { s with
    out := s.out ++ [⟨o.toByte, if hasArg8 o.toByte then BitVec.ofInt 8 arg1 else 0,
      if hasArg16 o.toByte then BitVec.ofInt 16 arg2 else 0⟩]
    errs := s.errs + (if hasArg8 o.toByte = true ∧ 255 < arg1 then 1 else 0) +
      (if hasArg16 o.toByte = true ∧ (arg2 < -32768 ∨ 65535 < arg2) then 1 else 0) }

/-- `pas_GenerateSimple`, `pas_codegen.c` 156-159. -/
def genSimple (o : Op) (s : CS) : CS := gen o 0 0 s

/-- `pas_GenerateDataOperation`, `pas_codegen.c` 164-167. -/
def genData (o : Op) (x : Int) (s : CS) : CS := gen o 0 x s

/-- `pas_GenerateSimpleLongOperation`, `pas_codegen.c` 573-576, `insn_genlongop.c` 171-206, with the
code of the operation (`longops.h`). -/
def genLong (code : Int) (s : CS) : CS := gen .longop8 code 0 s

/-- `pas_GetLevel0Opcode`, `pas_codegen.c` 122-145. -/
def level0 : Op → Option Op
  | .lds => some .ld
  | .ldsb => some .ldb
  | .uldsb => some .uldb
  | .ldsm => some .ldm
  | .sts => some .st
  | .stsb => some .stb
  | .stsm => some .stm
  | .ldsx => some .ldx
  | .ldsxb => some .ldxb
  | .uldsxb => some .uldxb
  | .ldsxm => some .ldxm
  | .stsx => some .stx
  | .stsxb => some .stxb
  | .stsxm => some .stxm
  | .las => some .la
  | .lasx => some .lax
  | _ => none

/-- `pas_GenerateStackReference`, `pas_codegen.c` 267-290, with `pas_GenerateLevel0StackReference`
83-118. -/
def stackRef (g : Cfg) (o : Op) (v : Var) (s : CS) : CS :=
  if v.level = 0 then
    match level0 o with
    | some o' => if v.off < 0 then s.err else genData o' v.off s
    | none => gen o (((g.level : Int) - v.level) % 65536) v.off s
  else gen o (((g.level : Int) - v.level) % 65536) v.off s

/-- `exprInteger`, `exprWord`, `exprShortInteger` or `exprShortWord`.  `pascal/pas_expression.h` 103-145. -/
def ET.is16 : ET → Bool
  | .integer | .word | .shortInteger | .shortWord => true
  | _ => false

/-- `exprLongInteger` or `exprLongWord`.  `pascal/pas_expression.h` 103-145. -/
def ET.is32 : ET → Bool
  | .longInteger | .longWord => true
  | _ => false

/-- `pas_IsOrdinalExpression`, `pas_expression.c` 3476-3495. -/
def ET.ordinal : ET → Bool
  | .unknown | .anyOrdinal => false
  | _ => true

/-- `pas_MapVariable2ExprType`, `pas_expression.c` 4481-4516. -/
def Kind.et : Kind → ET
  | .int => .integer
  | .word => .word
  | .bool => .boolean
  | .shortInt => .shortInteger
  | .shortWord => .shortWord
  | .char => .char
  | .longInt => .longInteger
  | .longWord => .longWord

/-- The two halves of a long constant, low one first (`lword.word[0]`, `lword.word[1]` on a
little-endian host).  As in `pascal/pas_expression.c` 848-914. -/
def pushLong (n : BitVec 32) (s : CS) : CS :=
  genData .push (n.extractLsb' 16 16).toNat (genData .push (n.extractLsb' 0 16).toNat s)

/-- `case tINT_CONST` of `pas_Factor`, `pas_expression.c` 848-914. -/
def intFactor (find : ET) (n : BitVec 32) (s : CS) : ET × CS :=
  if find.is32 then (find, pushLong n s)
  else if n.toNat ≤ 0xffff then
    (if n.toNat ≤ 0xff ∧ find = .shortInteger then .shortInteger
      else if find = .shortWord then .shortWord
      else .integer, genData .push n.toNat s)
  else (.longInteger, pushLong n s)

/-- The variables among the cases of `pas_Factor`, `pas_expression.c` 955-982. -/
def varFactor (g : Cfg) (v : Var) (s : CS) : CS :=
  match v.kind with
  | .int | .word | .bool => stackRef g .lds v s
  | .shortInt => stackRef g .ldsb v s
  | .shortWord | .char => stackRef g .uldsb v s
  | .longInt | .longWord => stackRef g .ldsm v (genData .push 4 s)

/-- The load of an element, whose offset in the array is on the stack: `pas_BaseFactor` with
`FACTOR_INDEXED`, `pas_expression.c` 1846-2120. -/
def elementFactor (g : Cfg) (a : ArrSym) (s : CS) : CS :=
  let v : Var := ⟨a.kind, a.level, a.off⟩
  match a.kind with
  | .int | .word | .bool => stackRef g .ldsx v s
  | .shortInt => stackRef g .ldsxb v s
  | .shortWord | .char => stackRef g .uldsxb v s
  | .longInt | .longWord => stackRef g .ldsxm v (genData .push 4 s)

/-- From an index to an offset in the array: `pas_ArrayIndex`, `pas_expression.c` 4267-4300 (`offset` and
`elemSize` are 16-bit variables). -/
def indexGen (first : Bool) (min size : Nat) (s : CS) : CS :=
  let s := if min % 65536 ≠ 0 then genSimple .sub (genData .push ((min % 65536 : Nat) : Int) s) else s
  let s := if size % 65536 ≠ 1 then genSimple .mul (genData .push ((size % 65536 : Nat) : Int) s) else s
  if first then s else genSimple .add s

/-- `case '~'`, `case tNOT` of `pas_Factor` after the operand, `pas_expression.c` 1148-1167. -/
def notGen (t : ET) (s : CS) : CS :=
  let s := if t.is16 ∨ t.is32 ∨ t = .boolean then s else s.err
  if t.is32 then genLong 0x45 s else genSimple .not_ s

/-- Operators of `pas_Term`, `pas_expression.c` 537-540. -/
def mulOp : Tk → Bool
  | .mul | .div_ | .fdiv | .mod_ | .and_ | .shl | .shr | .amp => true
  | _ => false

/-- The shift operators, `pascal/pas_expression.c` 537-540. -/
def isShift (op : Tk) : Bool := op = .shl ∨ op = .shr

/-- Generation of a binary operation in `pas_Term`, `pas_expression.c` 665-805. -/
def mulGen (op : Tk) (t : ET) (s : CS) : CS :=
  match op with
  | .mul => match t with
    | .integer | .shortInteger => genSimple .mul s
    | .word | .shortWord => genSimple .umul s
    | .longInteger => genLong 0x48 s
    | .longWord => genLong 0x61 s
    | _ => s.err
  | .div_ => match t with
    | .integer | .shortInteger => genSimple .div_ s
    | .word | .shortWord => genSimple .udiv s
    | .longInteger => genLong 0x49 s
    | .longWord => genLong 0x62 s
    | _ => s.err
  | .mod_ => match t with
    | .integer | .shortInteger => genSimple .mod_ s
    | .word | .shortWord => genSimple .umod s
    | .longInteger => genLong 0x4a s
    | .longWord => genLong 0x63 s
    | _ => s.err
  | .and_ | .amp =>
    if t.is16 ∨ t = .boolean then genSimple .and_ s
    else if t.is32 then genLong 0x4f s else s.err
  | .shl =>
    if t.is16 then genSimple .sll s
    else if t.is32 then genLong 0x4b s else s.err
  | .shr => match t with
    | .integer | .shortInteger => genSimple .sra s
    | .word | .shortWord => genSimple .srl s
    | .longInteger => genLong 0x4d s
    | .longWord => genLong 0x4c s
    | _ => s.err
  | _ => s.err   -- tFDIV needs reals

/-- The second operand of a shift, `pas_expression.c` 561-571. -/
def shiftType (t : ET) (s : CS) : ET × CS :=
  if t.is32 ∨ t = .unknown then (.integer, s.err) else (t, s)

/-- Types that differ in `pas_Term`, `pas_expression.c` 591-625 (without reals). -/
def mulCheck (op : Tk) (t1 t2 : ET) (s : CS) : CS :=
  if t1 ≠ t2 ∧ isShift op = true then s.err else s

/-- Operators of `pas_SimpleExpression`, `pas_expression.c` 224-225. -/
def addOp : Tk → Bool
  | .plus | .minus | .or_ | .xor_ | .symdiff | .bar => true
  | _ => false

/-- Unary minus, `pas_expression.c` 180-202. -/
def negGen (t : ET) (s : CS) : CS :=
  if t.is16 then genSimple .neg s
  else if t.is32 then genLong 0x41 s else s.err

/-- Types that differ in `pas_SimpleExpression`, `pas_expression.c` 286-338. -/
def addCheck (t1 t2 : ET) (s : CS) : CS :=
  if t1 = t2 ∨ (t1.is16 ∧ t2.is16) ∨ (t1.is32 ∧ t2.is32) then s else s.err

/-- Generation of a binary operation in `pas_SimpleExpression`, `pas_expression.c` 352-511. -/
def addGen (op : Tk) (t : ET) (s : CS) : CS :=
  match op with
  | .plus => if t.is16 then genSimple .add s else if t.is32 then genLong 0x46 s else s.err
  | .minus => if t.is16 then genSimple .sub s else if t.is32 then genLong 0x47 s else s.err
  | .or_ | .bar =>
    if t.is16 ∨ t = .boolean then genSimple .or_ s else if t.is32 then genLong 0x4e s else s.err
  | .xor_ =>
    if t.is16 ∨ t = .boolean then genSimple .xor_ s else if t.is32 then genLong 0x68 s else s.err
  | _ => s.err

/-- The operations selected by a relational operator, `pas_expression.c` 3535-3641: `intOpCode`,
`wordOpCode`, whether `charOpCode` and `boolOpCode` are set (to the same operation as `intOpCode`),
`longIntOpCode`, `longWordOpCode`. -/
structure RelOps where
  int : Op
  word : Op
  char : Bool
  long : Int
  ulong : Int

/-- The operations of the comparison operators, `pascal/pas_expression.c` 3535-3641. -/
def relOps : Tk → Option RelOps
  | .eq => some ⟨.equ, .equ, true, 0x56, 0x56⟩
  | .ne => some ⟨.neq, .neq, true, 0x57, 0x57⟩
  | .lt => some ⟨.lt, .ult, false, 0x58, 0x64⟩
  | .le => some ⟨.lte, .ulte, false, 0x5b, 0x67⟩
  | .gt => some ⟨.gt, .ugt, false, 0x5a, 0x66⟩
  | .ge => some ⟨.gte, .ugte, false, 0x59, 0x65⟩
  | _ => none

/-- Integer types that differ in a comparison, `pas_expression.c` 3884-3965. -/
def relConv (t1 t2 : ET) (s : CS) : ET × CS :=
  if t1 = t2 then (t1, s)
  else if t1 = .integer ∧ (t2 = .shortInteger ∨ t2 = .shortWord) then (.integer, s)
  else if (t1 = .shortInteger ∨ t1 = .shortWord) ∧ t2 = .integer then (.integer, s)
  else (t1, s.err)

/-- Generation of a comparison, `pas_expression.c` 3836-4057.  Note that nothing is generated, and no
error is reported, for a comparison of two characters or two Booleans other than `=` and `<>`. -/
def relGen (r : RelOps) (t1 t2 : ET) (s : CS) : ET × CS :=
  if t1 = t2 ∧ r.char = true ∧ (t1 = .char ∨ t1 = .boolean) then (.boolean, genSimple r.int s)
  else
    let (t, s) := relConv t1 t2 s
    match t with
    | .integer | .shortInteger => (.boolean, genSimple r.int s)
    | .longInteger => (.boolean, genLong r.long s)
    | .word | .shortWord => (.boolean, genSimple r.word s)
    | .longWord => (.boolean, genLong r.ulong s)
    | t => (t, s)

/-- The final check of `pas_Expression`, `pas_expression.c` 4093-4160. -/
def typeCheck (find t : ET) (s : CS) : CS :=
  if find = .unknown ∨ find = t ∨ (find = .anyOrdinal ∧ t.ordinal = true) then s else s.err

/-- The standard functions of ordinal values that are modelled.  `pascal/pas_stdfunc.c` 1061-1309. -/
inductive StdFn where
  | abs | sqr | pred | succ | ord | odd | chr
  deriving DecidableEq, Repr

/-- `g_token` and `g_tknSubType` of these functions, `0xc000 + g_tknSubType`: `pas_tkndefs.h` 180,
191-206. -/
def stdFn (code : Nat) : Option StdFn :=
  if code = 0xc001 then some .abs
  else if code = 0xc00e then some .sqr
  else if code = 0xc00b then some .pred
  else if code = 0xc010 then some .succ
  else if code = 0xc00a then some .ord
  else if code = 0xc009 then some .odd
  else if code = 0xc004 then some .chr
  else none

/-- What type the argument is asked for, `pas_stdfunc.c` 125, 211, 227, 243, 306, 323, 343. -/
def StdFn.find : StdFn → ET
  | .abs | .sqr => .unknown
  | .pred | .succ | .ord | .odd => .anyOrdinal
  | .chr => .integer

/-- What follows the argument of type `t`, with the type of the result: `pas_AbsFunc`,
`pas_stdfunc.c` 126-140, `pas_SqrFunc` 244-265, `pas_PredFunc` 228-230, `pas_SuccFunc` 308-310,
`pas_OrdFunc` 212, `pas_OddFunc` 324-327, `pas_ChrFunc` 344 and `pas_StandardFunction` 1075-1093,
1203-1220 (without reals). -/
def StdFn.gen (f : StdFn) (t : ET) (s : CS) : ET × CS :=
  match f with
  | .abs => (t, (if t = .integer then genSimple .abs_ s else s.err).expect .rparen)
  | .sqr => (t, (if t = .integer ∨ t = .shortInteger then genSimple .mul (genSimple .dup s)
      else if t = .word ∨ t = .shortWord then genSimple .umul (genSimple .dup s)
      else s.err).expect .rparen)
  | .pred => (t, genSimple .dec (s.expect .rparen))
  | .succ => (t, genSimple .inc (s.expect .rparen))
  | .ord => (.integer, s.expect .rparen)
  | .odd => (.boolean, genSimple .neqz (genSimple .and_ (genData .push 1 (s.expect .rparen))))
  | .chr => (.char, s.expect .rparen)

mutual

/-- `pas_Factor`, `pas_expression.c` 829-1198; for standard functions `pas_StandardFunction`,
`pas_stdfunc.c` 1061-1309, and `pas_CheckLParen` 1372-1377. -/
def factor (g : Cfg) : Nat → ET → CS → Option (ET × CS)
  | 0, _, _ => none
  | n + 1, find, s =>
    match s.tok with
    | .ident => some (.unknown, s.err)
    | .int k => let (t, s) := intFactor find k s; some (t, s.next)
    | .bool k => some (.boolean, (genData .push k.toInt s).next)
    | .char k => some (.char, (genData .push k.toInt s).next)
    | .var v => some (v.kind.et, (varFactor g v s).next)
    | .lparen => do
        let (t, s) ← expression g n .unknown s.next
        pure (t, s.expect .rparen)
    | .tilde | .not_ => do
        let (t, s) ← factor g n find s.next
        pure (t, notGen t s)
    | .other c => match stdFn c with
      | some f => do
        let (t, s) ← expression g n f.find (s.next.expect .lparen)
        pure (f.gen t s)
      | none => none
    | .arr a =>
      if s.next.tok = .lbracket then do
        let s ← arrayIndex g n true a.dims s.next
        pure (a.kind.et, elementFactor g a s)
      else none
    | .str _ | .file _ => none
    | _ => some (.unknown, s.err)

/-- `pas_ArrayIndex`, `pas_expression.c` 4196-4317, for index types that are subranges of integers, when
`g_token` is the bracket or a comma.  With more indices than the array has dimensions the code uses a null
pointer; this is not modelled.  For an array see `pas_ComplexFactor` 1202-1233 and `pas_SimpleFactor`
1699-1745. -/
def arrayIndex (g : Cfg) : Nat → (first : Bool) → List (Nat × Nat) → CS → Option CS
  | 0, _, _, _ => none
  | _ + 1, _, [], _ => none
  | n + 1, first, (min, size) :: dims, s => do
    let (_, s) ← expression g n .integer s.next
    let s := indexGen first min size s
    if s.tok = .comma then arrayIndex g n false dims s else pure (s.expect .rbracket)

/-- `pas_Term`, `pas_expression.c` 521-825. -/
def term (g : Cfg) : Nat → ET → CS → Option (ET × CS)
  | 0, _, _ => none
  | n + 1, find, s => do
    let (t, s) ← factor g n find s
    termLoop g n find t s

/-- The loop of `pas_Term`, `pas_expression.c` 530-822. -/
def termLoop (g : Cfg) : Nat → ET → ET → CS → Option (ET × CS)
  | 0, _, _, _ => none
  | n + 1, find, t1, s =>
    let op := s.tok
    if mulOp op = true then
      if isShift op = true then do
        let (t2, s) ← factor g n .anyOrdinal s.next
        let (t2, s) := shiftType t2 s
        termLoop g n find t1 (mulGen op t1 (mulCheck op t1 t2 s))
      else do
        let (t2, s) ← factor g n find s.next
        termLoop g n find t1 (mulGen op t1 (mulCheck op t1 t2 s))
    else some (t1, s)

/-- `pas_SimpleExpression`, `pas_expression.c` 158-517. -/
def simple (g : Cfg) : Nat → ET → CS → Option (ET × CS)
  | 0, _, _ => none
  | n + 1, find, s => do
    let minus := s.tok = .minus
    let s := if s.tok = .plus ∨ s.tok = .minus then s.next else s
    let (t, s) ← term g n find s
    let s := if minus then negGen t s else s
    simpleLoop g n (if find = .unknown then t else find) t s

/-- The loop of `pas_SimpleExpression`, `pas_expression.c` 216-514; a character that is added to
becomes a string, which is not modelled. -/
def simpleLoop (g : Cfg) : Nat → ET → ET → CS → Option (ET × CS)
  | 0, _, _, _ => none
  | n + 1, find, t1, s =>
    let op := s.tok
    if addOp op = true then
      if op = .plus ∧ t1 = .char then none
      else do
        let (t2, s) ← term g n find s.next
        simpleLoop g n find t1 (addGen op t1 (addCheck t1 t2 s))
    else some (t1, s)

/-- `pas_Expression`, `pas_expression.c` 3503-4163. -/
def expression (g : Cfg) : Nat → ET → CS → Option (ET × CS)
  | 0, _, _ => none
  | n + 1, find, s => do
    let (t1, s) ← simple g n find s
    if s.tok = .in_ then none
    else match relOps s.tok with
      | none => pure (t1, typeCheck find t1 s)
      | some r => do
        let (t2, s) ← simple g n find s.next
        let (t, s) := relGen r t1 t2 s
        pure (t, typeCheck find t s)

end

/-- `pas_Assignment`, `pas_statement.c` 1040-1052. -/
def assignment (g : Cfg) (n : Nat) (o : Op) (t : ET) (v : Var) (s : CS) : Option CS := do
  let (_, s) ← expression g n t (s.expect .assign)
  pure (stackRef g o v s)

/-- `pas_LargeAssignment`, `pas_statement.c`, for long integers.  `pascal/pas_statement.c` 1283-1294. -/
def largeAssignment (g : Cfg) (n : Nat) (o : Op) (t : ET) (v : Var) (s : CS) : Option CS := do
  let (_, s) ← expression g n t (s.expect .assign)
  pure (stackRef g o v (genData .push 4 s))

/-- The assignment to an element, `case sARRAY` of `pas_SimpleAssignment`, `pas_statement.c` 956-1030, and
the cases with `ASSIGN_INDEXED`, 270-560.  The offset of the element stays on the stack while the
expression is evaluated. -/
def elementAssignment (g : Cfg) (n : Nat) (a : ArrSym) (s : CS) : Option CS :=
  if s.tok = .lbracket then do
    let v : Var := ⟨a.kind, a.level, a.off⟩
    let s ← arrayIndex g n true a.dims s
    match a.kind with
    | .int | .word | .bool => assignment g n .stsx a.kind.et v s
    | .shortInt | .shortWord | .char => assignment g n .stsxb a.kind.et v s
    | .longInt | .longWord => largeAssignment g n .stsxm a.kind.et v s
  else none

/-- `pas_ContinueBreak`, `pas_statement.c` 1346-1362. -/
def continueBreak (label : Word) (s : CS) : CS :=
  if label = 0 then s.err
  else
    let s := if s.adj ≠ 0 then genData .inds s.adj s else s
    genData .jmp label.toNat s

/-- `++g_label`.  `pascal/pas_main.c` 100. -/
def newLabel (s : CS) : Word × CS := (s.label + 1#16, { s with label := s.label + 1#16 })

/-- `IS_CONSTANT`, `pas_statement.c` 159-164: the value of the modelled constants. -/
def constValue : Tk → Option (BitVec 32)
  | .int k | .bool k | .char k => some k
  | _ => none

/-- The loop over the constants of a case, `pas_statement.c` 1781-1870; fuel as above. -/
def caseConsts : Nat → (stmtLabel nextLabel : Word) → CS → Option CS
  | 0, _, _, _ => none
  | n + 1, st, nx, s =>
    let s := genSimple .dup s
    match constValue s.tok with
    | some k =>
      let s := if k.toNat ≤ 0xffff then genData .push k.toNat s else genData .push 0xffff s.err
      let s := s.next
      if s.tok = .comma then caseConsts n st nx (genData .jequ st.toNat s).next
      else some (genData .jneq nx.toNat s)
    | none => match s.tok with
      | .other _ => none
      | _ => some s.err

/-- `poffAddRoDataString`, `libpoff/pfwrodata.c` 147-176: what is added to the read-only data for a
string constant. -/
def roString (pad : Byte) (t : List Byte) : List Byte :=
  t ++ [0#8] ++ if (t.length + 1) % 2 = 0 then [] else [pad]

/-- `pas_GenerateFileNumber`, `pas_procedure.c` 2512-2534, with `pas_SimplifyFileNumber` 160-347 and
`pas_DefaultFileNumber` 349-372; `dflt` is the offset of the default file at the outermost level: 0 for
INPUT, 2 for OUTPUT (`pas_PrimeSymbolTable`). -/
def fileNumber (g : Cfg) (dflt : Nat) (s : CS) : CS :=
  match s.tok with
  | .file off => (stackRef g .lds ⟨.int, 0, off⟩ s).next
  | _ => stackRef g .lds ⟨.int, 0, dflt⟩ s

/-- A width or precision: `pas_Expression(exprShortInteger)` and the check of its type,
`pas_procedure.c` 1354-1358, 1377-1381. -/
def shortExpr (g : Cfg) (n : Nat) (s : CS) : Option CS := do
  let (t, s) ← expression g n .shortInteger s
  pure (if t = .shortInteger then s else s.err)

/-- The second part of `pas_WriteFieldWidth`: the precision, `pas_procedure.c` 1365-1386. -/
def precision (g : Cfg) (n : Nat) (s : CS) : Option CS :=
  if s.tok = .colon then do
    let s ← shortExpr g n s.next
    pure (genSimple .or_ s)
  else some s

/-- `pas_WriteFieldWidth`, `pas_procedure.c` 1338-1392. -/
def fieldWidth (g : Cfg) (n : Nat) (s : CS) : Option CS :=
  if s.tok = .colon then do
    let s ← shortExpr g n s.next
    precision g n (genSimple .sll (genData .push 8 s))
  else some (genData .push 0 s)

/-- The operation of `pas_WriteText` for a value, `pas_procedure.c` 1258-1330 (`pas_sysio.h`:
xWRITE_INT, xWRITE_WORD, xWRITE_LONGINT, xWRITE_LONGWORD, xWRITE_CHAR). -/
def writeValOp : ET → Option Int
  | .integer | .shortInteger => some 0x1b
  | .word | .shortWord => some 0x1c
  | .longInteger => some 0x1d
  | .longWord => some 0x1e
  | .char => some 0x1f
  | _ => none

/-- `pas_WriteText`, `pas_procedure.c` 1152-1334: string constants and expressions.  The field width
of a string constant is looked for while the string constant is still the current token. -/
def writeText (g : Cfg) (n : Nat) (s : CS) : Option CS :=
  match s.tok with
  | .str t => do
    let off := s.ro.length
    let s := { s with ro := s.ro ++ roString g.pad t }
    let s := genData .push t.length (genData .lac ((off % 65536 : Nat) : Int)
      (genData .push t.length (genSimple .dup s)))
    let s ← fieldWidth g n s
    pure (genData .sysio 0x20 s).next
  | _ => do
    let (t, s) ← expression g n .unknown (genSimple .dup s)
    let s ← fieldWidth g n s
    pure (match writeValOp t with
      | some k => genData .sysio k s
      | none => s.err)

/-- `pas_WriteProcCommon`, `pas_procedure.c` 1113-1148, for text files; fuel as above. -/
def writeItems (g : Cfg) : Nat → CS → Option CS
  | 0, _ => none
  | n + 1, s => do
    let s ← writeText g n s
    if s.tok = .comma then writeItems g n s.next else pure s

/-- The file number and the parameters of WRITE and WRITELN, `pas_procedure.c` 1012-1024, 1073-1089. -/
def writeParms (g : Cfg) (n : Nat) (s : CS) : Option CS :=
  let s := fileNumber g 2 s
  writeItems g n (if s.tok = .comma then s.next else s)

/-- `pas_WriteProc`, `pas_procedure.c` 988-1036. -/
def writeProc (g : Cfg) (n : Nat) (s : CS) : Option CS := do
  let s := s.next.expect .lparen
  let s := if s.tok = .rparen then s.err else s
  let s ← writeParms g n s
  pure ((genData .inds (-2) s).expect .rparen)

/-- `pas_WritelnProc`, `pas_procedure.c` 1040-1110 (`xWRITELN`, `pas_sysio.h`). -/
def writelnProc (g : Cfg) (n : Nat) (s : CS) : Option CS :=
  let s := s.next
  let output := stackRef g .lds ⟨.int, 0, 2⟩
  if s.tok = .lparen then
    let s := s.next
    if s.tok = .rparen then some (genData .sysio 0x18 ((output s).expect .rparen))
    else do
      let s ← writeParms g n s
      pure (genData .sysio 0x18 (s.expect .rparen))
  else some (genData .sysio 0x18 (output s))

/-- `pas_VarParameter` with `pas_PointerFactor` and `pas_MapVariable2ExprPtrType`,
`pas_expression.c` 4168-4190, 2210-2240, 4559-4570: the address of a variable of a simple type, and the
type of the variable.  Names in parentheses, elements of arrays and what is not an ordinal variable are
not modelled. -/
def varParameter (g : Cfg) (s : CS) : Option (ET × CS) :=
  match s.tok with
  | .var v => some (v.kind.et, (stackRef g .las v s).next)
  | _ => none

/-- `pas_ReadText`, `pas_procedure.c` 609-665 (`xREAD_INT`, `xREAD_CHAR`, `pas_sysio.h`). -/
def readText (g : Cfg) (s : CS) : Option CS := do
  let (t, s) ← varParameter g (genSimple .dup s)
  pure (match t with
    | .integer => genData .sysio 0x14 s
    | .char => genData .sysio 0x15 s
    | _ => s.err)

/-- `pas_ReadProcCommon`, `pas_procedure.c` 565-595, for text files; fuel as above. -/
def readItems (g : Cfg) : Nat → CS → Option CS
  | 0, _ => none
  | n + 1, s => do
    let s ← readText g s
    if s.tok = .colon ∨ s.tok = .comma then readItems g n s.next else pure s

/-- The file number and the parameters of READ and READLN, `pas_procedure.c` 437-451, 505-520. -/
def readParms (g : Cfg) (n : Nat) (s : CS) : Option CS :=
  let s := fileNumber g 0 s
  readItems g n (if s.tok = .comma then s.next else s)

/-- `pas_ReadProc`, `pas_procedure.c` 415-461. -/
def readProc (g : Cfg) (n : Nat) (s : CS) : Option CS := do
  let s := s.next.expect .lparen
  let s := if s.tok = .rparen then s.err else s
  let s ← readParms g n s
  pure ((genData .inds (-2) s).expect .rparen)

/-- `pas_ReadlnProc`, `pas_procedure.c` 465-537 (`xREADLN`, `pas_sysio.h`). -/
def readlnProc (g : Cfg) (n : Nat) (s : CS) : Option CS :=
  let s := s.next
  let input := stackRef g .lds ⟨.int, 0, 0⟩
  if s.tok = .lparen then
    let s := s.next
    if s.tok = .rparen then some (genData .sysio 0x11 ((input s).expect .rparen))
    else do
      let s ← readParms g n s
      pure (genData .sysio 0x11 (s.expect .rparen))
  else some (genData .sysio 0x11 (input s))

/-- The size of a parameter on the stack, `pas_procedure.c` 2650-2682 (`INT_ALIGNUP`). -/
def parmSize : Kind → Nat
  | .longInt | .longWord => 4
  | _ => 2

/-- The size of all parameters, what `pas_ActualParameterList` returns, `pas_procedure.c` 2644-2898. -/
def parmsSize : List Kind → Nat
  | [] => 0
  | k :: ks => parmSize k + parmsSize ks

/-- The loop over the parameters in `pas_ActualParameterList`, `pas_procedure.c` 2644-2890. -/
def actualParms (g : Cfg) (n : Nat) : List Kind → CS → Option CS
  | [], s => some s
  | k :: ks, s => do
    let (_, s) ← expression g n k.et s
    actualParms g n ks (if ks = [] then s else s.expect .comma)

/-- `pas_ActualParameterList`, `pas_procedure.c` 2602-2899. -/
def actualParameterList (g : Cfg) (n : Nat) (ks : List Kind) (s : CS) : Option CS := do
  let paren := s.tok = .lparen
  let s := if paren then s.next else s
  let s := if ks ≠ [] ∧ ¬ paren then s.err else s
  let s ← actualParms g n ks s
  pure (if paren then s.expect .rparen else s)

/-- `pas_ProcStatement`, `pas_statement.c` 1457-1506, with `pas_GenerateProcedureCall`,
`pas_codegen.c` 285-307. -/
def procStatement (g : Cfg) (n : Nat) (q : ProcSym) (s : CS) : Option CS := do
  let s ← actualParameterList g n q.parms s.next
  let s := gen .pcal ((q.level + 1) % 65536 : Nat) q.label s
  pure (if 0 < parmsSize q.parms then genData .inds (-(parmsSize q.parms : Int)) s else s)

/-- Kinds of FOR variables, `pas_statement.c` 1948-1955 (without subranges and scalars). -/
def forKind : Kind → Bool
  | .int | .word | .shortInt | .shortWord | .longInt | .longWord => true
  | _ => false

mutual

/-- `pas_Statement`, `pas_statement.c` 2211-2314. -/
def statement (g : Cfg) : Nat → CS → Option CS
  | 0, _ => none
  | n + 1, s =>
    let l := g.line s.toks.length
    let s := gen .line l.1.toNat l.2.toNat s
    match s.tok with
    | .var v =>
      match v.kind with
      | .int | .word | .bool => assignment g n .sts v.kind.et v s.next
      | .shortInt | .shortWord | .char => assignment g n .stsb v.kind.et v s.next
      | .longInt | .longWord => largeAssignment g n .stsm v.kind.et v s.next
    | .int _ => none   -- label
    | .if_ => ifStatement g n s
    | .case_ => caseStatement g n s
    | .repeat_ => repeatStatement g n s
    | .while_ => whileStatement g n s
    | .for_ => forStatement g n s
    | .begin_ => compound g n s
    | .break_ => some (continueBreak s.next.brk s.next)
    | .continue_ => some (continueBreak s.next.cont s.next)
    | .write_ => writeProc g n s
    | .writeln_ => writelnProc g n s
    | .read_ => readProc g n s
    | .readln_ => readlnProc g n s
    | .proc q => procStatement g n q s
    | .arr a => elementAssignment g n a s.next
    | .other _ | .file _ | .str _ => none
    | _ => some s

/-- The loops `do { getToken(); pas_Statement(); } while (g_token == ';')` of
`pas_CompoundStatement` (2322-2327) and `pas_RepeatStatement` (1606-1614). -/
def statements (g : Cfg) : Nat → CS → Option CS
  | 0, _ => none
  | n + 1, s => do
    let s ← statement g n s.next
    if s.tok = .semi then statements g n s else pure s

/-- `pas_CompoundStatement`, `pas_statement.c` 2318-2334. -/
def compound (g : Cfg) : Nat → CS → Option CS
  | 0, _ => none
  | n + 1, s => do
    let s ← statements g n s
    pure (s.expect .end_)

/-- `pas_IfStatement`, `pas_statement.c` 1510-1583. -/
def ifStatement (g : Cfg) : Nat → CS → Option CS
  | 0, _ => none
  | n + 1, s => do
    let (elseL, s) := newLabel s
    let (_, s) ← expression g n .boolean s.next
    if s.tok = .then_ then
      let s ← statement g n (genData .jequz elseL.toNat s.next)
      if s.tok = .else_ then
        let (endL, s) := newLabel s
        let s ← statement g n (genData .label elseL.toNat (genData .jmp endL.toNat s.next))
        pure (genData .label endL.toNat s)
      else pure (genData .label elseL.toNat s)
    else pure s.err

/-- `pas_RepeatStatement`, `pas_statement.c` 1587-1640. -/
def repeatStatement (g : Cfg) : Nat → CS → Option CS
  | 0, _ => none
  | n + 1, s => do
    let (c, b, a) := (s.cont, s.brk, s.adj)
    let (repeatL, s) := newLabel s
    let (endL, s) := newLabel s
    let s := { s with cont := repeatL, brk := endL, adj := 0 }
    let s ← statements g n (genData .label repeatL.toNat s)
    let (_, s) ← expression g n .boolean (s.expect .until_)
    let s := genData .label endL.toNat (genData .jequz repeatL.toNat s)
    pure { s with cont := c, brk := b, adj := a }

/-- `pas_WhileStatement`, `pas_statement.c` 1644-1698. -/
def whileStatement (g : Cfg) : Nat → CS → Option CS
  | 0, _ => none
  | n + 1, s => do
    let (c, b, a) := (s.cont, s.brk, s.adj)
    let (whileL, s) := newLabel s
    let (endL, s) := newLabel s
    let s := { s with cont := whileL, brk := endL, adj := 0 }
    let (_, s) ← expression g n .boolean (genData .label whileL.toNat s.next)
    let s ← statement g n ((genData .jequz endL.toNat s).expect .do_)
    let s := genData .label endL.toNat (genData .jmp whileL.toNat s)
    pure { s with cont := c, brk := b, adj := a }

/-- `pas_CaseStatement`, `pas_statement.c` 1702-1918. -/
def caseStatement (g : Cfg) : Nat → CS → Option CS
  | 0, _ => none
  | n + 1, s => do
    let (nextL, s) := newLabel s
    let (endL, s) := newLabel s
    let (_, s) ← expression g n .anyOrdinal s.next
    let s := s.expect .of_
    let s := { s with adj := s.adj - 2 }
    let s ← caseLoop g n nextL endL s
    let s := genData .inds (-2) (genData .label endL.toNat s)
    pure { s with adj := s.adj + 2 }

/-- The loop over the cases, `pas_statement.c` 1734-1909. -/
def caseLoop (g : Cfg) : Nat → (nextL endL : Word) → CS → Option CS
  | 0, _, _, _ => none
  | n + 1, thisL, endL, s => do
    let (nextL, s) := newLabel s
    if s.tok = .else_ then
      let s ← statement g n (genData .label thisL.toNat s.next)
      let s := if s.tok = .semi then s.next else s
      pure (s.expect .end_)
    else
      let (stmtL, s) := newLabel s
      let s ← caseConsts n stmtL nextL (genData .label thisL.toNat s)
      let s := s.expect .colon
      let s ← statement g n (genData .label stmtL.toNat s)
      let s := genData .jmp endL.toNat s
      if s.tok = .semi ∨ s.tok = .end_ then
        let s := if s.tok = .semi then s.next else s
        if s.tok = .end_ then pure (genData .label nextL.toNat s).next
        else caseLoop g n nextL endL s
      else pure s.err

/-- `pas_ForStatement`, `pas_statement.c` 1922-2054.  Without TO or DOWNTO the code uses
uninitialised variables (not modelled). -/
def forStatement (g : Cfg) : Nat → CS → Option CS
  | 0, _ => none
  | n + 1, s => do
    let (c, b, a) := (s.cont, s.brk, s.adj)
    let (forL, s) := newLabel s
    let (endL, s) := newLabel s
    let (contL, s) := newLabel s
    let s := { s with cont := contL, brk := endL, adj := 0 }
    let s := s.next
    match s.tok with
    | .var v =>
      if forKind v.kind = true then
        let s ← assignment g n .sts v.kind.et v s.next
        if s.tok = .downto_ ∨ s.tok = .to_ then
          let down := s.tok = .downto_
          let (_, s) ← expression g n v.kind.et s.next
          let s := s.expect .do_
          let s := genData .label forL.toNat s
          let s := stackRef g .lds v (genSimple .dup s)
          let s := genData (if down then .jgt else .jlt) endL.toNat s
          let s ← statement g n s
          let s := stackRef g .lds v (genData .label contL.toNat s)
          let s := stackRef g .sts v (genSimple (if down then .dec else .inc) s)
          let s := genData .jmp forL.toNat s
          let s := genData .inds (-2) (genData .label endL.toNat s)
          pure { s with cont := c, brk := b, adj := a }
        else none
      else
        let s := s.err
        pure { s with cont := c, brk := b, adj := a }
    | .other _ => none
    | _ =>
      let s := s.err
      pure { s with cont := c, brk := b, adj := a }

end

end Pas.Comp
