import Verif.Model.Opcodes
import Verif.Model.Res

/-! Instruction encoding, decoding and relocation: `insn16/libinsn`. -/
namespace Pas

/-- `opType_t`, `include/pas_machine.h` 167-174. -/
structure OpType where
  op : Byte
  arg1 : Byte
  arg2 : Word
deriving DecidableEq, Repr

/-- High and low byte of a 16-bit argument, `insn_addopcode.c` 74-75. -/
def hiByte (w : Word) : Byte := (w >>> 8).setWidth 8
/-- The low byte of an argument, `insn16/libinsn/insn_addopcode.c` 54-82. -/
def loByte (w : Word) : Byte := (w &&& 0xff#16).setWidth 8

/-- Bytes written by `insn_AddOpCode` (`insn_addopcode.c` 54-82) and `insn_AddTmpOpCode`
(`insn_addtmpopcode.c` 52-80).  The growing output buffer is a list (memory exhaustion, which
ends the program, is not modelled). -/
def opBytes (i : OpType) : List Byte :=
  i.op :: ((if hasArg8 i.op then [i.arg1] else []) ++
    (if hasArg16 i.op then [hiByte i.arg2, loByte i.arg2] else []))

/-- Size returned by `insn_AddOpCode`, `insn_addopcode.c` 59-81. -/
def addSize (i : OpType) : Nat :=
  1 + (if hasArg8 i.op then 1 else 0) + (if hasArg16 i.op then 2 else 0)

/-- `insn_AddOpCode`: new output and returned size.  `insn16/libinsn/insn_addopcode.c` 54-82. -/
def addOpCode (out : List Byte) (i : OpType) : List Byte × Nat := (out ++ opBytes i, addSize i)

/-- State of reading: the bytes of the program section not read yet (`progSectionIndex`,
`libpoff/pfrprog.c` 55-72) and `g_bEndIn` (`insn_getopcode.c` 58). -/
structure Reader where
  rest : List Byte
  endIn : Bool
deriving DecidableEq, Repr

/-- `poffGetProgByte`, `libpoff/pfrprog.c` 55-72 (`none` = `EOF`). -/
def getByte : List Byte → Option Byte × List Byte
  | [] => (none, [])
  | b :: r => (some b, r)

/-- `EOF` (-1) converted to `uint8_t`.  `insn16/libinsn/insn_getopcode.c` 64-130. -/
def eofByte (b : Option Byte) : Byte := b.getD 0xff#8

/-- `insn_GetOpCode`, `insn_getopcode.c` 66-131. -/
def getOpCode (r : Reader) : OpType × Nat × Reader :=
  if r.endIn then (⟨Op.end_.toByte, 0, 0⟩, 1, r)
  else match getByte r.rest with
    | (none, rest) => (⟨Op.end_.toByte, 0, 0⟩, 1, ⟨rest, false⟩)
    | (some op, rest) =>
      let (a1, rest, n1) : Byte × List Byte × Nat :=
        if hasArg8 op then (eofByte (getByte rest).1, (getByte rest).2, 1) else (0, rest, 0)
      let (a2, rest, n2) : Word × List Byte × Nat :=
        if hasArg16 op then
          let (h, rest) := getByte rest
          let (l, rest) := getByte rest
          (eofByte h ++ eofByte l, rest, 2)
        else (0, rest, 0)
      (⟨op, a1, a2⟩, 1 + n1 + n2, ⟨rest, op == Op.end_.toByte⟩)

/-- `insn_ResetOpCodeRead`, `insn_getopcode.c` 135-139. -/
def openReader (prog : List Byte) : Reader := ⟨prog, false⟩

/-- `insn16_Generate`, `insn_generate.c` 246-268: the bytes appended to the program section.
`arg1` is 16 bits wide and `arg2` 32 bits; values out of range are reported (first component
`false`) and truncated. -/
def generate (op : Op) (arg1 : Word) (arg2 : BitVec 32) : Bool × List Byte :=
  let b := op.toByte
  let ok1 := !hasArg8 b || decide (arg1.toNat ≤ 0xff)
  let ok2 := !hasArg16 b || (decide (-32768 ≤ arg2.toInt) && decide (arg2.toInt ≤ 65535))
  (ok1 && ok2,
    b :: ((if hasArg8 b then [arg1.setWidth 8] else []) ++
      (if hasArg16 b then [hiByte (arg2.setWidth 16), loByte (arg2.setWidth 16)] else [])))

/-- `insn16_longOpcodeGenerate`, `insn_genlongop.c` 168-200, for the long operation whose code
byte is `b`. -/
def generateLong (b : Byte) (arg2 : BitVec 32) : List Byte :=
  if hasArg16 b then
    [Op.longop24.toByte, b, hiByte (arg2.setWidth 16), loByte (arg2.setWidth 16)]
  else [Op.longop8.toByte, b]

/-- Opcodes whose operand `insn_Relocate` treats as a program address
(`insn_relocate.c` 75-88). -/
def relocPc : Op → Bool
  | .pcal | .jmp | .jequz | .jneqz | .jltz | .jgtez | .jgtz | .jltez
  | .jequ | .jneq | .jlt | .jgte | .jgt | .jlte => true
  | _ => false

/-- `insn_Relocate`, `insn_relocate.c` 57-107: new instruction and result (1 for `oEND`). -/
def relocate (i : OpType) (pcOffset roOffset : Nat) : OpType × Nat :=
  match Op.ofByte i.op with
  | some .lac => ({ i with arg2 := i.arg2 + BitVec.ofNat 16 roOffset }, 0)
  | some .end_ => (i, 1)
  | some o => if relocPc o then ({ i with arg2 := i.arg2 + BitVec.ofNat 16 pcOffset }, 0) else (i, 0)
  | none => (i, 0)

/-- The loop of `plink_MergeProgramData`, `plink/plink.c` 361-381: appends the relocated program
to `out` and returns the new output and the final `pc`.  Every iteration but the last consumes
input, so `fuel` = number of unread bytes + 1 is enough (`.hang` is never returned, see
`C29_merge_partial`). -/
def mergeLoop (pcOffset roOffset : Nat) : Nat → Reader → List Byte → Nat → Res (List Byte × Nat)
  | 0, _, _, _ => .hang
  | fuel + 1, r, out, pc =>
    let (op, size, r) := getOpCode r
    let (op, endOp) := relocate op pcOffset roOffset
    let out := (addOpCode out op).1
    if endOp = 0 then mergeLoop pcOffset roOffset fuel r out (pc + size)
    else .ok (out, pc + size)

/-- `plink_MergeProgramData`, `plink/plink.c` 348-382. -/
def mergeProgram (prog : List Byte) (out : List Byte) (pcOffset roOffset : Nat) :
    Res (List Byte × Nat) :=
  mergeLoop pcOffset roOffset (prog.length + 1) (openReader prog) out pcOffset

/-- `insn_FixupProcedureCall`, `insn_relocate.c` 111-129, on the bytes starting at the call
(`none`: a fatal error is reported; fewer than four bytes: undefined, `ub`). -/
def fixupCall (p : List Byte) (symValue : Nat) : Res (Option (List Byte)) :=
  match p with
  | b0 :: b1 :: _ :: _ :: r =>
    if b0 ≠ Op.pcal.toByte then .ok none
    else if symValue > 0xffff then .ok none
    else .ok (some (b0 :: b1 :: BitVec.ofNat 8 (symValue / 256) :: BitVec.ofNat 8 symValue :: r))
  | b0 :: _ => if b0 ≠ Op.pcal.toByte ∨ symValue > 0xffff then .ok none else .ub
  | [] => .ub

/-- `insn_FixupFrameOffset`, `insn_relocate.c` 133-160. -/
def fixupFrame (p : List Byte) (symValue : Nat) : Res (Option (List Byte)) :=
  match p with
  | [] => .ub
  | b0 :: r =>
    if hasArg16 b0 = false then .ok none
    else if symValue > 0xffff then .ok none
    else
      let k := if hasArg8 b0 = false then 1 else 2
      if k + 1 < (b0 :: r).length then
        .ok (some (((b0 :: r).set k (BitVec.ofNat 8 (symValue / 256))).set (k + 1)
          (BitVec.ofNat 8 symValue)))
      else .ub

end Pas
