import Verif.Model.Insn

/-! The finalization pass of the optimizer: `insn16/popt/popt_finalize.c`, `libpoff/pflabel.c`. -/
namespace Pas

/-- `poffRelocation_t`, `include/poff.h`: symbol index, kind and section offset.  Lines 286-302. -/
structure Reloc where
  sym : Nat
  kind : Nat
  offset : Nat
deriving DecidableEq, Repr

/-- `RLT_PCAL`, `RLT_LDST`, `include/poff.h`.  Lines 147-148. -/
def RLT_PCAL : Nat := 1
/-- See `RLT_PCAL`, `include/poff.h` 148. -/
def RLT_LDST : Nat := 2

/-- `poffLineNumber_t`, `include/poff.h`.  Lines 365-386. -/
structure LineNo where
  line : Word
  file : Byte
  offset : Nat
deriving DecidableEq, Repr

/-- Kinds of symbols (`STT_DATA`, `STT_RODATA`, `STT_PROC`, `STT_FUNC`, `include/poff.h`).
`include/poff.h` 122-127. -/
inductive SymType where
  | data | rodata | proc | func
deriving DecidableEq, Repr

/-- `poffLibSymbol_t`, `include/pofflib.h` 69-113; the alignment field is left out and the flag
word reduced to `STF_UNDEFINED`. -/
structure Sym where
  name : List Byte
  type : SymType
  undefined : Bool
  value : Nat
  size : Nat
deriving DecidableEq, Repr

/-- `poffGetPcForDefinedLabel`, `libpoff/pflabel.c` 256-268 and `poffGetSymIndexForUndefinedLabel`
240-252: the first entry for the label.  (The C functions return `int`: values of 2^31 and more,
which they would take for a failure, are not considered.) -/
def findLabel : List (Nat × Nat) → Nat → Option Nat
  | [], _ => none
  | (l, v) :: r, x => if l = x then some v else findLabel r x

/-- State of `pass1`: output program, label table, line table, relocations still to come and
relocations written.  `insn16/popt/popt_finalize.c` 150-187. -/
structure Pass1 where
  out : List Byte
  labels : List (Nat × Nat)
  lines : List LineNo
  inRel : List Reloc
  outRel : List Reloc
deriving DecidableEq, Repr

/-- `popt_WriteOpCode`, `popt_finalize.c` 103-141: `off` is the offset of the instruction in the
input, `out.length` = `g_outSectionOffset` the one in the output.  The report `eBADRELOCDATA`
for relocations out of order is not modelled (it does not change what is written). -/
def writeOp (p : Pass1) (op : OpType) (off : Nat) : Pass1 :=
  let p := match p.inRel with
    | r :: rest =>
      if r.offset = off then
        { p with
          inRel := rest
          outRel := p.outRel ++ [{ r with offset := r.offset - (off - p.out.length) }] }
      else p
    | [] => p
  { p with out := (addOpCode p.out op).1 }

/-- `pass1`, `popt_finalize.c` 145-179.  `off` is `g_inSectionOffset`.  Every iteration but the
last consumes input, so `fuel` = number of unread bytes + 1 is enough. -/
def pass1 : Nat → Reader → Nat → Pass1 → Res Pass1
  | 0, _, _, _ => .hang
  | fuel + 1, r, off, p =>
    let (op, size, r) := getOpCode r
    let p :=
      if op.op = Op.label.toByte then
        { p with labels := p.labels ++ [(op.arg2.toNat, p.out.length)] }
      else if op.op = Op.line.toByte then
        { p with lines := p.lines ++ [⟨op.arg2, op.arg1, p.out.length⟩] }
      else writeOp p op off
    if op.op ≠ Op.end_.toByte then pass1 fuel r (off + size) p else .ok p

/-- `pass2`, `popt_finalize.c` 183-261: the symbols with labels replaced by addresses, and the
table of undefined labels; `none` is a fatal error.  `idx` is the index of the next symbol. -/
def pass2 (labels : List (Nat × Nat)) : Nat → List Sym → Option (List Sym × List (Nat × Nat))
  | _, [] => some ([], [])
  | idx, s :: rest => do
    let (syms, undef) ← pass2 labels (idx + 1) rest
    if s.type = .proc ∨ s.type = .func then
      if s.undefined then some (s :: syms, (s.value, idx) :: undef)
      else do
        let v ← findLabel labels s.value
        some ({ s with value := v } :: syms, undef)
    else some (s :: syms, undef)

/-- Jumps whose operand `pass3` replaces, `popt_finalize.c` 354-366. -/
def pass3Jump : Op → Bool
  | .jmp | .jequz | .jneqz | .jltz | .jgtez | .jgtz | .jltez
  | .jequ | .jneq | .jlt | .jgte | .jgt | .jlte => true
  | _ => false

/-- The `switch` of `pass3`, `popt_finalize.c` 291-437: the instruction with its label replaced
and the relocation generated, if any; `none` is a fatal error. -/
def pass3Op (labels undef : List (Nat × Nat)) (op : OpType) (pc : Nat) :
    Option (OpType × List Reloc) :=
  match Op.ofByte op.op with
  | some .pcal =>
    match findLabel labels op.arg2.toNat with
    | some v => some ({ op with arg2 := BitVec.ofNat 16 v }, [])
    | none =>
      match findLabel undef op.arg2.toNat with
      | some i => some ({ op with arg2 := 0 }, [⟨i, RLT_PCAL, pc⟩])
      | none => none
  | some o =>
    if pass3Jump o then
      match findLabel labels op.arg2.toNat with
      | some v => some ({ op with arg2 := BitVec.ofNat 16 v }, [])
      | none => none
    else some (op, [])
  | none => some (op, [])

/-- `pass3`, `popt_finalize.c` 265-451. -/
def pass3 (labels undef : List (Nat × Nat)) :
    Nat → Reader → Nat → List Byte → List Reloc → Res (Option (List Byte × List Reloc))
  | 0, _, _, _, _ => .hang
  | fuel + 1, r, pc, out, rel =>
    let (op, size, r) := getOpCode r
    match pass3Op labels undef op pc with
    | none => .ok none
    | some (op', new) =>
      let out := (addOpCode out op').1
      if op'.op ≠ Op.end_.toByte then pass3 labels undef fuel r (pc + size) out (rel ++ new)
      else .ok (some (out, rel ++ new))

/-- What finalization reads and writes of an object file: program section, symbols, relocations,
line numbers, and the entry point of a program (`none` for a unit).  `insn16/popt/popt_finalize.c` 497-605. -/
structure ObjFile where
  prog : List Byte
  syms : List Sym
  rels : List Reloc
  lines : List LineNo
  entry : Option Nat
deriving DecidableEq, Repr

/-- `popt_Finalization`, `popt_finalize.c` 497-605, with `pass4` 455-488.  `none` is a fatal
error.  Memory exhaustion and the report `eEXTRARELOCS` are not modelled. -/
def finalize (f : ObjFile) : Res (Option ObjFile) := do
  let p ← pass1 (f.prog.length + 1) (openReader f.prog) 0 ⟨[], [], f.lines, f.rels, []⟩
  match pass2 p.labels 0 f.syms with
  | none => .ok none
  | some (syms, undef) =>
    match ← pass3 p.labels undef (p.out.length + 1) (openReader p.out) 0 [] p.outRel with
    | none => .ok none
    | some (prog, rels) =>
      match f.entry with
      | none => .ok (some ⟨prog, syms, rels, p.lines, none⟩)
      | some e =>
        match findLabel p.labels e with
        | none => .ok none
        | some v => .ok (some ⟨prog, syms, rels, p.lines, some v⟩)

end Pas
