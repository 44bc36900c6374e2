import Verif.Model.Block
import Verif.Model.Finalize
import Verif.Model.Link
import Verif.Model.Init
import Verif.Spec.Encoding

/-! From the tokens of a program to a running machine: `pas`, `popt`, `plink` and `prun` one after
the other.  Between them the object is written to a file and read again (properties C37, C39 and
C40 are about that) and, as a simplification, the optimizer changes nothing: its rules are the
subject of properties C30 to C33, and only its finalization is part of the chain. -/
namespace Pas.Comp
open Pas.Spec (encode)

/-- What `pas` writes for a program: the code (`insn_AddOpCode`), no symbols, no relocations, and the
label of the entry point (`pas_block.c` 3004). -/
def Object.file (o : Object) : ObjFile := ⟨encode o.code, [], [], [], some o.entry.toNat⟩

/-- What `plink` reads: a file of type FHT_PROGRAM (3, `pas_program.c` 142) with the name of the program
and the source file names, and with the read-only data of the object (`popt` writes it as it has read
it, `readPoffFile` and `writePoffFile`, `popt.c` 86-154). -/
def linkInput (name : List Byte) (files : List (List Byte)) (ro : List Byte) (f : ObjFile) :
    Link.Input :=
  ⟨3#8, name, BitVec.ofNat 32 (f.entry.getD 0), ro, f.prog, files,
    f.lines.map fun l => (l.line, l.file.zeroExtend 16, BitVec.ofNat 32 l.offset), [], []⟩

/-- `pas` (which returns an error status if there were errors, `pas_main.c` 424-428), `popt`
(`popt.c` 162-201, finalization only) and `plink`. -/
def build (line : Nat → Byte × Word) (pad : Byte) (name : List Byte) (files : List (List Byte)) (n : Nat)
    (toks : List Lx) : Res (Option Link.Output) := do
  match ← program line pad n toks with
  | none => .ok none
  | some obj =>
    if obj.errs ≠ 0 then .ok none
    else
      match ← finalize obj.file with
      | none => .ok none
      | some f => Link.link [linkInput name files obj.rodata f]

/-- The attributes of the program `libexec_Load`, `libexec_load.c` 57-146, starts the machine with;
the entry point is cut to 16 bits. -/
def attrOf (o : Link.Output) (strSize stkSize hpSize : Word) : Attr :=
  ⟨o.entry.truncate 16, o.rodata, strSize, stkSize, hpSize⟩

/-- `maxpc`: the size of the program, cut to 16 bits (`libexec_load.c` 123). -/
def maxPc (o : Link.Output) : Word := BitVec.ofNat 16 o.prog.length

end Pas.Comp
