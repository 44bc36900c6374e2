import Verif.Model.Opcodes
import Verif.Model.Insn

/-! Specification of what the optimizer must keep (properties C59-C61).  A program is the list of
its instructions. -/
namespace Pas.Spec

/-- The instructions that are executed: those before the first oEND. -/
def beforeEnd (prog : List OpType) : List OpType := prog.takeWhile (fun i => i.op != Op.end_.toByte)

/-- The instruction has one of the opcodes. -/
def opIn (os : List Op) (i : OpType) : Bool := os.any (fun o => i.op == o.toByte)

/-- Labels, calls, returns and source line marks. -/
def structural : OpType → Bool := opIn [.label, .pcal, .ret, .line]

/-- Instructions whose 16-bit operand is a label to go to. -/
def jumps : List Op :=
  [.jmp, .jequz, .jneqz, .jltz, .jgtez, .jgtz, .jltez, .jequ, .jneq, .jlt, .jgte, .jgt, .jlte,
   .jult, .jugte, .jugt, .julte]

/-- A jump, or a long operation with the code of a jump. -/
def jumping (i : OpType) : Bool :=
  opIn jumps i || (i.op == Op.longop8.toByte && decide (0xc0 ≤ i.arg1.toNat))

/-- The program has a label (compiled programs start with a jump to the label of their main
block). -/
def HasLabel (prog : List OpType) : Prop := ∃ i ∈ beforeEnd prog, i.op = Op.label.toByte

/-- No instruction of the program has one of the opcodes. -/
def Without (os : List Op) (prog : List OpType) : Prop := ∀ i ∈ prog, opIn os i = false

/-- Number of bytes of the instructions. -/
def bytesOf (l : List OpType) : Nat := (l.map addSize).sum

/-- Every place to go to is a label of the program. -/
def JumpsToLabels (prog : List OpType) : Prop :=
  ∀ i ∈ prog, jumping i = true → ∃ l ∈ beforeEnd prog, l.op = Op.label.toByte ∧ l.arg2 = i.arg2

/-- The instructions that do something: all but oNOP and oLINE. -/
def effective (prog : List OpType) : List OpType := prog.filter (fun i => !opIn [.nop, .line] i)

/-- The call that copies a string constant to the heap, `SLIB STRDUP`. -/
def isDup (i : OpType) : Prop := i.op = Op.strlib.toByte ∧ i.arg2 = 0x0009#16

/-- What the string optimizations may do to a program: leave out the copying of a constant (`LAC`)
where the next operation takes its string as a parameter it only reads.  The operations are, with the
size of the allocation loaded before, STRCPY2, STRCPYX2, STRDUP, STRCAT and STRCMP (1, 3, 9, 11, 13),
or, with an address loaded after that size, STRCPY and STRCPYX (0, 2). -/
inductive DropDup : List OpType → List OpType → Prop where
  | refl (l : List OpType) : DropDup l l
  | read (pre post : List OpType) (a b c d : OpType) (l : List OpType) (ha : a.op = Op.lac.toByte)
      (hb : isDup b) (hc : opIn [.ld, .lds, .push, .pushb] c = true) (hd : d.op = Op.strlib.toByte)
      (hd' : d.arg2.toNat ∈ [1, 3, 9, 11, 13]) (h : DropDup (pre ++ a :: c :: d :: post) l) :
      DropDup (pre ++ a :: b :: c :: d :: post) l
  | copy (pre post : List OpType) (a b c d e : OpType) (l : List OpType) (ha : a.op = Op.lac.toByte)
      (hb : isDup b) (hc : opIn [.ld, .lds, .push, .pushb] c = true) (hd : opIn [.la, .las] d = true)
      (he : e.op = Op.strlib.toByte) (he' : e.arg2.toNat ∈ [0, 2])
      (h : DropDup (pre ++ a :: c :: d :: e :: post) l) :
      DropDup (pre ++ a :: b :: c :: d :: e :: post) l

/-- The program is rewritten step by step: instructions executed one after the other are replaced
according to the rules `R` (what a rule replaces by oNOP is left out). -/
inductive Rewrites (R : List OpType → List OpType → Prop) : List OpType → List OpType → Prop where
  | refl (l : List OpType) : Rewrites R l l
  | step (pre post before after l : List OpType) (h : R before after)
      (h' : Rewrites R (pre ++ effective after ++ post) l) : Rewrites R (pre ++ before ++ post) l

end Pas.Spec
