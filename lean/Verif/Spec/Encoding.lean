import Verif.Model.Insn
import Verif.Spec.Memory

/-! Specification of instruction streams (properties C28, C29). -/
namespace Pas.Spec

/-- An instruction: an operation and the operands it has (those it has not are zero). -/
structure WellFormed (i : OpType) : Prop where
  known : ∃ o : Op, o.toByte = i.op
  no8 : hasArg8 i.op = false → i.arg1 = 0
  no16 : hasArg16 i.op = false → i.arg2 = 0

/-- Number of bytes of an instruction: opcode, 8-bit operand, 16-bit operand. -/
def byteSize (i : OpType) : Nat := 1 + operandBytes16 i.op
where
  /-- Operand bytes announced by the two top bits. -/
  operandBytes16 (b : Byte) : Nat :=
    if b.toNat < 64 then 0 else if b.toNat < 128 then 1 else if b.toNat < 192 then 2 else 3

/-- A program: any instructions, END only as the last one. -/
def EndsOnce (l : List OpType) : Prop := ∀ i ∈ l.dropLast, i.op ≠ Op.end_.toByte

/-- Read `n` instructions one after the other with the reader `next`. -/
def readN {σ α : Type} (next : σ → α × Nat × σ) : Nat → σ → List (α × Nat) × σ
  | 0, s => ([], s)
  | n + 1, s =>
    let (a, k, s') := next s
    let (l, t) := readN next n s'
    ((a, k) :: l, t)

/-- What a 16-bit operand denotes. -/
inductive OperandKind where
  | program   -- address of an instruction
  | constant  -- address in the constant section
  | other     -- anything else: number, offset, size, code, ...
deriving DecidableEq

/-- Every jump and call has a program address, LAC a constant address. -/
def operandKind : Op → OperandKind
  | .pcal | .jmp | .jequz | .jneqz | .jltz | .jgtez | .jgtz | .jltez
  | .jequ | .jneq | .jlt | .jgte | .jgt | .jlte
  | .jult | .jugte | .jugt | .julte => .program
  | .lac => .constant
  | _ => .other

/-- The instruction with its addresses moved. -/
def moved (o : Op) (i : OpType) (pcOffset roOffset : Nat) : OpType :=
  match operandKind o with
  | .program => { i with arg2 := i.arg2 + BitVec.ofNat 16 pcOffset }
  | .constant => { i with arg2 := i.arg2 + BitVec.ofNat 16 roOffset }
  | .other => i

/-- `moved` for an instruction given by its opcode byte. -/
def movedI (i : OpType) (pcOffset roOffset : Nat) : OpType :=
  match Op.ofByte i.op with
  | some o => moved o i pcOffset roOffset
  | none => i

/-- The bytes of a list of instructions, each written by `insn_AddOpCode` after the ones before,
and the sum of the sizes it returns. -/
def emitAll : List OpType → List Byte → List Byte × Nat
  | [], out => (out, 0)
  | i :: l, out =>
    let r := addOpCode out i
    let q := emitAll l r.1
    (q.1, r.2 + q.2)

/-- The bytes of a program. -/
def encode (l : List OpType) : List Byte := (emitAll l []).1

/-- Address of instruction number `n` of a program. -/
def startOf (l : List OpType) (n : Nat) : Nat := ((l.take n).map byteSize).sum

/-- All program addresses in the instructions are addresses of instructions. -/
def Closed (l : List OpType) : Prop :=
  ∀ i ∈ l, ∀ o : Op, o.toByte = i.op → operandKind o = .program →
    ∃ n < l.length, i.arg2.toNat = startOf l n

/-- The jumps on unsigned comparisons. -/
def UnsignedJump (o : Op) : Prop := o = .jult ∨ o = .jugte ∨ o = .jugt ∨ o = .julte

end Pas.Spec
