import Verif.Spec.Memory

/-! Specification of executable bytes (properties C08, C09). -/
namespace Pas.Spec

/-- The opcode byte `b` is not an executable instruction: it has no meaning at all or is one of
the two pseudo instructions (labels and line numbers) that exist only in object files. -/
def NotExecutable (b : Byte) : Prop :=
  (∀ o : Op, o.toByte ≠ b) ∨ b = Op.label.toByte ∨ b = Op.line.toByte

/-- Number of operand bytes announced by the two top bits of an opcode byte. -/
def operandBytes (b : Byte) : Nat :=
  if b.toNat < 64 then 0 else if b.toNat < 128 then 1 else if b.toNat < 192 then 2 else 3

/-- Two programs agree on all addresses below `n`. -/
def AgreeBelow (n : Nat) (c c' : List Byte) : Prop := ∀ i < n, c[i]? = c'[i]?

/-- The operand of LONGOP8 is one of the documented operations, `insn16/include/longops.h` 52-118. -/
def LongCode (b : Byte) : Prop := 0x40 ≤ b.toNat ∧ b.toNat ≤ 0x68

/-- The library routines report their own errors, never "illegal opcode". -/
structure NoIllegal (lib : Lib) : Prop where
  float : ∀ s b s', lib.floatOps s b ≠ .ok (eILLEGALOPCODE, s')
  set : ∀ s b s', lib.setOps s b ≠ .ok (eILLEGALOPCODE, s')
  os : ∀ s b s', lib.osOps s b ≠ .ok (eILLEGALOPCODE, s')
  long : ∀ s b s', LongCode b → lib.longOps8 s b ≠ .ok (eILLEGALOPCODE, s')
  str : ∀ s w s', lib.strOps s w ≠ .ok (eILLEGALOPCODE, s')
  io : ∀ s w s', lib.sysIo s w ≠ .ok (eILLEGALOPCODE, s')

end Pas.Spec
