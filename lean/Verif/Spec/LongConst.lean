import Verif.Spec.Peephole
import Verif.Spec.Long
import Verif.Model.Optimize

/-! Specification of the folding of 32-bit constants (property C62). -/
namespace Pas.Spec
open Popt

/-- The same state, but for words above the top of the stack and at most four words above `base`
(the top of the stack when the sequence was entered): the operands of an operation on two longs. -/
structure SameLong (base : Nat) (s s' : VM) : Prop where
  regs : s' = { s with mem := s'.mem }
  live : ∀ i, i ≤ s.sp.toNat / 2 ∨ base + 4 < i → s'.mem i = s.mem i

/-- In the states of `P`, `after` can replace `before`: whenever `before` runs, `after` runs to the
same end and leaves the same registers, the same stack and the same memory. -/
def SoundLong (lib : Lib) (P : VM → Prop) (before after : List OpType) : Prop :=
  ∀ s, Roomy s → P s → ∀ e s', execSeq lib before s = .ok (e, s') →
    ∃ s'', execSeq lib after s = .ok (e, s'') ∧ SameLong (s.sp.toNat / 2) s' s''

/-- The window of the optimizer with these instructions. -/
def window (l : List OpType) : Table := l.map fun i => ⟨i, 0⟩

/-- The instructions in the window. -/
def insnsOf (t : Table) : List OpType := t.map (·.ins)

/-- The long operation with the code `c`. -/
def longOp (c : Byte) : OpType := ⟨Op.longop8.toByte, c, 0⟩

/-- The constant that two instructions push: the low half first. -/
def constLong (a b : OpType) : BitVec 32 := (expandPush b).arg2 ++ (expandPush a).arg2

/-- When `popt_LongUnaryOptimize` is right about the operation `c` on the constant `v`.  Not covered are
the conversion to 16 bits (0x60), the comparisons with zero (0x50-0x55), comparisons for equality with
0 (0x56, 0x57), comparisons for order with 0, 1 and −1 (0x58-0x5b), and shifts (0x4b-0x4d) of a long with
the high half 0 by 0.  The conversions from 16 bits (0x5e, 0x5f) have one constant.  There are no 8-bit
operations from 0xc0 on. -/
def LongOk (c : Byte) (v : BitVec 32) : Prop :=
  c.toNat < 0xc0 ∧ c ≠ 0x60#8 ∧ c ≠ 0x5e#8 ∧ c ≠ 0x5f#8 ∧ ¬ (0x50 ≤ c.toNat ∧ c.toNat ≤ 0x55) ∧
  (c = 0x56#8 ∨ c = 0x57#8 → v ≠ 0#32) ∧
  (0x58 ≤ c.toNat ∧ c.toNat ≤ 0x5b → v ≠ 0#32 ∧ v ≠ 1#32 ∧ v ≠ 0xffffffff#32) ∧
  (0x4b ≤ c.toNat ∧ c.toNat ≤ 0x4d → v ≠ 0#32)

/-- When `popt_LongBinaryOptimize` is right about the operation `c` on two constants: the comparisons for
order (0x58-0x5b, 0x64-0x67) are not covered, and the shifts (0x4b-0x4d) have a 16-bit count. -/
def BinaryOk (c : Byte) : Prop :=
  ¬ (0x58 ≤ c.toNat ∧ c.toNat ≤ 0x5b) ∧ ¬ (0x64 ≤ c.toNat ∧ c.toNat ≤ 0x67) ∧
  ¬ (0x4b ≤ c.toNat ∧ c.toNat ≤ 0x4d) ∧ c ≠ 0x38#8

end Pas.Spec
