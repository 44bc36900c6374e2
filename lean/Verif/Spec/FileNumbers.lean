import Verif.Spec.Files
import Verif.Spec.Memory

/-! Specification of file numbers (property C66) and positions in files (property C67). -/
namespace Pas.Spec

/-- The file number `n` is in use. -/
def InUse (s : VM) (n : Word) : Prop := n.toNat < 8 ∧ (s.io.table n.toNat).inUse = true

/-- `s'` is `s` after an instruction of 3 bytes that has removed `k` words from the stack and pushed `r` (the
topmost word first).  The rest of the memory and the other registers are as before; the files may differ. -/
structure Gave (s s' : VM) (k : Nat) (r : List Word) : Prop where
  regs : s' = { s with sp := s'.sp, pc := s'.pc, mem := s'.mem, io := s'.io }
  sp : s'.sp = s.sp - BitVec.ofNat 16 (2 * k) + BitVec.ofNat 16 (2 * r.length)
  pc : s'.pc = s.pc + 3#16
  result : ∀ i (h : i < r.length), opnd s' i = r[i]
  frame : ∀ j, (j + r.length ≤ s'.sp.toNat / 2 ∨ s'.sp.toNat / 2 < j) → s'.mem j = s.mem j

/-- A 32-bit number on the stack: the upper half is on top. -/
def longOf (hi lo : Word) : Nat := hi.toNat * 65536 + lo.toNat

/-- File number `n` is open on the named file `f` at position `pos`. -/
structure OpenAt (s : VM) (n : Word) (f : List Byte) (pos : Nat) : Prop where
  number : n.toNat < 8
  isOpen : ∃ t, (s.io.table n.toNat).stream = some t ∧ t.file = .named f ∧ t.pos = pos

/-- The files, and of the table everything but the stream of `n`, are as before. -/
structure SameFiles (s s' : VM) (n : Word) : Prop where
  files : s'.io.files = s.io.files
  numbers : ∀ i, i ≠ n.toNat → s'.io.table i = s.io.table i
  entry : s'.io.table n.toNat = { s.io.table n.toNat with stream := (s'.io.table n.toNat).stream }

/-- File number `n` is assigned to the file `name`, which is not open. -/
structure Unopened (s : VM) (n : Word) (name : List Byte) : Prop where
  number : n.toNat < 8
  closed : (s.io.table n.toNat).stream = none
  assigned : (s.io.table n.toNat).fileName = name

/-- `s'` is `s` after an instruction of 3 bytes that has removed one word from the stack and done something to the
file number `n`: memory, the other registers and the other file numbers are as before. -/
structure Opened (s s' : VM) (n : Word) : Prop where
  regs : s' = { s with sp := s'.sp, pc := s'.pc, io := s'.io }
  sp : s'.sp = s.sp - 2#16
  pc : s'.pc = s.pc + 3#16
  numbers : ∀ i, i ≠ n.toNat → s'.io.table i = s.io.table i
  entry : s'.io.table n.toNat = { s.io.table n.toNat with
    stream := (s'.io.table n.toNat).stream
    openMode := (s'.io.table n.toNat).openMode }

end Pas.Spec
