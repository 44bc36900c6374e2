import Verif.Model.Heap

/-! Start-up: `libexec_Initialize` and `libexec_Reset` (`insn16/libexec/libexec_run.c`). -/
namespace Pas

/-- `struct libexec_attr_s`, `insn16/include/libexec.h` 236-254, without the instruction space
(`ispace`, `maxpc`), which the interpreter model takes as separate arguments.  `rodata` lists
the constant bytes (`roSize` is its length). -/
structure Attr where
  entry : Word
  rodata : List Byte
  strSize : Word
  stkSize : Word
  hpSize : Word

/-- `INT_ALIGNUP`, `include/pas_machine.h` 74, stored in a `pasSize_t` (`uint16_t`). -/
def intAlignUp (n : Nat) : Nat := (n + 1) / 2 * 2 % 65536

/-- `memcpy(&dstack.b[a], bytes, len)` (undefined if it leaves the allocation).
`insn16/libexec/libexec_run.c` 1418. -/
def copyIn (s : VM) (a : Nat) : List Byte → Res VM
  | [] => .ok s
  | b :: bs => do
      let s ← s.wrB a b
      copyIn s (a + 1) bs

/-- `libexec_Reset`, `libexec_run.c` 1519-1580.  Not modelled: the exit code. -/
def reset (entry : Word) (s : VM) : Res VM := do
  let rop := s.strSize
  let base := rop + s.roSize
  let hpb := base + s.stkSize
  let s := { s with
    rop := rop, hpb := hpb, csp := 0#16, sp := base + 10#16, fp := base, hsp := hpb,
    pc := entry, lsp := 0#16, spb := base, io := s.io.initializeFile }
  let dndx := base.toNat / 2
  let s ← s.wr dndx 0#16
  let s ← s.wr (dndx + 1) 0xffff#16
  let s ← s.wr (dndx + 2) 0#16
  let s ← s.wr (dndx + 3) 0#16
  let s ← s.wr (dndx + 4) 0#16
  let s := { s with spb := s.spb + 10#16 }
  Heap.initializeHeap s

/-- `libexec_Initialize`, `libexec_run.c` 1372-1450, when both allocations succeed.  `m0` is the
arbitrary initial contents of the allocated memory, `files` the files of the host; `stackSize` is a 16-bit
sum. -/
def startUp (a : Attr) (m0 : Nat → Word) (files : HostFile → Option (List Byte) := fun _ => none) : Res VM := do
  let str := intAlignUp a.strSize.toNat
  let ro := intAlignUp a.rodata.length
  let stk := intAlignUp a.stkSize.toNat
  let hp := intAlignUp a.hpSize.toNat
  let stackSize := (str + ro + stk + hp) % 65536
  let s : VM :=
    { mem := m0, words := stackSize / 2, spb := 0#16, sp := 0#16, csp := 0#16, hpb := 0#16,
      hsp := 0#16, fp := 0#16, rop := 0#16, pc := 0#16, lsp := 0#16,
      strSize := BitVec.ofNat 16 str, roSize := BitVec.ofNat 16 ro, stkSize := BitVec.ofNat 16 stk,
      hpSize := BitVec.ofNat 16 hp, freeChunks := none, io := { Io.empty with files := files } }
  let s ← copyIn s a.strSize.toNat a.rodata
  reset a.entry s

end Pas
