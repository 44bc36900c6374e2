import Verif.Model.Init
import Verif.Spec.Frames

/-! Specification of the memory map after start-up (property C10). -/
namespace Pas.Spec

/-- Size rounded up to a multiple of two. -/
def even (n : Nat) : Nat := (n + 1) / 2 * 2

/-- Start of the heap region. -/
def heapBase (a : Attr) : Nat :=
  even a.strSize.toNat + even a.rodata.length + even a.stkSize.toNat

/-- The four regions, in this order: string stack `[0, rop)`, constants `[rop, fp)`, Pascal stack
`[fp, hpb)` starting with the five-word frame of the main program, heap `[hpb, end)`, each at
least as large as requested; nothing is left over.  The frame is aligned. -/
structure MemoryMap (a : Attr) (s : VM) : Prop where
  strings : a.strSize.toNat ≤ s.rop.toNat
  constants : s.rop.toNat + a.rodata.length ≤ s.fp.toNat
  frame : s.spb.toNat = s.fp.toNat + 10
  stack : s.fp.toNat + a.stkSize.toNat ≤ s.hpb.toNat
  heap : s.hpb.toNat + a.hpSize.toNat ≤ 2 * s.words
  aligned : s.fp.toNat % 2 = 0
  total : 2 * s.words = heapBase a + even a.hpSize.toNat
  stringStackEmpty : s.csp = 0#16
  stackEmpty : s.sp = s.spb
  entry : s.pc = a.entry
  level : s.lsp = 0#16

/-- The constant bytes are found from the constant base on. -/
def ConstantsReadable (a : Attr) (s : VM) : Prop :=
  ∀ k (h : k < a.rodata.length), byte s.mem (s.rop.toNat + k) = a.rodata[k]

/-- File 0 (INPUT) is the standard input, open for reading, file 1 (OUTPUT) the standard output, open for
writing; the other files are free, and nothing has happened to the files of the host. -/
structure StandardFiles (files : HostFile → Option (List Byte)) (s : VM) : Prop where
  input : (s.io.table 0).stream = some ⟨.stdin, 0, false⟩ ∧ (s.io.table 0).openMode = .read ∧
    (s.io.table 0).inUse = true ∧ (s.io.table 0).eoln = false
  output : (s.io.table 1).stream = some ⟨.stdout, 0, false⟩ ∧ (s.io.table 1).openMode = .write ∧
    (s.io.table 1).inUse = true
  free : ∀ n, 2 ≤ n → (s.io.table n).inUse = false ∧ (s.io.table n).stream = none
  files : s.io.files = files

end Pas.Spec
