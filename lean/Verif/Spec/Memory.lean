import Verif.Spec.Machine

/-! Specification vocabulary for loads and stores (property C05). -/
namespace Pas.Spec

/-- Byte `b` of a word memory (little-endian host). -/
def byte (m : Nat → Word) (b : Nat) : Byte := (m (b / 2)).extractLsb' (8 * (b % 2)) 8

/-- The instruction at the program counter is `op` with 8-bit operand `a` (if it has one)
and 16-bit operand `w` (if it has one). -/
structure Insn (code : List Byte) (maxpc : Word) (s : VM) (op : Op) (a : Byte) (w : Word) :
    Prop where
  next : Next code maxpc s op
  arg8 : hasArg8 op.toByte = true → code[s.pc.toNat + 1]? = some a
  arg16 : hasArg16 op.toByte = true →
    Operand16 code (s.pc.toNat + (if hasArg8 op.toByte then 2 else 1)) w

/-- Following `d` static links from the frame `f` ends at frame `g`. -/
inductive Link (s : VM) : Nat → Word → Word → Prop
  | here (f : Word) : Link s 0 f f
  | out {d : Nat} {f g : Word} (inside : f.toNat / 2 < s.words)
      (rest : Link s d (s.mem (f.toNat / 2)) g) : Link s (d + 1) f g

/-- `a` is the address of offset `off` relative to the frame `d` static levels out:
non-negative offsets start behind the five-word frame header, negative ones (parameters)
count down from the frame address. -/
def FrameAddr (s : VM) (d : Nat) (off : Int) (a : Word) : Prop :=
  ∃ f, Link s d s.fp f ∧
    (a.toNat : Int) = ((f.toNat : Int) + off + (if 0 ≤ off then 10 else 0)) % 65536

/-- Store-type instructions come in three widths with the same addressing modes. -/
inductive Width | word | sbyte | ubyte | block

/-- `StoreAddr s a w ix op width n addr`: the store instruction `op` with operands `a`, `w`
writes data of the given width at address `addr`; it takes `n` address words (0 or 1, the
value of which is `ix`) from the stack, pushed before the data. -/
inductive StoreAddr (s : VM) (a : Byte) (w : Word) (ix : Word) : Op → Width → Nat → Word → Prop
  | st : StoreAddr s a w ix .st .word 0 (s.spb + w)
  | stb : StoreAddr s a w ix .stb .sbyte 0 (s.spb + w)
  | stm : StoreAddr s a w ix .stm .block 0 (s.spb + w)
  | sti : StoreAddr s a w ix .sti .word 1 ix
  | stib : StoreAddr s a w ix .stib .sbyte 1 ix
  | stim : StoreAddr s a w ix .stim .block 1 ix
  | stx : StoreAddr s a w ix .stx .word 1 (s.spb + w + ix)
  | stxb : StoreAddr s a w ix .stxb .sbyte 1 (s.spb + w + ix)
  | stxm : StoreAddr s a w ix .stxm .block 1 (s.spb + w + ix)
  | sts {addr} (h : FrameAddr s a.toNat w.toInt addr) : StoreAddr s a w ix .sts .word 0 addr
  | stsb {addr} (h : FrameAddr s a.toNat w.toInt addr) : StoreAddr s a w ix .stsb .sbyte 0 addr
  | stsm {addr} (h : FrameAddr s a.toNat w.toInt addr) : StoreAddr s a w ix .stsm .block 0 addr
  | stsx {addr} (h : FrameAddr s a.toNat w.toInt addr) :
      StoreAddr s a w ix .stsx .word 1 (addr + ix)
  | stsxb {addr} (h : FrameAddr s a.toNat w.toInt addr) :
      StoreAddr s a w ix .stsxb .sbyte 1 (addr + ix)
  | stsxm {addr} (h : FrameAddr s a.toNat w.toInt addr) :
      StoreAddr s a w ix .stsxm .block 1 (addr + ix)

/-- The address accessed by a load instruction; the index register comes from the stack. -/
inductive LoadAddr (s : VM) (a : Byte) (w : Word) (ix : Word) : Op → Width → Nat → Word → Prop
  | ld : LoadAddr s a w ix .ld .word 0 (s.spb + w)
  | ldb : LoadAddr s a w ix .ldb .sbyte 0 (s.spb + w)
  | uldb : LoadAddr s a w ix .uldb .ubyte 0 (s.spb + w)
  | ldm : LoadAddr s a w ix .ldm .block 0 (s.spb + w)
  | ldi : LoadAddr s a w ix .ldi .word 1 ix
  | ldib : LoadAddr s a w ix .ldib .sbyte 1 ix
  | uldib : LoadAddr s a w ix .uldib .ubyte 1 ix
  | ldim : LoadAddr s a w ix .ldim .block 1 ix
  | ldx : LoadAddr s a w ix .ldx .word 1 (s.spb + w + ix)
  | ldxb : LoadAddr s a w ix .ldxb .sbyte 1 (s.spb + w + ix)
  | uldxb : LoadAddr s a w ix .uldxb .ubyte 1 (s.spb + w + ix)
  | ldxm : LoadAddr s a w ix .ldxm .block 1 (s.spb + w + ix)
  | lds {addr} (h : FrameAddr s a.toNat w.toInt addr) : LoadAddr s a w ix .lds .word 0 addr
  | ldsb {addr} (h : FrameAddr s a.toNat w.toInt addr) : LoadAddr s a w ix .ldsb .sbyte 0 addr
  | uldsb {addr} (h : FrameAddr s a.toNat w.toInt addr) : LoadAddr s a w ix .uldsb .ubyte 0 addr
  | ldsm {addr} (h : FrameAddr s a.toNat w.toInt addr) : LoadAddr s a w ix .ldsm .block 0 addr
  | ldsx {addr} (h : FrameAddr s a.toNat (w.toInt + ix.toNat) addr) :
      LoadAddr s a w ix .ldsx .word 1 addr
  | ldsxb {addr} (h : FrameAddr s a.toNat (w.toInt + ix.toNat) addr) :
      LoadAddr s a w ix .ldsxb .sbyte 1 addr
  | uldsxb {addr} (h : FrameAddr s a.toNat (w.toInt + ix.toNat) addr) :
      LoadAddr s a w ix .uldsxb .ubyte 1 addr
  | ldsxm {addr} (h : FrameAddr s a.toNat w.toInt addr) :
      LoadAddr s a w ix .ldsxm .block 1 (addr + ix)

/-- `s'` is `s` after an instruction of `len` bytes that popped `n` words and changed only
memory. -/
structure Stores (s s' : VM) (n len : Nat) : Prop where
  regs : s' = { s with sp := s'.sp, pc := s'.pc, mem := s'.mem }
  sp : s'.sp.toNat + 2 * n = s.sp.toNat
  pc : s'.pc = s.pc + BitVec.ofNat 16 len

/-- `s'` is `s` after an instruction of `len` bytes that replaced `n` words by `k` words. -/
structure Loads (s s' : VM) (n k len : Nat) : Prop where
  regs : s' = { s with sp := s'.sp, pc := s'.pc, mem := s'.mem }
  sp : s'.sp.toNat + 2 * n = s.sp.toNat + 2 * k
  pc : s'.pc = s.pc + BitVec.ofNat 16 len
  frame : ∀ i, (i + n ≤ s.sp.toNat / 2 ∨ s.sp.toNat / 2 + k < i + n) → s'.mem i = s.mem i

/-- Number of words occupied by `n` bytes. -/
def wordsFor (n : Nat) : Nat := (n + 1) / 2

end Pas.Spec
