import Verif.Model.Heap
import Verif.Spec.Frames

/-! Specification of the heap (properties C19-C21).

A history is a sequence of machine states in which every step is NEW, DISPOSE or any other
activity of the program that does not overwrite heap memory outside the blocks it owns. -/
namespace Pas.Spec

/-- A block handed out by NEW: its address and the number of bytes asked for. -/
structure Block where
  addr : Nat
  size : Nat
deriving DecidableEq, Repr

/-- The block lies inside the heap region `[hpb, hpb + hpSize)`. -/
def Block.Inside (s : VM) (b : Block) : Prop :=
  s.hpb.toNat ≤ b.addr ∧ b.addr + b.size ≤ s.hpb.toNat + s.hpSize.toNat

/-- The blocks have no byte in common. -/
def Block.Disjoint (b c : Block) : Prop :=
  b.addr + b.size ≤ c.addr ∨ c.addr + c.size ≤ b.addr

/-- The memory word `i` holds a byte of the block. -/
def Block.Owns (b : Block) (i : Nat) : Prop := b.addr ≤ 2 * i + 1 ∧ 2 * i < b.addr + b.size

/-- Anything the program does between two heap operations: registers, stack, globals and the
contents of live blocks may change, the rest of the heap region (and what lies behind it) and
the description of the heap may not. -/
structure Respects (live : List Block) (s s' : VM) : Prop where
  hpb : s'.hpb = s.hpb
  hpSize : s'.hpSize = s.hpSize
  words : s'.words = s.words
  free : s'.freeChunks = s.freeChunks
  heap : ∀ i, s.hpb.toNat ≤ 2 * i + 1 → (∀ b ∈ live, ¬b.Owns i) → s'.mem i = s.mem i

/-- The heap region is usable: it (rounded to 16 bytes) fits into the memory and is less than
32 KB, the largest size a chunk header can express. -/
structure HeapOk (s : VM) : Prop where
  big : 32 < s.hpSize.toNat
  small : s.hpSize.toNat < 32768
  fits : s.hpb.toNat + s.hpSize.toNat + 15 < 65536
  words : (s.hpb.toNat + 15) / 16 * 16 + s.hpSize.toNat ≤ 2 * s.words

/-- The stack has room for the operand and lies below the heap. -/
def StackBelow (s : VM) : Prop := 2 ≤ s.sp.toNat ∧ s.sp.toNat + 2 ≤ s.hpb.toNat

/-- Which blocks the program may dispose: only the youngest live one (as with nested
temporaries) or any live one. -/
def Youngest (b : Block) (live : List Block) : Prop := live.head? = some b
def AnyLive (b : Block) (live : List Block) : Prop := b ∈ live

/-- Histories of the heap together with the blocks that are live, youngest first.  `may` says
which blocks may be disposed, requests are for at most `maxSize` bytes. -/
inductive HeapHist (lib : Lib) (code : List Byte) (maxpc : Word)
    (may : Block → List Block → Prop) (maxSize : Nat) : List Block → VM → Prop
  | init {s0 s : VM} (ok : HeapOk s0) (run : Heap.initializeHeap s0 = .ok s) :
      HeapHist lib code maxpc may maxSize [] s
  | other {live : List Block} {s s' : VM} (h : HeapHist lib code maxpc may maxSize live s)
      (step : Respects live s s') : HeapHist lib code maxpc may maxSize live s'
  | new {live : List Block} {s s' : VM} (h : HeapHist lib code maxpc may maxSize live s)
      (stk : StackBelow s) (insn : Insn code maxpc s .osop 1 0)
      (size : (opnd s 0).toNat ≤ maxSize)
      (run : execute lib code maxpc s = .ok (eNOERROR, s')) :
      HeapHist lib code maxpc may maxSize (⟨(opnd s' 0).toNat, (opnd s 0).toNat⟩ :: live) s'
  | newFails {live : List Block} {s s' : VM} (h : HeapHist lib code maxpc may maxSize live s)
      (stk : StackBelow s) (insn : Insn code maxpc s .osop 1 0)
      (size : (opnd s 0).toNat ≤ maxSize)
      (run : execute lib code maxpc s = .ok (eNEWFAILED, s')) :
      HeapHist lib code maxpc may maxSize live s'
  | dispose {b : Block} {live : List Block} {s s' : VM} {e : Nat}
      (h : HeapHist lib code maxpc may maxSize live s)
      (stk : StackBelow s) (insn : Insn code maxpc s .osop 2 0)
      (allowed : may b live) (addr : (opnd s 0).toNat = b.addr)
      (run : execute lib code maxpc s = .ok (e, s')) :
      HeapHist lib code maxpc may maxSize (live.erase b) s'

/-- Bytes that can be handed out by a fresh heap: the region rounded to 16 bytes on both sides
without the 16 bytes of the end marker. -/
def capacity (s : VM) : Nat :=
  ((s.hpb.toNat + 15) / 16 * 16 + s.hpSize.toNat) / 16 * 16 - 16 - (s.hpb.toNat + 15) / 16 * 16

/-- Bytes a request takes: rounded up to 16 plus an 8-byte header. -/
def footprint (size : Nat) : Nat := (size + 15) / 16 * 16 + 8

end Pas.Spec
