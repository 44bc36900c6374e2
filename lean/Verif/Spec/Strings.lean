import Verif.Model.Strings
import Verif.Spec.Heap

/-! Specification of the string library (properties C22-C27): what the characters of a string are
and what the Pascal operations should do with them. -/
namespace Pas.Spec

/-- The `n` characters stored from byte address `a`. -/
def text (m : Nat → Word) (a n : Nat) : List Byte := (List.range n).map fun i => byte m (a + i)

/-- Length, buffer address and buffer size of the string variable at byte address `v`. -/
def strLen (m : Nat → Word) (v : Nat) : Nat := (m (v / 2)).toNat
def strBuf (m : Nat → Word) (v : Nat) : Nat := (m (v / 2 + 1)).toNat
def strCap (m : Nat → Word) (v : Nat) : Nat := (m (v / 2 + 2)).toNat % 4096

/-- The value of a string variable. -/
def strVal (m : Nat → Word) (v : Nat) : List Byte := text m (strBuf m v) (strLen m v)

/-- `n` bytes from `a` and `k` bytes from `b` have no byte in common. -/
def Apart (a n b k : Nat) : Prop := a + n ≤ b ∨ b + k ≤ a

/-- A usable string variable: aligned, inside the memory, the buffer apart from the variable. -/
structure StrVar (s : VM) (v : Nat) : Prop where
  even : v % 2 = 0
  fields : v + 6 ≤ 2 * s.words
  buffer : strBuf s.mem v + strCap s.mem v ≤ 2 * s.words
  apart : Apart (strBuf s.mem v) (strCap s.mem v) v 6

/-- The allocation word of a temporary string (allocated on the heap) has its top bit set. -/
def Temp (alloc : Word) : Prop := 32768 ≤ alloc.toNat

/-- `s'` is `s` after an instruction of 3 bytes that removes `n` words from the stack and pushes
`k`; the memory may differ, the other registers do not. -/
structure Ran (s s' : VM) (n k : Nat) : Prop where
  regs : s' = { s with sp := s'.sp, pc := s'.pc, mem := s'.mem }
  sp : s'.sp = s.sp - BitVec.ofNat 16 (2 * n) + BitVec.ofNat 16 (2 * k)
  pc : s'.pc = s.pc + 3#16

/-- Only bytes of the buffer of the variable at `v` and its length field may have changed. -/
def OnlyString (m m' : Nat → Word) (v : Nat) : Prop :=
  ∀ x, (x < v ∨ v + 2 ≤ x) → (x < strBuf m v ∨ strBuf m v + strCap m v ≤ x) →
    byte m' x = byte m x

/-- The four forms of string assignment: which operand is where on the stack, where the variable
is, and how many words are removed.  The indexed forms add an offset to the variable's address. -/
inductive CopyCall (s : VM) : (sub v src size alloc : Word) → (n : Nat) → Prop
  | plain : CopyCall s 0x0#16 (opnd s 0) (opnd s 2) (opnd s 3) (opnd s 1) 4
  | reversed : CopyCall s 0x1#16 (opnd s 3) (opnd s 1) (opnd s 2) (opnd s 0) 4
  | indexed : CopyCall s 0x2#16 (opnd s 0 + opnd s 4) (opnd s 2) (opnd s 3) (opnd s 1) 5
  | indexedReversed : CopyCall s 0x3#16 (opnd s 4 + opnd s 3) (opnd s 1) (opnd s 2) (opnd s 0) 5

/-- Alphabetical order by character code; a proper beginning comes first. -/
inductive Before : List Byte → List Byte → Prop
  | nil (b : Byte) (t : List Byte) : Before [] (b :: t)
  | head (a b : Byte) (s t : List Byte) : a.toNat < b.toNat → Before (a :: s) (b :: t)
  | tail (a : Byte) (s t : List Byte) : Before s t → Before (a :: s) (a :: t)

/-- A C library `memcmp` whose results have the sign the C standard asks for and fit into 16
bits (the C standard does not ask for the latter). -/
structure GoodMemcmp (f : List Byte → List Byte → Int) : Prop where
  neg : ∀ a b, a.length = b.length → (f a b < 0 ↔ Before a b)
  pos : ∀ a b, a.length = b.length → (0 < f a b ↔ Before b a)
  small : ∀ a b, -32768 ≤ f a b ∧ f a b ≤ 32767

/-- A C library `memcmp` as the C standard asks for. -/
structure StdMemcmp (f : List Byte → List Byte → Int) : Prop where
  neg : ∀ a b, a.length = b.length → (f a b < 0 ↔ Before a b)
  pos : ∀ a b, a.length = b.length → (0 < f a b ↔ Before b a)

/-- `sub` occurs in `str` at index `i` (from 0). -/
def Occurs (sub str : List Byte) (i : Nat) : Prop :=
  i + sub.length ≤ str.length ∧ (str.drop i).take sub.length = sub

/-- `r` is the result of `Pos(sub, str, start)`: the first position (from 1) not before `start`
where `sub` occurs, 0 if there is none. -/
def IsPos (sub str : List Byte) (start r : Nat) : Prop :=
  (r = 0 ∧ ∀ i, start ≤ i + 1 → ¬Occurs sub str i) ∨
  (start ≤ r ∧ 1 ≤ r ∧ Occurs sub str (r - 1) ∧ ∀ i, start ≤ i + 1 → i + 1 < r → ¬Occurs sub str i)

/-- The `n` bytes from `a` lie below the heap or inside a live heap block. -/
def Readable (live : List Block) (s : VM) (a n : Nat) : Prop :=
  a + n ≤ s.hpb.toNat ∨ ∃ b ∈ live, b.addr ≤ a ∧ a + n ≤ b.addr + b.size

/-- The stack top of `s'` describes a temporary string in a block `b` of the heap that overlaps
no live block and holds the characters `t`; memory below the heap except the three words of the
description, and all live blocks, are as in `s`. -/
structure NewTemp (live : List Block) (s s' : VM) (b : Block) (t : List Byte) : Prop where
  alloc : (opnd s' 0).toNat = b.size + 32768
  addr : (opnd s' 1).toNat = b.addr
  len : (opnd s' 2).toNat = t.length
  fits : t.length ≤ b.size
  inside : b.Inside s
  apart : ∀ c ∈ live, b.Disjoint c
  chars : text s'.mem b.addr t.length = t
  frame : ∀ x, Readable live s x 1 →
    (x / 2 + 2 < s'.sp.toNat / 2 ∨ s'.sp.toNat / 2 < x / 2) → byte s'.mem x = byte s.mem x

/-- String variables allocated on the string stack, youngest first, in a history in which
routines are entered and left: leaving restores the string stack pointer and forgets the
variables allocated since. -/
inductive StrHist (lib : Lib) (code : List Byte) (maxpc : Word) : List Block → VM → Prop
  | start {s : VM} : StrHist lib code maxpc [] s
  | other {live : List Block} {s s' : VM} (h : StrHist lib code maxpc live s)
      (csp : s'.csp = s.csp) : StrHist lib code maxpc live s'
  | init {live : List Block} {s s' : VM} (h : StrHist lib code maxpc live s)
      (room : Room s 2) (insn : Insn code maxpc s .strlib 0 0x7#16)
      (even : (opnd s 0).toNat % 2 = 0) (fields : (opnd s 0).toNat + 6 ≤ 2 * s.words)
      (run : execute lib code maxpc s = .ok (eNOERROR, s')) :
      StrHist lib code maxpc
        (⟨strBuf s'.mem (opnd s 0).toNat, (s'.mem ((opnd s 0).toNat / 2 + 2)).toNat⟩ :: live) s'
  | leave {live newer : List Block} {s s0 s' : VM} (h : StrHist lib code maxpc (newer ++ live) s)
      (h0 : StrHist lib code maxpc live s0) (csp : s'.csp = s0.csp) :
      StrHist lib code maxpc live s'

/-- The machine is about to duplicate a string that is not itself a temporary. -/
structure DupCall (code : List Byte) (maxpc : Word) (live : List Block) (s : VM) : Prop where
  room : Room s 3
  stack : s.sp.toNat + 2 ≤ s.hpb.toNat
  insn : Insn code maxpc s .strlib 0 0x9#16
  plain : ¬Temp (opnd s 0)
  source : Readable live s (opnd s 1).toNat (opnd s 2).toNat

/-- The machine is about to extract a substring from a string not longer than its buffer, which
is not stored where the result will be described. -/
structure SubstrCall (code : List Byte) (maxpc : Word) (live : List Block) (s : VM) : Prop where
  room : Room s 5
  stack : s.sp.toNat + 2 ≤ s.hpb.toNat
  insn : Insn code maxpc s .strlib 0 0xf#16
  source : Readable live s (opnd s 3).toNat (opnd s 4).toNat
  cap0 : 0 < (opnd s 2).toNat % 4096
  cap : (opnd s 4).toNat ≤ (opnd s 2).toNat % 4096
  apart : Apart (opnd s 3).toNat (opnd s 4).toNat (2 * (s.sp.toNat / 2 - 4)) 6

/-- The machine is about to assign the temporary string of `size` characters in heap block `b` to
the string variable at `v`, which lies with its buffer below the heap; `n` words are taken from the
stack. -/
structure TempAssign (code : List Byte) (maxpc : Word) (b : Block) (s : VM) (v size : Word)
    (n : Nat) : Prop where
  call : ∃ sub src alloc, CopyCall s sub v src size alloc n ∧ Insn code maxpc s .strlib 0 sub ∧
    Temp alloc ∧ src.toNat = b.addr
  room : Room s n
  var : StrVar s v.toNat
  size : size.toNat ≤ b.size
  even : s.hpb.toNat % 2 = 0
  below : v.toNat + 6 ≤ s.hpb.toNat
  buffer : strBuf s.mem v.toNat + strCap s.mem v.toNat ≤ s.hpb.toNat

/-- The machine is about to make an empty temporary string. -/
structure EmptyCall (code : List Byte) (maxpc : Word) (s : VM) : Prop where
  stack : s.sp.toNat + 8 ≤ s.hpb.toNat
  insn : Insn code maxpc s .strlib 0 0x8#16

/-- The machine is about to make a temporary string of the character on the stack. -/
structure CharCall (code : List Byte) (maxpc : Word) (s : VM) : Prop where
  room : Room s 1
  stack : s.sp.toNat + 6 ≤ s.hpb.toNat
  insn : Insn code maxpc s .strlib 0 0xa#16

/-- The machine is about to make a temporary string of an array of characters; the address of the array is on
top of the stack, its size and some other word below. -/
structure ArrayCall (code : List Byte) (maxpc : Word) (live : List Block) (s : VM) : Prop where
  room : Room s 3
  stack : s.sp.toNat + 4 ≤ s.hpb.toNat
  insn : Insn code maxpc s .strlib 0 0x4#16
  source : Readable live s (opnd s 0).toNat (opnd s 1).toNat

/-- Histories of the heap in which, after a stack-like history of NEW and DISPOSE, temporary
strings are made (empty, by duplication, by substring extraction, of a character or of an array of characters) and
given back, the youngest first, by assignment. -/
inductive TempHist (lib : Lib) (code : List Byte) (maxpc : Word) : List Block → VM → Prop
  | heap {live : List Block} {s : VM} (h : HeapHist lib code maxpc Youngest 0xfff0 live s) :
      TempHist lib code maxpc live s
  | other {live : List Block} {s s' : VM} (h : TempHist lib code maxpc live s)
      (step : Respects live s s') : TempHist lib code maxpc live s'
  | dup {live : List Block} {s s' : VM} (h : TempHist lib code maxpc live s)
      (call : DupCall code maxpc live s)
      (run : execute lib code maxpc s = .ok (eNOERROR, s')) :
      TempHist lib code maxpc (⟨(opnd s' 1).toNat, (opnd s' 0).toNat - 32768⟩ :: live) s'
  | substr {live : List Block} {s s' : VM} (h : TempHist lib code maxpc live s)
      (call : SubstrCall code maxpc live s)
      (run : execute lib code maxpc s = .ok (eNOERROR, s')) :
      TempHist lib code maxpc (⟨(opnd s' 1).toNat, (opnd s' 0).toNat - 32768⟩ :: live) s'
  | empty {live : List Block} {s s' : VM} (h : TempHist lib code maxpc live s)
      (call : EmptyCall code maxpc s)
      (run : execute lib code maxpc s = .ok (eNOERROR, s')) :
      TempHist lib code maxpc (⟨(opnd s' 1).toNat, (opnd s' 0).toNat - 32768⟩ :: live) s'
  | char {live : List Block} {s s' : VM} (h : TempHist lib code maxpc live s)
      (call : CharCall code maxpc s)
      (run : execute lib code maxpc s = .ok (eNOERROR, s')) :
      TempHist lib code maxpc (⟨(opnd s' 1).toNat, (opnd s' 0).toNat - 32768⟩ :: live) s'
  | array {live : List Block} {s s' : VM} (h : TempHist lib code maxpc live s)
      (call : ArrayCall code maxpc live s)
      (run : execute lib code maxpc s = .ok (eNOERROR, s')) :
      TempHist lib code maxpc (⟨(opnd s' 1).toNat, (opnd s' 0).toNat - 32768⟩ :: live) s'
  | assign {b : Block} {live : List Block} {s s' : VM} {v size : Word} {n : Nat}
      (h : TempHist lib code maxpc (b :: live) s) (call : TempAssign code maxpc b s v size n)
      (run : execute lib code maxpc s = .ok (eNOERROR, s')) :
      TempHist lib code maxpc live s'

end Pas.Spec
