import Verif.Model.VM

/-! The heap manager, `insn16/libexec/libexec_heap.c`.

Chunks are identified by their byte address in `dstack`.  The struct layout
(`libexec_heap.c` 98-122, little-endian host, bit fields allocated from the low bit) is:
word 0 = `forward` (15 bits) and `inUse` (top bit), word 1 = `back` (15 bits) and `pad1`,
word 2 = `address`, word 3 = `pad2`, and for free chunks word 4 = `prev`, word 5 = `next`,
words 6, 7 = `pad`.  An access at an odd address is a misaligned access, hence undefined. -/
namespace Pas.Heap

/-- `HEAP_ALIGNUP` / `HEAP_ALIGNDOWN`, `libexec_heap.c` 59-63. -/
def alignUp (a : Nat) : Nat := (a + 15) / 16 * 16
/-- `HEAP_ALIGNDOWN`, `insn16/libexec/libexec_heap.c` 63. -/
def alignDown (a : Nat) : Nat := a / 16 * 16

/-- `uint16_t heapStart = HEAP_ALIGNUP(st->hpb)`, e.g. `libexec_heap.c` 281. -/
def heapStart (s : VM) : Nat := alignUp s.hpb.toNat % 65536

/-- Word `k` of the structure at byte address `p`.  `insn16/libexec/libexec_heap.c` 98-122. -/
def rdF (s : VM) (p k : Nat) : Res Nat :=
  if p % 2 = 0 then do
    let w ← s.rd (p / 2 + k)
    pure w.toNat
  else .ub

/-- Assignment to word `k` of the structure at byte address `p` (converted to 16 bits). -/
def wrF (s : VM) (p k v : Nat) : Res VM :=
  if p % 2 = 0 then s.wr (p / 2 + k) (BitVec.ofNat 16 v) else .ub

/-- `chunk.forward`.  `insn16/libexec/libexec_heap.c` 100. -/
def getFwd (s : VM) (p : Nat) : Res Nat := do
  let w ← rdF s p 0
  pure (w % 32768)

/-- `chunk.inUse`.  `insn16/libexec/libexec_heap.c` 101. -/
def getUse (s : VM) (p : Nat) : Res Bool := do
  let w ← rdF s p 0
  pure (decide (w / 32768 = 1))

/-- `chunk.forward = v` (15-bit field). -/
def setFwd (s : VM) (p v : Nat) : Res VM := do
  let w ← rdF s p 0
  wrF s p 0 (w / 32768 * 32768 + v % 32768)

/-- `chunk.inUse = b`.  `insn16/libexec/libexec_heap.c` 101. -/
def setUse (s : VM) (p : Nat) (b : Bool) : Res VM := do
  let w ← rdF s p 0
  wrF s p 0 (w % 32768 + if b then 32768 else 0)

/-- `chunk.back`.  `insn16/libexec/libexec_heap.c` 103. -/
def getBack (s : VM) (p : Nat) : Res Nat := do
  let w ← rdF s p 1
  pure (w % 32768)

/-- `chunk.back = v` (15-bit field). -/
def setBack (s : VM) (p v : Nat) : Res VM := do
  let w ← rdF s p 1
  wrF s p 1 (w / 32768 * 32768 + v % 32768)

/-- `chunk.address`, `insn16/libexec/libexec_heap.c` 106. -/
def getAddr (s : VM) (p : Nat) : Res Nat := rdF s p 2
/-- `chunk.address = v`, `insn16/libexec/libexec_heap.c` 106. -/
def setAddr (s : VM) (p v : Nat) : Res VM := wrF s p 2 v
/-- `prev`, `insn16/libexec/libexec_heap.c` 117. -/
def getPrev (s : VM) (p : Nat) : Res Nat := rdF s p 4
/-- `prev = v`, `insn16/libexec/libexec_heap.c` 117. -/
def setPrev (s : VM) (p v : Nat) : Res VM := wrF s p 4 v
/-- `next`, `insn16/libexec/libexec_heap.c` 118. -/
def getNext (s : VM) (p : Nat) : Res Nat := rdF s p 5
/-- `next = v`, `insn16/libexec/libexec_heap.c` 118. -/
def setNext (s : VM) (p v : Nat) : Res VM := wrF s p 5 v

/-- The pointer to the next free chunk: `next == 0` means none
(`libexec_heap.c` 294-302, 594-602); `nextAddr` is a `uint16_t`. -/
def nextPtr (s : VM) (next : Nat) : Option Nat :=
  if next = 0 then none else some ((heapStart s + next) % 65536)

/-- The search loop of `libexec_AddChunkToFreeList`, `libexec_heap.c` 285-345: result is
`(prevChunk, some (freeChunk, nextChunk))` when a chunk at least as large is found and
`(prevChunk, none)` at the end of the list.  The loop only reads memory and moves along
16-bit addresses, so if it makes more than 65537 steps it never ends. -/
def findSlot (s : VM) (newFwd : Nat) :
    Nat → Option Nat → Option Nat → Res (Option Nat × Option (Nat × Option Nat))
  | 0, _, _ => .hang
  | _ + 1, prev, none => .ok (prev, none)
  | fuel + 1, prev, some f => do
      let nx ← getNext s f
      let nextChunk := nextPtr s nx
      let fw ← getFwd s f
      if fw ≥ newFwd then .ok (prev, some (f, nextChunk))
      else findSlot s newFwd fuel (some f) nextChunk

/-- `libexec_AddChunkToFreeList`, `libexec_heap.c` 276-363. -/
def addChunk (s : VM) (new : Nat) : Res VM := do
  let nf ← getFwd s new
  let (prev, found) ← findSlot s nf searchFuel none s.freeChunks
  match found with
  | some (f, nextChunk) =>
    match prev with
    | none => do                                                         -- 315-321
        let s ← setPrev s new 0
        let fa ← getAddr s f
        let s ← setNext s new fa
        let na ← getAddr s new
        let s ← setPrev s f na
        pure { s with freeChunks := some new }
    | some p =>
      match nextChunk with
      | some n => do                                                     -- 322-328
          let pa ← getAddr s p
          let s ← setPrev s new pa
          let xa ← getAddr s n
          let s ← setNext s new xa
          let na ← getAddr s new
          let s ← setPrev s n na
          let na ← getAddr s new
          setNext s p na
      | none => do                                                       -- 329-334
          let pa ← getAddr s p
          let s ← setPrev s new pa
          let s ← setNext s new 0
          let na ← getAddr s new
          setNext s p na
  | none =>
    match prev with
    | none => do                                                         -- 349-354
        let s ← setPrev s new 0
        let s ← setNext s new 0
        pure { s with freeChunks := some new }
    | some p => do                                                       -- 355-360
        let pa ← getAddr s p
        let s ← setPrev s new pa
        let s ← setNext s new 0
        let na ← getAddr s new
        setNext s p na

/-- `libexec_RemoveChunkFromFreeList`, `libexec_heap.c` 367-445.  Fields are read again at
every use as in the C code. -/
def removeChunk (s : VM) (f : Nat) : Res VM := do
  let pv ← getPrev s f
  let nx ← getNext s f
  if pv = 0 ∧ nx = 0 then pure { s with freeChunks := none }             -- 374-379
  else do
    let s ← (if pv = 0 then do                                           -- 391-401
        let q := (heapStart s + nx) % 65536
        let s := { s with freeChunks := some q }
        setPrev s q 0
      else do                                                            -- 402-411
        let q := (heapStart s + pv) % 65536
        setNext s q nx)
    let pv ← getPrev s f
    let nx ← getNext s f
    if nx = 0 then do                                                    -- 415-425
      let q := (heapStart s + pv) % 65536
      setNext s q 0
    else if pv = 0 then pure s                                           -- 426-431
    else do                                                              -- 432-441
      let q := (heapStart s + nx) % 65536
      setPrev s q pv

/-- First half of `libexec_DisposeChunk` (`libexec_heap.c` 470-503): merge with a preceding
free chunk.  Returns the state, the resulting chunk and the flag `merged`. -/
def mergePrev (s : VM) (new : Nat) (nextChunk : Option Nat) : Res (VM × Nat × Bool) := do
  let bk ← getBack s new
  if bk = 0 then pure (s, new, false)
  else do
    let na ← getAddr s new
    let prev := (heapStart s + na + 65536 - bk) % 65536
    let u ← getUse s prev
    if u then pure (s, new, false)
    else do
      let s ← removeChunk s prev
      let pf ← getFwd s prev
      let nf ← getFwd s new
      let s ← setFwd s prev (pf + nf)
      let s ← (match nextChunk with
        | some n => do
            let nb ← getBack s n
            let b ← getBack s new
            setBack s n (nb + b)
        | none => pure s)
      let s ← addChunk s prev
      pure (s, prev, true)

/-- Second half of `libexec_DisposeChunk` (`libexec_heap.c` 505-565): merge with a following
free chunk, or else insert the chunk unless it was merged already. -/
def mergeNext (s : VM) (new : Nat) (nextChunk : Option Nat) (merged : Bool) : Res VM := do
  let fin (s : VM) : Res VM := if merged then pure s else addChunk s new
  match nextChunk with
  | none => fin s
  | some n => do
      let u ← getUse s n
      if u then fin s
      else do
        let s ← removeChunk s n
        let s ← (if merged then removeChunk s new else pure s)
        let fw ← getFwd s new
        let nf ← getFwd s n
        let s ← setFwd s new (fw + nf)
        let nf ← getFwd s n
        let s ← (if nf ≠ 0 then do
            let na ← getAddr s n
            let q := (heapStart s + na + nf) % 65536
            let ab ← getBack s q
            let b ← getBack s new
            setBack s q (ab + b)
          else pure s)
        addChunk s new

/-- `libexec_DisposeChunk`, `libexec_heap.c` 449-566. -/
def disposeChunk (s : VM) (new : Nat) : Res VM := do
  let s ← setUse s new false
  let fw ← getFwd s new
  let nextChunk ← (if fw ≠ 0 then do
      let na ← getAddr s new
      pure (some ((heapStart s + na + fw) % 65536))
    else pure none)
  let (s, new, merged) ← mergePrev s new nextChunk
  mergeNext s new nextChunk merged

/-- Breaking off the unused rest of an allocated chunk (`libexec_heap.c` 616-642). -/
def split (s : VM) (f size : Nat) : Res VM := do
  let fa ← getAddr s f
  let sub := heapStart s + fa + size
  let fw ← getFwd s f
  let s ← setFwd s sub (fw + 65536 - size)
  let s ← setUse s sub false
  let s ← setBack s sub size
  let w1 ← rdF s sub 1
  let s ← wrF s sub 1 (w1 % 32768)
  let fa ← getAddr s f
  let s ← setAddr s sub (fa + size)
  let s ← wrF s sub 3 0
  let s ← setFwd s f size
  disposeChunk s sub

/-- The allocation loop (`libexec_heap.c` 583-658). -/
def allocLoop (size : Nat) : Nat → VM → Option Nat → Res (Nat × VM)
  | 0, _, _ => .hang
  | _ + 1, s, none => .ok (0, s)
  | fuel + 1, s, some f => do
      let fsz ← getFwd s f
      let nx ← getNext s f
      let nextChunk := nextPtr s nx
      if fsz ≥ size then do
        let s ← removeChunk s f
        let s ← setUse s f true
        let s ← (if fsz > size + 16 then split s f size else pure s)
        let fa ← getAddr s f
        pure ((heapStart s + fa + 8) % 65536, s)
      else allocLoop size fuel s nextChunk

/-- `libexec_Alloc`, `libexec_heap.c` 570-665: the address of the block, 0 on failure.
`allocChunkSize` is a `uint16_t`. -/
def alloc (s : VM) (size : Nat) : Res (Nat × VM) :=
  allocLoop ((alignUp size + 8) % 65536) searchFuel s s.freeChunks

/-- `libexec_Free`, `libexec_heap.c` 669-713. -/
def free (s : VM) (address : Nat) : Res (Nat × VM) :=
  if address < heapStart s + 8 ∨ address + 16 ≥ heapStart s + s.hpSize.toNat then .ok (eHUH, s)
  else do
    let p := address - 8
    let u ← getUse s p
    if u then do
      let s ← setNext s p 0
      let s ← setPrev s p 0
      let s ← disposeChunk s p
      pure (eNOERROR, s)
    else pure (eDOUBLEFREE, s)

/-- Zero `n` words from byte address `p`: `memset` of a structure.
`insn16/libexec/libexec_heap.c` 735, 743. -/
def zero (s : VM) (p : Nat) : Nat → Res VM
  | 0 => .ok s
  | n + 1 => do
      let s ← zero s p n
      wrF s p n 0

/-- `libexec_InitializeHeap`, `libexec_heap.c` 721-751.  `heapEnd` is a `uint16_t`; when
`heapEnd < 16` the address of the terminating chunk is negative, which is undefined. -/
def initializeHeap (s : VM) : Res VM :=
  if s.hpSize.toNat > 32 then do
    let hs := heapStart s
    let he := alignDown (hs + s.hpSize.toNat) % 65536
    if he < 16 then .ub
    else do
      let t := he - 16
      let s ← zero s t 4
      let s ← setAddr s t (he + 65536 - hs - 16)
      let s ← setUse s t true
      let size := (he + 65536 - hs - 16) % 65536
      let s ← setBack s t size
      let s ← zero s hs 8
      let s ← setFwd s hs size
      pure { s with freeChunks := some hs }
  else pure s

/-- `libexec_New`, `libexec_heap.c` 755-771. -/
def new (s : VM) (size : Nat) : Res (Nat × VM) := do
  let (addr, s) ← (if size > 0 then alloc s size else pure (0, s))
  let s ← s.push (BitVec.ofNat 16 addr)
  pure (if addr > 0 then eNOERROR else eNEWFAILED, s)

/-- `libexec_Dispose`, `libexec_heap.c` 775-778. -/
def dispose (s : VM) (address : Nat) : Res (Nat × VM) := free s address

/-- `libexec_AllocTmpString`, `libexec_heap.c` 782-797: address (0 = failure) and, when an
address is returned, the encoded allocation size. -/
def allocTmpString (s : VM) (reqSize : Nat) : Res (Nat × Nat × VM) :=
  if 0 < reqSize ∧ reqSize ≤ 0x0fff then do
    let (addr, s) ← alloc s reqSize
    pure (addr, reqSize + 0x8000, s)
  else pure (0, 0, s)

/-- `libexec_FreeTmpString`, `libexec_heap.c` 801-816. -/
def freeTmpString (s : VM) (allocAddr allocSize : Nat) : Res (Nat × VM) :=
  if allocSize / 32768 % 2 = 1 then free s allocAddr else pure (eNOERROR, s)

/-- The modelled cases of `libexec_OsOperations`, `libexec_oslib.c` 326-475: EXIT (the exit
code itself is not part of the state), NEW and DISPOSE.  The environment and process
operations are not modelled (`other`). -/
def osOps (other : VM → Byte → Res (Nat × VM)) (s : VM) (sub : Byte) : Res (Nat × VM) :=
  if sub = 0 then do
    let (_, s) ← s.pop
    pure (eEXIT, s)
  else if sub = 1 then do
    let (size, s) ← s.pop
    new s size.toNat
  else if sub = 2 then do
    let (addr, s) ← s.pop
    dispose s addr.toNat
  else other s sub

end Pas.Heap
