import Verif.Model.Init

/-! The string library, `insn16/libexec/libexec_stringlib.c`.

A string variable is three words: size, address of the buffer, allocated size of the buffer
(`include/pas_machine.h` 101-139); on the stack the size is pushed first.  The allocated size of
a temporary string has the top bit set (`HEAP_STRING`). -/
namespace Pas.Str

/-- `eNOMEMORY`, `include/pas_errcodes.h` 342. -/
def eNOMEMORY : Nat := 0x90

/-- Configuration and C library: `bufSize` = `STRING_BUFFER_SIZE` (`include/pas_machine.h` 140),
`memcmp` = result of `memcmp` on two equally long byte sequences, `other` = the conversions between
numbers and strings (`libexec_stringlib.c` 1431-1669), modelled in `Model/Convert.lean`. -/
structure Cfg where
  bufSize : Nat
  memcmp : List Byte → List Byte → Int
  other : VM → Word → Res (Nat × VM)

/-- `n` bytes from address `a`.  Of `dstack`, `insn16/include/libexec.h` 118-122. -/
def readBytes (s : VM) (a : Nat) : Nat → Res (List Byte)
  | 0 => .ok []
  | n + 1 => do
      let b ← s.rdB a
      let r ← readBytes s (a + 1) n
      pure (b :: r)

/-- `memcpy` in the data memory; copying between overlapping areas is undefined.
Used in `insn16/libexec/libexec_stringlib.c` 170, 218, 261, 301, 336, 1089, 1711. -/
def memcpy (s : VM) (dst src n : Nat) : Res VM :=
  if n = 0 then .ok s
  else if dst < src + n ∧ src < dst + n then .ub
  else do
    let bs ← readBytes s src n
    copyIn s dst bs

/-- A loop copying `n` bytes upwards one by one.  As in `insn16/libexec/libexec_stringlib.c` 1250-1342. -/
def copyUp (s : VM) (dst src : Nat) : Nat → Res VM
  | 0 => .ok s
  | n + 1 => do
      let b ← s.rdB src
      let s ← s.wrB dst b
      copyUp s (dst + 1) (src + 1) n

/-- A loop copying `n` bytes one by one, the last one first.
As in `insn16/libexec/libexec_stringlib.c` 1250-1290. -/
def copyDown (s : VM) (dst src : Nat) : Nat → Res VM
  | 0 => .ok s
  | n + 1 => do
      let b ← s.rdB (src + n)
      let s ← s.wrB (dst + n) b
      copyDown s dst src n

/-- A loop storing the same byte `n` times.  As in `insn16/libexec/libexec_stringlib.c` 377-412. -/
def fill (s : VM) (dst : Nat) (b : Byte) : Nat → Res VM
  | 0 => .ok s
  | n + 1 => do
      let s ← s.wrB dst b
      fill s (dst + 1) b n

/-- `libexec_FreeTmpString` with its result ignored, as all callers do.
`insn16/libexec/libexec_heap.c` 801-816. -/
def freeTmp (s : VM) (addr alloc : Word) : Res VM := do
  let (_, s) ← Heap.freeTmpString s addr.toNat alloc.toNat
  pure s

/-- `HEAP_SIZE_MASK`, `include/pas_machine.h` 134. -/
def capacity (alloc : Word) : Nat := (alloc &&& 0x0fff#16).toNat

/-- `libexec_StrInit`, `libexec_stringlib.c` 89-118. -/
def strInit (s : VM) (v size : Word) : Res (Nat × VM) :=
  let a : Word := BitVec.ofNat 16 (intAlignUp s.csp.toNat)
  if s.csp.toNat + size.toNat ≥ s.spb.toNat then .ok (eSTRSTKOVERFLOW, s)
  else do
    let s := { s with csp := a + size }
    let s ← s.wr ((v.toNat + 2) / 2) a
    let s ← s.wr (v.toNat / 2) 0#16
    pure (eNOERROR, s)

/-- `libexec_StrCpy`, `libexec_stringlib.c` 120-176.  The descriptor is accessed through a
`uint16_t` pointer, so its address must be even. -/
def strCpy (s : VM) (srcBuf srcSize destVar offset : Word) : Res VM := do
  let v := (destVar + offset).toNat
  let alloc ← Heap.rdF s v 2
  let destBufSize := alloc % 4096
  let destBuf ← s.rd ((v + 2) / 2)
  if destBuf ≠ srcBuf then do
    let n := if srcSize.toNat > destBufSize then destBufSize else srcSize.toNat
    let s ← memcpy s destBuf.toNat srcBuf.toNat n
    s.wr (v / 2) (BitVec.ofNat 16 n)
  else pure s

/-- `strnlen`.  Used in `insn16/libexec/libexec_stringlib.c` 196. -/
def strnlen (s : VM) (a : Nat) : Nat → Res Nat
  | 0 => .ok 0
  | n + 1 => do
      let b ← s.rdB a
      if b = 0#8 then pure 0
      else do
        let k ← strnlen s (a + 1) n
        pure (k + 1)

/-- `libexec_BStr2Str`, `libexec_stringlib.c` 178-232. -/
def bstr2Str (c : Cfg) (s : VM) (arr size : Word) : Res (Nat × VM) := do
  let len ← strnlen s arr.toNat size.toNat
  let len := if len > c.bufSize then c.bufSize else len
  let (buf, alloc, s) ← Heap.allocTmpString s c.bufSize
  if buf = 0 then pure (eNOMEMORY, s)
  else do
    let s ← memcpy s buf arr.toNat len
    let s ← s.push (BitVec.ofNat 16 len)
    let s ← s.push (BitVec.ofNat 16 buf)
    let s ← s.push (BitVec.ofNat 16 alloc)
    pure (eNOERROR, s)

/-- `libexec_Str2BStr`, `libexec_stringlib.c` 234-263: the clipped size is not used. -/
def str2BStr (s : VM) (arr _arrSize buf size offset : Word) : Res VM :=
  memcpy s (arr.toNat + offset.toNat) buf.toNat size.toNat

/-- `libexec_StrDup`, `libexec_stringlib.c` 265-311, with the result stored at `TOS(st, 2)`. -/
def strDup (c : Cfg) (s : VM) (addr size : Word) : Res (Nat × VM) := do
  let (clone, alloc, s) ← Heap.allocTmpString s c.bufSize
  if clone = 0 then pure (eNOMEMORY, s)
  else do
    let n := if size.toNat > c.bufSize then c.bufSize else size.toNat
    let s ← memcpy s clone addr.toNat n
    let s ← s.setTos 2 (BitVec.ofNat 16 n)
    let s ← s.setTos 1 (BitVec.ofNat 16 clone)
    let s ← s.setTos 0 (BitVec.ofNat 16 alloc)
    pure (eNOERROR, s)

/-- `libexec_StrCat`, `libexec_stringlib.c` 313-344, with the destination on the stack. -/
def strCat (s : VM) (srcAddr srcSize destAddr destAlloc : Word) : Res (Nat × VM) := do
  let destSize ← s.tos 2
  if srcSize.toNat + destSize.toNat > destAlloc.toNat then pure (eNOERROR, s)
  else do
    let s ← memcpy s (destAddr.toNat + destSize.toNat) srcAddr.toNat srcSize.toNat
    let s ← s.setTos 2 (srcSize + destSize)
    pure (eNOERROR, s)

/-- `libexec_StrCatC`, `libexec_stringlib.c` 346-373. -/
def strCatC (s : VM) (ch : Byte) (destAddr destAlloc : Word) : Res (Nat × VM) := do
  let destSize ← s.tos 2
  if destSize.toNat + 1 > destAlloc.toNat then pure (eSTRSTKOVERFLOW, s)
  else do
    let s ← s.wrB (destAddr.toNat + destSize.toNat) ch
    let s ← s.setTos 2 (destSize + 1#16)
    pure (eNOERROR, s)

/-- `libexec_FillChar`, `libexec_stringlib.c` 377-412; `v` is the address of the descriptor. -/
def fillChar (s : VM) (v : Word) (count : Word) (value : Byte) : Res (Nat × VM) := do
  let alloc ← Heap.rdF s v.toNat 2
  let addr ← Heap.rdF s v.toNat 1
  let size ← Heap.rdF s v.toNat 0
  let limit := if count.toNat > alloc % 4096 then alloc % 4096 else count.toNat
  let s ← fill s (addr + size) value (limit - size)
  let s ← Heap.wrF s v.toNat 0 (if size < limit then limit else size)
  pure (eNOERROR, s)

/-- `libexec_MkCString`, `libexec_stringlib.c` 1683-1713: address of the copy (`none` = NULL). -/
def mkCString (s : VM) (src size : Nat) (keep : Bool) : Res (Option Nat × VM) :=
  if s.csp.toNat + size + 1 ≥ s.spb.toNat then .ok (none, s)
  else do
    let dest := s.csp.toNat
    let s := if keep then { s with csp := s.csp + BitVec.ofNat 16 (size + 1) } else s
    let s ← memcpy s dest src size
    let s ← s.wrB (dest + size) 0#8
    pure (some dest, s)

/-- The bytes of the C string at address `a`, without the terminating NUL.  A string that has not
ended after `fuel` bytes leaves the memory.
As C functions read it, `insn16/libexec/libexec_stringlib.c` 1163. -/
def cString (s : VM) : Nat → Nat → Res (List Byte)
  | 0, _ => .ub
  | fuel + 1, a => do
      let b ← s.rdB a
      if b = 0#8 then pure []
      else do
        let r ← cString s fuel (a + 1)
        pure (b :: r)

/-- `strstr` on the contents of two C strings: offset of the first occurrence.
`insn16/libexec/libexec_stringlib.c` 1163. -/
def strstr (h n : List Byte) : Option Nat :=
  if n.isPrefixOf h then some 0
  else match h with
    | [] => none
    | _ :: t => (strstr t n).map (· + 1)

/-- `lbFINDSUBSTR`, `libexec_stringlib.c` 1115-1185. -/
def findSubStr (s : VM) : Res (Nat × VM) := do
  let (pos, s) ← s.pop
  let (strAlloc, s) ← s.pop
  let (strAddr, s) ← s.pop
  let (strSize, s) ← s.pop
  let (subAlloc, s) ← s.pop
  let (subAddr, s) ← s.pop
  let (subSize, s) ← s.pop
  let saveCsp := s.csp
  let (cStr, s) ← mkCString s strAddr.toNat strSize.toNat true
  let (cSub, s) ← mkCString s subAddr.toNat subSize.toNat false
  let (e, off) ← (if pos.toNat < 1 then pure (eVALUERANGE, 0)
    else match cStr, cSub with
      | some h, some n => do
          let hs ← cString s (2 * s.words + 1) (h + (pos.toNat - 1))
          let ns ← cString s (2 * s.words + 1) n
          match strstr hs ns with
          | some i => pure (eNOERROR, pos.toNat + i)
          | none => pure (eNOERROR, 0)
      | _, _ => pure (eNOMEMORY, 0))
  let s := { s with csp := saveCsp }
  let s ← s.push (BitVec.ofNat 16 off)
  let s ← freeTmp s strAddr strAlloc
  let s ← freeTmp s subAddr subAlloc
  pure (e, s)

/-- `lbCOPYSUBSTR`, `libexec_stringlib.c` 1028-1095. -/
def copySubStr (s : VM) : Res (Nat × VM) := do
  let (subSize, s) ← s.pop
  let (subPos, s) ← s.pop
  let srcAlloc ← s.tos 0
  let srcAddr ← s.tos 1
  let srcSize ← s.tos 2
  let (subAddr, subAlloc, s) ← Heap.allocTmpString s (capacity srcAlloc)
  if subAddr = 0 then pure (eNOMEMORY, s)
  else do
    let s ← s.setTos 0 (BitVec.ofNat 16 subAlloc)
    let s ← s.setTos 1 (BitVec.ofNat 16 subAddr)
    let s ← s.setTos 2 0#16
    if subPos.toNat ≥ 1 ∧ subPos.toNat ≤ srcSize.toNat ∧ subSize.toNat > 0 then do
      let p := subPos.toNat - 1
      let n := if subSize.toNat > srcAlloc.toNat then srcAlloc.toNat else subSize.toNat
      let n := if p + n > srcSize.toNat then srcSize.toNat - p else n
      let s ← memcpy s subAddr (srcAddr.toNat + p) n
      let s ← s.setTos 2 (BitVec.ofNat 16 n)
      pure (eNOERROR, s)
    else pure (eNOERROR, s)

/-- `lbINSERTSTR`, `libexec_stringlib.c` 1200-1283.  `--strPos < 0` is never true for a
`uint16_t`. -/
def insertStr (s : VM) : Res (Nat × VM) := do
  let (strPos, s) ← s.pop
  let (v, s) ← s.pop
  let destAlloc ← Heap.rdF s v.toNat 2
  let destAddr ← Heap.rdF s v.toNat 1
  let destSize ← Heap.rdF s v.toNat 0
  let destAlloc := destAlloc % 4096
  let (srcAlloc, s) ← s.pop
  let (srcAddr, s) ← s.pop
  let (srcSize, s) ← s.pop
  let p := (strPos - 1#16).toNat
  let newSize := (destSize + srcSize.toNat) % 65536
  let newSize := if newSize > destAlloc then destAlloc else newSize
  let s ← copyDown s (destAddr + p + srcSize.toNat) (destAddr + p) (newSize - srcSize.toNat - p)
  let copyEnd := (srcSize.toNat + p) % 65536
  let copyEnd := if copyEnd > newSize then newSize else copyEnd
  let s ← copyUp s (destAddr + p) srcAddr.toNat (copyEnd - p)
  let s ← Heap.wrF s v.toNat 0 newSize
  let s ← freeTmp s srcAddr srcAlloc
  pure (eNOERROR, s)

/-- `lbDELSUBSTR`, `libexec_stringlib.c` 1296-1342. -/
def delSubStr (s : VM) : Res (Nat × VM) := do
  let (numChars, s) ← s.pop
  let (strPos, s) ← s.pop
  let (v, s) ← s.pop
  let addr ← Heap.rdF s v.toNat 1
  let size ← Heap.rdF s v.toNat 0
  let p := (strPos - 1#16).toNat
  let s ← copyUp s (addr + p) (addr + p + numChars.toNat) (size - (p + numChars.toNat))
  let n := if p + numChars.toNat > size then (size + 65536 - p) % 65536 else numChars.toNat
  let sz ← Heap.rdF s v.toNat 0
  let s ← Heap.wrF s v.toNat 0 (sz + 65536 - n)
  pure (eNOERROR, s)

/-- `lbSTRCMP`, `libexec_stringlib.c` 905-977. -/
def strCmp (c : Cfg) (s : VM) : Res (Nat × VM) := do
  let (alloc2, s) ← s.pop
  let (addr2, s) ← s.pop
  let (size2, s) ← s.pop
  let (alloc1, s) ← s.pop
  let (addr1, s) ← s.pop
  let size1 ← s.tos 0
  let n := if size1.toNat < size2.toNat then size1.toNat else size2.toNat
  let b1 ← readBytes s addr1.toNat n
  let b2 ← readBytes s addr2.toNat n
  let r := c.memcmp b1 b2
  let r : Int := if size1.toNat < size2.toNat then (if r = 0 then -1 else r)
    else if size1.toNat > size2.toNat then (if r = 0 then 1 else r) else r
  let s ← freeTmp s addr1 alloc1
  let s ← freeTmp s addr2 alloc2
  let s ← s.setTos 0 (BitVec.ofInt 16 r)
  pure (eNOERROR, s)

/-- `libexec_StringOperations`, `libexec_stringlib.c` 430-1676; codes `include/pas_stringlib.h`
63-392. -/
def strOps (c : Cfg) (s : VM) (sub : Word) : Res (Nat × VM) :=
  match sub.toNat with
  | 0x00 => do                                                     -- lbSTRCPY 466-487
      let (v, s) ← s.pop
      let (alloc, s) ← s.pop
      let (buf, s) ← s.pop
      let (size, s) ← s.pop
      let s ← strCpy s buf size v 0#16
      let s ← freeTmp s buf alloc
      pure (eNOERROR, s)
  | 0x01 => do                                                     -- lbSTRCPY2 456-487
      let (alloc, s) ← s.pop
      let (buf, s) ← s.pop
      let (size, s) ← s.pop
      let (v, s) ← s.pop
      let s ← strCpy s buf size v 0#16
      let s ← freeTmp s buf alloc
      pure (eNOERROR, s)
  | 0x02 => do                                                     -- lbSTRCPYX 515-537
      let (v, s) ← s.pop
      let (alloc, s) ← s.pop
      let (buf, s) ← s.pop
      let (size, s) ← s.pop
      let (offset, s) ← s.pop
      let s ← strCpy s buf size v offset
      let s ← freeTmp s buf alloc
      pure (eNOERROR, s)
  | 0x03 => do                                                     -- lbSTRCPYX2 504-537
      let (alloc, s) ← s.pop
      let (buf, s) ← s.pop
      let (size, s) ← s.pop
      let (offset, s) ← s.pop
      let (v, s) ← s.pop
      let s ← strCpy s buf size v offset
      let s ← freeTmp s buf alloc
      pure (eNOERROR, s)
  | 0x04 => do                                                     -- lbBSTR2STR 554-564
      let (arr, s) ← s.pop
      let (size, s) ← s.pop
      bstr2Str c s arr size
  | 0x05 => do                                                     -- lbSTR2BSTR 583-611
      let (arr, s) ← s.pop
      let (arrSize, s) ← s.pop
      let (alloc, s) ← s.pop
      let (buf, s) ← s.pop
      let (size, s) ← s.pop
      let s ← str2BStr s arr arrSize buf size 0#16
      let s ← freeTmp s buf alloc
      pure (eNOERROR, s)
  | 0x06 => do                                                     -- lbSTR2BSTRX 632-663
      let (arr, s) ← s.pop
      let (arrSize, s) ← s.pop
      let (alloc, s) ← s.pop
      let (buf, s) ← s.pop
      let (size, s) ← s.pop
      let (offset, s) ← s.pop
      let s ← str2BStr s arr arrSize buf size offset
      let s ← freeTmp s buf alloc
      pure (eNOERROR, s)
  | 0x07 => do                                                     -- lbSTRINIT 678-693
      let (v, s) ← s.pop
      let (size, s) ← s.pop
      let size : Word := BitVec.ofNat 16 (intAlignUp size.toNat)
      let (e, s) ← strInit s v size
      let s ← s.wr ((v.toNat + 4) / 2) size
      pure (e, s)
  | 0x08 => do                                                     -- lbSTRTMP 710-731
      let (buf, alloc, s) ← Heap.allocTmpString s c.bufSize
      if buf = 0 then pure (eNOMEMORY, s)
      else do
        let s ← s.push 0#16
        let s ← s.push (BitVec.ofNat 16 buf)
        let s ← s.push (BitVec.ofNat 16 alloc)
        pure (eNOERROR, s)
  | 0x09 => do                                                     -- lbSTRDUP 748-772
      let alloc ← s.tos 0
      let addr ← s.tos 1
      let size ← s.tos 2
      let (e, s) ← strDup c s addr size
      let s ← freeTmp s addr alloc
      pure (e, s)
  | 0x0a => do                                                     -- lbMKSTKC 786-812
      let (buf, alloc, s) ← Heap.allocTmpString s c.bufSize
      if buf = 0 then pure (eNOMEMORY, s)
      else do
        let ch ← s.tos 0
        let s ← s.wrB buf (ch.truncate 8)
        let s ← s.setTos 0 1#16
        let s ← s.push (BitVec.ofNat 16 buf)
        let s ← s.push (BitVec.ofNat 16 alloc)
        pure (eNOERROR, s)
  | 0x0b => do                                                     -- lbSTRCAT 831-858
      let (alloc, s) ← s.pop
      let (addr, s) ← s.pop
      let (size, s) ← s.pop
      let dAlloc ← s.tos 0
      let dAddr ← s.tos 1
      let (e, s) ← strCat s addr size dAddr (dAlloc &&& 0x0fff#16)
      let s ← freeTmp s addr alloc
      pure (e, s)
  | 0x0c => do                                                     -- lbSTRCATC 875-888
      let (ch, s) ← s.pop
      let dAlloc ← s.tos 0
      let dAddr ← s.tos 1
      strCatC s (ch.truncate 8) dAddr dAlloc
  | 0x0d => strCmp c s
  | 0x0e => do                                                     -- lbSTRLEN 991-1009
      let (alloc, s) ← s.pop
      let (addr, s) ← s.pop
      let s ← freeTmp s addr alloc
      pure (eNOERROR, s)
  | 0x0f => copySubStr s
  | 0x10 => findSubStr s
  | 0x11 => insertStr s
  | 0x12 => delSubStr s
  | 0x13 => do                                                     -- lbFILLCHAR 1355-1374
      let (ch, s) ← s.pop
      let (count, s) ← s.pop
      let (v, s) ← s.pop
      fillChar s v count (ch.truncate 8)
  | 0x14 => do                                                     -- lbCHARAT 1389-1420
      let (pos, s) ← s.pop
      let (alloc, s) ← s.pop
      let (addr, s) ← s.pop
      let (size, s) ← s.pop
      let r ← (if pos.toNat > 0 ∧ pos.toNat ≤ size.toNat then do
          let b ← s.rdB (addr.toNat + (pos.toNat - 1))
          pure (signExtend8 b)
        else pure 0#16)
      let s ← s.push r
      let s ← freeTmp s addr alloc
      pure (eNOERROR, s)
  | 0x15 | 0x16 | 0x17 | 0x18 | 0x19 | 0x1a => c.other s sub
  | _ => .ok (eBADSYSLIBCALL, s)                                   -- 1671-1673

end Pas.Str
