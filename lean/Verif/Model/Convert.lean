import Verif.Model.SysIo

/-! `insn16/libexec/libexec_stringlib.c` 1422-1673: STR and VAL. -/
namespace Pas.Convert
open Pas.SysIo (Host fmtD fmtU pad width realText isspace isdigit)

def eBADSYSLIBCALL : Nat := 0xa8       -- include/pas_errcodes.h:357
/-- `include/pas_errcodes.h` 360. -/
def eINTEGEROVERFLOW : Nat := 0xab     -- include/pas_errcodes.h:360

/-- C `snprintf(dest, size, ...)` with the formatted text `l`: at most `size - 1` bytes and a NUL.
Used in `insn16/libexec/libexec_stringlib.c` 1479, 1534. -/
def snprintf (s : VM) (dest size : Nat) (l : List Byte) : Res VM :=
  if size = 0 then .ok s else copyIn s dest (l.take (size - 1) ++ [0#8])

/-- The common end of the STR cases, 1471-1484, 1525-1538 and 1574-1587: the text is appended to the
string variable at `v`; `mask` = the allocation size is masked with `HEAP_SIZE_MASK`.  The new size is the
length `snprintf` returns, converted to 16 bits, whether or not the text fitted. -/
def appendText (s : VM) (v : Word) (mask : Bool) (l : List Byte) : Res (Nat × VM) := do
  let a ← Heap.rdF s v.toNat 2
  let alloc := if mask then Str.capacity (BitVec.ofNat 16 a) else a
  let addr ← Heap.rdF s v.toNat 1
  let size ← Heap.rdF s v.toNat 0
  if size < alloc then do
    let s ← snprintf s (addr + size) (alloc - size) l
    let s ← Heap.wrF s v.toNat 0 (size + l.length)
    .ok (eNOERROR, s)
  else .ok (eNOERROR, s)

/-- The value of a character as a digit.
Part of C `strtol`, used in `insn16/libexec/libexec_stringlib.c` 1651. -/
def digitVal (b : Byte) : Nat :=
  let c := b.toNat
  if 48 ≤ c ∧ c ≤ 57 then c - 48
  else if 97 ≤ c ∧ c ≤ 122 then c - 87
  else if 65 ≤ c ∧ c ≤ 90 then c - 55
  else 36

/-- The digits of a number in a base: its value and what follows.
Part of C `strtol`, used in `insn16/libexec/libexec_stringlib.c` 1651. -/
def number (base : Nat) : Nat → List Byte → Nat × List Byte
  | v, [] => (v, [])
  | v, b :: r => if digitVal b < base then number base (base * v + digitVal b) r else (v, b :: r)

/-- C `strtol(l, &end, 0)`: the value and the text from `end`.  Simplification: no limit on the value (both
callers reject what does not fit in 16 bits). -/
def strtol (l : List Byte) : Int × List Byte :=
  let t := l.dropWhile isspace
  let neg := t.head? = some 45#8
  let t := if t.head? = some 43#8 ∨ t.head? = some 45#8 then t.tail else t
  let sign (v : Nat) : Int := if neg then -(v : Int) else v
  match t with
  | [] => (0, l)
  | b :: r =>
      if b = 48#8 then
        match r with
        | x :: y :: r' =>
            if (x = 120#8 ∨ x = 88#8) ∧ digitVal y < 16 then
              let (v, e) := number 16 0 (y :: r')
              (sign v, e)
            else
              let (v, e) := number 8 0 r
              (sign v, e)
        | _ =>
            let (v, e) := number 8 0 r
            (sign v, e)
      else if isdigit b then
        let (v, e) := number 10 0 (b :: r)
        (sign v, e)
      else (0, l)

/-- `lbVAL`, 1619-1669.  `(ustack_t)*endptr` sign-extends the character. -/
def val (s : VM) : Res (Nat × VM) := do
  let (codeAddr, s) ← s.pop
  let (valueAddr, s) ← s.pop
  let (strAlloc, s) ← s.pop
  let (strAddr, s) ← s.pop
  let (strSize, s) ← s.pop
  let (o, s) ← Str.mkCString s strAddr.toNat strSize.toNat false
  match o with
  | none => do
      let s ← Str.freeTmp s strAddr strAlloc
      .ok (Str.eNOMEMORY, s)
  | some p => do
      let l ← Str.cString s (2 * s.words + 1) p
      let (v, e) := strtol l
      if v < -32768 ∨ v > 32767 then do
        let s ← Str.freeTmp s strAddr strAlloc
        .ok (eINTEGEROVERFLOW, s)
      else do
        let s ← s.putStack (signExtend8 (e.headD 0#8)) codeAddr
        let s ← s.putStack (BitVec.ofInt 16 v) valueAddr
        let s ← Str.freeTmp s strAddr strAlloc
        .ok (eNOERROR, s)

/-- The cases of `libexec_StringOperations` for STR and VAL.  In `lbINTSTR` and `lbLONGSTR` the value is
a `uint16_t`, so `%d` never prints a sign, and a long value loses its upper half. -/
def conversions (h : Host) (s : VM) (sub : Word) : Res (Nat × VM) :=
  match sub.toNat with
  | 0x15 => do                                                   -- lbINTSTR, 1431-1486
      let (v, s) ← s.pop
      let (w, s) ← s.pop
      let (x, s) ← s.pop
      appendText s v false (pad (width w) (fmtD x.toNat))
  | 0x16 => do                                                   -- lbWORDSTR
      let (v, s) ← s.pop
      let (w, s) ← s.pop
      let (x, s) ← s.pop
      appendText s v false (pad (width w) (fmtU x.toNat))
  | 0x17 => do                                                   -- lbLONGSTR, 1488-1541
      let (v, s) ← s.pop
      let (w, s) ← s.pop
      let (x, s) ← LongOps.pop32 s
      appendText s v true (pad (width w) (fmtD (x.toNat % 65536 : Nat)))
  | 0x18 => do                                                   -- lbULONGSTR
      let (v, s) ← s.pop
      let (w, s) ← s.pop
      let (x, s) ← LongOps.pop32 s
      appendText s v true (pad (width w) (fmtU (x.toNat % 65536)))
  | 0x19 => do                                                   -- lbREALSTR, 1543-1589
      let (v, s) ← s.pop
      let (w, s) ← s.pop
      let (v3, s) ← s.pop
      let (v2, s) ← s.pop
      let (v1, s) ← s.pop
      let (v0, s) ← s.pop
      appendText s v true (realText h w (v3 ++ v2 ++ v1 ++ v0 : BitVec 64))
  | 0x1a => val s                                                -- lbVAL, 1619-1669
  | _ => .ok (eBADSYSLIBCALL, s)                                 -- 1671-1673

end Pas.Convert
