import Verif.Model.VM

/-! Set operations, `insn16/libexec/libexec_setops.c`.  Sets are four words (`sSET_WORDS`,
64 elements, `include/pas_machine.h` 101-103); element `x` is bit `x & 15` of word `x >> 4`. -/
namespace Pas.SetOps

/-- Index of `TOS(st, k)` used as a pointer (a negative index is undefined).
`insn16/include/libexec.h` 94-97. -/
def ptr (s : VM) (k : Nat) : Res Nat := if k ≤ s.top then .ok (s.top - k) else .ub

/-- `dest[i] = f(dest[i], src[i])` for `i = 0..3` (`libexec_setops.c` 109-143). -/
def zip4 (s : VM) (src dest : Nat) (f : Word → Word → Word) : Res VM := do
  let a ← s.rd dest
  let b ← s.rd src
  let s ← s.wr dest (f a b)
  let a ← s.rd (dest + 1)
  let b ← s.rd (src + 1)
  let s ← s.wr (dest + 1) (f a b)
  let a ← s.rd (dest + 2)
  let b ← s.rd (src + 2)
  let s ← s.wr (dest + 2) (f a b)
  let a ← s.rd (dest + 3)
  let b ← s.rd (src + 3)
  s.wr (dest + 3) (f a b)

/-- The four words of a set.  As in `insn16/libexec/libexec_setops.c` 109-240. -/
def rd4 (s : VM) (p : Nat) : Res (Word × Word × Word × Word) := do
  let a ← s.rd p
  let b ← s.rd (p + 1)
  let c ← s.rd (p + 2)
  let d ← s.rd (p + 3)
  pure (a, b, c, d)

/-- `libexec_equality` / `libexec_nonequality` / `libexec_contains`
(`libexec_setops.c` 145-194): `*result = f(src1, src2)` word by word.  (C stops reading at the
first difference; reading all four words needs the same memory, since both sets are in it.) -/
def compare (s : VM) (src1 src2 result : Nat) (f : Word → Word → Bool) (neg : Bool) : Res VM := do
  let (a0, a1, a2, a3) ← rd4 s src1
  let (b0, b1, b2, b3) ← rd4 s src2
  let same := f a0 b0 && f a1 b1 && f a2 b2 && f a3 b3
  s.wr result (pasBool (if neg then !same else same))

/-- The single-bit word `1 << bitIndex` (`bitIndex` 0..15). -/
def bit (i : Nat) : Word := BitVec.ofNat 16 (2 ^ i)

/-- `member >> 4` stored in a `uint16_t` (arithmetic shift of the `int16_t` member). -/
def wordIndex (m : Word) : Nat := (m.sshiftRight 4).toNat

/-- `member & 0x0f`.  `insn16/libexec/libexec_setops.c` 208. -/
def bitIndex (m : Word) : Nat := m.toNat % 16

/-- `libexec_member`, `libexec_setops.c` 196-215. -/
def member (s : VM) (m : Word) (src result : Nat) : Res (Nat × VM) :=
  if m.toInt < 0 ∨ m.toInt > 64 then .ok (eVALUERANGE, s)
  else do
    let w ← s.rd (src + wordIndex m)
    let s ← s.wr result (pasBool (w &&& bit (bitIndex m) != 0#16))
    pure (eNOERROR, s)

/-- `libexec_include`, `libexec_setops.c` 217-224. -/
def incl (s : VM) (m : Word) (dest : Nat) : Res (Nat × VM) := do
  let w ← s.rd (dest + wordIndex m)
  let s ← s.wr (dest + wordIndex m) (w ||| bit (bitIndex m))
  pure (eNOERROR, s)

/-- `libexec_exclude`, `libexec_setops.c` 226-233. -/
def excl (s : VM) (m : Word) (dest : Nat) : Res (Nat × VM) := do
  let w ← s.rd (dest + wordIndex m)
  let s ← s.wr (dest + wordIndex m) (w &&& ~~~(bit (bitIndex m)))
  pure (eNOERROR, s)

/-- `g_bitsInNibble`, `libexec_setops.c` 99-103. -/
def bitsInNibble : Nat → Nat
  | 0 => 0 | 1 => 1 | 2 => 1 | 3 => 2 | 4 => 1 | 5 => 2 | 6 => 2 | 7 => 3
  | 8 => 1 | 9 => 2 | 10 => 2 | 11 => 3 | 12 => 2 | 13 => 3 | 14 => 3 | _ => 4

/-- `libexec_BitsInByte`, `libexec_BitsInWord`, `libexec_setops.c` 349-362. -/
def bitsInByte (b : Nat) : Nat := bitsInNibble (b / 16 % 16) + bitsInNibble (b % 16)
/-- `libexec_BitsInWord`, `insn16/libexec/libexec_setops.c` 349-352. -/
def bitsInWord (w : Word) : Nat := bitsInByte (w.toNat / 256) + bitsInByte (w.toNat % 256)

/-- `libexec_card`, `libexec_setops.c` 235-240. -/
def card (s : VM) (src dest : Nat) : Res VM := do
  let (a, b, c, d) ← rd4 s src
  s.wr dest (BitVec.ofNat 16 (bitsInWord a + bitsInWord b + bitsInWord c + bitsInWord d))

/-- Clear the result set (`libexec_setops.c` 249-252, 278-281). -/
def clear4 (s : VM) (dest : Nat) : Res VM := do
  let s ← s.wr dest 0#16
  let s ← s.wr (dest + 1) 0#16
  let s ← s.wr (dest + 2) 0#16
  s.wr (dest + 3) 0#16

/-- `libexec_singleton`, `libexec_setops.c` 242-267. -/
def singleton (s : VM) (minValue m : Word) (dest : Nat) : Res (Nat × VM) := do
  let s ← clear4 s dest
  let m := m - minValue
  if m.toInt < 0 ∨ m.toInt ≥ 64 then pure (eVALUERANGE, s)
  else do
    let w ← s.rd (dest + wordIndex m)
    let s ← s.wr (dest + wordIndex m) (w ||| bit (bitIndex m))
    pure (eNOERROR, s)

/-- The loop of `libexec_subrange`, `libexec_setops.c` 326-343.  `wi` is the absolute word
index `dest + wordIndex`.  Every iteration writes a further word, so `words + 1` iterations
always suffice to end the loop or to leave the memory. -/
def subLoop (tailBits : Int) (tailMask : Word) :
    Nat → VM → Nat → Int → Int → Word → Res VM
  | 0, _, _, _, _, _ => .hang
  | fuel + 1, s, wi, nBits, bitsInWord, bitMask =>
    if nBits > 0 then do
      let s ← s.wr wi bitMask
      let nBits := nBits - bitsInWord
      if nBits ≥ 16 then subLoop tailBits tailMask fuel s (wi + 1) nBits 16 0xffff#16
      else if nBits > 0 then subLoop tailBits tailMask fuel s (wi + 1) tailBits bitsInWord tailMask
      else subLoop tailBits tailMask fuel s (wi + 1) nBits bitsInWord bitMask
    else .ok s

/-- `libexec_subrange`, `libexec_setops.c` 269-347. -/
def subrange (s : VM) (minValue m1 m2 : Word) (dest : Nat) : Res (Nat × VM) := do
  let s ← clear4 s dest
  let m2 := m2 - minValue
  if m2.toInt < 0 ∨ m2.toInt ≥ 64 then pure (eVALUERANGE, s)
  else do
    let m1 := m1 - minValue
    if m1.toInt < 0 ∨ m1.toInt > m2.toInt then pure (eVALUERANGE, s)
    else do
      let leadMask : Word := 0xffff#16 <<< (bitIndex m1)
      let tailMask : Word := 0xffff#16 >>> (15 - bitIndex m2)
      let wi := wordIndex m1
      if wi = wordIndex m2 then do
        let s ← s.wr (dest + wi) (leadMask &&& tailMask)
        pure (eNOERROR, s)
      else do
        let nBits := m2.toInt - m1.toInt + 1
        let leadBits := 16 - m1.toInt
        let tailBits : Int := bitIndex m2 + 1
        let s ← subLoop tailBits tailMask (s.words + 1) s (dest + wi) nBits leadBits leadMask
        pure (eNOERROR, s)

/-- `st->sp += sSET_SIZE` (`libexec_setops.c` 536, 555). -/
def grow (s : VM) : VM := { s with sp := s.sp + 8#16 }

/-- `libexec_SetOperations`, `libexec_setops.c` 376-567; sub-function codes
`include/pas_setops.h` 60-80. -/
def setOps (s : VM) (sub : Byte) : Res (Nat × VM) :=
  match sub.toNat with
  | 0x01 => do                                                     -- setEMPTY 391-396
      let s ← s.push 0#16
      let s ← s.push 0#16
      let s ← s.push 0#16
      let s ← s.push 0#16
      pure (eNOERROR, s)
  | 0x02 => do                                                     -- setINTERSECTION 407-412
      let src ← ptr s 3
      let dest ← ptr s 7
      let s ← zip4 s src dest (fun a b => a &&& b)
      pure (eNOERROR, s.discard 4)
  | 0x03 => do                                                     -- setUNION 414-419
      let src ← ptr s 3
      let dest ← ptr s 7
      let s ← zip4 s src dest (fun a b => a ||| b)
      pure (eNOERROR, s.discard 4)
  | 0x04 => do                                                     -- setDIFFERENCE 421-426
      let src ← ptr s 3
      let dest ← ptr s 7
      let s ← zip4 s src dest (fun a b => a &&& ~~~b)
      pure (eNOERROR, s.discard 4)
  | 0x05 => do                                                     -- setSYMMETRICDIFF 428-433
      let src ← ptr s 3
      let dest ← ptr s 7
      let s ← zip4 s src dest (fun a b => a ^^^ b)
      pure (eNOERROR, s.discard 4)
  | 0x06 => do                                                     -- setEQUALITY 444-450
      let src1 ← ptr s 3
      let src2 ← ptr s 7
      let s ← compare s src1 src2 src2 (fun a b => a == b) false
      pure (eNOERROR, s.discard 7)
  | 0x07 => do                                                     -- setNONEQUALITY 452-458
      let src1 ← ptr s 3
      let src2 ← ptr s 7
      let s ← compare s src1 src2 src2 (fun a b => a == b) true
      pure (eNOERROR, s.discard 7)
  | 0x08 => do                                                     -- setCONTAINS 460-466
      let src1 ← ptr s 3
      let src2 ← ptr s 7
      let s ← compare s src1 src2 src2 (fun a b => a &&& b == b) false
      pure (eNOERROR, s.discard 7)
  | 0x09 => do                                                     -- setMEMBER 478-486
      let offset ← s.tos 0
      let src ← ptr s 4
      let m ← s.tos 5
      let dest ← ptr s 5
      let (e, s) ← member s (m - offset) src dest
      pure (e, s.discard 5)
  | 0x0a => do                                                     -- setINCLUDE 497-501
      let (m, s) ← s.pop
      let dest ← ptr s 3
      incl s m dest
  | 0x0b => do                                                     -- setEXCLUDE 503-507
      let (m, s) ← s.pop
      let dest ← ptr s 3
      excl s m dest
  | 0x0c => do                                                     -- setCARD 517-522
      let src ← ptr s 3
      let s ← card s src src
      pure (eNOERROR, s.discard 3)
  | 0x0d => do                                                     -- setSINGLETON 533-539
      let (minValue, s) ← s.pop
      let (m, s) ← s.pop
      let s := grow s
      let dest ← ptr s 3
      singleton s minValue m dest
  | 0x0e => do                                                     -- setSUBRANGE 551-558
      let (minValue, s) ← s.pop
      let (m2, s) ← s.pop
      let (m1, s) ← s.pop
      let s := grow s
      let dest ← ptr s 3
      subrange s minValue m1 m2 dest
  | _ => .ok (eBADSETOPCODE, s)                                    -- 560-563

end Pas.SetOps
