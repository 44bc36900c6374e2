import Verif.Model.Opcodes
import Verif.Model.IoState
import Verif.Model.Res

/-! The 16-bit P-machine: `insn16/libexec/libexec_run.c` and the stack macros of
`insn16/include/libexec.h`. -/
namespace Pas

/-- Machine state `struct libexec_s` (`insn16/include/libexec.h` 265-355): the data
memory `dstack` seen as 16-bit words and the registers.  `words` is the number of
allocated words (`stackSize / 2`), `io` the file table, the I/O buffer and the files of the host.
Simplifications: the debugger fields are omitted (not modelled); `freeChunks` is the byte address
in `dstack` the C pointer refers to (`none` = NULL). -/
structure VM where
  mem : Nat → Word
  words : Nat
  spb : Word
  sp : Word
  csp : Word
  hpb : Word
  hsp : Word
  fp : Word
  rop : Word
  pc : Word
  lsp : Word
  strSize : Word
  roSize : Word
  stkSize : Word
  hpSize : Word
  freeChunks : Option Nat
  io : Io := Io.empty

/-- Error codes, `include/pas_errcodes.h`.  `include/pas_errcodes.h` 212. -/
def eNOERROR : Nat := 0x00
/-- `include/pas_errcodes.h` 234. -/
def eHUH : Nat := 0x0d
/-- `include/pas_errcodes.h` 349. -/
def eBADPC : Nat := 0xa0
/-- `include/pas_errcodes.h` 350. -/
def eILLEGALOPCODE : Nat := 0xa1
/-- `include/pas_errcodes.h` 352. -/
def eSTRSTKOVERFLOW : Nat := 0xa3
/-- `include/pas_errcodes.h` 353. -/
def eNEWFAILED : Nat := 0xa4
/-- `include/pas_errcodes.h` 354. -/
def eDOUBLEFREE : Nat := 0xa5
/-- `include/pas_errcodes.h` 355. -/
def eEXIT : Nat := 0xa6
/-- `include/pas_errcodes.h` 357. -/
def eBADSYSLIBCALL : Nat := 0xa8
/-- `include/pas_errcodes.h` 359. -/
def eBADSETOPCODE : Nat := 0xaa
/-- `include/pas_errcodes.h` 360. -/
def eINTEGEROVERFLOW : Nat := 0xab
/-- `include/pas_errcodes.h` 361. -/
def eVALUERANGE : Nat := 0xac
/-- `include/pas_errcodes.h` 362. -/
def eNESTINGLEVEL : Nat := 0xad

/-- `PASCAL_TRUE` (-1) / `PASCAL_FALSE` (0) as stored in a stack word,
`include/pas_machine.h` 144-145. -/
def pasBool (b : Bool) : Word := if b then 0xffff#16 else 0#16

/-- Memory update at a word index.  `insn16/include/libexec.h` 99-104. -/
def updW (m : Nat → Word) (i : Nat) (w : Word) : Nat → Word :=
  fun j => if j = i then w else m j

/-- Replace byte `a` (little-endian host) in a word memory.  `insn16/include/libexec.h` 111-116. -/
def updB (m : Nat → Word) (a : Nat) (b : Byte) : Nat → Word :=
  updW m (a / 2)
    (if a % 2 = 0 then (m (a / 2) &&& 0xff00#16) ||| b.zeroExtend 16
     else (m (a / 2) &&& 0x00ff#16) ||| (b.zeroExtend 16 <<< 8))

/-- Byte `a` of a word memory (little-endian host).  `insn16/include/libexec.h` 118-122. -/
def byteAt (m : Nat → Word) (a : Nat) : Byte :=
  if a % 2 = 0 then (m (a / 2)).truncate 8 else (m (a / 2) >>> 8).truncate 8

namespace VM

/-- Index of the word on top of the stack, `BTOISTACK(st->sp)`, `libexec.h` 68. -/
def top (s : VM) : Nat := s.sp.toNat / 2

/-- `dstack.i[i]` as an rvalue; outside the allocation it is undefined behaviour.
`insn16/include/libexec.h` 106-109. -/
def rd (s : VM) (i : Nat) : Res Word := if i < s.words then .ok (s.mem i) else .ub

/-- `dstack.i[i] = w`.  `insn16/include/libexec.h` 99-104. -/
def wr (s : VM) (i : Nat) (w : Word) : Res VM :=
  if i < s.words then .ok { s with mem := updW s.mem i w } else .ub

/-- `GETBSTACK`, `libexec.h` 118-119. -/
def rdB (s : VM) (a : Nat) : Res Byte :=
  if a < 2 * s.words then .ok (byteAt s.mem a) else .ub

/-- `PUTBSTACK`, `libexec.h` 111-114. -/
def wrB (s : VM) (a : Nat) (b : Byte) : Res VM :=
  if a < 2 * s.words then .ok { s with mem := updB s.mem a b } else .ub

/-- `POP`, `libexec.h` 78-82. -/
def pop (s : VM) : Res (Word × VM) := do
  let w ← s.rd s.top
  pure (w, { s with sp := s.sp - 2#16 })

/-- `PUSH`, `libexec.h` 86-90. -/
def push (s : VM) (w : Word) : Res VM :=
  let s' := { s with sp := s.sp + 2#16 }
  s'.wr s'.top w

/-- `TOS(st, off)` as an rvalue, `libexec.h` 94-95 (a negative index is undefined). -/
def tos (s : VM) (off : Nat) : Res Word :=
  if off ≤ s.top then s.rd (s.top - off) else .ub

/-- `TOS(st, off) = w`.  `insn16/include/libexec.h` 94-97. -/
def setTos (s : VM) (off : Nat) (w : Word) : Res VM :=
  if off ≤ s.top then s.wr (s.top - off) w else .ub

/-- `GETSTACK`, `libexec.h` 106-107: the low address bit is ignored. -/
def getStack (s : VM) (a : Word) : Res Word := s.rd (a.toNat / 2)

/-- `PUTSTACK`, `libexec.h` 99-102. -/
def putStack (s : VM) (w : Word) (a : Word) : Res VM := s.wr (a.toNat / 2) w

/-- `DISCARD`, `libexec.h` 128-131. -/
def discard (s : VM) (n : Nat) : VM := { s with sp := s.sp - BitVec.ofNat 16 (2 * n) }

end VM

/-- `signExtend8` followed by the conversion to a stack word, `libpas/psignextend8.c` 52-56. -/
def signExtend8 (b : Byte) : Word := b.signExtend 16

/-- `signExtend16`, `libpas/psignextend16.c` 52-56. -/
def signExtend16 (w : Word) : Int := w.toInt

/-- `ROUNDBTOI`, `libexec.h` 69. -/
def roundBtoI (n : Nat) : Nat := (n + 1) / 2

/-- The loop pushing `n` bytes starting at address `a` (oLDIM `libexec_run.c` 573-591,
oLDM 929-947, oLDXM 1007-1026, oLDSM 1177-1195, oLDSXM 1257-1276). -/
def pushBlock (s : VM) (a : Word) : Nat → Res VM
  | 0 => .ok s
  | 1 => do
      let b ← s.rdB a.toNat
      s.push (b.zeroExtend 16)
  | n + 2 => do
      let w ← s.getStack a
      let s' ← s.push w
      pushBlock s' (a + 2#16) n

/-- The loop storing the `n` bytes on top of the stack to address `a` (oSTIM
`libexec_run.c` 619-645, oSTM 963-988, oSTXM 1044-1071, oSTSM 1211-1236,
oSTSXM 1294-1321).  At each step the C variable `sparm` is `ROUNDBTOI(n) - 1`. -/
def storeBlock (s : VM) (a : Word) : Nat → Res VM
  | 0 => .ok s
  | 1 => do
      let w ← s.tos 0
      s.wrB a.toNat (w.truncate 8)
  | n + 2 => do
      let w ← s.tos (roundBtoI (n + 2) - 1)
      let s' ← s.putStack w a
      storeBlock s' (a + 2#16) n

/-- Normal end of `pexec8`: `st->pc += 1; return eNOERROR` (`libexec_run.c` 686-687). -/
def done8 (s : VM) : Res (Nat × VM) := .ok (eNOERROR, { s with pc := s.pc + 1#16 })

/-- Two-operand instruction: `POP(st, b); TOS(st,0) = f(TOS(st,0), b)`.
As in `insn16/libexec/libexec_run.c` 272-688. -/
def binop (s : VM) (f : Word → Word → Res Word) : Res (Nat × VM) := do
  let (b, s) ← s.pop
  let a ← s.tos 0
  let r ← f a b
  let s ← s.setTos 0 r
  done8 s

/-- One-operand instruction: `TOS(st,0) = f(TOS(st,0))`.  As in `insn16/libexec/libexec_run.c` 272-688. -/
def unop (s : VM) (f : Word → Word) : Res (Nat × VM) := do
  let a ← s.tos 0
  let s ← s.setTos 0 (f a)
  done8 s

/-- Comparison with zero: `POP; ...; PUSH` (`libexec_run.c` 379-443). -/
def cmpz (s : VM) (f : Int → Bool) : Res (Nat × VM) := do
  let (a, s) ← s.pop
  let s ← s.push (pasBool (f a.toInt))
  done8 s

/-- C shift counts must lie in `[0, 31]` (operands are promoted to 32-bit `int`). -/
def shiftOk (c : Word) : Bool := 0 ≤ c.toInt && c.toInt ≤ 31

/-- `pexec8`, `libexec_run.c` 272-688: instructions without immediate data. -/
def pexec8 (s : VM) (op : Option Op) : Res (Nat × VM) :=
  match op with
  | some .neg => unop s (fun a => BitVec.ofInt 16 (-a.toInt))                      -- 282-284
  | some .abs_ => do                                                               -- 286-291
      let a ← s.tos 0
      if signExtend16 a < 0 then
        let s ← s.setTos 0 (BitVec.ofInt 16 (-(signExtend16 a)))
        done8 s
      else done8 s
  | some .inc => unop s (fun a => a + 1#16)                                        -- 293-295
  | some .dec => unop s (fun a => a - 1#16)                                        -- 297-299
  | some .not_ => unop s (fun a => ~~~a)                                           -- 301-303
  | some .add => binop s (fun a b => .ok (BitVec.ofInt 16 (a.toInt + b.toInt)))    -- 307-310
  | some .sub => binop s (fun a b => .ok (BitVec.ofInt 16 (a.toInt - b.toInt)))    -- 312-315
  | some .mul => binop s (fun a b => .ok (BitVec.ofInt 16 (a.toInt * b.toInt)))    -- 317-320
  | some .umul => binop s (fun a b =>                                              -- 322-325
      -- `uint16_t * uint16_t` is computed in `int`: overflow is undefined
      if a.toNat * b.toNat < 2147483648 then .ok (BitVec.ofNat 16 (a.toNat * b.toNat)) else .ub)
  | some .div_ => binop s (fun a b =>                                              -- 327-330
      if b.toInt = 0 then .ub else .ok (BitVec.ofInt 16 (Int.tdiv a.toInt b.toInt)))
  | some .udiv => binop s (fun a b =>                                              -- 332-335
      if b.toNat = 0 then .ub else .ok (BitVec.ofNat 16 (a.toNat / b.toNat)))
  | some .mod_ => binop s (fun a b =>                                              -- 337-340
      if b.toInt = 0 then .ub else .ok (BitVec.ofInt 16 (Int.tmod a.toInt b.toInt)))
  | some .umod => binop s (fun a b =>                                              -- 342-345
      if b.toNat = 0 then .ub else .ok (BitVec.ofNat 16 (a.toNat % b.toNat)))
  | some .sll => binop s (fun a b =>                                               -- 347-350
      if shiftOk b then .ok (BitVec.ofInt 16 (a.toInt * 2 ^ b.toNat)) else .ub)
  | some .srl => binop s (fun a b =>                                               -- 352-355
      if shiftOk b then .ok (BitVec.ofNat 16 (a.toNat >>> b.toNat)) else .ub)
  | some .sra => binop s (fun a b =>                                               -- 357-360
      if shiftOk b then .ok (BitVec.ofInt 16 (a.toInt >>> b.toNat)) else .ub)
  | some .or_ => binop s (fun a b => .ok (a ||| b))                                -- 362-365
  | some .and_ => binop s (fun a b => .ok (a &&& b))                               -- 367-370
  | some .xor_ => binop s (fun a b => .ok (a ^^^ b))                               -- 372-375
  | some .equz => cmpz s (fun x => decide (x = 0))                                 -- 379-388
  | some .neqz => cmpz s (fun x => decide (x ≠ 0))                                 -- 390-399
  | some .ltz => cmpz s (fun x => decide (x < 0))                                  -- 401-410
  | some .gtez => cmpz s (fun x => decide (x ≥ 0))                                 -- 412-421
  | some .gtz => cmpz s (fun x => decide (x > 0))                                  -- 423-432
  | some .ltez => cmpz s (fun x => decide (x ≤ 0))                                 -- 434-443
  -- In the C code the popped value is the left side of the comparison.
  | some .equ => binop s (fun a b => .ok (pasBool (decide (b.toInt = a.toInt))))   -- 447-456
  | some .neq => binop s (fun a b => .ok (pasBool (decide (b.toInt ≠ a.toInt))))   -- 458-467
  | some .lt => binop s (fun a b => .ok (pasBool (decide (b.toInt > a.toInt))))    -- 469-478
  | some .gte => binop s (fun a b => .ok (pasBool (decide (b.toInt ≤ a.toInt))))   -- 480-489
  | some .gt => binop s (fun a b => .ok (pasBool (decide (b.toInt < a.toInt))))    -- 491-500
  | some .lte => binop s (fun a b => .ok (pasBool (decide (b.toInt ≥ a.toInt))))   -- 502-511
  | some .ult => binop s (fun a b => .ok (pasBool (decide (b.toNat > a.toNat))))   -- 513-522
  | some .ugte => binop s (fun a b => .ok (pasBool (decide (b.toNat ≤ a.toNat))))  -- 524-533
  | some .ugt => binop s (fun a b => .ok (pasBool (decide (b.toNat < a.toNat))))   -- 535-544
  | some .ulte => binop s (fun a b => .ok (pasBool (decide (b.toNat ≥ a.toNat))))  -- 546-555
  | some .ldi => do                                                                -- 559-561
      let a ← s.tos 0
      let w ← s.getStack a
      let s ← s.setTos 0 w
      done8 s
  | some .ldib => do                                                               -- 563-567
      let a ← s.tos 0
      let b ← s.rdB a.toNat
      let s ← s.setTos 0 (signExtend8 b)
      done8 s
  | some .uldib => do                                                              -- 569-571
      let a ← s.tos 0
      let b ← s.rdB a.toNat
      let s ← s.setTos 0 (b.zeroExtend 16)
      done8 s
  | some .ldim => do                                                               -- 573-591
      let (n, s) ← s.pop
      let (a, s) ← s.pop
      let s ← pushBlock s a n.toNat
      done8 s
  | some .dup => do                                                                -- 593-596
      let a ← s.tos 0
      let s ← s.push a
      done8 s
  | some .xchg => do                                                               -- 598-603
      let a ← s.tos 0
      let b ← s.tos 1
      let s ← s.setTos 0 b
      let s ← s.setTos 1 a
      done8 s
  | some .sti => do                                                                -- 607-611
      let (v, s) ← s.pop
      let (a, s) ← s.pop
      let s ← s.putStack v a
      done8 s
  | some .stib => do                                                               -- 613-617
      let (v, s) ← s.pop
      let (a, s) ← s.pop
      let s ← s.wrB a.toNat (v.truncate 8)
      done8 s
  | some .stim => do                                                               -- 619-645
      let (n, s) ← s.pop
      let a ← s.tos (roundBtoI n.toNat)
      let s ← storeBlock s a n.toNat
      done8 (s.discard (roundBtoI n.toNat + 1))
  | some .nop => done8 s                                                           -- 649-650
  | some .ret => do                                                                -- 652-675
      let (lv, s) ← s.pop
      let s := { s with lsp := lv >>> 8 }
      let (csp, s) ← s.pop
      let s := { s with csp := csp }
      let (pc, s) ← s.pop
      let s := { s with pc := pc }
      let (fp, s) ← s.pop
      let s := { s with fp := fp }
      .ok (eNOERROR, s.discard 1)
  | some .end_ => .ok (eEXIT, s)                                                   -- 679-680
  | _ => .ok (eILLEGALOPCODE, s)                                                 -- 682-683

/-- The library calls reached from the core interpreter.  They are parameters of the
interpreter model; `setOps`, `longOps8`, `longOps24`, `strOps` and `floatOps` are modelled in their own
files, parts of `osOps` in `Heap.lean`; the others (OS, I/O) are arbitrary. -/
structure Lib where
  floatOps : VM → Byte → Res (Nat × VM)
  setOps : VM → Byte → Res (Nat × VM)
  osOps : VM → Byte → Res (Nat × VM)
  longOps8 : VM → Byte → Res (Nat × VM)
  longOps24 : VM → Byte → Word → Res (Nat × VM)
  strOps : VM → Word → Res (Nat × VM)
  sysIo : VM → Word → Res (Nat × VM)

/-- `pexec16`, `libexec_run.c` 698-741: instructions with an 8-bit immediate. -/
def pexec16 (lib : Lib) (s : VM) (op : Option Op) (imm8 : Byte) : Res (Nat × VM) :=
  let s := { s with pc := s.pc + 2#16 }
  match op with
  | some .pushb => do                                                              -- 707-709
      let s ← s.push (signExtend8 imm8)
      .ok (eNOERROR, s)
  | some .upushb => do                                                             -- 711-713
      let s ← s.push (imm8.zeroExtend 16)
      .ok (eNOERROR, s)
  | some .float => lib.floatOps s imm8                                             -- 717-719
  | some .setop => lib.setOps s imm8                                               -- 723-725
  | some .osop => lib.osOps s imm8                                                 -- 727-729
  | some .longop8 => lib.longOps8 s imm8                                           -- 731-733
  | _ => .ok (eILLEGALOPCODE, s)

/-- Normal end of `pexec24`: `st->pc += 3` (`libexec_run.c` 1131-1132). -/
def done24 (s : VM) : Res (Nat × VM) := .ok (eNOERROR, { s with pc := s.pc + 3#16 })

/-- One-operand conditional branch: pop, then branch or fall through.
As in `insn16/libexec/libexec_run.c` 751-1137. -/
def jump1 (s : VM) (imm16 : Word) (f : Int → Bool) : Res (Nat × VM) := do
  let (a, s) ← s.pop
  if f a.toInt then .ok (eNOERROR, { s with pc := imm16 }) else done24 s

/-- Two-operand conditional branch: `POP parm1; POP parm2; if (parm2 op parm1)`.
As in `insn16/libexec/libexec_run.c` 751-1137. -/
def jump2 (s : VM) (imm16 : Word) (f : Word → Word → Bool) : Res (Nat × VM) := do
  let (p1, s) ← s.pop
  let (p2, s) ← s.pop
  if f p2 p1 then .ok (eNOERROR, { s with pc := imm16 }) else done24 s

/-- `pexec24`, `libexec_run.c` 751-1137: instructions with a 16-bit immediate. -/
def pexec24 (lib : Lib) (s : VM) (op : Option Op) (imm16 : Word) : Res (Nat × VM) :=
  match op with
  | some .jmp => .ok (eNOERROR, { s with pc := imm16 })                            -- 765-766
  | some .jequz => jump1 s imm16 (fun x => decide (x = 0))                         -- 770-776
  | some .jneqz => jump1 s imm16 (fun x => decide (x ≠ 0))                         -- 778-784
  | some .jltz => jump1 s imm16 (fun x => decide (x < 0))                          -- 786-792
  | some .jgtez => jump1 s imm16 (fun x => decide (x ≥ 0))                         -- 794-800
  | some .jgtz => jump1 s imm16 (fun x => decide (x > 0))                          -- 802-808
  | some .jltez => jump1 s imm16 (fun x => decide (x ≤ 0))                         -- 810-816
  | some .jequ => jump2 s imm16 (fun x y => decide (x.toInt = y.toInt))            -- 820-827
  | some .jneq => jump2 s imm16 (fun x y => decide (x.toInt ≠ y.toInt))            -- 829-836
  | some .jlt => jump2 s imm16 (fun x y => decide (x.toInt < y.toInt))             -- 838-845
  | some .jgte => jump2 s imm16 (fun x y => decide (x.toInt ≥ y.toInt))            -- 847-854
  | some .jgt => jump2 s imm16 (fun x y => decide (x.toInt > y.toInt))             -- 856-863
  | some .jlte => jump2 s imm16 (fun x y => decide (x.toInt ≤ y.toInt))            -- 865-872
  | some .jult => jump2 s imm16 (fun x y => decide (x.toNat < y.toNat))            -- 874-881
  | some .jugte => jump2 s imm16 (fun x y => decide (x.toNat ≥ y.toNat))           -- 883-890
  | some .jugt => jump2 s imm16 (fun x y => decide (x.toNat > y.toNat))            -- 892-899
  | some .julte => jump2 s imm16 (fun x y => decide (x.toNat ≤ y.toNat))           -- 901-908
  | some .ld => do                                                                 -- 912-915
      let w ← s.getStack (s.spb + imm16)
      let s ← s.push w
      done24 s
  | some .ldb => do                                                                -- 917-922
      let b ← s.rdB (s.spb + imm16).toNat
      let s ← s.push (signExtend8 b)
      done24 s
  | some .uldb => do                                                               -- 924-927
      let b ← s.rdB (s.spb + imm16).toNat
      let s ← s.push (b.zeroExtend 16)
      done24 s
  | some .ldm => do                                                                -- 929-947
      let (n, s) ← s.pop
      let s ← pushBlock s (s.spb + imm16) n.toNat
      done24 s
  | some .st => do                                                                 -- 951-955
      let (v, s) ← s.pop
      let s ← s.putStack v (s.spb + imm16)
      done24 s
  | some .stb => do                                                                -- 957-961
      let (v, s) ← s.pop
      let s ← s.wrB (s.spb + imm16).toNat (v.truncate 8)
      done24 s
  | some .stm => do                                                                -- 963-988
      let (n, s) ← s.pop
      let s ← storeBlock s (s.spb + imm16) n.toNat
      done24 (s.discard (roundBtoI n.toNat))
  | some .ldx => do                                                                -- 990-993
      let i ← s.tos 0
      let w ← s.getStack (s.spb + imm16 + i)
      let s ← s.setTos 0 w
      done24 s
  | some .ldxb => do                                                               -- 995-1000
      let i ← s.tos 0
      let b ← s.rdB (s.spb + imm16 + i).toNat
      let s ← s.setTos 0 (signExtend8 b)
      done24 s
  | some .uldxb => do                                                              -- 1002-1005
      let i ← s.tos 0
      let b ← s.rdB (s.spb + imm16 + i).toNat
      let s ← s.setTos 0 (b.zeroExtend 16)
      done24 s
  | some .ldxm => do                                                               -- 1007-1026
      let (n, s) ← s.pop
      let (i, s) ← s.pop
      let s ← pushBlock s (i + (s.spb + imm16)) n.toNat
      done24 s
  | some .stx => do                                                                -- 1030-1035
      let (v, s) ← s.pop
      let (i, s) ← s.pop
      let s ← s.putStack v (i + (s.spb + imm16))
      done24 s
  | some .stxb => do                                                               -- 1037-1042
      let (v, s) ← s.pop
      let (i, s) ← s.pop
      let s ← s.wrB (i + (s.spb + imm16)).toNat (v.truncate 8)
      done24 s
  | some .stxm => do                                                               -- 1044-1071
      let (n, s) ← s.pop
      let i ← s.tos (roundBtoI n.toNat)
      let s ← storeBlock s (i + (s.spb + imm16)) n.toNat
      done24 (s.discard (roundBtoI n.toNat + 1))
  | some .la => do                                                                 -- 1073-1076
      let s ← s.push (s.spb + imm16)
      done24 s
  | some .lax => do                                                                -- 1078-1080
      let i ← s.tos 0
      let s ← s.setTos 0 (s.spb + imm16 + i)
      done24 s
  | some .push => do                                                               -- 1084-1086
      let s ← s.push imm16
      done24 s
  | some .inds => done24 { s with sp := s.sp + BitVec.ofInt 16 (signExtend16 imm16) } -- 1088-1090
  | some .incs => done24 { s with csp := s.csp + BitVec.ofInt 16 (signExtend16 imm16) } -- 1092-1094
  | some .strlib => do                                                             -- 1100-1102
      let (r, s) ← lib.strOps s imm16
      .ok (r, { s with pc := s.pc + 3#16 })
  | some .sysio => do                                                              -- 1109-1111
      let (r, s) ← lib.sysIo s imm16
      .ok (r, { s with pc := s.pc + 3#16 })
  | some .lac => do                                                                -- 1115-1118
      let s ← s.push (imm16 + s.rop)
      done24 s
  | some .lar => do                                                                -- 1120-1123
      let s ← s.push (imm16 + s.sp)
      done24 s
  | _ => .ok (eILLEGALOPCODE, { s with pc := s.pc + 3#16 })                      -- 1125-1132

/-- `_FBASE` = `_FSIZE` = 5 words (`libexec_run.c` 91-98). -/
def fBase : Word := 10#16

/-- Static-link walk of `libexec_GetBaseAddress` (`libexec_run.c` 238-242). -/
def chase (s : VM) : Nat → Word → Res Word
  | 0, f => .ok f
  | n + 1, f => do
      let f' ← s.getStack f
      chase s n f'

/-- `libexec_GetBaseAddress`, `libexec_run.c` 228-261. `off` is the `int32_t` argument. -/
def getBaseAddress (s : VM) (lev : Byte) (off : Int) : Res Word := do
  let fb ← chase s lev.toNat s.fp
  let fb := fb + BitVec.ofInt 16 off
  .ok (if off ≥ 0 then fb + fBase else fb)

/-- The search loop of `libexec_ProcedureCall`, `libexec_run.c` 148-178.  The loop only
reads memory, so after 65537 iterations an address has repeated and it never ends. -/
def findFrame (s : VM) (find : Nat) : Nat → Word → Res (Option Word)
  | 0, _ => .hang
  | fuel + 1, addr => do
      let lw ← s.rd (addr.toNat / 2 + 4)
      let lvl := lw.toNat % 256
      if find ≠ 0 ∧ lvl = 0 then .ok none
      else if find = lvl then .ok (some addr)
      else do
        let nxt ← s.rd (addr.toNat / 2)
        findFrame s find fuel nxt

/-- Iteration bound after which the search loop has certainly revisited an address.
For the loop of `libexec_GetBaseAddress`, `insn16/libexec/libexec_run.c` 228-261. -/
def searchFuel : Nat := 65537

/-- `libexec_ProcedureCall`, `libexec_run.c` 121-210. -/
def procedureCall (s : VM) (nestingLevel : Byte) : Res (Nat × VM) :=
  if nestingLevel = 0 then .ok (eNESTINGLEVEL, s)
  else do
    match ← findFrame s (nestingLevel.toNat - 1) searchFuel s.fp with
    | none => .ok (eNESTINGLEVEL, s)
    | some frameAddr =>
      let oldFp := s.fp
      let s := { s with sp := s.sp + 2#16 }
      let cur := s.top
      let newFp := s.sp
      let s := { s with sp := s.sp + 8#16 }
      let s ← s.wr cur frameAddr
      let s ← s.wr (cur + 1) oldFp
      let s ← s.wr (cur + 2) (s.pc + 4#16)
      let s ← s.wr (cur + 3) s.csp
      let s ← s.wr (cur + 4) ((s.lsp <<< 8) ||| nestingLevel.zeroExtend 16)
      .ok (eNOERROR, { s with lsp := nestingLevel.zeroExtend 16, fp := newFp })

/-- Normal end of `pexec32`: `st->pc += 4` (`libexec_run.c` 1360-1361). -/
def done32 (s : VM) : Res (Nat × VM) := .ok (eNOERROR, { s with pc := s.pc + 4#16 })

/-- `pexec32`, `libexec_run.c` 1147-1362: instructions with 8- and 16-bit immediates. -/
def pexec32 (lib : Lib) (s : VM) (op : Option Op) (imm8 : Byte) (imm16 : Word) :
    Res (Nat × VM) :=
  match op with
  | some .lds => do                                                                -- 1160-1163
      let a ← getBaseAddress s imm8 (signExtend16 imm16)
      let w ← s.getStack a
      let s ← s.push w
      done32 s
  | some .ldsb => do                                                               -- 1165-1170
      let a ← getBaseAddress s imm8 (signExtend16 imm16)
      let b ← s.rdB a.toNat
      let s ← s.push (signExtend8 b)
      done32 s
  | some .uldsb => do                                                              -- 1172-1175
      let a ← getBaseAddress s imm8 (signExtend16 imm16)
      let b ← s.rdB a.toNat
      let s ← s.push (b.zeroExtend 16)
      done32 s
  | some .ldsm => do                                                               -- 1177-1195
      let (n, s) ← s.pop
      let a ← getBaseAddress s imm8 (signExtend16 imm16)
      let s ← pushBlock s a n.toNat
      done32 s
  | some .sts => do                                                                -- 1199-1203
      let a ← getBaseAddress s imm8 (signExtend16 imm16)
      let (v, s) ← s.pop
      let s ← s.putStack v a
      done32 s
  | some .stsb => do                                                               -- 1205-1209
      let a ← getBaseAddress s imm8 (signExtend16 imm16)
      let (v, s) ← s.pop
      let s ← s.wrB a.toNat (v.truncate 8)
      done32 s
  | some .stsm => do                                                               -- 1211-1236
      let (n, s) ← s.pop
      let a ← getBaseAddress s imm8 (signExtend16 imm16)
      let s ← storeBlock s a n.toNat
      done32 (s.discard (roundBtoI n.toNat))
  | some .ldsx => do                                                               -- 1238-1241
      let i ← s.tos 0
      let a ← getBaseAddress s imm8 (signExtend16 imm16 + i.toNat)
      let w ← s.getStack a
      let s ← s.setTos 0 w
      done32 s
  | some .ldsxb => do                                                              -- 1243-1249
      let i ← s.tos 0
      let a ← getBaseAddress s imm8 (signExtend16 imm16 + i.toNat)
      let b ← s.rdB a.toNat
      let s ← s.setTos 0 (signExtend8 b)
      done32 s
  | some .uldsxb => do                                                             -- 1251-1255
      let i ← s.tos 0
      let a ← getBaseAddress s imm8 (signExtend16 imm16 + i.toNat)
      let b ← s.rdB a.toNat
      let s ← s.setTos 0 (b.zeroExtend 16)
      done32 s
  | some .ldsxm => do                                                              -- 1257-1276
      let (n, s) ← s.pop
      let (i, s) ← s.pop
      let a ← getBaseAddress s imm8 (signExtend16 imm16)
      let s ← pushBlock s (i + a) n.toNat
      done32 s
  | some .stsx => do                                                               -- 1280-1285
      let (v, s) ← s.pop
      let (i, s) ← s.pop
      let a ← getBaseAddress s imm8 (signExtend16 imm16)
      let s ← s.putStack v (i + a)
      done32 s
  | some .stsxb => do                                                              -- 1287-1292
      let (v, s) ← s.pop
      let (i, s) ← s.pop
      let a ← getBaseAddress s imm8 (signExtend16 imm16)
      let s ← s.wrB (i + a).toNat (v.truncate 8)
      done32 s
  | some .stsxm => do                                                              -- 1294-1321
      let (n, s) ← s.pop
      let i ← s.tos (roundBtoI n.toNat)
      let a ← getBaseAddress s imm8 (signExtend16 imm16)
      let s ← storeBlock s (i + a) n.toNat
      done32 (s.discard (roundBtoI n.toNat + 1))
  | some .las => do                                                                -- 1323-1326
      let a ← getBaseAddress s imm8 (signExtend16 imm16)
      let s ← s.push a
      done32 s
  | some .lasx => do                                                               -- 1328-1331
      let i ← s.tos 0
      let a ← getBaseAddress s imm8 (signExtend16 imm16 + i.toNat)
      let s ← s.setTos 0 a
      done32 s
  | some .pcal => do                                                               -- 1337-1340
      let (r, s) ← procedureCall s imm8
      .ok (r, { s with pc := imm16 })
  | some .longop24 => lib.longOps24 s imm8 imm16                                   -- 1344-1346
  | _ => .ok (eILLEGALOPCODE, { s with pc := s.pc + 4#16 })

/-- One byte of the instruction space; reading past the allocation is undefined.
`st->ispace[...]`, `insn16/libexec/libexec_run.c` 1519-1580. -/
def fetch (code : List Byte) (a : Nat) : Res Byte :=
  match code[a]? with
  | some b => .ok b
  | none => .ub

/-- Instruction dispatch by the two flag bits of the opcode byte
(`libexec_Execute`, `libexec_run.c` 1456-1513). -/
def execute (lib : Lib) (code : List Byte) (maxpc : Word) (s : VM) : Res (Nat × VM) :=
  if maxpc ≤ s.pc then .ok (eBADPC, s)
  else do
    let opb ← fetch code s.pc.toNat
    let op := Op.ofByte opb
    if hasArg8 opb then do
      let imm8 ← fetch code (s.pc.toNat + 1)
      if hasArg16 opb then do
        let h ← fetch code (s.pc.toNat + 2)
        let l ← fetch code (s.pc.toNat + 3)
        pexec32 lib s op imm8 (h ++ l)
      else pexec16 lib s op imm8
    else if hasArg16 opb then do
      let h ← fetch code (s.pc.toNat + 1)
      let l ← fetch code (s.pc.toNat + 2)
      pexec24 lib s op (h ++ l)
    else pexec8 s op

/-- `k` iterations of the loop of `libexec_RunLoop`, `libexec_runloop.c` 60-72: execution
continues while no error (or exit) is reported. -/
def runFor (lib : Lib) (code : List Byte) (maxpc : Word) : Nat → VM → Res (Nat × VM)
  | 0, s => .ok (eNOERROR, s)
  | k + 1, s => do
      let (e, s') ← execute lib code maxpc s
      if e ≠ eNOERROR then .ok (e, s') else runFor lib code maxpc k s'

end Pas
