import Verif.Model.VM

/-! 32-bit integer operations, `insn16/libexec/libexec_longops.c`.  A long value occupies two
stack words: `word[0]` (on a little-endian host the low half) is pushed first, `word[1]` (the
high half) is on top (`union uWord_u`, 53-58). -/
namespace Pas.LongOps

abbrev Long := BitVec 32

/-- `libexec_UPop32`, `libexec_longops.c` 74-81. -/
def pop32 (s : VM) : Res (Long × VM) := do
  let (hi, s) ← s.pop
  let (lo, s) ← s.pop
  pure (hi ++ lo, s)

/-- `libexec_UPush32`, `libexec_longops.c` 91-98. -/
def push32 (s : VM) (v : Long) : Res VM := do
  let s ← s.push (v.extractLsb' 0 16)
  s.push (v.extractLsb' 16 16)

/-- `libexec_UGetTos32`, `libexec_longops.c` 108-115; the offset counts 16-bit words. -/
def getTos32 (s : VM) (k : Nat) : Res Long := do
  let hi ← s.tos k
  let lo ← s.tos (k + 1)
  pure (hi ++ lo)

/-- `libexec_UPutTos32`, `libexec_longops.c` 125-132. -/
def putTos32 (s : VM) (v : Long) (k : Nat) : Res VM := do
  let s ← s.setTos k (v.extractLsb' 16 16)
  s.setTos (k + 1) (v.extractLsb' 0 16)

/-- Result of signed 32-bit arithmetic: overflow is undefined behaviour in C. -/
def signed (r : Int) : Res Long :=
  if -2147483648 ≤ r ∧ r < 2147483648 then .ok (BitVec.ofInt 32 r) else .ub

/-- `UPutTos32(st, f(UGetTos32(st, 0)), 0)`. -/
def unop32 (s : VM) (f : Long → Res Long) : Res (Nat × VM) := do
  let a ← getTos32 s 0
  let r ← f a
  let s ← putTos32 s r 0
  pure (eNOERROR, s)

/-- `b = UPop32(st); UPutTos32(st, f(UGetTos32(st, 0), b), 0)`. -/
def binop32 (s : VM) (f : Long → Long → Res Long) : Res (Nat × VM) := do
  let (b, s) ← pop32 s
  let a ← getTos32 s 0
  let r ← f a b
  let s ← putTos32 s r 0
  pure (eNOERROR, s)

/-- Shifts: a 16-bit count is popped (`POP(st, sparm1)` reads a `uint16_t`); C defines the
shift for counts below 32.  A left shift of a signed value is taken as gcc defines it. -/
def shift32 (s : VM) (f : Long → Nat → Long) : Res (Nat × VM) := do
  let (c, s) ← s.pop
  let a ← getTos32 s 0
  if c.toNat < 32 then do
    let s ← putTos32 s (f a c.toNat) 0
    pure (eNOERROR, s)
  else .ub

/-- `p = UPop32(st); PUSH(st, test(p))`. -/
def cmpz32 (s : VM) (f : Long → Bool) : Res (Nat × VM) := do
  let (a, s) ← pop32 s
  let s ← s.push (pasBool (f a))
  pure (eNOERROR, s)

/-- `parm1 = UPop32(st); parm2 = UPop32(st); PUSH(st, test(parm1, parm2))`. -/
def cmp32 (s : VM) (f : Long → Long → Bool) : Res (Nat × VM) := do
  let (p1, s) ← pop32 s
  let (p2, s) ← pop32 s
  let s ← s.push (pasBool (f p1 p2))
  pure (eNOERROR, s)

/-- `libexec_LongOperation8`, `libexec_longops.c` 142-495; codes `insn16/include/longops.h`
52-118. -/
def longOps8 (s : VM) (code : Byte) : Res (Nat × VM) :=
  match code.toNat with
  | 0x40 => .ok (eNOERROR, s)                                          -- oDNOP 152-153
  | 0x41 => unop32 s (fun a => signed (-a.toInt))                      -- oDNEG 157-159
  | 0x42 => do                                                         -- oDABS 161-167
      let a ← getTos32 s 0
      if a.toInt < 0 then
        let r ← signed (-a.toInt)
        let s ← putTos32 s r 0
        pure (eNOERROR, s)
      else pure (eNOERROR, s)
  | 0x43 => unop32 s (fun a => .ok (a + 1#32))                         -- oDINC 169-171
  | 0x44 => unop32 s (fun a => .ok (a - 1#32))                         -- oDDEC 173-175
  | 0x45 => unop32 s (fun a => .ok (~~~a))                             -- oDNOT 177-179
  | 0x46 => binop32 s (fun a b => signed (a.toInt + b.toInt))          -- oDADD 183-186
  | 0x47 => binop32 s (fun a b => signed (a.toInt - b.toInt))          -- oDSUB 188-191
  | 0x48 => binop32 s (fun a b => signed (a.toInt * b.toInt))          -- oDMUL 193-196
  | 0x49 => binop32 s (fun a b =>                                      -- oDDIV 203-206
      if b.toInt = 0 then .ub else signed (Int.tdiv a.toInt b.toInt))
  | 0x4a => binop32 s (fun a b =>                                      -- oDMOD 213-216
      -- INT_MIN % -1 is undefined as well, because the quotient overflows
      if b.toInt = 0 ∨ (a.toInt = -2147483648 ∧ b.toInt = -1) then .ub
      else signed (Int.tmod a.toInt b.toInt))
  | 0x4b => shift32 s (fun a n => a <<< n)                             -- oDSLL 223-226
  | 0x4c => shift32 s (fun a n => a >>> n)                             -- oDSRL 228-231
  | 0x4d => shift32 s (fun a n => a.sshiftRight n)                     -- oDSRA 233-236
  | 0x4e => binop32 s (fun a b => .ok (a ||| b))                       -- oDOR 238-241
  | 0x4f => binop32 s (fun a b => .ok (a &&& b))                       -- oDAND 243-246
  | 0x50 => cmpz32 s (fun a => decide (a.toInt = 0))                   -- oDEQUZ 255-264
  | 0x51 => cmpz32 s (fun a => decide (a.toInt ≠ 0))                   -- oDNEQZ 266-275
  | 0x52 => cmpz32 s (fun a => decide (a.toInt < 0))                   -- oDLTZ 277-286
  | 0x53 => cmpz32 s (fun a => decide (a.toInt ≥ 0))                   -- oDGTEZ 288-297
  | 0x54 => cmpz32 s (fun a => decide (a.toInt > 0))                   -- oDGTZ 299-308
  | 0x55 => cmpz32 s (fun a => decide (a.toInt ≤ 0))                   -- oDLTEZ 310-319
  | 0x56 => cmp32 s (fun p1 p2 => decide (p1.toInt = p2.toInt))        -- oDEQU 323-333
  | 0x57 => cmp32 s (fun p1 p2 => decide (p1.toInt ≠ p2.toInt))        -- oDNEQ 335-345
  | 0x58 => cmp32 s (fun p1 p2 => decide (p1.toInt < p2.toInt))        -- oDLT 347-357
  | 0x59 => cmp32 s (fun p1 p2 => decide (p1.toInt ≥ p2.toInt))        -- oDGTE 359-369
  | 0x5a => cmp32 s (fun p1 p2 => decide (p1.toInt > p2.toInt))        -- oDGT 371-381
  | 0x5b => cmp32 s (fun p1 p2 => decide (p1.toInt ≤ p2.toInt))        -- oDLTE 383-393
  | 0x5c => do                                                         -- oDDUP 445-448
      let a ← getTos32 s 0
      let s ← push32 s a
      pure (eNOERROR, s)
  | 0x5d => do                                                         -- oDXCHG 450-455
      let p1 ← getTos32 s 0
      let p2 ← getTos32 s 1
      let s ← putTos32 s p2 0
      let s ← putTos32 s p1 1
      pure (eNOERROR, s)
  | 0x5e => do                                                         -- oCNVD 457-468
      let (w, s) ← s.pop
      let s ← push32 s (BitVec.ofInt 32 (signExtend16 w))
      pure (eNOERROR, s)
  | 0x5f => do                                                         -- oUCNVD 470-479
      let (w, s) ← s.pop
      let s ← push32 s (w.zeroExtend 32)
      pure (eNOERROR, s)
  | 0x60 => do                                                         -- oDCNV 481-488
      let (v, s) ← pop32 s
      let s ← s.push (v.extractLsb' 0 16)
      pure (eNOERROR, s)
  | 0x61 => binop32 s (fun a b => .ok (a * b))                         -- oDUMUL 198-201
  | 0x62 => binop32 s (fun a b =>                                      -- oDUDIV 208-211
      if b.toNat = 0 then .ub else .ok (BitVec.ofNat 32 (a.toNat / b.toNat)))
  | 0x63 => binop32 s (fun a b =>                                      -- oDUMOD 218-221
      if b.toNat = 0 then .ub else .ok (BitVec.ofNat 32 (a.toNat % b.toNat)))
  | 0x64 => cmp32 s (fun _ p2 => decide (0 < p2.toNat))                -- oDULT 395-405 (`result < uparm2`)
  | 0x65 => cmp32 s (fun p1 p2 => decide (p1.toNat ≥ p2.toNat))        -- oDUGTE 407-417
  | 0x66 => cmp32 s (fun p1 p2 => decide (p1.toNat > p2.toNat))        -- oDUGT 419-429
  | 0x67 => cmp32 s (fun p1 p2 => decide (p1.toNat ≤ p2.toNat))        -- oDULTE 431-441
  | 0x68 => binop32 s (fun a b => .ok (a ^^^ b))                       -- oDXOR 248-251
  | _ => .ok (eILLEGALOPCODE, s)                                       -- 490-491

/-- One-operand branch of `libexec_LongOperation24`. -/
def djump1 (s : VM) (imm : Word) (f : Long → Bool) : Res (Nat × VM) := do
  let (a, s) ← pop32 s
  pure (eNOERROR, { s with pc := if f a then imm else s.pc + 4#16 })

/-- Two-operand branch: `parm1 = UPop32; parm2 = UPop32; if (parm2 op parm1)`. -/
def djump2 (s : VM) (imm : Word) (f : Long → Long → Bool) : Res (Nat × VM) := do
  let (p1, s) ← pop32 s
  let (p2, s) ← pop32 s
  pure (eNOERROR, { s with pc := if f p2 p1 then imm else s.pc + 4#16 })

/-- `libexec_LongOperation24`, `libexec_longops.c` 505-661; codes `longops.h` 125-150. -/
def longOps24 (s : VM) (code : Byte) (imm : Word) : Res (Nat × VM) :=
  match code.toNat with
  | 0xc0 => djump1 s imm (fun a => decide (a.toInt = 0))               -- oDJEQUZ
  | 0xc1 => djump1 s imm (fun a => decide (a.toInt ≠ 0))
  | 0xc2 => djump1 s imm (fun a => decide (a.toInt < 0))
  | 0xc3 => djump1 s imm (fun a => decide (a.toInt ≥ 0))
  | 0xc4 => djump1 s imm (fun a => decide (a.toInt > 0))
  | 0xc5 => djump1 s imm (fun a => decide (a.toInt ≤ 0))
  | 0xc6 => djump2 s imm (fun a b => decide (a.toInt = b.toInt))       -- oDJEQU
  | 0xc7 => djump2 s imm (fun a b => decide (a.toInt ≠ b.toInt))
  | 0xc8 => djump2 s imm (fun a b => decide (a.toInt < b.toInt))
  | 0xc9 => djump2 s imm (fun a b => decide (a.toInt ≥ b.toInt))
  | 0xca => djump2 s imm (fun a b => decide (a.toInt > b.toInt))
  | 0xcb => djump2 s imm (fun a b => decide (a.toInt ≤ b.toInt))
  | 0xcc => djump2 s imm (fun a b => decide (a.toNat < b.toNat))       -- oDJULT
  | 0xcd => djump2 s imm (fun a b => decide (a.toNat ≥ b.toNat))
  | 0xce => djump2 s imm (fun a b => decide (a.toNat > b.toNat))
  | 0xcf => djump2 s imm (fun a b => decide (a.toNat ≤ b.toNat))
  | _ => .ok (eILLEGALOPCODE, { s with pc := s.pc + 4#16 })

end Pas.LongOps
