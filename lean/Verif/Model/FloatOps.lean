import Verif.Model.VM

/-! Floating point operations, `insn16/libexec/libexec_float.c`.  A REAL is a C `double` in four
stack words: `hw[0]` (on a little-endian host the low word) is pushed first, `hw[3]` is on top
(`fparg_t`, `insn16/include/libexec.h:163-169`).  Modelled are the IEEE 754 representation and the
operations that are exact (conversion from and to integers, negation, absolute value,
comparison); the operations that round (`+ - * /` and the functions of `math.h`) are those of the
host and parameters of the model. -/
namespace Pas.FloatOps

abbrev Real := BitVec 64

/-- `include/pas_errcodes.h` 358. -/
def eBADFPOPCODE : Nat := 0xa9   -- include/pas_errcodes.h:358

/-- The rounding operations of the host: C `+ - * /` on `double` and `sqrt`, `sin`, `cos`, `atan`,
`log`, `exp` of `math.h`.  Used in `insn16/libexec/libexec_float.c` 168-366. -/
structure Fpu where
  add : Real → Real → Real
  sub : Real → Real → Real
  mul : Real → Real → Real
  div : Real → Real → Real
  sqrt : Real → Real
  sin : Real → Real
  cos : Real → Real
  atan : Real → Real
  log : Real → Real
  exp : Real → Real

/-- IEEE 754 binary64: the biased exponent. -/
def expo (x : Real) : Nat := x.toNat / 2 ^ 52 % 2048

/-- The fraction.  Of `fparg_t`, `insn16/include/libexec.h` 163-169. -/
def frac (x : Real) : Nat := x.toNat % 2 ^ 52

/-- The sign bit.  Of `fparg_t`, `insn16/include/libexec.h` 163-169. -/
def negative (x : Real) : Bool := decide (2 ^ 63 ≤ x.toNat)

/-- Not a number.  For the comparisons of `insn16/libexec/libexec_float.c` 218-283. -/
def isNan (x : Real) : Bool := decide (expo x = 2047 ∧ frac x ≠ 0)

/-- The magnitude of a finite number in units of 2^-1074. -/
def magnitude (x : Real) : Nat := if expo x = 0 then frac x else (2 ^ 52 + frac x) * 2 ^ (expo x - 1)

/-- The number in units of 2^-1074; infinities continue the scale. -/
def scaled (x : Real) : Int := if negative x then -(magnitude x : Int) else magnitude x

/-- C comparisons of `double`: false when an operand is not a number.
`insn16/libexec/libexec_float.c` 218-283. -/
def feq (a b : Real) : Bool := !isNan a && !isNan b && decide (scaled a = scaled b)
/-- See `feq`, `insn16/libexec/libexec_float.c` 240-272. -/
def flt (a b : Real) : Bool := !isNan a && !isNan b && decide (scaled a < scaled b)
/-- See `feq`, `insn16/libexec/libexec_float.c` 251-283. -/
def fle (a b : Real) : Bool := !isNan a && !isNan b && decide (scaled a ≤ scaled b)

/-- C conversion `(double)i` of an `int16_t`. -/
def ofInt (i : Int) : Real :=
  let m := i.natAbs
  if m = 0 then 0#64
  else
    let k := Nat.log2 m
    BitVec.ofNat 64 ((if i < 0 then 2 ^ 63 else 0) + ((k + 1023) * 2 ^ 52 + (m - 2 ^ k) * 2 ^ (52 - k)))

/-- C conversion `(int16_t)f`: truncation, undefined when the result is not an `int16_t`. -/
def toShort (x : Real) : Res Word :=
  if expo x = 2047 then .ub
  else
    let r := (scaled x).tdiv (2 ^ 1074)
    if -32768 ≤ r ∧ r ≤ 32767 then .ok (BitVec.ofInt 16 r) else .ub

/-- C `-f`: the sign bit is inverted.  `insn16/libexec/libexec_float.c` 286-293. -/
def fneg (x : Real) : Real := BitVec.ofNat 64 (x.toNat + 2 ^ 63)

/-- `fabs`: the sign bit is cleared.  `insn16/libexec/libexec_float.c` 295-302. -/
def fabs (x : Real) : Real := BitVec.ofNat 64 (x.toNat % 2 ^ 63)

/-- One argument of `libexec_GetFpArguments`, `libexec_float.c` 88-104 and 108-124: an integer to be
converted when the flag is set, otherwise `hw[3]` to `hw[0]`. -/
def getArg (s : VM) (flag : Bool) : Res (Real × VM) :=
  if flag then do
    let (i, s) ← s.pop
    pure (ofInt i.toInt, s)
  else do
    let (h3, s) ← s.pop
    let (h2, s) ← s.pop
    let (h1, s) ← s.pop
    let (h0, s) ← s.pop
    pure (h3 ++ h2 ++ h1 ++ h0, s)

/-- `PUSH(st, result.hw[0]); … PUSH(st, result.hw[3])`.  `insn16/libexec/libexec_float.c` 150-158. -/
def pushF (s : VM) (v : Real) : Res VM := do
  let s ← s.push (v.extractLsb' 0 16)
  let s ← s.push (v.extractLsb' 16 16)
  let s ← s.push (v.extractLsb' 32 16)
  s.push (v.extractLsb' 48 16)

/-- `libexec_GetFpArguments(st, fpop, &arg1, &arg2)`, `libexec_float.c` 81-125: the second argument is
on top; `fpARG2` is 0x80, `fpARG1` 0x40 (`include/pas_fpops.h:47-48`). -/
def get2 (s : VM) (fpop : Byte) : Res ((Real × Real) × VM) := do
  let (b, s) ← getArg s (fpop.getLsbD 7)
  let (a, s) ← getArg s (fpop.getLsbD 6)
  pure ((a, b), s)

/-- The arithmetic cases with two arguments.  `insn16/libexec/libexec_float.c` 168-216. -/
def arith2 (s : VM) (fpop : Byte) (f : Real → Real → Real) : Res (Nat × VM) := do
  let ((a, b), s) ← get2 s fpop
  let s ← pushF s (f a b)
  pure (eNOERROR, s)

/-- The comparisons.  `insn16/libexec/libexec_float.c` 218-283. -/
def compare2 (s : VM) (fpop : Byte) (f : Real → Real → Bool) : Res (Nat × VM) := do
  let ((a, b), s) ← get2 s fpop
  let s ← s.push (pasBool (f a b))
  pure (eNOERROR, s)

/-- The arithmetic cases with one argument.  `insn16/libexec/libexec_float.c` 286-366. -/
def arith1 (s : VM) (fpop : Byte) (f : Real → Real) : Res (Nat × VM) := do
  let (a, s) ← getArg s (fpop.getLsbD 6)
  let s ← pushF s (f a)
  pure (eNOERROR, s)

/-- `libexec_FloatOps`, `libexec_float.c` 147-373. -/
def floatOps (fpu : Fpu) (s : VM) (fpop : Byte) : Res (Nat × VM) :=
  match fpop.toNat % 64 with
  | 0x01 => do                                              -- fpFLOAT, 150-157
      let (i, s) ← s.pop
      let s ← pushF s (ofInt i.toInt)
      pure (eNOERROR, s)
  | 0x02 | 0x03 => do                                       -- fpTRUNC, fpROUND, 159-164
      let (a, s) ← getArg s (fpop.getLsbD 6)
      let w ← toShort a
      let s ← s.push w
      pure (eNOERROR, s)
  | 0x04 => arith2 s fpop fpu.add                           -- 168-175
  | 0x05 => arith2 s fpop fpu.sub                           -- 177-184
  | 0x06 => arith2 s fpop fpu.mul                           -- 186-193
  | 0x07 => arith2 s fpop fpu.div                           -- 195-202
  | 0x08 => .ok (eBADFPOPCODE, s)                           -- fpMOD, 204-205
  | 0x0a => compare2 s fpop feq                             -- 218-227
  | 0x0b => compare2 s fpop (fun a b => !feq a b)           -- 229-238
  | 0x0c => compare2 s fpop flt                             -- 240-249
  | 0x0d => compare2 s fpop (fun a b => fle b a)            -- 251-260
  | 0x0e => compare2 s fpop (fun a b => flt b a)            -- 262-271
  | 0x0f => compare2 s fpop fle                             -- 273-282
  | 0x10 => arith1 s fpop fneg                              -- 286-293
  | 0x11 => arith1 s fpop fabs                              -- 295-302
  | 0x12 => arith1 s fpop (fun a => fpu.mul a a)            -- 304-311
  | 0x13 => arith1 s fpop fpu.sqrt                          -- 313-320
  | 0x14 => arith1 s fpop fpu.sin                           -- 322-329
  | 0x15 => arith1 s fpop fpu.cos                           -- 331-338
  | 0x16 => arith1 s fpop fpu.atan                          -- 340-347
  | 0x17 => arith1 s fpop fpu.log                           -- 349-356
  | 0x18 => arith1 s fpop fpu.exp                           -- 358-365
  | _ => .ok (eBADFPOPCODE, s)                              -- 367-368
end Pas.FloatOps
