import Verif.Spec.Storage
import Verif.Spec.Memory

/-! Real numbers as IEEE 754 defines them (property C63). -/
namespace Pas.Spec

/-- The REAL in the four words from the `k`-th word below the top of the stack on. -/
def real (s : VM) (k : Nat) : BitVec 64 :=
  opnd s k ++ opnd s (k + 1) ++ opnd s (k + 2) ++ opnd s (k + 3)

/-- `x` represents the number `v / 2^1074`.  (Every finite binary64 number is a multiple of
2^-1074: with exponent field `e` and fraction `f` it is `f * 2^-1074` for `e = 0`, otherwise
`(1 + f/2^52) * 2^(e - 1023)`.) -/
def RealValue (x : BitVec 64) (v : Int) : Prop :=
  ∃ (neg : Bool) (e f : Nat), e < 2047 ∧ f < 2 ^ 52 ∧
    x.toNat = (if neg then 2 ^ 63 else 0) + e * 2 ^ 52 + f ∧
    v = (if neg then -1 else 1) * (if e = 0 then (f : Int) else ((2 ^ 52 + f : Nat) : Int) * 2 ^ (e - 1))

/-- Words of an operand: an integer that is to be converted, or a REAL. -/
def argWords (int : Bool) : Nat := if int then 1 else 4

/-- The operand at the `k`-th word below the top of the stack is `x`, after conversion. -/
def IsArg (s : VM) (k : Nat) (int : Bool) (x : BitVec 64) : Prop :=
  if int then RealValue x ((opnd s k).toInt * 2 ^ 1074) else x = real s k

/-- The operand is the number `v / 2^1074`. -/
def ArgValue (s : VM) (k : Nat) (int : Bool) (v : Int) : Prop :=
  if int then v = (opnd s k).toInt * 2 ^ 1074 else RealValue (real s k) v

/-- The operation byte: the operation and which of the operands are integers. -/
def fop (code : Nat) (int1 int2 : Bool) : BitVec 8 :=
  BitVec.ofNat 8 (code + (if int1 then 0x40 else 0) + (if int2 then 0x80 else 0))

/-- Comparisons of REALs, `include/pas_fpops.h`. -/
inductive FCompare : Nat → (Int → Int → Bool) → Prop where
  | equ : FCompare 0x0a (fun a b => decide (a = b))
  | neq : FCompare 0x0b (fun a b => decide (a ≠ b))
  | lt : FCompare 0x0c (fun a b => decide (a < b))
  | gte : FCompare 0x0d (fun a b => decide (a ≥ b))
  | gt : FCompare 0x0e (fun a b => decide (a > b))
  | lte : FCompare 0x0f (fun a b => decide (a ≤ b))

/-- What a REAL can be: a number (in units of 2^-1074), one of the infinities, or not a number. -/
inductive Num where
  | num (v : Int) | high | low | nan

/-- `x` represents `n`: all values with the largest exponent are special. -/
def Represents (x : BitVec 64) : Num → Prop
  | .num v => RealValue x v
  | .high => x = 0x7ff0000000000000#64
  | .low => x = 0xfff0000000000000#64
  | .nan => ∃ (neg : Bool) (f : Nat), 0 < f ∧ f < 2 ^ 52 ∧
      x.toNat = (if neg then 2 ^ 63 else 0) + 2047 * 2 ^ 52 + f

/-- Less: the infinities lie outside all numbers, and nothing is less or greater than not-a-number. -/
def Num.lt : Num → Num → Bool
  | .num v, .num w => decide (v < w)
  | .num _, .high => true
  | .low, .num _ => true
  | .low, .high => true
  | _, _ => false

/-- Equal: not-a-number is not even equal to itself. -/
def Num.eq : Num → Num → Bool
  | .num v, .num w => decide (v = w)
  | .high, .high => true
  | .low, .low => true
  | _, _ => false

/-- The operand is `n`. -/
def ArgNum (s : VM) (k : Nat) (int : Bool) (n : Num) : Prop :=
  if int then n = .num ((opnd s k).toInt * 2 ^ 1074) else Represents (real s k) n

/-- Comparisons of REALs with the special values. -/
inductive FOrder : Nat → (Num → Num → Bool) → Prop where
  | equ : FOrder 0x0a (fun a b => a.eq b)
  | neq : FOrder 0x0b (fun a b => !a.eq b)
  | lt : FOrder 0x0c (fun a b => a.lt b)
  | gte : FOrder 0x0d (fun a b => b.lt a || a.eq b)
  | gt : FOrder 0x0e (fun a b => b.lt a)
  | lte : FOrder 0x0f (fun a b => a.lt b || a.eq b)

/-- Exact operations with one operand. -/
inductive FExact : Nat → (Int → Int) → Prop where
  | neg : FExact 0x10 (fun a => -a)
  | abs : FExact 0x11 (fun a => (a.natAbs : Int))

end Pas.Spec
