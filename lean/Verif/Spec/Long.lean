import Verif.Spec.Memory

/-! Specification of 32-bit integers on the stack (properties C16-C18, C54). -/
namespace Pas.Spec

/-- The 32-bit value whose high half is the `k`-th word below the top of stack and whose low
half is the word below that. -/
def long (s : VM) (k : Nat) : BitVec 32 := opnd s k ++ opnd s (k + 1)

/-- 32-bit two's-complement reduction. -/
def wrap32 (x : Int) : Int := Int.bmod x 4294967296

/-- The integer is representable as a signed 32-bit value. -/
def Fits32 (x : Int) : Prop := -2147483648 ≤ x ∧ x ≤ 2147483647

/-- Signed 32-bit arithmetic by operation code, `a` pushed first. -/
inductive LArith : Byte → (Int → Int → Int) → Prop
  | add : LArith 0x46#8 (fun a b => a + b)
  | sub : LArith 0x47#8 (fun a b => a - b)
  | mul : LArith 0x48#8 (fun a b => a * b)

/-- Signed one-operand arithmetic. -/
inductive LUnary : Byte → (Int → Int) → Prop
  | neg : LUnary 0x41#8 (fun a => -a)
  | abs : LUnary 0x42#8 (fun a => if a < 0 then -a else a)

/-- Successor, predecessor and complement. -/
inductive LStep : Byte → (Int → Int) → Prop
  | inc : LStep 0x43#8 (fun a => a + 1)
  | dec : LStep 0x44#8 (fun a => a - 1)
  | not : LStep 0x45#8 (fun a => -a - 1)

/-- Bitwise operations. -/
inductive LBits : Byte → (Bool → Bool → Bool) → Prop
  | or : LBits 0x4e#8 (fun a b => a || b)
  | and : LBits 0x4f#8 (fun a b => a && b)
  | xor : LBits 0x68#8 (fun a b => a != b)

/-- Comparisons with zero. -/
inductive LCmpZ : Byte → (Int → Prop) → Prop
  | equz : LCmpZ 0x50#8 (fun a => a = 0)
  | neqz : LCmpZ 0x51#8 (fun a => a ≠ 0)
  | ltz : LCmpZ 0x52#8 (fun a => a < 0)
  | gtez : LCmpZ 0x53#8 (fun a => a ≥ 0)
  | gtz : LCmpZ 0x54#8 (fun a => a > 0)
  | ltez : LCmpZ 0x55#8 (fun a => a ≤ 0)

/-- Comparisons of the long pushed first with the long pushed second, as named. -/
inductive LCmp : Byte → (Int → Int → Prop) → Prop
  | equ : LCmp 0x56#8 (fun a b => a = b)
  | neq : LCmp 0x57#8 (fun a b => a ≠ b)
  | lt : LCmp 0x58#8 (fun a b => a < b)
  | gte : LCmp 0x59#8 (fun a b => a ≥ b)
  | gt : LCmp 0x5a#8 (fun a b => a > b)
  | lte : LCmp 0x5b#8 (fun a b => a ≤ b)

/-- Unsigned comparisons, as named. -/
inductive LUCmp : Byte → (Nat → Nat → Prop) → Prop
  | ult : LUCmp 0x64#8 (fun a b => a < b)
  | ugte : LUCmp 0x65#8 (fun a b => a ≥ b)
  | ugt : LUCmp 0x66#8 (fun a b => a > b)
  | ulte : LUCmp 0x67#8 (fun a b => a ≤ b)

/-- 32-bit conditional branches on one operand. -/
inductive LJumpZ : Byte → (Int → Prop) → Prop
  | equz : LJumpZ 0xc0#8 (fun a => a = 0)
  | neqz : LJumpZ 0xc1#8 (fun a => a ≠ 0)
  | ltz : LJumpZ 0xc2#8 (fun a => a < 0)
  | gtez : LJumpZ 0xc3#8 (fun a => a ≥ 0)
  | gtz : LJumpZ 0xc4#8 (fun a => a > 0)
  | ltez : LJumpZ 0xc5#8 (fun a => a ≤ 0)

/-- 32-bit conditional branches on two operands; the relation is on bit vectors so that signed
and unsigned ones fit. -/
inductive LJump : Byte → (BitVec 32 → BitVec 32 → Prop) → Prop
  | equ : LJump 0xc6#8 (fun a b => a.toInt = b.toInt)
  | neq : LJump 0xc7#8 (fun a b => a.toInt ≠ b.toInt)
  | lt : LJump 0xc8#8 (fun a b => a.toInt < b.toInt)
  | gte : LJump 0xc9#8 (fun a b => a.toInt ≥ b.toInt)
  | gt : LJump 0xca#8 (fun a b => a.toInt > b.toInt)
  | lte : LJump 0xcb#8 (fun a b => a.toInt ≤ b.toInt)
  | ult : LJump 0xcc#8 (fun a b => a.toNat < b.toNat)
  | ugte : LJump 0xcd#8 (fun a b => a.toNat ≥ b.toNat)
  | ugt : LJump 0xce#8 (fun a b => a.toNat > b.toNat)
  | ulte : LJump 0xcf#8 (fun a b => a.toNat ≤ b.toNat)

end Pas.Spec
