import Verif.Model.VM

/-! Specification vocabulary for single instructions (properties C01-C04).
Only the state type of the model is mentioned, none of its execution functions. -/
namespace Pas.Spec

/-- 16-bit two's-complement reduction of an integer. -/
def wrap16 (x : Int) : Int := Int.bmod x 65536

/-- The word `k` places below the top of stack. -/
def opnd (s : VM) (k : Nat) : Word := s.mem (s.sp.toNat / 2 - k)

/-- There are `n` words on the stack, all inside the memory. -/
def Room (s : VM) (n : Nat) : Prop := n ≤ s.sp.toNat / 2 + 1 ∧ s.sp.toNat / 2 < s.words

/-- `s'` is `s` after replacing the `n` topmost words by the single word `r` with an
instruction of `len` bytes: nothing but `sp`, `pc` and the result word differs. -/
structure Replaces (s s' : VM) (n len : Nat) (r : Word) : Prop where
  regs : s' = { s with sp := s'.sp, pc := s'.pc, mem := s'.mem }
  sp : s'.sp.toNat + 2 * (n - 1) = s.sp.toNat
  pc : s'.pc = s.pc + BitVec.ofNat 16 len
  result : s'.mem (s'.sp.toNat / 2) = r
  frame : ∀ i, i ≠ s'.sp.toNat / 2 → s'.mem i = s.mem i

/-- `s'` is `s` after popping `n` words and continuing at `pc`: memory and all other
registers are unchanged. -/
structure Pops (s s' : VM) (n : Nat) (pc : Word) : Prop where
  regs : s' = { s with sp := s'.sp, pc := s'.pc }
  sp : s'.sp.toNat + 2 * n = s.sp.toNat
  pc : s'.pc = pc

/-- Signed arithmetic meant by an instruction name. -/
inductive Arith : Op → (Int → Int → Int) → Prop
  | add : Arith .add (fun a b => a + b)
  | sub : Arith .sub (fun a b => a - b)
  | mul : Arith .mul (fun a b => a * b)

/-- One-operand arithmetic. -/
inductive Unary : Op → (Int → Int) → Prop
  | neg : Unary .neg (fun a => -a)
  | abs_ : Unary .abs_ (fun a => if a < 0 then -a else a)
  | inc : Unary .inc (fun a => a + 1)
  | dec : Unary .dec (fun a => a - 1)
  | not_ : Unary .not_ (fun a => -a - 1)

/-- Bitwise operations. -/
inductive Bitwise : Op → (Bool → Bool → Bool) → Prop
  | and_ : Bitwise .and_ (fun a b => a && b)
  | or_ : Bitwise .or_ (fun a b => a || b)
  | xor_ : Bitwise .xor_ (fun a b => a != b)

/-- Signed comparisons `a op b` (`a` pushed first). -/
inductive Cmp : Op → (Int → Int → Prop) → Prop
  | equ : Cmp .equ (fun a b => a = b)
  | neq : Cmp .neq (fun a b => a ≠ b)
  | lt : Cmp .lt (fun a b => a < b)
  | gte : Cmp .gte (fun a b => a ≥ b)
  | gt : Cmp .gt (fun a b => a > b)
  | lte : Cmp .lte (fun a b => a ≤ b)

/-- Unsigned comparisons. -/
inductive UCmp : Op → (Nat → Nat → Prop) → Prop
  | ult : UCmp .ult (fun a b => a < b)
  | ugte : UCmp .ugte (fun a b => a ≥ b)
  | ugt : UCmp .ugt (fun a b => a > b)
  | ulte : UCmp .ulte (fun a b => a ≤ b)

/-- Comparisons with zero. -/
inductive CmpZ : Op → (Int → Prop) → Prop
  | equz : CmpZ .equz (fun a => a = 0)
  | neqz : CmpZ .neqz (fun a => a ≠ 0)
  | ltz : CmpZ .ltz (fun a => a < 0)
  | gtez : CmpZ .gtez (fun a => a ≥ 0)
  | gtz : CmpZ .gtz (fun a => a > 0)
  | ltez : CmpZ .ltez (fun a => a ≤ 0)

/-- Conditional jumps on one operand. -/
inductive JumpZ : Op → (Int → Prop) → Prop
  | jequz : JumpZ .jequz (fun a => a = 0)
  | jneqz : JumpZ .jneqz (fun a => a ≠ 0)
  | jltz : JumpZ .jltz (fun a => a < 0)
  | jgtez : JumpZ .jgtez (fun a => a ≥ 0)
  | jgtz : JumpZ .jgtz (fun a => a > 0)
  | jltez : JumpZ .jltez (fun a => a ≤ 0)

/-- Conditional jumps on two signed operands. -/
inductive Jump : Op → (Int → Int → Prop) → Prop
  | jequ : Jump .jequ (fun a b => a = b)
  | jneq : Jump .jneq (fun a b => a ≠ b)
  | jlt : Jump .jlt (fun a b => a < b)
  | jgte : Jump .jgte (fun a b => a ≥ b)
  | jgt : Jump .jgt (fun a b => a > b)
  | jlte : Jump .jlte (fun a b => a ≤ b)

/-- Conditional jumps on two unsigned operands. -/
inductive UJump : Op → (Nat → Nat → Prop) → Prop
  | jult : UJump .jult (fun a b => a < b)
  | jugte : UJump .jugte (fun a b => a ≥ b)
  | jugt : UJump .jugt (fun a b => a > b)
  | julte : UJump .julte (fun a b => a ≤ b)

/-- `r` is the Pascal truth value of `p`: -1 for TRUE, 0 for FALSE. -/
def IsBool (r : Word) (p : Prop) : Prop := (p → r.toInt = -1) ∧ (¬p → r.toInt = 0)

/-- The two bytes after the opcode hold the 16-bit operand `t`, high byte first. -/
def Operand16 (code : List Byte) (a : Nat) (t : Word) : Prop :=
  ∃ h l : Byte, code[a]? = some h ∧ code[a + 1]? = some l ∧ t.toNat = h.toNat * 256 + l.toNat

/-- The instruction `op` is stored at the program counter, inside the program. -/
def Next (code : List Byte) (maxpc : Word) (s : VM) (op : Op) : Prop :=
  s.pc.toNat < maxpc.toNat ∧ code[s.pc.toNat]? = some op.toByte

end Pas.Spec

namespace Pas.Spec

/-- Signed quotient (towards zero) and remainder. -/
inductive SDiv : Op → (Int → Int → Int) → Prop
  | div_ : SDiv .div_ Int.tdiv
  | mod_ : SDiv .mod_ Int.tmod

/-- Unsigned quotient, remainder and product. -/
inductive UArith : Op → (Nat → Nat → Nat) → Prop
  | udiv : UArith .udiv (fun a b => a / b)
  | umod : UArith .umod (fun a b => a % b)
  | umul : UArith .umul (fun a b => a * b)

/-- Shifts of `a` by `n` places: left and logical right on the unsigned value. -/
inductive UShift : Op → (Nat → Nat → Nat) → Prop
  | sll : UShift .sll (fun a n => a * 2 ^ n)
  | srl : UShift .srl (fun a n => a / 2 ^ n)

/-- Operand pairs for which the C code of the instruction has no defined behaviour. -/
def Undefined : Op → Word → Word → Prop
  | .div_, _, b | .mod_, _, b | .udiv, _, b | .umod, _, b => b = 0#16
  | .umul, a, b => 2 ^ 31 ≤ a.toNat * b.toNat
  | .sll, _, b | .srl, _, b | .sra, _, b => 32 ≤ b.toNat
  | _, _, _ => False

end Pas.Spec
