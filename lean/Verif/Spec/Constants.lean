import Verif.Model.ConstExpr
import Verif.Spec.Pascal

/-! Constant expressions as a programmer writes and understands them (C47), and set constants
(C58). -/
namespace Pas.Src
open Pas.Comp (Tk)
open Pas.Const (KK KS)

/-- Standard functions of ordinal constants. -/
inductive KFn where | abs | sqr | pred | succ | ord | chr
  deriving DecidableEq, Repr

/-- The same function in statements. -/
def KFn.fn : KFn → Fn
  | .abs => .abs | .sqr => .sqr | .pred => .pred | .succ => .succ | .ord => .ord | .chr => .chr

/-- Constant expressions: expressions of constants without variables, with calls of standard
functions. -/
inductive K : Lvl → Type where
  | int (n : Nat) : K .factor
  | bool (b : Bool) : K .factor
  | char (c : Byte) : K .factor
  | not (f : K .factor) : K .factor
  | fn (f : KFn) (e : K .simple) : K .factor
  | factor (f : K .factor) : K .term
  | mul (t : K .term) (op : MulOp) (f : K .factor) : K .term
  | term (sign : Option Sign) (t : K .term) : K .simple
  | add (s : K .simple) (op : AddOp) (t : K .term) : K .simple

/-- How a constant expression is written. -/
def K.toks : {l : Lvl} → K l → List Tk
  | _, .int n => [.int (BitVec.ofNat 32 n)]
  | _, .bool b => [.bool (if b then 0xffffffff#32 else 0#32)]
  | _, .char c => [.char (c.zeroExtend 32)]
  | _, .not f => .not_ :: f.toks
  | _, .fn f e => f.fn.tk :: .lparen :: (e.toks ++ [.rparen])
  | _, .factor f => f.toks
  | _, .mul t op f => t.toks ++ op.tk :: f.toks
  | _, .term none t => t.toks
  | _, .term (some s) t => s.tk :: t.toks
  | _, .add s op t => s.toks ++ op.tk :: t.toks

/-- An integer result, if it fits into that many bits. -/
def fit (bits : Nat) (i : Int) : Option Val :=
  if -(2 : Int) ^ (bits - 1) ≤ i ∧ i < 2 ^ (bits - 1) then some (.num .integer i) else none

/-- The exact results of the multiplying operators. -/
def mulExact (bits : Nat) : MulOp → Val → Val → Option Val
  | .mul, .num _ a, .num _ b => fit bits (a * b)
  | .div, .num _ a, .num _ b => if b = 0 then none else fit bits (a.tdiv b)
  | .mod, .num _ a, .num _ b =>
    if b = 0 ∨ fit bits (a.tdiv b) = none then none else fit bits (a.tmod b)
  | .and, .num _ a, .num _ b => fit bits (BitVec.ofInt bits a &&& BitVec.ofInt bits b).toInt
  | .and, .bool a, .bool b => some (.bool (a && b))
  | .shl, .num _ a, .num _ b => if 0 ≤ b ∧ b < 32 then fit bits (a * 2 ^ b.toNat) else none
  | .shr, .num _ a, .num _ b => if 0 ≤ b ∧ b < 32 then fit bits (a / 2 ^ b.toNat) else none
  | _, _, _ => none

/-- The exact results of the adding operators. -/
def addExact (bits : Nat) : AddOp → Val → Val → Option Val
  | .add, .num _ a, .num _ b => fit bits (a + b)
  | .sub, .num _ a, .num _ b => fit bits (a - b)
  | .or, .num _ a, .num _ b => fit bits (BitVec.ofInt bits a ||| BitVec.ofInt bits b).toInt
  | .or, .bool a, .bool b => some (.bool (a || b))
  | _, _, _ => none

/-- The values of the standard functions (of Booleans only ORD(FALSE), PRED and SUCC of characters
as long as there is one). -/
def KFn.exact (bits : Nat) : KFn → Val → Option Val
  | .abs, .num _ a => fit bits a.natAbs
  | .sqr, .num _ a => fit bits (a * a)
  | .pred, .num _ a => fit bits (a - 1)
  | .succ, .num _ a => fit bits (a + 1)
  | .pred, .char c => if c = 0#8 then none else some (.char (c - 1#8))
  | .succ, .char c => if c = 255#8 then none else some (.char (c + 1#8))
  | .ord, .num _ a => some (.num .integer a)
  | .ord, .char c => fit bits c.toNat
  | .ord, .bool false => fit bits 0
  | .chr, .num _ a => if 0 ≤ a ∧ a < 256 then some (.char (BitVec.ofInt 8 a)) else none
  | _, _ => none

/-- The value of a constant expression, if it is well-typed, defined and no integer on the way
exceeds so many bits.  Characters are ASCII. -/
def K.exact (bits : Nat) : {l : Lvl} → K l → Option Val
  | _, .int n => fit bits n
  | _, .bool b => some (.bool b)
  | _, .char c => if c.toNat < 128 then some (.char c) else none
  | _, .not f => match f.exact bits with
    | some (.num _ i) => fit bits (-i - 1)
    | some (.bool b) => some (.bool !b)
    | _ => none
  | _, .fn f e => do f.exact bits (← e.exact bits)
  | _, .factor f => f.exact bits
  | _, .mul t op f => do mulExact bits op (← t.exact bits) (← f.exact bits)
  | _, .term none t => t.exact bits
  | _, .term (some s) t => match t.exact bits with
    | some (.num _ i) => fit bits (if s = .minus then -i else i)
    | _ => none
  | _, .add s op t => do addExact bits op (← s.exact bits) (← t.exact bits)

/-- The constant is Boolean. -/
def K.isBool : {l : Lvl} → K l → Bool
  | _, .bool _ => true
  | _, .not f => f.isBool
  | _, .factor f => f.isBool
  | _, .mul t _ _ => t.isBool
  | _, .term none t => t.isBool
  | _, .add s _ _ => s.isBool
  | _, _ => false

/-- There is no OR of two integers in the expression. -/
def K.NoIntegerOr : {l : Lvl} → K l → Prop
  | _, .int _ | _, .bool _ | _, .char _ => True
  | _, .not f => f.NoIntegerOr
  | _, .fn _ e => e.NoIntegerOr
  | _, .factor f => f.NoIntegerOr
  | _, .mul t _ f => t.NoIntegerOr ∧ f.NoIntegerOr
  | _, .term _ t => t.NoIntegerOr
  | _, .add s op t => s.NoIntegerOr ∧ t.NoIntegerOr ∧ (op = .or → s.isBool = true)

/-- The kind of constant a value is. -/
def Val.constKind : Val → KK
  | .num _ _ => .int
  | .bool _ => .bool
  | .char _ => .char

/-- The 32 bits that represent a constant. -/
def Val.constBits : Val → BitVec 32
  | .num _ i => BitVec.ofInt 32 i
  | .bool b => if b then 0xffffffff#32 else 0#32
  | .char c => c.zeroExtend 32

/-- The same expression as it would be compiled in a statement. -/
def K.asExpr : {l : Lvl} → K l → Option (E l)
  | _, .int n => some (.int n)
  | _, .bool b => some (.bool b)
  | _, .char c => some (.char c)
  | _, .not f => f.asExpr.map (E.not false)
  | _, .fn f e => e.asExpr.map fun e => E.call f.fn (.simple e)
  | _, .factor f => f.asExpr.map E.factor
  | _, .mul t op f => do some (E.mul (← t.asExpr) op (← f.asExpr))
  | _, .term s t => t.asExpr.map (E.term s)
  | _, .add s op t => do some (E.add (← s.asExpr) op (← t.asExpr))

/-! ### Set constants -/

/-- An element or a range of elements in a set constant. -/
inductive SetItem where
  | one (x : Nat) | range (a b : Nat)
  deriving DecidableEq, Repr

def SetItem.toks : SetItem → List Tk
  | .one x => [.int (BitVec.ofNat 32 x)]
  | .range a b => [.int (BitVec.ofNat 32 a), .other 0x0b, .int (BitVec.ofNat 32 b)]

/-- The further items, each after a comma. -/
def moreItems : List SetItem → List Tk
  | [] => []
  | i :: is => .comma :: (i.toks ++ moreItems is)

/-- How a set constant is written: `[item, item, ...]`. -/
def setToks : List SetItem → List Tk
  | [] => [.other 0x5b, .other 0x5d]
  | i :: is => .other 0x5b :: (i.toks ++ moreItems is ++ [.other 0x5d])

/-- The numbers an item stands for. -/
def SetItem.Has : SetItem → Nat → Prop
  | .one x, e => e = x
  | .range a b, e => a ≤ e ∧ e ≤ b

/-- The largest number of an item. -/
def SetItem.last : SetItem → Nat
  | .one x => x
  | .range _ b => b

/-- The smallest number of an item. -/
def SetItem.first : SetItem → Nat
  | .one x => x
  | .range a _ => a

/-- Items that are translated correctly on their own: an element of the set, or a range within one of
the four words of the set, or a range that begins in the first word and either reaches the end of
the second word or has no more elements in its last word than in its first word. -/
def SetItem.Good (min : Nat) (i : SetItem) : Prop :=
  min ≤ i.first ∧ i.first ≤ i.last ∧ i.last < min + 64 ∧ i.last < 65536 ∧
    ((i.first - min) / 16 = (i.last - min) / 16 ∨
      i.first - min < 16 ∧ (31 ≤ i.last - min ∨ (i.last - min) % 16 + 1 ≤ 16 - (i.first - min)))

/-- The items have no word of the set in common. -/
def SetItem.Apart (min : Nat) (i j : SetItem) : Prop :=
  (i.last - min) / 16 < (j.first - min) / 16 ∨ (j.last - min) / 16 < (i.first - min) / 16

def SetItem.isRange : SetItem → Prop
  | .one _ => False
  | .range _ _ => True

/-- The bit of the element `e` of a set of numbers from `min` on. -/
def SetBit (set : List Word) (min e : Nat) : Prop :=
  min ≤ e ∧ ∃ w, set[(e - min) / 16]? = some w ∧ w.getLsbD ((e - min) % 16) = true

end Pas.Src
