import Verif.Model.Compile

/-! The source language of properties C48-C50 and C52: expressions and statements over the 16-bit
ordinal types, how they are written, their types and their meaning. -/
namespace Pas.Src
open Pas.Comp (Tk Kind ET)

/-! ### Types and variables -/

/-- Integer types. -/
inductive IntTy where
  | integer | word | shortInteger | shortWord
  deriving DecidableEq, Repr

/-- Types. -/
inductive Ty where
  | num (t : IntTy) | bool | char
  deriving DecidableEq, Repr

/-- A declared variable: its type, the static nesting level of its declaration and its offset. -/
structure Variable where
  ty : Ty
  level : Nat
  off : Int
  deriving DecidableEq, Repr

/-- The kind of symbol a variable of the type is. -/
def Ty.kind : Ty → Kind
  | .num .integer => .int
  | .num .word => .word
  | .num .shortInteger => .shortInt
  | .num .shortWord => .shortWord
  | .bool => .bool
  | .char => .char

/-- The code of the type in the compiler. -/
def Ty.et : Ty → ET
  | .num .integer => .integer
  | .num .word => .word
  | .num .shortInteger => .shortInteger
  | .num .shortWord => .shortWord
  | .bool => .boolean
  | .char => .char

/-- A declared procedure: the static nesting level of its declaration, its label and the types of its
value parameters. -/
structure Proc where
  level : Nat
  label : Nat
  parms : List Ty
  deriving DecidableEq, Repr

def Proc.tk (q : Proc) : Tk := .proc ⟨q.level, q.label, q.parms.map Ty.kind⟩

def Variable.tk (x : Variable) : Tk := .var ⟨x.ty.kind, x.level, x.off⟩

/-- Number of bytes of a variable. -/
def Ty.size : Ty → Nat
  | .num .shortInteger | .num .shortWord | .char => 1
  | _ => 2

/-- A declared array: the type of its elements, the static nesting level of its declaration, the offset of
its first element, and the lowest and the highest index. -/
structure Arr where
  ty : Ty
  level : Nat
  off : Nat
  lo : Nat
  hi : Nat
  deriving DecidableEq, Repr

def Arr.tk (a : Arr) : Tk := .arr ⟨a.ty.kind, a.level, a.off, [(a.lo, a.ty.size)]⟩

/-- The element with the index: a variable.  The elements follow each other without gaps. -/
def Arr.elem (a : Arr) (i : Nat) : Variable := ⟨a.ty, a.level, a.off + (i - a.lo) * a.ty.size⟩

/-- The elements of an array. -/
def Arr.elems (a : Arr) : List Variable := (List.range (a.hi + 1 - a.lo)).map fun k => a.elem (a.lo + k)

/-- The bounds of an array: there is an element, and the indices are integers. -/
def Arr.Ok (a : Arr) : Prop := a.lo ≤ a.hi ∧ a.hi ≤ 32767

instance (a : Arr) : Decidable a.Ok := by unfold Arr.Ok; infer_instance

/-! ### Expressions -/

inductive MulOp where | mul | div | mod | and | amp | shl | shr
  deriving DecidableEq, Repr
inductive AddOp where | add | sub | or | bar | xor
  deriving DecidableEq, Repr
inductive RelOp where | eq | ne | lt | le | gt | ge
  deriving DecidableEq, Repr
inductive Sign where | plus | minus
  deriving DecidableEq, Repr

/-- The levels of the grammar of expressions. -/
inductive Lvl where | factor | term | simple | expr

/-- Standard functions. -/
inductive Fn where | abs | sqr | pred | succ | ord | odd | chr
  deriving DecidableEq, Repr

/-- Expressions, as the grammar says:
`factor = constant | variable | array "[" expression "]" | ("not" | "~") factor | "(" expression ")" | function "(" expression ")"`,
`term = factor | term mulop factor`, `simple = ["+" | "-"] term | simple addop term`,
`expression = simple | simple relop simple`. -/
inductive E : Lvl → Type where
  | int (n : Nat) : E .factor
  | bool (b : Bool) : E .factor
  | char (c : Byte) : E .factor
  | var (x : Variable) : E .factor
  | not (tilde : Bool) (f : E .factor) : E .factor
  | paren (e : E .expr) : E .factor
  | call (f : Fn) (e : E .expr) : E .factor
  | index (a : Arr) (e : E .expr) : E .factor
  | factor (f : E .factor) : E .term
  | mul (t : E .term) (op : MulOp) (f : E .factor) : E .term
  | term (sign : Option Sign) (t : E .term) : E .simple
  | add (s : E .simple) (op : AddOp) (t : E .term) : E .simple
  | simple (s : E .simple) : E .expr
  | rel (a : E .simple) (op : RelOp) (b : E .simple) : E .expr

def MulOp.tk : MulOp → Tk
  | .mul => .mul | .div => .div_ | .mod => .mod_ | .and => .and_ | .amp => .amp
  | .shl => .shl | .shr => .shr
def AddOp.tk : AddOp → Tk
  | .add => .plus | .sub => .minus | .or => .or_ | .bar => .bar | .xor => .xor_
def RelOp.tk : RelOp → Tk
  | .eq => .eq | .ne => .ne | .lt => .lt | .le => .le | .gt => .gt | .ge => .ge
def Sign.tk : Sign → Tk
  | .plus => .plus | .minus => .minus

/-- The token of a standard function (`0xc000 + g_tknSubType`). -/
def Fn.tk : Fn → Tk
  | .abs => .other 0xc001 | .sqr => .other 0xc00e | .pred => .other 0xc00b
  | .succ => .other 0xc010 | .ord => .other 0xc00a | .odd => .other 0xc009
  | .chr => .other 0xc004

/-- How an expression is written.  TRUE is the constant −1. -/
def E.toks : {l : Lvl} → E l → List Tk
  | _, .int n => [.int (BitVec.ofNat 32 n)]
  | _, .bool b => [.bool (if b then 0xffffffff#32 else 0#32)]
  | _, .char c => [.char (c.zeroExtend 32)]
  | _, .var x => [x.tk]
  | _, .not tilde f => (if tilde then .tilde else .not_) :: f.toks
  | _, .paren e => .lparen :: (e.toks ++ [.rparen])
  | _, .call f e => f.tk :: .lparen :: (e.toks ++ [.rparen])
  | _, .index a e => a.tk :: .lbracket :: (e.toks ++ [.rbracket])
  | _, .factor f => f.toks
  | _, .mul t op f => t.toks ++ op.tk :: f.toks
  | _, .term none t => t.toks
  | _, .term (some s) t => s.tk :: t.toks
  | _, .add s op t => s.toks ++ op.tk :: t.toks
  | _, .simple s => s.toks
  | _, .rel a op b => a.toks ++ op.tk :: b.toks

/-- The variables of an expression; if an element of an array is used, all elements are. -/
def E.vars : {l : Lvl} → E l → List Variable
  | _, .int _ | _, .bool _ | _, .char _ => []
  | _, .var x => [x]
  | _, .not _ f => f.vars
  | _, .paren e => e.vars
  | _, .call _ e => e.vars
  | _, .index a e => a.elems ++ e.vars
  | _, .factor f => f.vars
  | _, .mul t _ f => t.vars ++ f.vars
  | _, .term _ t => t.vars
  | _, .add s _ t => s.vars ++ t.vars
  | _, .simple s => s.vars
  | _, .rel a _ b => a.vars ++ b.vars

/-- Tokens that continue an expression. -/
def operators : List Tk :=
  [.mul, .div_, .fdiv, .mod_, .and_, .amp, .shl, .shr, .plus, .minus, .or_, .bar, .xor_, .symdiff,
    .eq, .ne, .lt, .le, .gt, .ge, .in_]

/-- An expression that is followed by these tokens ends there. -/
def Ends (rest : List Tk) : Prop := ∀ t, rest.head? = some t → t ∉ operators

/-! ### Types of expressions -/

/-- What is expected where an expression is used: anything, any ordinal value, or a value of a
type. -/
inductive Expect where
  | any | ordinal | a (t : Ty)
  deriving DecidableEq, Repr

/-- The code of what is expected in the compiler. -/
def Expect.et : Expect → ET
  | .any => .unknown
  | .ordinal => .anyOrdinal
  | .a t => t.et

/-- The type of an integer constant: where a short integer is expected and the constant is small it
is one; everywhere else it is an integer.  Constants beyond the range of their type have no type. -/
def litType (x : Expect) (n : Nat) : Option IntTy :=
  if x = .a (.num .shortInteger) ∧ n ≤ 255 then some .shortInteger
  else if x = .a (.num .shortWord) then if n ≤ 65535 then some .shortWord else none
  else if n ≤ 32767 then some .integer else none

def MulOp.isShift : MulOp → Bool
  | .shl | .shr => true
  | _ => false

/-- Multiplying operators: the result has the type of the first operand. -/
def mulType : MulOp → Ty → Ty → Option Ty
  | .shl, .num t, .num t' | .shr, .num t, .num t' => if t = t' then some (.num t) else none
  | .and, .bool, .bool | .amp, .bool, .bool => some .bool
  | _, .num t, .num _ => some (.num t)
  | _, _, _ => none

/-- Adding operators: the result has the type of the first operand. -/
def addType : AddOp → Ty → Ty → Option Ty
  | .or, .bool, .bool | .bar, .bool, .bool | .xor, .bool, .bool => some .bool
  | _, .num t, .num _ => some (.num t)
  | _, _, _ => none

/-- The type in which two integer values can be compared. -/
def relNum : IntTy → IntTy → Option IntTy
  | .integer, .shortInteger | .integer, .shortWord | .shortInteger, .integer
  | .shortWord, .integer => some .integer
  | t, t' => if t = t' then some t else none

/-- Characters and Booleans can only be compared for equality. -/
def relType : RelOp → Ty → Ty → Option Ty
  | _, .num t, .num t' => (relNum t t').map fun _ => .bool
  | .eq, .char, .char | .ne, .char, .char | .eq, .bool, .bool | .ne, .bool, .bool => some .bool
  | _, _, _ => none

/-- What the terms behind the first one are expected to be. -/
def Expect.later (x : Expect) (t : Ty) : Expect := if x = .any then .a t else x

/-- What the second operand of a multiplying operator is expected to be. -/
def Expect.second (x : Expect) (op : MulOp) : Expect := if op.isShift then .ordinal else x

/-- What the argument of a standard function is expected to be. -/
def Fn.expect : Fn → Expect
  | .abs | .sqr => .any
  | .chr => .a (.num .integer)
  | _ => .ordinal

/-- The type of the result of a standard function.  ABS is for integers only, not for short ones and
words. -/
def Fn.type : Fn → Ty → Option Ty
  | .abs, .num .integer => some (.num .integer)
  | .sqr, .num t => some (.num t)
  | .pred, t | .succ, t => some t
  | .ord, _ => some (.num .integer)
  | .odd, .num _ => some .bool
  | .chr, .num .integer => some .char
  | _, _ => none

/-- The type of an expression where `x` is expected (`none`: not well-typed).  Characters are
ASCII. -/
def E.typeOf : {l : Lvl} → Expect → E l → Option Ty
  | _, x, .int n => (litType x n).map .num
  | _, _, .bool _ => some .bool
  | _, _, .char c => if c.toNat < 128 then some .char else none
  | _, _, .var v => some v.ty
  | _, x, .not _ f => match f.typeOf x with
    | some (.num t) => some (.num t)
    | some .bool => some .bool
    | _ => none
  | _, _, .paren e => e.typeOf .any
  | _, _, .call f e => do f.type (← e.typeOf f.expect)
  | _, _, .index a e =>
    if a.Ok ∧ e.typeOf (.a (.num .integer)) = some (.num .integer) then some a.ty else none
  | _, x, .factor f => f.typeOf x
  | _, x, .mul t op f => do mulType op (← t.typeOf x) (← f.typeOf (x.second op))
  | _, x, .term none t => t.typeOf x
  | _, x, .term (some _) t => match t.typeOf x with
    | some (.num t) => some (.num t)
    | _ => none
  | _, x, .add s op t => do
      let a ← s.typeOf x
      addType op a (← t.typeOf (x.later a))
  | _, x, .simple s => do
      let t ← s.typeOf x
      match x with
      | .a t' => if t = t' then some t else none
      | _ => some t
  | _, x, .rel a op b => do
      let t ← relType op (← a.typeOf x) (← b.typeOf x)
      match x with
      | .a t' => if t = t' then some t else none
      | _ => some t

/-! ### Values -/

inductive Val where
  | num (t : IntTy) (i : Int) | bool (b : Bool) | char (c : Byte)
  deriving DecidableEq, Repr

def Val.ty : Val → Ty
  | .num t _ => .num t
  | .bool _ => .bool
  | .char _ => .char

def IntTy.signed : IntTy → Bool
  | .integer | .shortInteger => true
  | _ => false

/-- An integer reduced to the 16 bits of a value of the type: signed or unsigned. -/
def wrap (t : IntTy) (i : Int) : Int := if t.signed then Int.bmod i 65536 else i % 65536

/-- The value of 16 bits of the type. -/
def ofBits (t : IntTy) (w : Word) : Int := if t.signed then w.toInt else w.toNat

/-- The second operand of an integer operation is converted to the type of the first one.  Division
is undefined for the divisor 0, shifts for counts beyond 31; a product of words of 2^31 or more is
undefined as well (see C03). -/
def mulVal : MulOp → Val → Val → Option Val
  | .mul, .num t a, .num _ b =>
    let b := wrap t b
    if t.signed = true ∨ a * b < 2147483648 then some (.num t (wrap t (a * b))) else none
  | .div, .num t a, .num _ b =>
    let b := wrap t b
    if b = 0 then none else some (.num t (wrap t (Int.tdiv a b)))
  | .mod, .num t a, .num _ b =>
    let b := wrap t b
    if b = 0 then none else some (.num t (wrap t (Int.tmod a b)))
  | .and, .num t a, .num _ b | .amp, .num t a, .num _ b =>
    some (.num t (ofBits t (BitVec.ofInt 16 a &&& BitVec.ofInt 16 b)))
  | .and, .bool a, .bool b | .amp, .bool a, .bool b => some (.bool (a && b))
  | .shl, .num t a, .num _ b =>
    if 0 ≤ b ∧ b < 32 then some (.num t (wrap t (a * 2 ^ b.toNat))) else none
  | .shr, .num t a, .num _ b =>
    if 0 ≤ b ∧ b < 32 then some (.num t (a / 2 ^ b.toNat)) else none
  | _, _, _ => none

def addVal : AddOp → Val → Val → Option Val
  | .add, .num t a, .num _ b => some (.num t (wrap t (a + b)))
  | .sub, .num t a, .num _ b => some (.num t (wrap t (a - b)))
  | .or, .num t a, .num _ b | .bar, .num t a, .num _ b =>
    some (.num t (ofBits t (BitVec.ofInt 16 a ||| BitVec.ofInt 16 b)))
  | .xor, .num t a, .num _ b =>
    some (.num t (ofBits t (BitVec.ofInt 16 a ^^^ BitVec.ofInt 16 b)))
  | .or, .bool a, .bool b | .bar, .bool a, .bool b => some (.bool (a || b))
  | .xor, .bool a, .bool b => some (.bool (a != b))
  | _, _, _ => none

/-- Comparison of integers. -/
def RelOp.holds : RelOp → Int → Int → Bool
  | .eq, a, b => a = b
  | .ne, a, b => a ≠ b
  | .lt, a, b => a < b
  | .le, a, b => a ≤ b
  | .gt, a, b => a > b
  | .ge, a, b => a ≥ b

def relVal : RelOp → Val → Val → Option Val
  | op, .num t a, .num t' b =>
    (relNum t t').map fun t => .bool (op.holds (wrap t a) (wrap t b))
  | .eq, .char a, .char b => some (.bool (a = b))
  | .ne, .char a, .char b => some (.bool (a ≠ b))
  | .eq, .bool a, .bool b => some (.bool (a = b))
  | .ne, .bool a, .bool b => some (.bool (a ≠ b))
  | _, _, _ => none

/-- The value of a standard function.  There is no character before the first and none behind the
last one, and CHR is only defined for numbers of characters.  PRED and SUCC of Booleans and ORD(TRUE)
are left undefined here: the compiler gets them wrong (see the violations of C48). -/
def Fn.val : Fn → Val → Option Val
  | .abs, .num t a => some (.num t (wrap t a.natAbs))
  | .sqr, .num t a =>
    if t.signed = true ∨ a * a < 2147483648 then some (.num t (wrap t (a * a))) else none
  | .pred, .num t a => some (.num t (wrap t (a - 1)))
  | .succ, .num t a => some (.num t (wrap t (a + 1)))
  | .pred, .char c => if c = 0#8 then none else some (.char (c - 1#8))
  | .succ, .char c => if c = 255#8 then none else some (.char (c + 1#8))
  | .ord, .num _ a => some (.num .integer (wrap .integer a))
  | .ord, .char c => some (.num .integer c.toNat)
  | .ord, .bool false => some (.num .integer 0)
  | .odd, .num _ a => some (.bool (a % 2 = 1))
  | .chr, .num _ a => if 0 ≤ a ∧ a < 256 then some (.char (BitVec.ofInt 8 a)) else none
  | _, _ => none

/-- The index selected by a value: there is no element for an index that is out of bounds. -/
def Arr.pick (a : Arr) : Val → Option Nat
  | .num _ i => if (a.lo : Int) ≤ i ∧ i ≤ a.hi then some i.toNat else none
  | _ => none

/-- Values of the variables; those that have not been assigned to have none. -/
abbrev Store := Variable → Option Val

/-- The value of an expression where `x` is expected (`none`: undefined). -/
def E.eval (σ : Store) : {l : Lvl} → Expect → E l → Option Val
  | _, x, .int n => (litType x n).map fun t => .num t n
  | _, _, .bool b => some (.bool b)
  | _, _, .char c => some (.char c)
  | _, _, .var v => σ v
  | _, x, .not _ f => match f.eval σ x with
    | some (.num t i) => some (.num t (wrap t (-i - 1)))
    | some (.bool b) => some (.bool !b)
    | _ => none
  | _, _, .paren e => e.eval σ .any
  | _, _, .call f e => do f.val (← e.eval σ f.expect)
  | _, _, .index a e => do σ (a.elem (← a.pick (← e.eval σ (.a (.num .integer)))))
  | _, x, .factor f => f.eval σ x
  | _, x, .mul t op f => do mulVal op (← t.eval σ x) (← f.eval σ (x.second op))
  | _, x, .term (some .minus) t => match t.eval σ x with
    | some (.num t i) => some (.num t (wrap t (-i)))
    | _ => none
  | _, x, .term _ t => t.eval σ x
  | _, x, .add s op t => do
      let a ← s.eval σ x
      addVal op a (← t.eval σ (x.later a.ty))
  | _, x, .simple s => s.eval σ x
  | _, x, .rel a op b => do relVal op (← a.eval σ x) (← b.eval σ x)

/-! ### Storage -/

/-- The values a variable of the type can have. -/
def Fits : Ty → Val → Prop
  | .num t, .num t' i => t = t' ∧ match t with
    | .integer => -32768 ≤ i ∧ i ≤ 32767
    | .word => 0 ≤ i ∧ i ≤ 65535
    | .shortInteger => -128 ≤ i ∧ i ≤ 127
    | .shortWord => 0 ≤ i ∧ i ≤ 255
  | .bool, .bool _ => True
  | .char, .char _ => True
  | _, _ => False

/-- The word that represents a value: integers in two's complement, TRUE is −1. -/
def Val.word : Val → Word
  | .num _ i => BitVec.ofInt 16 i
  | .bool b => if b then 0xffff#16 else 0#16
  | .char c => c.zeroExtend 16

/-- What a value becomes when it is assigned to a variable of its type: short integers keep eight
bits. -/
def Val.trim : Val → Val
  | .num .shortInteger i => .num .shortInteger (Int.bmod i 256)
  | .num .shortWord i => .num .shortWord (i % 256)
  | v => v

end Pas.Src
