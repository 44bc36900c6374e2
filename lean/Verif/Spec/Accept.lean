import Verif.Model.Compile
import Verif.Spec.Pascal

/-! What the compiler may accept: the grammar of expressions and statements over the ordinal types with the
rules for the types of operands, as relations on sequences of tokens.  The rules that the compiler does not
check are parameters: `pascal` is what Pascal prescribes, `checked` what the compiler checks. -/
namespace Pas.Accept
open Pas.Comp (Tk Kind Var ArrSym ProcSym)
open Pas.Src (Lvl)

/-- The integer types of at most 16 bits. -/
def Narrow : Kind → Prop
  | .int | .word | .shortInt | .shortWord => True
  | _ => False

/-- The integer types of 32 bits. -/
def Long : Kind → Prop
  | .longInt | .longWord => True
  | _ => False

/-- The integer types. -/
def Numeric (k : Kind) : Prop := Narrow k ∨ Long k

/-- Operands of an arithmetic operator: two integers of at most 16 bits, or two of 32 bits. -/
def Agree (k k' : Kind) : Prop := Narrow k ∧ Narrow k' ∨ Long k ∧ Long k'

/-- The adding operators and the types of their operands. -/
def AddTypes : Tk → Kind → Kind → Prop
  | .plus, k, k' | .minus, k, k' => Agree k k'
  | .or_, k, k' | .bar, k, k' | .xor_, k, k' => Agree k k' ∨ k = .bool ∧ k' = .bool
  | _, _, _ => False

/-- The multiplying operators and the type of their first operand. -/
def MulFirst : Tk → Kind → Prop
  | .mul, k | .div_, k | .mod_, k => Numeric k
  | .and_, k | .amp, k => Numeric k ∨ k = .bool
  | .shl, k | .shr, k => Numeric k
  | _, _ => False

/-- The type of an integer constant: one of the integer types that has so many bits. -/
def LitTypes (n : BitVec 32) (k : Kind) : Prop := Long k ∨ Narrow k ∧ n.toNat < 65536

/-- The rules that differ. -/
structure Rules where
  /-- Types of the operands of a multiplying operator. -/
  mul : Tk → Kind → Kind → Prop
  /-- Types of the operands of a comparison and of its result. -/
  rel : Tk → Kind → Kind → Kind → Prop
  /-- The types of the argument and of the result of a standard function. -/
  fn : Pas.Src.Fn → Kind → Kind → Prop
  /-- The type of an operand with a plus sign. -/
  plus : Kind → Prop
  /-- Number of dimensions of an array and number of indices. -/
  indices : Nat → Nat → Prop
  /-- The type of the value a CASE statement selects by and that of its constants. -/
  cases : Kind → Kind → Prop
  /-- Between two variables of READ. -/
  between : Tk → Prop
  /-- In READ and WRITE between the parenthesis and the first item. -/
  before : List Tk → Prop
  /-- Whether a procedure without parameters may be called with empty parentheses. -/
  parens : Prop

/-- The comparison operators. -/
def IsRel (op : Tk) : Prop := op = .eq ∨ op = .ne ∨ op = .lt ∨ op = .le ∨ op = .gt ∨ op = .ge

/-- What Pascal prescribes (with the extensions of this dialect to integers). -/
def pascal : Rules where
  mul
    | .mul, k, k' | .div_, k, k' | .mod_, k, k' => Agree k k'
    | .and_, k, k' | .amp, k, k' => Agree k k' ∨ k = .bool ∧ k' = .bool
    | .shl, k, k' | .shr, k, k' => Numeric k ∧ Narrow k'
    | _, _, _ => False
  rel op k k' r := IsRel op ∧ r = .bool ∧ (Agree k k' ∨ k = .char ∧ k' = .char ∨ k = .bool ∧ k' = .bool)
  fn
    | .abs, k, r | .sqr, k, r => Numeric k ∧ r = k
    | .pred, k, r | .succ, k, r => r = k
    | .ord, k, r => ¬ Long k ∧ r = .int
    | .odd, k, r => Numeric k ∧ r = .bool
    | .chr, k, r => Numeric k ∧ r = .char
  plus := Numeric
  indices d n := n = d
  cases k k' := Agree k k' ∨ k = .char ∧ k' = .char ∨ k = .bool ∧ k' = .bool
  between t := t = .comma
  before ts := ts = [] ∨ ∃ off, ts = [.file off, .comma]
  parens := False

/-- What the compiler checks. -/
def checked : Rules where
  mul op k k' := MulFirst op k ∧ (op = .shl ∨ op = .shr → k' = k ∧ Narrow k)
  rel op k k' r := IsRel op ∧ (r = .bool ∧ (Agree k k' ∨ k = .char ∧ k' = .char ∨ k = .bool ∧ k' = .bool) ∨
    (op ≠ .eq ∧ op ≠ .ne) ∧ (k = .char ∨ k = .bool) ∧ k' = k ∧ r = k)
  fn
    | .abs, k, r => k = .int ∧ r = k
    | .sqr, k, r => Narrow k ∧ r = k
    | .pred, k, r | .succ, k, r => r = k
    | .ord, _, r => r = .int
    | .odd, _, r => r = .bool
    | .chr, k, r => k = .int ∧ r = .char
  plus _ := True
  indices d n := n ≤ d
  cases _ _ := True
  between t := t = .comma ∨ t = .colon
  before ts := ts = [] ∨ ts = [.comma] ∨ ∃ off, ts = [.file off] ∨ ts = [.file off, .comma]
  parens := True

mutual

/-- A sequence of tokens is a factor, a term, a simple expression, an expression of the type. -/
inductive Form (R : Rules) : Lvl → List Tk → Kind → Prop
  | int {n k} : LitTypes n k → Form R .factor [.int n] k
  | bool {n} : Form R .factor [.bool n] .bool
  | char {n} : Form R .factor [.char n] .char
  | var {v : Var} : Form R .factor [.var v] v.kind
  | not {op ts k} : op = .not_ ∨ op = .tilde → Form R .factor ts k → Numeric k ∨ k = .bool →
      Form R .factor (op :: ts) k
  | paren {ts k} : Form R .expr ts k → Form R .factor (.lparen :: (ts ++ [.rparen])) k
  | call {f : Pas.Src.Fn} {ts k r} : Form R .expr ts k → R.fn f k r →
      Form R .factor (f.tk :: .lparen :: (ts ++ [.rparen])) r
  | index {a : ArrSym} {n ts} : Indices R n ts → R.indices a.dims.length n →
      Form R .factor (.arr a :: .lbracket :: (ts ++ [.rbracket])) a.kind
  | factor {ts k} : Form R .factor ts k → Form R .term ts k
  | mul {ts ts' op k k'} : Form R .term ts k → Form R .factor ts' k' → R.mul op k k' →
      Form R .term (ts ++ op :: ts') k
  | term {ts k} : Form R .term ts k → Form R .simple ts k
  | plus {ts k} : Form R .term ts k → R.plus k → Form R .simple (.plus :: ts) k
  | minus {ts k} : Form R .term ts k → Numeric k → Form R .simple (.minus :: ts) k
  | add {ts ts' op k k'} : Form R .simple ts k → Form R .term ts' k' → AddTypes op k k' →
      Form R .simple (ts ++ op :: ts') k
  | simple {ts k} : Form R .simple ts k → Form R .expr ts k
  | rel {ts ts' op k k' r} : Form R .simple ts k → Form R .simple ts' k' → R.rel op k k' r →
      Form R .expr (ts ++ op :: ts') r

/-- So many integer expressions, separated by commas. -/
inductive Indices (R : Rules) : Nat → List Tk → Prop
  | one {ts} : Form R .expr ts .int → Indices R 1 ts
  | more {n ts ts'} : Form R .expr ts .int → Indices R n ts' → Indices R (n + 1) (ts ++ .comma :: ts')

end

/-- The constants of CASE: integers of 16 bits, Booleans, characters. -/
inductive ConstOf : Tk → Kind → Prop
  | int {n : BitVec 32} : n.toNat < 65536 → ConstOf (.int n) .int
  | bool {n : BitVec 32} : n.toNat < 65536 → ConstOf (.bool n) .bool
  | char {n : BitVec 32} : n.toNat < 65536 → ConstOf (.char n) .char

/-- Constants separated by commas, for a value of the type. -/
inductive Consts (R : Rules) (k : Kind) : List Tk → Prop
  | one {t k'} : ConstOf t k' → R.cases k k' → Consts R k [t]
  | more {t k' ts} : ConstOf t k' → R.cases k k' → Consts R k ts → Consts R k (t :: .comma :: ts)

/-- The width and the precision behind an item of WRITE. -/
inductive Width (R : Rules) : List Tk → Prop
  | none : Width R []
  | one {ts} : Form R .expr ts .shortInt → Width R (.colon :: ts)
  | two {ts ts'} : Form R .expr ts .shortInt → Form R .expr ts' .shortInt →
      Width R (.colon :: (ts ++ .colon :: ts'))

/-- An item of WRITE: a string constant, or a number or character with an optional width. -/
inductive Item (R : Rules) : List Tk → Prop
  | str {t} : Item R [.str t]
  | value {ts k ws} : Form R .expr ts k → Numeric k ∨ k = .char → Width R ws → Item R (ts ++ ws)

/-- Items separated by commas. -/
inductive Items (R : Rules) : List Tk → Prop
  | one {ts} : Item R ts → Items R ts
  | more {ts ts'} : Item R ts → Items R ts' → Items R (ts ++ .comma :: ts')

/-- Variables that can be read. -/
inductive Targets (R : Rules) : List Tk → Prop
  | one {v : Var} : v.kind = .int ∨ v.kind = .char → Targets R [.var v]
  | more {v : Var} {sep ts} : v.kind = .int ∨ v.kind = .char → R.between sep → Targets R ts →
      Targets R (.var v :: sep :: ts)

/-- Expressions of the types of the parameters, separated by commas. -/
inductive Actuals (R : Rules) : List Kind → List Tk → Prop
  | one {k ts} : Form R .expr ts k → Actuals R [k] ts
  | more {k k' ks ts ts'} : Form R .expr ts k → Actuals R (k' :: ks) ts' →
      Actuals R (k :: k' :: ks) (ts ++ .comma :: ts')

mutual

/-- A sequence of tokens is a statement; `loop` says whether it is part of a loop. -/
inductive Stm (R : Rules) : (loop : Bool) → List Tk → Prop
  | empty {b} : Stm R b []
  | assign {b ts} {v : Var} : Form R .expr ts v.kind → Stm R b (.var v :: .assign :: ts)
  | element {b n is ts} {a : ArrSym} : Indices R n is → R.indices a.dims.length n → Form R .expr ts a.kind →
      Stm R b (.arr a :: .lbracket :: (is ++ .rbracket :: .assign :: ts))
  | block {b ts} : Stms R b ts → Stm R b (.begin_ :: (ts ++ [.end_]))
  | ifThen {b ts ss} : Form R .expr ts .bool → Stm R b ss → Stm R b (.if_ :: (ts ++ .then_ :: ss))
  | ifElse {b ts ss ss'} : Form R .expr ts .bool → Stm R b ss → Stm R b ss' →
      Stm R b (.if_ :: (ts ++ .then_ :: (ss ++ .else_ :: ss')))
  | while {b ts ss} : Form R .expr ts .bool → Stm R true ss → Stm R b (.while_ :: (ts ++ .do_ :: ss))
  | repeat {b ts ss} : Stms R true ss → Form R .expr ts .bool → Stm R b (.repeat_ :: (ss ++ .until_ :: ts))
  | for {b} {v : Var} {ts d ts' ss} : Numeric v.kind → Form R .expr ts v.kind → d = .to_ ∨ d = .downto_ →
      Form R .expr ts' v.kind → Stm R true ss →
      Stm R b (.for_ :: .var v :: .assign :: (ts ++ d :: (ts' ++ .do_ :: ss)))
  | case {b ts k cs} : Form R .expr ts k → Cases R b k cs → Stm R b (.case_ :: (ts ++ .of_ :: cs))
  | break : Stm R true [.break_]
  | continue : Stm R true [.continue_]
  | write {b bs ts} : R.before bs → Items R ts → Stm R b (.write_ :: .lparen :: (bs ++ (ts ++ [.rparen])))
  | writeln {b bs ts} : R.before bs → Items R ts → Stm R b (.writeln_ :: .lparen :: (bs ++ (ts ++ [.rparen])))
  | line {b} : Stm R b [.writeln_]
  | lineParens {b} : Stm R b [.writeln_, .lparen, .rparen]
  | read {b bs ts} : R.before bs → Targets R ts → Stm R b (.read_ :: .lparen :: (bs ++ (ts ++ [.rparen])))
  | readln {b bs ts} : R.before bs → Targets R ts → Stm R b (.readln_ :: .lparen :: (bs ++ (ts ++ [.rparen])))
  | skip {b} : Stm R b [.readln_]
  | skipParens {b} : Stm R b [.readln_, .lparen, .rparen]
  | call {b} {q : ProcSym} : q.parms = [] → Stm R b [.proc q]
  | callParens {b} {q : ProcSym} : q.parms = [] → R.parens → Stm R b [.proc q, .lparen, .rparen]
  | callWith {b} {q : ProcSym} {ts} : Actuals R q.parms ts → Stm R b (.proc q :: .lparen :: (ts ++ [.rparen]))

/-- Statements separated by semicolons. -/
inductive Stms (R : Rules) : (loop : Bool) → List Tk → Prop
  | one {b ts} : Stm R b ts → Stms R b ts
  | more {b ts ts'} : Stm R b ts → Stms R b ts' → Stms R b (ts ++ .semi :: ts')

/-- The cases of a CASE statement that selects by a value of the type, with the END. -/
inductive Cases (R : Rules) : (loop : Bool) → Kind → List Tk → Prop
  | other {b k ss es} : Stm R b ss → es = [.end_] ∨ es = [.semi, .end_] → Cases R b k (.else_ :: (ss ++ es))
  | last {b k cs ss es} : Consts R k cs → Stm R b ss → es = [.end_] ∨ es = [.semi, .end_] →
      Cases R b k (cs ++ .colon :: (ss ++ es))
  | more {b k cs ss rs} : Consts R k cs → Stm R b ss → Cases R b k rs →
      Cases R b k (cs ++ .colon :: (ss ++ .semi :: rs))

end

end Pas.Accept
