import Verif.Spec.Accept
import Verif.Spec.Pascal
import Verif.Model.Block

/-! What a program is: declarations that give names a meaning, and statements in which only names with a meaning
are used, each as its type allows.  Declarations go from one table of names to another one. -/
namespace Pas.Accept
open Pas.Comp
open Pas.Const (KK)
open Pas.Src (Lvl)

/-- The names that have been declared, with their meaning; the last one with a name counts. -/
abbrev Env := List (List Byte × Sym)

/-- What is read is a name that has not been declared among the names of the table from the place `start` on: the
names of a scope are those from a place on. -/
def New (env : Env) (start : Nat) (x : Lx) : Prop := x.tok env start = .ident

/-- The name of a type of ordinal values. -/
def IsType (env : Env) (x : Lx) (k : Kind) : Prop := ∃ size, x.ptr env 0 = some (.type (some k) size)

/-- Ranges of integer constants that are not empty, separated by commas. -/
inductive Ranges (env : Env) : List Lx → List (Nat × Nat) → Prop
  | one {x y : Lx} {lo hi : BitVec 32} : x.tok env 0 = .int lo → y.tok env 0 = .int hi → lo.toNat ≤ hi.toNat →
      Ranges env [x, .tk (.other 0x0b), y] [(lo.toNat, hi.toNat)]
  | more {x y : Lx} {lo hi : BitVec 32} {xs rs} : x.tok env 0 = .int lo → y.tok env 0 = .int hi →
      lo.toNat ≤ hi.toNat → Ranges env xs rs →
      Ranges env (x :: .tk (.other 0x0b) :: y :: .tk .comma :: xs) ((lo.toNat, hi.toNat) :: rs)

/-- A type: an ordinal type, or an array of it with index ranges (0x81 is ARRAY). -/
inductive TypeOf (env : Env) : List Lx → Kind → List (Nat × Nat) → Prop
  | simple {x k} : IsType env x k → TypeOf env [x] k []
  | array {xs rs x k} : Ranges env xs rs → IsType env x k →
      TypeOf env (.tk (.other 0x81) :: .tk .lbracket :: (xs ++ [.tk .rbracket, .tk .of_, x])) k rs

/-- The meaning of a variable: a variable of the type at the level. -/
def Holds (lev : Nat) (k : Kind) (rs : List (Nat × Nat)) : Sym → Prop
  | .var v => v.kind = k ∧ v.level = lev ∧ rs = []
  | .arr a => a.kind = k ∧ a.level = lev ∧ rs ≠ [] ∧ a.dims.map (·.1) = rs.map (·.1)
  | _ => False

/-- New names separated by commas. -/
inductive NewNames (env : Env) (start : Nat) : List Lx → List (List Byte) → Prop
  | one {x} : New env start x → NewNames env start [x] [x.string]
  | more {x xs ns} : New env start x → NewNames env start xs ns →
      NewNames env start (x :: .tk .comma :: xs) (x.string :: ns)

/-- The names get the meaning of variables of the type. -/
def Adds (lev : Nat) (k : Kind) (rs : List (Nat × Nat)) (ns : List (List Byte)) (env env' : Env) : Prop :=
  ∃ syms, env' = env ++ syms ∧ syms.map (·.1) = ns.reverse ∧ ∀ e ∈ syms, Holds lev k rs e.2

/-- The declaration of variables.  The compiler does not insist on the last semicolon. -/
inductive Vars (lev start : Nat) : Env → List Lx → Env → Prop
  | none {env} : Vars lev start env [] env
  | last {env env' xs ns ts k rs} : NewNames env start xs ns → TypeOf env ts k rs → Adds lev k rs ns env env' →
      Vars lev start env (xs ++ .tk .colon :: ts) env'
  | more {env env' env'' xs ns ts k rs ys} : NewNames env start xs ns → TypeOf env ts k rs →
      Adds lev k rs ns env env' → Vars lev start env' ys env'' →
      Vars lev start env (xs ++ .tk .colon :: (ts ++ .tk .semi :: ys)) env''

/-- A product of two constants of a kind, with its value; results that do not fit into 32 bits have none, except
for SHL, which drops bits. -/
def ConstMul : Tk → KK → (a b v : BitVec 32) → Prop
  | .mul, .int, a, b, v => v.toInt = a.toInt * b.toInt
  | .div_, .int, a, b, v => b ≠ 0 ∧ v.toInt = a.toInt.tdiv b.toInt
  | .mod_, .int, a, b, v => b ≠ 0 ∧ v.toInt = a.toInt.tmod b.toInt
  | .shl, .int, a, b, v => b.toNat < 32 ∧ v = BitVec.ofInt 32 (a.toInt * 2 ^ b.toNat)
  | .shr, .int, a, b, v => b.toNat < 32 ∧ v.toInt = a.toInt / 2 ^ b.toNat
  | .and_, .int, a, b, v | .and_, .bool, a, b, v => v = a &&& b
  | _, _, _, _, _ => False

/-- A sum of two constants of a kind.  An OR of two integers is a difference in this compiler (see the property
C47). -/
def ConstAdd : Tk → KK → (a b v : BitVec 32) → Prop
  | .plus, .int, a, b, v => v.toInt = a.toInt + b.toInt
  | .minus, .int, a, b, v | .or_, .int, a, b, v => v.toInt = a.toInt - b.toInt
  | .or_, .bool, a, b, v => v = a ||| b
  | _, _, _, _, _ => False

/-- The standard functions of constants. -/
def ConstFn : Pas.Src.Fn → KK → BitVec 32 → KK → BitVec 32 → Prop
  | .abs, .int, a, k, v => k = .int ∧ v.toInt = a.toInt.natAbs
  | .sqr, .int, a, k, v => k = .int ∧ v.toInt = a.toInt * a.toInt
  | .chr, .int, a, k, v => k = .char ∧ v = a
  | .ord, _, a, k, v => k = .int ∧ v = a
  | .pred, k, a, k', v => k' = k ∧ v.toInt = a.toInt - 1
  | .succ, k, a, k', v => k' = k ∧ v.toInt = a.toInt + 1
  | _, _, _, _, _ => False

/-- A sequence of tokens is a constant factor, term or expression of the kind, with the value. -/
inductive ConstForm : Lvl → List Tk → KK → BitVec 32 → Prop
  | int {n} : ConstForm .factor [.int n] .int n
  | char {n} : ConstForm .factor [.char n] .char n
  | bool {n} : ConstForm .factor [.bool n] .bool n
  | not {ts k a} : ConstForm .factor ts k a → k = .int ∨ k = .bool → ConstForm .factor (.not_ :: ts) k (~~~a)
  | call {f : Pas.Src.Fn} {ts k a k' v} : ConstForm .simple ts k a → ConstFn f k a k' v →
      ConstForm .factor (f.tk :: .lparen :: (ts ++ [.rparen])) k' v
  | factor {ts k a} : ConstForm .factor ts k a → ConstForm .term ts k a
  | mul {ts ts' op k a b v} : ConstForm .term ts k a → ConstForm .factor ts' k b → ConstMul op k a b v →
      ConstForm .term (ts ++ op :: ts') k v
  | term {ts k a} : ConstForm .term ts k a → ConstForm .simple ts k a
  | plus {ts a} : ConstForm .term ts .int a → ConstForm .simple (.plus :: ts) .int a
  | minus {ts a v} : ConstForm .term ts .int a → v.toInt = -a.toInt → ConstForm .simple (.minus :: ts) .int v
  | add {ts ts' op k a b v} : ConstForm .simple ts k a → ConstForm .term ts' k b → ConstAdd op k a b v →
      ConstForm .simple (ts ++ op :: ts') k v

/-- What the name of a constant of the kind with the value means. -/
inductive ConstTk : KK → BitVec 32 → Tk → Prop
  | int {v} : ConstTk .int v (.int v)
  | char {v} : ConstTk .char v (.char v)
  | bool {v} : ConstTk .bool v (.bool v)

/-- Constant expressions with the meaning of the constant. -/
def IsConst (env : Env) (es : List Lx) (t : Tk) : Prop :=
  ∃ k v, ConstForm .simple (es.map (Lx.tok env 0)) k v ∧ ConstTk k v t

/-- The definition of constants.  The compiler does not insist on the last semicolon. -/
inductive ConstDefs (start : Nat) : Env → List Lx → Env → Prop
  | none {env} : ConstDefs start env [] env
  | last {env x es t} : New env start x → IsConst env es t →
      ConstDefs start env (x :: .tk .eq :: es) (env ++ [(x.string, .const t)])
  | more {env env' x es t xs} : New env start x → IsConst env es t →
      ConstDefs start (env ++ [(x.string, .const t)]) xs env' →
      ConstDefs start env (x :: .tk .eq :: (es ++ .tk .semi :: xs)) env'

/-- Constants (0x84 is CONST) and variables of a block. -/
inductive Decls (lev start : Nat) : Env → List Lx → Env → Prop
  | none {env} : Decls lev start env [] env
  | const {env env' xs} : ConstDefs start env xs env' → Decls lev start env (.tk (.other 0x84) :: xs) env'
  | var {env env' v xs} : v = .var_ ∨ v = .tk (.other 0xa9) → Vars lev start env xs env' →
      Decls lev start env (v :: xs) env'
  | both {env env' env'' v xs ys} : ConstDefs start env xs env' → v = .var_ ∨ v = .tk (.other 0xa9) →
      Vars lev start env' ys env'' → Decls lev start env (.tk (.other 0x84) :: (xs ++ v :: ys)) env''

/-- The names of parameters, separated by commas; none twice. -/
inductive ParmNames (lev start : Nat) : Env → List Lx → List (List Byte) → Prop
  | one {env x} : New env start x → ParmNames lev start env [x] [x.string]
  | more {env x xs ns} : New env start x →
      ParmNames lev start (env ++ [(x.string, .var ⟨.int, lev, 0⟩)]) xs ns →
      ParmNames lev start env (x :: .tk .comma :: xs) (x.string :: ns)

/-- The table with the names as variables of the type. -/
def withParms (lev : Nat) (k : Kind) (env : Env) (ns : List (List Byte)) : Env :=
  env ++ ns.map fun n => (n, Sym.var ⟨k, lev, 0⟩)

/-- Formal parameters with their types. -/
inductive Parms (lev start : Nat) : Env → List Lx → List (List Byte × Kind) → Prop
  | one {env xs ns x k} : ParmNames lev start env xs ns → IsType (withParms lev .int env ns) x k →
      Parms lev start env (xs ++ [.tk .colon, x]) (ns.map (·, k))
  | more {env xs ns x k ys ps} : ParmNames lev start env xs ns → IsType (withParms lev .int env ns) x k →
      Parms lev start (withParms lev k env ns) ys ps →
      Parms lev start env (xs ++ .tk .colon :: x :: .tk .semi :: ys) (ns.map (·, k) ++ ps)

/-- The parameters in parentheses, if there are any. -/
inductive ParmList (lev start : Nat) (env : Env) : List Lx → List (List Byte × Kind) → Prop
  | none : ParmList lev start env [] []
  | some {xs ps} : Parms lev start env xs ps → ParmList lev start env (.tk .lparen :: (xs ++ [.tk .rparen])) ps

/-- What the parameters mean in the procedure. -/
inductive ParmSyms (lev : Nat) : List (List Byte × Kind) → Env → Prop
  | nil : ParmSyms lev [] []
  | cons {n k off ps syms} : ParmSyms lev ps syms →
      ParmSyms lev ((n, k) :: ps) ((n, .var ⟨k, lev, off⟩) :: syms)

mutual

/-- Procedures (0x9c is PROCEDURE): a procedure is known in its own block and behind it, its parameters only in
its block. -/
inductive Procs : (lev start : Nat) → Env → List Lx → Env → Prop
  | none {lev start env} : Procs lev start env [] env
  | more {lev start env env' x hs ps syms label bs xs} : New env start x →
      ParmList (lev + 1) (env.length + 1) (env ++ [(x.string, .proc ⟨lev, label, []⟩)]) hs ps →
      ParmSyms (lev + 1) ps syms →
      Block (lev + 1) (env ++ (x.string, .proc ⟨lev, label, ps.map (·.2)⟩) :: syms) bs →
      Procs lev start (env ++ [(x.string, .proc ⟨lev, label, ps.map (·.2)⟩)]) xs env' →
      Procs lev start env (.tk (.other 0x9c) :: x :: (hs ++ .tk .semi :: (bs ++ .tk .semi :: xs))) env'

/-- A block: declarations and a statement from BEGIN to END.  What the names in the statement mean is in the
table. -/
inductive Block : (lev : Nat) → Env → List Lx → Prop
  | mk {lev env env' env'' ds ps bs} : Decls lev env.length env ds env' → Procs lev env.length env' ps env'' →
      Stm checked false (.begin_ :: bs.map (Lx.tok env'' 0)) →
      Block lev env (ds ++ (ps ++ .tk .begin_ :: bs))

end

/-- The files of a program heading: INPUT and OUTPUT. -/
inductive FileNames : List Lx → Prop
  | one {x : Lx} {off} : x.tok primed 0 = .file off → FileNames [x]
  | more {x : Lx} {off xs} : x.tok primed 0 = .file off → FileNames xs → FileNames (x :: .tk .comma :: xs)

/-- A program, behind the word PROGRAM. -/
inductive Program : List Lx → Prop
  | plain {x bs} : New primed 0 x → Block 0 primed bs → Program (x :: .tk .semi :: (bs ++ [.tk .period]))
  | files {x fs bs} : New primed 0 x → FileNames fs → Block 0 primed bs →
      Program (x :: .tk .lparen :: (fs ++ .tk .rparen :: .tk .semi :: (bs ++ [.tk .period])))

end Pas.Accept
