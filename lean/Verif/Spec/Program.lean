import Verif.Spec.Calls
import Verif.Spec.Constants
import Verif.Spec.Names
import Verif.Model.Block

/-! Programs of properties C52, C57 and C72: how they are written, which ones are correct, where their
variables are, and what their procedures do. -/
namespace Pas.Src
open Pas.Comp (Tk Lx)
open Pas.Spec (SameName Pointwise)

/-- The name of a type. -/
def Ty.name : Ty → List Byte
  | .num .integer => [73, 78, 84, 69, 71, 69, 82]
  | .num .word => [87, 79, 82, 68]
  | .num .shortInteger => [83, 72, 79, 82, 84, 73, 78, 84, 69, 71, 69, 82]
  | .num .shortWord => [83, 72, 79, 82, 84, 87, 79, 82, 68]
  | .bool => [66, 79, 79, 76, 69, 65, 78]
  | .char => [67, 72, 65, 82]

/-- `TRUE`, `FALSE`, `MAXINT`, `INPUT`, `OUTPUT`. -/
def trueName : List Byte := [84, 82, 85, 69]
@[inherit_doc trueName] def falseName : List Byte := [70, 65, 76, 83, 69]
@[inherit_doc trueName] def maxintName : List Byte := [77, 65, 88, 73, 78, 84]
@[inherit_doc trueName] def inputName : List Byte := [73, 78, 80, 85, 84]
@[inherit_doc trueName] def outputName : List Byte := [79, 85, 84, 80, 85, 84]

/-- The predefined names. -/
def predefined : List (List Byte) := [trueName, falseName, maxintName, [78, 73, 76], [73, 78, 84, 69, 71, 69, 82], [87, 79, 82, 68],
  [83, 72, 79, 82, 84, 73, 78, 84, 69, 71, 69, 82], [83, 72, 79, 82, 84, 87, 79, 82, 68],
  [76, 79, 78, 71, 73, 78, 84, 69, 71, 69, 82], [76, 79, 78, 71, 87, 79, 82, 68],
  [66, 79, 79, 76, 69, 65, 78], [82, 69, 65, 76], [67, 72, 65, 82],
  [84, 69, 88, 84, 70, 73, 76, 69], [83, 84, 82, 73, 78, 71], inputName, outputName]

/-! ### Declarations -/

/-- The definition of a constant, `name = expression`: the expression as it is written, what it is, and its
value. -/
structure Cst where
  name : List Byte
  text : List Lx
  expr : K .simple
  value : Val

/-- How a definition is written. -/
def Cst.toks (c : Cst) : List Lx := .name c.name :: .tk .eq :: (c.text ++ [.tk .semi])

/-- The definitions of constants of a block (0x84 is CONST). -/
def cstToks (cs : List Cst) : List Lx := if cs = [] then [] else .tk (.other 0x84) :: cs.flatMap Cst.toks

/-- A declaration `first, more, … : type` or `first, more, … : array [low .. high] of type`; the type as it is
written, and what it is; the bounds of an array, and how they are written if not as numbers. -/
structure Group where
  first : List Byte
  more : List (List Byte)
  written : List Byte
  ty : Ty
  range : Option (Nat × Nat) := none
  bounds : Option (Lx × Lx) := none

/-- The names declared. -/
def Group.names (g : Group) : List (List Byte) := g.first :: g.more

/-- `, a, b, …` -/
def commaNames : List (List Byte) → List Lx
  | [] => []
  | n :: ns => .tk .comma :: .name n :: commaNames ns

/-- How the bounds are written. -/
def Group.boundToks (g : Group) (r : Nat × Nat) : Lx × Lx :=
  g.bounds.getD (.tk (.int (BitVec.ofNat 32 r.1)), .tk (.int (BitVec.ofNat 32 r.2)))

/-- How the type is written (0x81 is ARRAY, 0x0b the symbol `..`). -/
def Group.typeToks (g : Group) : List Lx :=
  match g.range with
  | none => [.name g.written]
  | some r => [.tk (.other 0x81), .tk .lbracket, (g.boundToks r).1, .tk (.other 0x0b),
      (g.boundToks r).2, .tk .rbracket, .tk .of_, .name g.written]

/-- The type is named right, and an array has elements whose indices are integers. -/
def Group.Right (g : Group) : Prop :=
  SameName g.ty.name g.written ∧ ∀ r, g.range = some r → r.1 ≤ r.2 ∧ r.2 ≤ 32767

instance (g : Group) : Decidable g.Right :=
  if h : SameName g.ty.name g.written then
    match hr : g.range with
    | none => isTrue ⟨h, fun r h' => by rw [hr] at h'; cases h'⟩
    | some r =>
      if h' : r.1 ≤ r.2 ∧ r.2 ≤ 32767 then isTrue ⟨h, fun r' e => by rw [hr] at e; cases e; exact h'⟩
      else isFalse fun e => h' (e.2 r hr)
  else isFalse fun e => h e.1

/-- The declaration of a parameter without what follows it. -/
def Group.section (g : Group) : List Lx :=
  .name g.first :: (commaNames g.more ++ [.tk .colon, .name g.written])

/-- How a declaration of variables is written. -/
def Group.toks (g : Group) : List Lx :=
  .name g.first :: (commaNames g.more ++ .tk .colon :: (g.typeToks ++ [.tk .semi]))

/-- The declarations of variables of a block. -/
def varToks (gs : List Group) : List Lx := if gs = [] then [] else .var_ :: gs.flatMap Group.toks

/-- `a, b : t; c : u; …` -/
def sections : List Group → List Lx
  | [] => []
  | [g] => g.section
  | g :: g' :: gs => g.section ++ .tk .semi :: sections (g' :: gs)

/-- The formal parameters of a procedure, in parentheses, or nothing. -/
def parmToks (gs : List Group) : List Lx :=
  if gs = [] then [] else .tk .lparen :: (sections gs ++ [.tk .rparen])

/-- The kinds of phrases: blocks and declarations of procedures. -/
inductive DK where | blk | procs

/-- Blocks and procedures. -/
inductive Dcl : DK → Type where
  /-- The constants, the declarations of variables, the procedures, the text of the statements, and the
  statements. -/
  | blk (consts : List Cst) (groups : List Group) (procs : Dcl .procs) (body : List Lx) (stmts : S .list) : Dcl .blk
  | nil : Dcl .procs
  /-- `procedure name (parms); block; …` -/
  | cons (name : List Byte) (parms : List Group) (block : Dcl .blk) (rest : Dcl .procs) : Dcl .procs

/-- How blocks and procedures are written. -/
def Dcl.toks : {k : DK} → Dcl k → List Lx
  | _, .blk cs gs ps body _ => cstToks cs ++ (varToks gs ++ (ps.toks ++ .tk .begin_ :: (body ++ [.tk .end_])))
  | _, .nil => []
  | _, .cons name parms b rest => .tk (.other 0x9c) :: .name name ::
      (parmToks parms ++ .tk .semi :: (b.toks ++ .tk .semi :: rest.toks))

/-- A program: its name, the files of its heading, its variable declarations, its procedures, the
statements and its constants. -/
structure Source where
  name : List Byte
  files : List (List Byte)
  groups : List Group
  procs : Dcl .procs := .nil
  body : List Lx
  consts : List Cst := []

/-- `(a, b, …)`, or nothing. -/
def fileToks : List (List Byte) → List Lx
  | [] => []
  | f :: fs => .tk .lparen :: .name f :: (commaNames fs ++ [.tk .rparen])

/-- How a program is written, after the word PROGRAM. -/
def Source.toks (P : Source) : List Lx :=
  .name P.name :: (fileToks P.files ++ .tk .semi ::
    (cstToks P.consts ++ (varToks P.groups ++ (P.procs.toks ++ .tk .begin_ :: (P.body ++ [.tk .end_, .tk .period])))))

/-! ### Places of variables -/

/-- What a name can be declared to mean. -/
inductive Ent where
  | var (x : Variable)
  | arr (a : Arr)
  | proc (q : Proc)
  | const (v : Val)
  deriving DecidableEq

/-- The variables that a name stands for: a variable, or the elements of an array. -/
def Ent.vars : Ent → List Variable
  | .var x => [x]
  | .arr a => a.elems
  | .proc _ => []
  | .const _ => []

/-- What is declared: a variable of a type, or an array with elements of a type. -/
structure Shape where
  ty : Ty
  range : Option (Nat × Nat)

/-- The number of bytes. -/
def Shape.bytes (s : Shape) : Nat :=
  match s.range with
  | none => s.ty.size
  | some (lo, hi) => (hi + 1 - lo) * s.ty.size

/-- What is declared, of the level and at the offset. -/
def Shape.ent (s : Shape) (lev off : Nat) : Ent :=
  match s.range with
  | none => .var ⟨s.ty, lev, off⟩
  | some (lo, hi) => .arr ⟨s.ty, lev, off, lo, hi⟩

@[inherit_doc Shape] def Group.shape (g : Group) : Shape := ⟨g.ty, g.range⟩

/-- The variables in the order in which they get their places: the declarations in turn, in each of
them the last name first. -/
def orderOf (gs : List Group) : List (List Byte × Shape) :=
  gs.flatMap fun g => g.names.reverse.map fun n => (n, g.shape)

@[inherit_doc orderOf] def Source.order (P : Source) : List (List Byte × Shape) := orderOf P.groups

/-- Place variables of the level from offset `d` on: those with more than one byte at even offsets. -/
def placed (lev d : Nat) : List (List Byte × Shape) → List (List Byte × Ent)
  | [] => []
  | (n, t) :: r =>
    let o := if t.bytes = 1 then d else (d + 1) / 2 * 2
    (n, t.ent lev o) :: placed lev (o + t.bytes) r

/-- The offset after the variables. -/
def placedEnd (d : Nat) : List (List Byte × Shape) → Nat
  | [] => d
  | (_, t) :: r => placedEnd ((if t.bytes = 1 then d else (d + 1) / 2 * 2) + t.bytes) r

/-- The variables and arrays of the program with their names. -/
def Source.vars (P : Source) : List (List Byte × Ent) := placed 0 4 P.order

/-- Number of bytes of the variables, with those of INPUT and OUTPUT. -/
def Source.size (P : Source) : Nat := placedEnd 4 P.order

/-- Where the variables of a block begin: at the outermost level behind INPUT and OUTPUT. -/
def firstOffset (lev : Nat) : Nat := if lev = 0 then 4 else 0

/-! ### What names mean -/

/-- The names declared at a place of the program with their meanings, the innermost last. -/
abbrev Scope := List (List Byte × Ent)

/-- In the scope the name means `e`: it is declared as `e`, upper and lower case being the same, and not
declared again further in. -/
def Means (sc : Scope) (n : List Byte) (e : Ent) : Prop :=
  ∃ outer m inner, sc = outer ++ (m, e) :: inner ∧ SameName m n ∧ ∀ f ∈ inner, ¬ SameName f.1 n

/-- The variables (with the elements of arrays) and the procedures of a scope. -/
def Scope.vars (sc : Scope) (x : Variable) : Prop := ∃ e ∈ sc, x ∈ e.2.vars
@[inherit_doc Scope.vars] def Scope.procs (sc : Scope) (q : Proc) : Prop := ∃ n, (n, Ent.proc q) ∈ sc

/-- The constants of a block. -/
def cstScope (cs : List Cst) : Scope := cs.map fun c => (c.name, .const c.value)

/-- The constants and the variables declared in a block of the level. -/
def locals (lev : Nat) (cs : List Cst) (gs : List Group) : Scope :=
  cstScope cs ++ placed lev (firstOffset lev) (orderOf gs)

/-- The types of parameters. -/
def parmTypes (gs : List Group) : List Ty := gs.flatMap fun g => g.names.map fun _ => g.ty

/-- The parameters of a procedure whose block has the level. -/
def parmScope (lev : Nat) (gs : List Group) : Scope :=
  (gs.flatMap Group.names).zip ((parmVars lev (parmTypes gs)).map .var)

/-- The number of labels of blocks and procedures: one for each procedure, one for each block, and those
of the statements. -/
def Dcl.labels : {k : DK} → Dcl k → Nat
  | _, .blk _ _ ps _ st => 1 + ps.labels + st.nlab
  | _, .nil => 0
  | _, .cons _ _ b rest => 1 + b.labels + rest.labels

/-- The procedures declared in a block of the level; the labels up to `l` have been used before. -/
def Dcl.heads (lev : Nat) : {k : DK} → (l : Nat) → Dcl k → Scope
  | _, _, .blk .. => []
  | _, _, .nil => []
  | _, l, .cons name parms b rest =>
    (name, .proc ⟨lev, l + 1, parmTypes parms⟩) :: rest.heads lev (l + 1 + b.labels)

/-- A name that is not another name for something predefined. -/
def Plain (n : List Byte) : Prop := ∀ p ∈ Names.aliases, ¬ SameName p.1 n

/-- A name that is free to be declared. -/
def New (n : List Byte) : Prop := Plain n ∧ ∀ p ∈ predefined, ¬ SameName p n

/-- The token of a literal with the value. -/
def Val.literal : Val → Tk
  | .num _ i => .int (BitVec.ofInt 32 i)
  | .bool b => .bool (if b then 0xffffffff#32 else 0#32)
  | .char c => .char (c.zeroExtend 32)

/-- How the tokens of a statement are written in the program: names of variables, arrays and procedures, names of
constants in place of their values, TRUE, FALSE, MAXINT, INPUT and OUTPUT in any mixture of upper and lower case, everything else as it is. -/
inductive Spells (sc : Scope) : Lx → Tk → Prop where
  | var {n : List Byte} {x : Variable} : Means sc n (.var x) → Spells sc (.name n) x.tk
  | arr {n : List Byte} {a : Arr} : Means sc n (.arr a) → Spells sc (.name n) a.tk
  | proc {n : List Byte} {q : Proc} : Means sc n (.proc q) → Spells sc (.name n) q.tk
  | const {n : List Byte} {v : Val} : Means sc n (.const v) → Spells sc (.name n) v.literal
  | true {n : List Byte} : SameName trueName n → Spells sc (.name n) (.bool 0xffffffff#32)
  | false {n : List Byte} : SameName falseName n → Spells sc (.name n) (.bool 0#32)
  | maxint {n : List Byte} : SameName maxintName n → Spells sc (.name n) (.int 32767#32)
  | input {n : List Byte} : SameName inputName n → Spells sc (.name n) (.file 0)
  | output {n : List Byte} : SameName outputName n → Spells sc (.name n) (.file 2)
  | other {t : Tk} : (∀ v, t ≠ .var v) → (∀ b, t ≠ .bool b) → (∀ o, t ≠ .file o) → (∀ q, t ≠ .proc q) →
      (∀ a, t ≠ .arr a) → Spells sc (.tk t) t

/-! ### Correct programs -/

/-- The definitions of constants are right, where `sc` is declared before: the expressions are written so,
and they have these values, without leaving 32 bits; integers are not combined with OR (see
C47_violation_or). -/
def CstsRight (sc : Scope) : List Cst → Prop
  | [] => True
  | c :: cs => (Pointwise (Spells sc) c.text c.expr.toks ∧ c.expr.exact 32 = some c.value ∧ c.expr.NoIntegerOr) ∧
    CstsRight (sc ++ [(c.name, .const c.value)]) cs

/-- The bounds of an array are written right in the scope. -/
def Group.Bounds (sc : Scope) (g : Group) : Prop :=
  ∀ r, g.range = some r → ∀ b, g.bounds = some b →
    Spells sc b.1 (.int (BitVec.ofNat 32 r.1)) ∧ Spells sc b.2 (.int (BitVec.ofNat 32 r.2))

/-- A block is correct: `outer` is declared around it, `own` are the parameters of its procedure, `heads`
the procedures declared in it.  The names declared are not predefined and different, constants and types are
right, and the statements are correct.  The first name of each declaration but the first one, and the name of each
constant but the first one, must also be
different from the names declared around the block (see C72_violation_hide). -/
structure BlockOk (lev : Nat) (outer own : Scope) (cs : List Cst) (gs : List Group) (heads : Scope) (body : List Lx)
    (st : S .list) : Prop where
  new : ∀ e ∈ own ++ locals lev cs gs ++ heads, New e.1
  different : (own ++ locals lev cs gs ++ heads).Pairwise fun a b => ¬ SameName a.1 b.1
  constants : CstsRight (outer ++ own) cs
  constantNames : ∀ c ∈ cs.tail, ∀ e ∈ outer, ¬ SameName e.1 c.name
  types : ∀ g ∈ gs, g.Right
  bounds : ∀ g ∈ gs, g.Bounds (outer ++ (own ++ locals lev cs gs))
  firsts : ∀ g ∈ gs.tail, ∀ e ∈ outer, ¬ SameName e.1 g.first
  body : Pointwise (Spells (outer ++ (own ++ locals lev cs gs ++ heads))) body st.toks
  statements : st.Ok (Scope.vars (outer ++ (own ++ locals lev cs gs ++ heads)))
    (Scope.procs (outer ++ (own ++ locals lev cs gs ++ heads))) false false

/-- The number of bytes of the variables of a block of the level. -/
def Dcl.size (lev : Nat) : {k : DK} → Dcl k → Nat
  | _, .blk _ gs _ _ _ => placedEnd (firstOffset lev) (orderOf gs)
  | _, _ => 0

/-- The number of words of the stack that the statements of a block use without the calls. -/
def Dcl.depth : {k : DK} → Dcl k → Nat
  | _, .blk _ _ _ _ st => st.need 0
  | _, _ => 0

/-- Blocks and procedures are correct.  The level, the number of parameters, the variables and the depth of
the statements of procedures are limited to what the instructions can express. -/
def Dcl.Ok : {k : DK} → Dcl k → (lev l : Nat) → (outer own : Scope) → Prop
  | _, .blk cs gs ps body st, lev, l, outer, own =>
    BlockOk lev outer own cs gs (ps.heads lev (l + 1)) body st ∧ ps.Ok lev (l + 1) outer (own ++ locals lev cs gs)
  | _, .nil, _, _, _, _ => True
  | _, .cons name parms b rest, lev, l, outer, own =>
    (lev ≤ 254 ∧ (parmTypes parms).length ≤ 16384 ∧ b.size (lev + 1) ≤ 32766 ∧ b.depth ≤ 16384) ∧
    (∀ g ∈ parms, SameName g.ty.name g.written ∧ g.range = none) ∧
    b.Ok (lev + 1) (l + 1) (outer ++ (own ++ [(name, .proc ⟨lev, l + 1, parmTypes parms⟩)])) (parmScope (lev + 1) parms) ∧
    rest.Ok lev (l + 1 + b.labels) outer (own ++ [(name, .proc ⟨lev, l + 1, parmTypes parms⟩)])

/-- The program is correct, and `b` are its statements: its name is not predefined, the files of the
heading are INPUT and OUTPUT, and its block is correct. -/
structure Source.Ok (P : Source) (b : S .list) : Prop where
  name : New P.name
  files : ∀ f ∈ P.files, SameName inputName f ∨ SameName outputName f
  block : (Dcl.blk P.consts P.groups P.procs P.body b).Ok 0 0 [] []

/-- The variables and procedures of the program in a machine with this base of the stack. -/
def Source.env (P : Source) (base : Nat) : Env where
  level := 0
  vars := Scope.vars P.vars
  procs := Scope.procs (P.procs.heads 0 1)
  addr x := base + x.off.toNat

/-! ### Meaning -/

/-- The declaration of a procedure with the block `b` of the level; `sc` is what is declared before the
block, with the parameters. -/
def Dcl.decl (lev l : Nat) (sc : Scope) : Dcl .blk → Decl
  | .blk cs gs ps body st =>
    { vars := Scope.vars (sc ++ locals lev cs gs ++ ps.heads lev (l + 1))
      procs := Scope.procs (sc ++ locals lev cs gs ++ ps.heads lev (l + 1))
      size := ((Dcl.blk cs gs ps body st).size lev + 1) / 2 * 2
      body := st }

/-- The declared procedures with their declarations; `sc` is what is declared before. -/
def Dcl.decls : {k : DK} → Dcl k → (lev l : Nat) → (sc : Scope) → List (Proc × Decl)
  | _, .blk cs gs ps _ _, lev, l, sc => ps.decls lev (l + 1) (sc ++ locals lev cs gs)
  | _, .nil, _, _, _ => []
  | _, .cons name parms b rest, lev, l, sc =>
    let q : Proc := ⟨lev, l + 1, parmTypes parms⟩
    let inner := sc ++ [(name, .proc q)] ++ parmScope (lev + 1) parms
    (q, b.decl (lev + 1) (l + 1) inner) :: (b.decls (lev + 1) (l + 1) inner ++
      rest.decls lev (l + 1 + b.labels) (sc ++ [(name, .proc q)]))

/-- The declared procedures of a program. -/
def Source.decls (P : Source) : List (Proc × Decl) := P.procs.decls 0 1 (locals 0 P.consts P.groups)

/-- The declaration of a procedure. -/
def declIn (l : List (Proc × Decl)) : Decls := fun q => (l.find? fun e => e.1 = q).map (·.2)

/-- What the calls of a program do, if they are nested at most `d` deep. -/
def Source.calls (P : Source) (d : Nat) : Effects := Calls (declIn P.decls) d

/-- Number of words of the stack that calls nested at most `d` deep need: for each of them five words of
the frame, the variables, and the statements. -/
def callRoom (l : List (Proc × Decl)) : Nat → Nat
  | 0 => 0
  | d + 1 => l.foldr (fun e m => max (5 + e.2.size / 2 + e.2.body.need (callRoom l d)) m) 0

end Pas.Src
