import Verif.Spec.Statements

/-! Declared procedures: where their parameters and variables are, what a call does, and how much of the
stack calls need. -/
namespace Pas.Src

/-- The parameters of a procedure as variables of the level: the last one is the word directly below the
frame, the others are below it. -/
def parmVars (lev : Nat) : List Ty → List Variable
  | [] => []
  | t :: ts => ⟨t, lev, -(2 * (ts.length + 1 : Nat) : Int)⟩ :: parmVars lev ts

/-- The declaration of a procedure: the variables (including the parameters) and the procedures that can be
used in it, the number of bytes of its own variables, and its statements. -/
structure Decl where
  vars : Variable → Prop
  procs : Proc → Prop
  size : Nat
  body : S .list

/-- The declared procedures of a program. -/
abbrev Decls := Proc → Option Decl

/-- The value of a variable in a list of variables and values. -/
def valueIn (x : Variable) : List (Variable × Val) → Option Val
  | [] => none
  | (y, v) :: l => if x = y then some v else valueIn x l

/-- The state when the statements of the procedure begin: the variables of the levels up to the one of its
declaration have their values, its parameters have the values of the call, and its other variables have
none. -/
def State.enter (σ : State) (q : Proc) (vs : List Val) : State :=
  { σ with store := fun x =>
      if x.level ≤ q.level then σ.store x
      else valueIn x ((parmVars (q.level + 1) q.parms).zip vs) }

/-- The state after the call of the procedure, if its statements end in the state `τ`: the variables of the
levels up to the one of its declaration have the values of `τ`, the others those from before the call. -/
def State.leave (σ : State) (q : Proc) (τ : State) : State :=
  { τ with store := fun x => if x.level ≤ q.level then τ.store x else σ.store x }

/-- What calls do, if calls are nested at most `d` deep: the statements of the procedure are executed. -/
def Calls (D : Decls) : Nat → Effects
  | 0 => fun _ _ _ _ => False
  | d + 1 => fun q vs σ τ => ∃ decl τ', D q = some decl ∧
      Exec (Calls D d) (.list decl.body) (σ.enter q vs) .normal τ' ∧ τ = σ.leave q τ'

/-- The variables and procedures that can be used at a place fit the declarations: the procedures are
declared, and a procedure uses the same variables of the levels around it. -/
def Sees (D : Decls) (vars : Variable → Prop) (procs : Proc → Prop) : Prop :=
  ∀ q, procs q → ∃ decl, D q = some decl ∧ ∀ x : Variable, x.level ≤ q.level → (vars x ↔ decl.vars x)

/-- The byte `a` of the frame belongs to the variable. -/
def Variable.has (x : Variable) (a : Int) : Prop := x.off ≤ a ∧ a < x.off + x.ty.size

/-- The declarations of the procedures are correct: the variables of the procedure itself are parameters or
inside its own variables, aligned and do not overlap; the procedures it uses can be called at its level;
and its statements are correct. -/
structure Decl.Ok (D : Decls) (q : Proc) (decl : Decl) : Prop where
  outer : ∀ x, decl.vars x → x.level ≤ q.level + 1
  own : ∀ x, decl.vars x → x.level = q.level + 1 → x ∈ parmVars (q.level + 1) q.parms ∨
    (0 ≤ x.off ∧ x.off + x.ty.size ≤ decl.size ∧ (x.ty.size = 2 → x.off % 2 = 0))
  disjoint : ∀ x y a, decl.vars x → decl.vars y → x.level = q.level + 1 → y.level = q.level + 1 →
    x.has a → y.has a → x = y
  size : decl.size % 2 = 0 ∧ decl.size ≤ 32767
  procs : ∀ r, decl.procs r → r.Ok (q.level + 1)
  sees : Sees D decl.vars decl.procs
  body : decl.body.Ok decl.vars decl.procs false false

/-- Number of words of the stack that calls nested at most `d` deep need, besides the parameters. -/
def Decls.Room (D : Decls) (c : Nat → Nat) : Prop :=
  ∀ d q decl, D q = some decl → 5 + decl.size / 2 + decl.body.need (c d) ≤ c (d + 1)

end Pas.Src
