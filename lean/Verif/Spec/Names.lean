import Verif.Model.Names

/-! What a Pascal programmer means by the same name, and by the meaning of a name in nested scopes.
Only the type of declarations and of events is taken from the model. -/

namespace Pas.Names

/-- The declaration of an entry that has a name. -/
def toDecl (e : Entry) : Option Decl := e.name.map fun n => ⟨n, e.kind, e.value⟩

end Pas.Names

namespace Pas.Spec

open Pas.Names (Decl Event)

/-- Letters compare without regard to case (ASCII). -/
def upper (b : Byte) : Byte := if 97#8 ≤ b ∧ b ≤ 122#8 then b - 32#8 else b

/-- Two spellings of the same name. -/
def SameName (a b : List Byte) : Prop := a.map upper = b.map upper

instance (a b : List Byte) : Decidable (SameName a b) := inferInstanceAs (Decidable (_ = _))

/-- Nested scopes, innermost first; in each, the latest declaration first. -/
abbrev Env := List (List Decl)

/-- What a declaration, the start of a procedure and its end do to the scopes.  The name of a
procedure belongs to the scope around it; its parameters form one scope, its block another. -/
def event : Env → Event → Option Env
  | sc :: scs, .declare d => some ((d :: sc) :: scs)
  | sc :: scs, .enter p ps => some ([] :: ps.reverse :: (p :: sc) :: scs)
  | _ :: _ :: outer :: scs, .leave => some (outer :: scs)
  | _, _ => none

/-- A history. -/
def history : Env → List Event → Option Env
  | env, [] => some env
  | env, e :: es => do history (← event env e) es

/-- The scopes at the start of a program: its block, and around it the predefined names. -/
def programEnv (predefined : List Decl) : Env := [[], predefined.reverse]

/-- The innermost, and in its scope latest, declaration of a name; `rec` chooses between names of
record fields and all others, which live in separate name spaces. -/
def meaning (env : Env) (name : List Byte) (rec : Bool) : Option Decl :=
  env.flatten.find? fun d => decide (SameName d.name name) && (d.kind == 0x59) == rec

/-- A sequence of declarations and complete procedures. -/
inductive Complete : List Event → Prop where
  | nil : Complete []
  | declare (d : Decl) {es} : Complete es → Complete (.declare d :: es)
  | proc (p : Decl) (ps : List Decl) {body es} : Complete body → Complete es →
      Complete (.enter p ps :: (body ++ .leave :: es))

end Pas.Spec
