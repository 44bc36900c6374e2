import Verif.Model.Link
/-! What linking should mean, independently of the linker's tables. -/
namespace Pas.Spec
open Pas.Link Pas.Poff

/-- Two symbols are about the same thing: same name, same kind. -/
def SameThing (a b : Sym) : Prop := a.name = b.name ∧ a.stype = b.stype

instance (a b : Sym) : Decidable (SameThing a b) := inferInstanceAs (Decidable (_ ∧ _))

/-- The symbol is a definition: bit 0 of its flags is clear. -/
def IsDef (s : Sym) : Prop := s.flags.getLsbD 0 = false

instance (s : Sym) : Decidable (IsDef s) := inferInstanceAs (Decidable (_ = _))

/-- The symbol seen from the linked program, when its unit's code starts at `base`: the address of
a procedure (kind 3) or function (kind 4) defined in the unit is counted from there; nothing else
changes. -/
def movedSym (base : Nat) (s : Sym) : Sym :=
  if IsDef s ∧ (s.stype = 3#8 ∨ s.stype = 4#8) then
    ⟨s.name, s.stype, s.align, s.flags, BitVec.ofNat 32 (s.value.toNat + base), s.size⟩
  else s

/-- All symbols of the units, each given with the address of its code. -/
def symbols (us : List (List Sym × Nat)) : List Sym := us.flatMap fun u => u.1.map (movedSym u.2)

/-- The definitions of what `s` mentions. -/
def defsOf (s : Sym) (ss : List Sym) : List Sym := ss.filter fun d => IsDef d ∧ SameThing d s

/-- Everything mentioned is defined exactly once. -/
def DefinedOnce (ss : List Sym) : Prop := ∀ s ∈ ss, (defsOf s ss).length = 1

instance (ss : List Sym) : Decidable (DefinedOnce ss) := inferInstanceAs (Decidable (∀ s ∈ ss, _))

/-- Names in the usual order of C strings, then kinds. -/
def SymBefore (a b : Sym) : Prop :=
  a.name.map BitVec.toNat < b.name.map BitVec.toNat ∨
    (a.name = b.name ∧ a.stype.toNat < b.stype.toNat)

end Pas.Spec

namespace Pas.Link

/-- The calls of `mergeSymbols` made while loading the files, `plink/plink.c:155-244`: for each
file its symbols and the place of its code. -/
def mergeAll : List (List Sym × Nat) → Nat → SymTab → Res (SymTab × Nat)
  | [], n, t => .ok (t, n)
  | u :: us, n, t => do
    let r ← mergeSymbols t u.1 u.2 n
    mergeAll us r.2 r.1

end Pas.Link
