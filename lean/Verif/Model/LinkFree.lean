import Verif.Model.Link

/-! # The containers of the linker's symbols are released

A container and the copy of the name it owns are numbered as in `SymTab` (`Model/Link.lean`).  Using or freeing a
container that is not allocated is undefined. -/
namespace Pas.Link

/-- Which containers are allocated when all symbols have been merged: every call of `makeSymContainer` made one.
`plink/plsym.c:267-293`.  The copy of the name is allocated and freed together with its container; symbols from files
always have a name. -/
def SymTab.allocated (t : SymTab) : Nat → Bool := fun id => decide (id < t.heap.length)

/-- The loop of `releaseSymbols`, `plink/plsym.c:209-241`: `next` is read from the container before it is freed. -/
def freeSymbols : List Nat → (Nat → Bool) → Res (Nat → Bool)
  | [], live => .ok live
  | curr :: next, live => if live curr then freeSymbols next (fun id => if id = curr then false else live id) else .ub

/-- `releaseSymbols`, `plink/plsym.c:209-241`. -/
def releaseSymbols (t : SymTab) : Res (Nat → Bool) := freeSymbols t.order t.allocated

end Pas.Link
