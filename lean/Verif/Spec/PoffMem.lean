import Verif.Model.PoffMem

/-! # Histories of the growing tables of an object file -/

namespace Pas.PoffMem.Spec

/-- Adding the data of a list one after the other; the results of the calls in order. -/
def addAll (add : List Byte → Buf → Res (Nat × Buf)) :
    List (List Byte) → Buf → Res (List Nat × Buf)
  | [], b => .ok ([], b)
  | e :: es, b => do
    let r ← add e b
    let rest ← addAll add es r.2
    .ok (r.1 :: rest.1, rest.2)

/-- Asking for the next relocation until the end is reported, at most `fuel` times. -/
def traverse : Nat → Buf → Res (List (List Byte))
  | 0, _ => .hang
  | fuel + 1, b => do
    let r ← next b
    match r.1 with
    | none => .ok []
    | some (_, e) => do
      let rest ← traverse fuel r.2
      .ok (e :: rest)

/-- Passes of the optimizer over the relocations: each one reads the relocations of the
last one to the end, leaves its own, given in the list, and changes the containers.  The
result is what each pass read and the containers after the last. -/
def passes (junk : Nat → Byte) (fuel : Nat) :
    List (List (List Byte)) → Relocs → Res (List (List (List Byte)) × Relocs)
  | [], r => .ok ([], r)
  | es :: more, r => do
    let seen ← traverse fuel r.prev
    let c ← addAll (addReloc junk) es r.cur
    let rest ← passes junk fuel more (swapRelocs { r with cur := c.2 })
    .ok (seen :: rest.1, rest.2)

/-- Adding strings one after the other to a string table kept as a list
(`Poff.addString`). -/
def listStrings : List (Option (List Byte)) → Option (List Byte) →
    Res (List Nat × Option (List Byte))
  | [], t => .ok ([], t)
  | s :: ss, t => do
    let r ← Poff.addString t s
    let rest ← listStrings ss (some r.2)
    .ok (r.1 :: rest.1, rest.2)

/-- The same in memory. -/
def memStrings (junk : Nat → Byte) : List (Option (List Byte)) → Buf → Res (List Nat × Buf)
  | [], b => .ok ([], b)
  | s :: ss, b => do
    let r ← addStr junk s b
    let rest ← memStrings junk ss r.2
    .ok (r.1 :: rest.1, rest.2)

end Pas.PoffMem.Spec
