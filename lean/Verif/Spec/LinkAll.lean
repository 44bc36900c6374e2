import Verif.Spec.Link
import Verif.Spec.Encoding
/-! What the linked program consists of. -/
namespace Pas.Spec
open Pas.Link Pas.Poff

/-- An input of the linker whose program section consists of the instructions `insns`; `tail` is
what follows END. -/
structure Part where
  inp : Input
  insns : List OpType
  tail : List Byte

/-- Inputs as the compiler makes them: instructions up to the only END, at least one source file,
relocations of calls (type 1) and of frame offsets (type 2) at instructions with a 16-bit operand,
for symbols in the file's table. -/
structure Part.OK (p : Part) : Prop where
  prog : p.inp.prog = encode p.insns ++ p.tail
  insns : ∀ i ∈ p.insns, WellFormed i
  signed : ∀ i ∈ p.insns, ∀ o : Op, o.toByte = i.op → ¬ UnsignedJump o
  once : EndsOnce p.insns
  last : p.insns.getLast?.map (·.op) = some Op.end_.toByte
  files : p.inp.files ≠ []
  sym : ∀ r ∈ p.inp.rels, r.info.toNat / 256 < p.inp.syms.length
  kind : ∀ r ∈ p.inp.rels, r.info.toNat % 256 = 1 ∨ r.info.toNat % 256 = 2
  target : ∀ r ∈ p.inp.rels, ∃ n, ∃ h : n < p.insns.length, r.offset.toNat = startOf p.insns n ∧
    hasArg16 p.insns[n].op = true ∧ (r.info.toNat % 256 = 1 → p.insns[n].op = Op.pcal.toByte)

/-- Where the parts of an input go: code, constants, file names, symbols. -/
structure Place where
  base : Nat
  ro : Nat
  fn : Nat
  sym : Nat

/-- The place after a part. -/
def Place.next (q : Place) (p : Part) : Place :=
  ⟨q.base + (encode p.insns).length, q.ro + p.inp.rodata.length, q.fn + p.inp.files.length,
    q.sym + p.inp.syms.length⟩

/-- The parts one after the other. -/
def placesFrom (q : Place) : List Part → List (Part × Place)
  | [] => []
  | p :: ps => (p, q) :: placesFrom (q.next p) ps

/-- The parts with their places in the linked program. -/
def places (ps : List Part) : List (Part × Place) := placesFrom ⟨0, 0, 0, 0⟩ ps

/-- The symbols of all parts. -/
def allSyms (xs : List (Part × Place)) : List Sym :=
  xs.flatMap fun x => x.1.inp.syms.map (movedSym x.2.base)

/-- The instructions of all parts, with their addresses moved. -/
def allInsns (xs : List (Part × Place)) : List OpType :=
  xs.flatMap fun x => x.1.insns.map fun i => movedI i x.2.base x.2.ro

/-- The value of the definition of what a symbol mentions. -/
def valueOf (s : Sym) (ss : List Sym) : Nat := ((defsOf s ss).head?.map (·.value.toNat)).getD 0

/-- The relocations of all parts: address of the instruction, value of the symbol. -/
def allRels (xs : List (Part × Place)) : List (Nat × Nat) :=
  xs.flatMap fun x => x.1.inp.rels.map fun r =>
    (x.2.base + r.offset.toNat,
      valueOf (x.1.inp.syms.getD (r.info.toNat / 256) default) (allSyms xs))

/-- Set the 16-bit operand of the instruction at an address. -/
def setOperand (l : List OpType) (r : Nat × Nat) : List OpType :=
  l.mapIdx fun n i => if startOf l n = r.1 then ⟨i.op, i.arg1, BitVec.ofNat 16 r.2⟩ else i

/-- Set the operands one after the other. -/
def setOperands (l : List OpType) (rs : List (Nat × Nat)) : List OpType := rs.foldl setOperand l

/-- One input is a program (type 3), all others are units (type 4). -/
def OneProgram (ps : List Part) : Prop :=
  (∀ p ∈ ps, p.inp.ftype = 3#8 ∨ p.inp.ftype = 4#8) ∧
    (ps.filter fun p => p.inp.ftype = 3#8).length = 1

/-- The linked program. -/
structure Linked (ps : List Part) (o : Output) : Prop where
  code : o.prog = encode (setOperands (allInsns (places ps)) (allRels (places ps)))
  constants : o.rodata = ps.flatMap (·.inp.rodata)
  files : o.files = ps.flatMap (·.inp.files)
  lines : o.lines = (places ps).flatMap fun x => x.1.inp.lines.map fun l =>
    (l.1, BitVec.ofNat 16 (l.2.1.toNat + x.2.fn), BitVec.ofNat 32 (l.2.2.toNat + x.2.base))
  start : ∀ x ∈ places ps, x.1.inp.ftype = 3#8 →
    o.entry = BitVec.ofNat 32 (x.1.inp.entry.toNat + x.2.base) ∧ o.name = x.1.inp.name
  symbols : o.syms.Pairwise SymBefore ∧
    ∀ d, d ∈ o.syms ↔ d ∈ allSyms (places ps) ∧ IsDef d

end Pas.Spec
