import Verif.Model.Finalize
import Verif.Spec.Encoding

/-! Specification of programs with symbolic labels (property C34): LABEL marks a place, LINE
records a source line, and the operands of jumps and calls are label numbers. -/
namespace Pas.Spec

/-- Two lists of the same length whose elements at each position are related. -/
def Pointwise {α β : Type} (R : α → β → Prop) (a : List α) (b : List β) : Prop :=
  a.length = b.length ∧ ∀ (j : Nat) x y, a[j]? = some x → b[j]? = some y → R x y

/-- LABEL and LINE are marks, not instructions. -/
def isMark (i : OpType) : Bool := i.op == Op.label.toByte || i.op == Op.line.toByte

/-- The instructions of a program, without the marks. -/
def realOps (p : List OpType) : List OpType := p.filter fun i => !isMark i

/-- Address of position `k` of the program when the marks take no room: the address of the first
instruction at or after position `k`. -/
def addrOf (p : List OpType) (k : Nat) : Nat := ((realOps (p.take k)).map byteSize).sum

/-- The mark that defines label `L`. -/
def labelMark (L : Word) : OpType := ⟨Op.label.toByte, 0, L⟩

/-- The label `L` is (first) defined at position `k`. -/
def LabelAt (p : List OpType) (L : Word) (k : Nat) : Prop :=
  p[k]? = some (labelMark L) ∧ ∀ j < k, p[j]? ≠ some (labelMark L)

/-- The label is not defined in the program. -/
def NoLabel (p : List OpType) (L : Word) : Prop := ∀ k : Nat, p[k]? ≠ some (labelMark L)

/-- The label stands for an imported procedure or function, the `idx`-th symbol (the first one
with that label). -/
def Imported (syms : List Sym) (L : Word) (idx : Nat) : Prop :=
  (∃ s, syms[idx]? = some s ∧ (s.type = .proc ∨ s.type = .func) ∧ s.undefined = true ∧
    s.value = L.toNat) ∧
  ∀ j < idx, ∀ s, syms[j]? = some s → ¬ ((s.type = .proc ∨ s.type = .func) ∧ s.undefined = true ∧
    s.value = L.toNat)

/-- The operand of the operation is a label. -/
def usesLabel (o : Op) : Prop := operandKind o = .program

/-- `i'` is the instruction `i` of the program with its label replaced. -/
inductive Resolved (p : List OpType) (syms : List Sym) (i : OpType) : OpType → Prop
  | other {o : Op} : o.toByte = i.op → operandKind o ≠ .program → Resolved p syms i i
  | label {o : Op} {k : Nat} : o.toByte = i.op → operandKind o = .program → LabelAt p i.arg2 k →
      Resolved p syms i { i with arg2 := BitVec.ofNat 16 (addrOf p k) }
  | extern {idx : Nat} : i.op = Op.pcal.toByte → NoLabel p i.arg2 → Imported syms i.arg2 idx →
      Resolved p syms i { i with arg2 := 0 }

/-- Every label used is defined, or (calls only) imported. -/
def LabelsOk (p : List OpType) (syms : List Sym) : Prop :=
  ∀ i ∈ p, ∀ o : Op, o.toByte = i.op → operandKind o = .program →
    (∃ k, LabelAt p i.arg2 k) ∨ (o = .pcal ∧ NoLabel p i.arg2 ∧ ∃ idx, Imported syms i.arg2 idx)

/-- A symbol that names a place of the program by its label. -/
def isCode (s : Sym) : Prop := (s.type = .proc ∨ s.type = .func) ∧ s.undefined = false

/-- Every exported procedure or function has a label of the program. -/
def SymsOk (p : List OpType) (syms : List Sym) : Prop :=
  ∀ s ∈ syms, isCode s → ∃ L k, L.toNat = s.value ∧ LabelAt p L k

/-- The symbol with its label replaced by the address. -/
inductive SymResolved (p : List OpType) (s : Sym) : Sym → Prop
  | other : ¬ isCode s → SymResolved p s s
  | label {L : Word} {k : Nat} : isCode s → L.toNat = s.value → LabelAt p L k →
      SymResolved p s { s with value := addrOf p k }

/-- A relocation of the instruction at position `pos` of the program. -/
structure RelocAt where
  pos : Nat
  sym : Nat
  kind : Nat

/-- Relocations, in program order, of instructions of the program. -/
def RelocsOk (p : List OpType) (rs : List RelocAt) : Prop :=
  rs.Pairwise (fun a b => a.pos < b.pos) ∧
  ∀ r ∈ rs, ∃ i, p[r.pos]? = some i ∧ isMark i = false

/-- The line number table: the address of each LINE mark. -/
def lineTable (p : List OpType) : List LineNo :=
  (List.range p.length).filterMap fun k =>
    match p[k]? with
    | some i => if i.op = Op.line.toByte then some ⟨i.arg2, i.arg1, addrOf p k⟩ else none
    | none => none

/-- The relocations asked for by calls of imported procedures in the finished program `q`. -/
def CallReloc (p : List OpType) (syms : List Sym) (q : List OpType) (r : Reloc) : Prop :=
  ∃ (j : Nat) (i : OpType) (idx : Nat), (realOps p)[j]? = some i ∧ i.op = Op.pcal.toByte ∧ NoLabel p i.arg2 ∧
    Imported syms i.arg2 idx ∧ r = ⟨idx, RLT_PCAL, startOf q j⟩

end Pas.Spec
