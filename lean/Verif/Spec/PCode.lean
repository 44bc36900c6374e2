import Verif.Spec.Labels
import Verif.Spec.Machine

/-! Meaning of programs with symbolic labels (properties C30-C34, C48-C50, C52): a step of the
program at position `k` in a machine state.  The program counter of the state plays no role,
except that calls store the address `addr (k + 1)` of the instruction to return to. -/
namespace Pas.Spec

/-- Instructions that neither transfer control nor mark a place (LONGOP24 is not one of them:
its encoding is broken, see C28_violation_long). -/
def isPlain (o : Op) : Bool :=
  match operandKind o with
  | .program => false
  | _ => match o with
    | .ret | .end_ | .label | .line | .longop24 => false
    | _ => true

/-- What the machine does with the instruction alone at address 0. -/
def alone (lib : Lib) (i : OpType) (s : VM) : Res (Nat × VM) :=
  execute lib (opBytes i) (BitVec.ofNat 16 (byteSize i)) { s with pc := 0 }

/-- `s` without the `n` topmost words. -/
def popN (s : VM) (n : Nat) : VM := { s with sp := s.sp - BitVec.ofNat 16 (2 * n) }

/-- `Cond s o n P`: the jump `o` is taken exactly if `P`, and removes `n` words. -/
inductive Cond (s : VM) : Op → Nat → Prop → Prop
  | always : Cond s .jmp 0 True
  | zero {o : Op} {R : Int → Prop} : JumpZ o R → Room s 2 → Cond s o 1 (R (opnd s 0).toInt)
  | signed {o : Op} {R : Int → Int → Prop} : Jump o R → Room s 3 →
      Cond s o 2 (R (opnd s 1).toInt (opnd s 0).toInt)
  | unsigned {o : Op} {R : Nat → Nat → Prop} : UJump o R → Room s 3 →
      Cond s o 2 (R (opnd s 1).toNat (opnd s 0).toNat)

/-- One step of the program `p`. -/
inductive PStep (lib : Lib) (addr : Nat → Word) (p : List OpType) : Nat × VM → Nat × VM → Prop
  | mark {k : Nat} {s : VM} {i : OpType} : p[k]? = some i → isMark i = true →
      PStep lib addr p (k, s) (k + 1, s)
  | plain {k : Nat} {s s' : VM} {i : OpType} {o : Op} : p[k]? = some i → o.toByte = i.op →
      isPlain o = true → alone lib i s = .ok (eNOERROR, s') →
      PStep lib addr p (k, s) (k + 1, { s' with pc := s.pc })
  | taken {k k' : Nat} {s : VM} {i : OpType} {o : Op} {n : Nat} {P : Prop} :
      p[k]? = some i → o.toByte = i.op → Cond s o n P → P → LabelAt p i.arg2 k' →
      PStep lib addr p (k, s) (k', popN s n)
  | fall {k : Nat} {s : VM} {i : OpType} {o : Op} {n : Nat} {P : Prop} :
      p[k]? = some i → o.toByte = i.op → Cond s o n P → ¬ P →
      PStep lib addr p (k, s) (k + 1, popN s n)
  | call {k k' : Nat} {s s' : VM} {i : OpType} :
      p[k]? = some i → i.op = Op.pcal.toByte → LabelAt p i.arg2 k' →
      pexec32 lib { s with pc := addr k } (some .pcal) i.arg1 (addr k') = .ok (eNOERROR, s') →
      PStep lib addr p (k, s) (k', { s' with pc := s.pc })
  | ret {k k' : Nat} {s s' : VM} {i : OpType} :
      p[k]? = some i → i.op = Op.ret.toByte → pexec8 s (some .ret) = .ok (eNOERROR, s') →
      k' ≤ p.length → s'.pc = addr k' →
      PStep lib addr p (k, s) (k', { s' with pc := s.pc })

/-- Any number of steps. -/
inductive PSteps (lib : Lib) (addr : Nat → Word) (p : List OpType) : Nat × VM → Nat × VM → Prop
  | refl (c : Nat × VM) : PSteps lib addr p c c
  | step {a b c : Nat × VM} : PStep lib addr p a b → PSteps lib addr p b c → PSteps lib addr p a c

/-- The program is at its END. -/
def AtEnd (p : List OpType) (c : Nat × VM) : Prop := ∃ i, p[c.1]? = some i ∧ i.op = Op.end_.toByte

/-- The address each position of the program gets. -/
def place (p : List OpType) (k : Nat) : Word := BitVec.ofNat 16 (addrOf p k)

end Pas.Spec
