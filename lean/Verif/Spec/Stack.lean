import Verif.Spec.Memory

/-! Specification of the instructions that push constants and addresses (property C55). -/
namespace Pas.Spec

/-- The value pushed by an instruction with operands `a` and `w`. -/
inductive Pushes (s : VM) (a : Byte) (w : Word) : Op → Word → Prop
  | dup : Pushes s a w .dup (opnd s 0)
  | pushb {v : Word} (h : v.toInt = a.toInt) : Pushes s a w .pushb v
  | upushb {v : Word} (h : v.toNat = a.toNat) : Pushes s a w .upushb v
  | push : Pushes s a w .push w
  | la {v : Word} (h : v.toNat = (s.spb.toNat + w.toNat) % 65536) : Pushes s a w .la v
  | lac {v : Word} (h : v.toNat = (s.rop.toNat + w.toNat) % 65536) : Pushes s a w .lac v
  | lar {v : Word} (h : v.toNat = (s.sp.toNat + w.toNat) % 65536) : Pushes s a w .lar v
  | las {v : Word} (h : FrameAddr s a.toNat w.toInt v) : Pushes s a w .las v

/-- The address computed from the index on top of the stack. -/
inductive Indexes (s : VM) (a : Byte) (w : Word) : Op → Word → Prop
  | lax {v : Word} (h : v.toNat = (s.spb.toNat + w.toNat + (opnd s 0).toNat) % 65536) :
      Indexes s a w .lax v
  | lasx {v : Word} (h : FrameAddr s a.toNat (w.toInt + (opnd s 0).toNat) v) :
      Indexes s a w .lasx v

end Pas.Spec
