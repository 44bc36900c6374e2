import Verif.Spec.Stack
import Verif.Props.Memory

/-! Property C55: constants, addresses and rearrangement of the stack. -/
namespace Pas
open Spec

theorem push_run {s : VM} (v : Word) (len : Nat) (hr : s.sp.toNat / 2 + 1 < s.words)
    (hr' : s.sp.toNat + 3 < 65536) :
    ∃ s' : VM, s.push v = .ok s' ∧
      Loads s { s' with pc := s'.pc + BitVec.ofNat 16 len } 0 1 len ∧
      s'.mem (s'.sp.toNat / 2) = v := by
  have ht : s.top = s.sp.toNat / 2 := rfl
  rw [VM.push_eq _ _ (by omega) (by omega)]
  refine ⟨_, rfl, loads_push (by omega), ?_⟩
  show updW s.mem (s.top + 1) v ((s.sp + 2#16).toNat / 2) = v
  rw [VM.add2_div _ (by omega), ← ht, updW_same]

/-- **C55** (pushing): every instruction that pushes a constant, an address or a copy of the top
of the stack pushes exactly this value; everything else stays. -/
theorem C55_push (lib : Lib) (code : List Byte) (maxpc : Word) (s : VM) (op : Op) (a : Byte)
    (w v : Word) (hi : Insn code maxpc s op a w) (hp : Pushes s a w op v)
    (hr : Room s 1) (hr' : s.sp.toNat / 2 + 1 < s.words ∧ s.sp.toNat + 3 < 65536) :
    ∃ s', execute lib code maxpc s = .ok (eNOERROR, s') ∧
      Loads s s' 0 1 (insnSize op.toByte) ∧ opnd s' 0 = v := by
  obtain ⟨hr1, hr2⟩ := hr
  obtain ⟨p1, p2⟩ := hr'
  have ht : s.sp.toNat / 2 + 1 < 32768 := by omega
  have hv : ∀ x : Word, updW s.mem (s.sp.toNat / 2 + 1) x ((s.sp + 2#16).toNat / 2 - 0) = x := by
    intro x; rw [Nat.sub_zero, VM.add2_div _ ht, updW_same]
  cases hp with
  | dup =>
    obtain ⟨s', h1, h2, h3⟩ := push_run (s := s) (opnd s 0) 1 p1 p2
    rw [insn_8 hi (by decide) (by decide), pexec8, VM.tos_eq _ (by exact hr2) (by omega),
      Res.ok_bind, show s.mem (s.top - 0) = opnd s 0 from rfl, h1, Res.ok_bind]
    exact ⟨_, rfl, h2, h3⟩
  | pushb h =>
    have : v = signExtend8 a := by
      apply BitVec.eq_of_toInt_eq
      rw [h, signExtend8, BitVec.toInt_signExtend_of_le (by decide)]
    subst this
    rw [insn_16 hi (by decide) (by decide), pexec16,
      VM.push_eq _ _ (by exact p1) (by show s.sp.toNat / 2 + 1 < 32768; omega), Res.ok_bind]
    exact ⟨_, rfl, loads_push (s := s) (by exact ht), hv _⟩
  | upushb h =>
    have : v = a.zeroExtend 16 := by
      apply BitVec.eq_of_toNat_eq
      rw [h, BitVec.zeroExtend, BitVec.toNat_setWidth]
      have := a.isLt
      omega
    subst this
    rw [insn_16 hi (by decide) (by decide), pexec16,
      VM.push_eq _ _ (by exact p1) (by show s.sp.toNat / 2 + 1 < 32768; omega), Res.ok_bind]
    exact ⟨_, rfl, loads_push (s := s) (by exact ht), hv _⟩
  | push =>
    obtain ⟨s', h1, h2, h3⟩ := push_run (s := s) w 3 p1 p2
    rw [insn_24 hi (by decide) (by decide), pexec24, h1, Res.ok_bind]
    exact ⟨_, rfl, h2, h3⟩
  | la h =>
    have : v = s.spb + w := by bv_omega
    subst this
    obtain ⟨s', h1, h2, h3⟩ := push_run (s := s) (s.spb + w) 3 p1 p2
    rw [insn_24 hi (by decide) (by decide), pexec24, h1, Res.ok_bind]
    exact ⟨_, rfl, h2, h3⟩
  | lac h =>
    have : v = w + s.rop := by bv_omega
    subst this
    obtain ⟨s', h1, h2, h3⟩ := push_run (s := s) (w + s.rop) 3 p1 p2
    rw [insn_24 hi (by decide) (by decide), pexec24, h1, Res.ok_bind]
    exact ⟨_, rfl, h2, h3⟩
  | lar h =>
    have : v = w + s.sp := by bv_omega
    subst this
    obtain ⟨s', h1, h2, h3⟩ := push_run (s := s) (w + s.sp) 3 p1 p2
    rw [insn_24 hi (by decide) (by decide), pexec24, h1, Res.ok_bind]
    exact ⟨_, rfl, h2, h3⟩
  | las h =>
    obtain ⟨s', h1, h2, h3⟩ := push_run (s := s) v 4 p1 p2
    rw [insn_32 hi (by decide) (by decide), pexec32]
    simp only [signExtend16]
    rw [getBase_of h, Res.ok_bind, h1, Res.ok_bind]
    exact ⟨_, rfl, h2, h3⟩

example : Insn [Op.pushb.toByte, 0xfe#8] 2#16 (sampleVM 0) .pushb 0xfe 0 ∧
    Pushes (sampleVM 0) 0xfe 0 .pushb 0xfffe#16 ∧ Room (sampleVM 0) 1 ∧
    (sampleVM 0).sp.toNat / 2 + 1 < (sampleVM 0).words :=
  ⟨⟨⟨by decide, rfl⟩, fun _ => rfl, fun h => absurd h (by decide)⟩, .pushb (by decide),
    ⟨by decide, by decide⟩, by decide⟩

example : Insn [Op.las.toByte, 0#8, 0#8, 6#8] 4#16 (sampleVM 0) .las 0 6 ∧
    Pushes (sampleVM 0) 0 6 .las 16#16 :=
  ⟨⟨⟨by decide, rfl⟩, fun _ => rfl, fun _ => ⟨0#8, 6#8, rfl, rfl, rfl⟩⟩,
    .las ⟨0#16, .here _, by decide⟩⟩

/-- **C55** (indexing): LAX and LASX replace the index on top of the stack by the address of the
element. -/
theorem C55_index (lib : Lib) (code : List Byte) (maxpc : Word) (s : VM) (op : Op) (a : Byte)
    (w v : Word) (hi : Insn code maxpc s op a w) (hp : Indexes s a w op v) (hr : Room s 1) :
    ∃ s', execute lib code maxpc s = .ok (eNOERROR, s') ∧
      Replaces s s' 1 (insnSize op.toByte) v := by
  obtain ⟨hr1, hr2⟩ := hr
  cases hp with
  | lax h =>
    have : v = s.spb + w + opnd s 0 := by bv_omega
    subst this
    rw [insn_24 hi (by decide) (by decide), pexec24, VM.tos_eq _ (by exact hr2) (by omega),
      Res.ok_bind, VM.setTos_eq _ _ (by exact hr2) (by omega), Res.ok_bind]
    exact ⟨_, rfl, rfl, rfl, rfl, updW_same _ _ _, fun i hi => updW_other _ _ hi⟩
  | lasx h =>
    rw [insn_32 hi (by decide) (by decide), pexec32, VM.tos_eq _ (by exact hr2) (by omega),
      Res.ok_bind]
    simp only [signExtend16]
    rw [show s.mem (s.top - 0) = opnd s 0 from rfl, getBase_of h, Res.ok_bind,
      VM.setTos_eq _ _ (by exact hr2) (by omega), Res.ok_bind]
    exact ⟨_, rfl, rfl, rfl, rfl, updW_same _ _ _, fun i hi => updW_other _ _ hi⟩

example : Insn [Op.lax.toByte, 0#8, 6#8] 3#16 (sampleVM 0) .lax 0 6 ∧
    Indexes (sampleVM 0) 0 6 .lax 756#16 ∧ Room (sampleVM 0) 1 :=
  ⟨⟨⟨by decide, rfl⟩, fun h => absurd h (by decide), fun _ => ⟨0#8, 6#8, rfl, rfl, rfl⟩⟩,
    .lax (by decide), ⟨by decide, by decide⟩⟩

/-- **C55** (exchange): XCHG swaps the two topmost words and changes nothing else. -/
theorem C55_xchg (lib : Lib) (code : List Byte) (maxpc : Word) (s : VM)
    (hn : Next code maxpc s .xchg) (hr : Room s 2) :
    ∃ s', execute lib code maxpc s = .ok (eNOERROR, s') ∧ s'.sp = s.sp ∧ s'.pc = s.pc + 1#16 ∧
      opnd s' 0 = opnd s 1 ∧ opnd s' 1 = opnd s 0 ∧
      s' = { s with pc := s'.pc, mem := s'.mem } ∧
      ∀ i, (i + 1 < s.sp.toNat / 2 ∨ s.sp.toNat / 2 < i) → s'.mem i = s.mem i := by
  obtain ⟨hr1, hr2⟩ := hr
  have ht : s.top = s.sp.toNat / 2 := rfl
  rw [execute_8 (at_of_next hn) (by decide) (by decide), pexec8, VM.tos_eq _ (by exact hr2) (by omega),
    Res.ok_bind, VM.tos_eq _ (by exact hr2) (by omega), Res.ok_bind,
    VM.setTos_eq _ _ (by exact hr2) (by omega), Res.ok_bind,
    VM.setTos_eq _ _ (by exact hr2) (by show 1 ≤ s.top; omega), Res.ok_bind]
  refine ⟨_, rfl, rfl, rfl, ?_, ?_, rfl, ?_⟩
  · show updW (updW s.mem (s.top - 0) _) (s.top - 1) _ (s.top - 0) = _
    rw [updW_other _ _ (by omega), updW_same]; rfl
  · show updW (updW s.mem (s.top - 0) _) (s.top - 1) _ (s.top - 1) = _
    rw [updW_same]; rfl
  · intro i hi
    show updW (updW s.mem (s.top - 0) _) (s.top - 1) _ i = _
    rw [updW_other _ _ (by omega), updW_other _ _ (by omega)]

example : Next [Op.xchg.toByte] 1#16 (sampleVM 0) .xchg ∧ Room (sampleVM 0) 2 :=
  ⟨⟨by decide, rfl⟩, by decide, by decide⟩

/-- **C55** (adjusting): INDS moves the stack pointer and INCS the string stack pointer by a
signed amount; memory and all other registers stay. -/
theorem C55_adjust (lib : Lib) (code : List Byte) (maxpc : Word) (s : VM) (w : Word) :
    (Insn code maxpc s .inds 0 w → ∃ sp : Word,
      (sp.toNat : Int) = ((s.sp.toNat : Int) + w.toInt) % 65536 ∧
      execute lib code maxpc s = .ok (eNOERROR, { s with sp := sp, pc := s.pc + 3#16 })) ∧
    (Insn code maxpc s .incs 0 w → ∃ csp : Word,
      (csp.toNat : Int) = ((s.csp.toNat : Int) + w.toInt) % 65536 ∧
      execute lib code maxpc s = .ok (eNOERROR, { s with csp := csp, pc := s.pc + 3#16 })) := by
  have key : ∀ x : Word, ((x + BitVec.ofInt 16 w.toInt).toNat : Int) =
      ((x.toNat : Int) + w.toInt) % 65536 := by
    intro x
    rw [BitVec.ofInt_toInt, BitVec.toNat_add, BitVec.toInt_eq_toNat_cond]
    have := x.isLt
    have := w.isLt
    split <;> omega
  constructor <;> intro hi <;>
    exact ⟨_, key _, by rw [insn_24 hi (by decide) (by decide), pexec24]; rfl⟩

example : Insn [Op.inds.toByte, 0xff#8, 0xfe#8] 3#16 (sampleVM 0) .inds 0 0xfffe :=
  ⟨⟨by decide, rfl⟩, fun h => absurd h (by decide), fun _ => ⟨0xff#8, 0xfe#8, rfl, rfl, rfl⟩⟩

end Pas
