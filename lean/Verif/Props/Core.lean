import Verif.Lemmas.VM
import Verif.Spec.Machine

/-! Properties C01-C04: arithmetic, comparison and branch instructions. -/
namespace Pas
open Spec

/-- A concrete machine used to show that hypotheses are satisfiable: 100 words of memory
with contents `m`, stack pointer at word 20, program counter 0. -/
def sampleMem (m : Nat → Word) : VM where
  mem := m
  words := 100
  spb := 10#16
  sp := 40#16
  csp := 0#16
  hpb := 100#16
  hsp := 100#16
  fp := 0#16
  rop := 4#16
  pc := 0#16
  lsp := 0#16
  strSize := 4#16
  roSize := 6#16
  stkSize := 90#16
  hpSize := 100#16
  freeChunks := none

/-- `sampleMem` with some arbitrary contents and a program counter. -/
def sampleVM (pc : Word) : VM := { sampleMem (fun i => BitVec.ofNat 16 (i * 37)) with pc := pc }

theorem at_of_next {code : List Byte} {maxpc : Word} {s : VM} {op : Op}
    (h : Next code maxpc s op) : At code maxpc s op :=
  ⟨by have := h.1; bv_omega, h.2⟩

theorem operand16_append {code : List Byte} {a : Nat} {t : Word} (h : Operand16 code a t) :
    ∃ b1 b0 : Byte, code[a]? = some b1 ∧ code[a + 1]? = some b0 ∧ b1 ++ b0 = t := by
  obtain ⟨b1, b0, h1, h2, h3⟩ := h
  refine ⟨b1, b0, h1, h2, ?_⟩
  apply BitVec.eq_of_toNat_eq
  rw [BitVec.toNat_append, h3, ← Nat.shiftLeft_add_eq_or_of_lt b0.isLt, Nat.shiftLeft_eq]

theorem replaces_bin {s : VM} {r : Word} (h1 : 1 ≤ s.top) :
    Replaces s { s with sp := s.sp - 2#16, pc := s.pc + 1#16, mem := updW s.mem (s.top - 1) r }
      2 1 r := by
  have ht : (s.sp - 2#16).toNat / 2 = s.top - 1 := VM.sub2_div _ h1
  refine ⟨rfl, ?_, rfl, ?_, ?_⟩
  · simp only [VM.top] at h1; show (s.sp - 2#16).toNat + 2 * (2 - 1) = s.sp.toNat; bv_omega
  · show updW s.mem (s.top - 1) r ((s.sp - 2#16).toNat / 2) = r
    rw [ht]; simp
  · intro i hi
    show updW s.mem (s.top - 1) r i = s.mem i
    apply updW_other; rw [← ht]; exact hi

theorem replaces_un {s : VM} {r : Word} :
    Replaces s { s with pc := s.pc + 1#16, mem := updW s.mem s.top r } 1 1 r := by
  refine ⟨rfl, by simp, rfl, ?_, ?_⟩
  · exact updW_same _ _ _
  · intro i hi; exact updW_other _ _ hi

/-- **C01** (two operands): ADD, SUB and MUL leave the wrapped signed result. -/
theorem C01_arith (lib : Lib) (code : List Byte) (maxpc : Word) (s : VM) (op : Op)
    (f : Int → Int → Int) (hf : Arith op f) (hn : Next code maxpc s op) (hr : Room s 2) :
    ∃ s' r, execute lib code maxpc s = .ok (eNOERROR, s') ∧ Replaces s s' 2 1 r ∧
      r.toInt = wrap16 (f (opnd s 1).toInt (opnd s 0).toInt) := by
  have h1 : 1 ≤ s.top := by have := hr.1; simp only [VM.top]; omega
  cases hf
  all_goals
    rw [execute_8 (at_of_next hn) (by decide) (by decide), pexec8, binop_eq s _ h1 hr.2]
    refine ⟨_, _, rfl, replaces_bin h1, ?_⟩
    rw [BitVec.toInt_ofInt]; rfl

example : Arith .mul (fun a b => a * b) ∧ Next [Op.mul.toByte] 1#16 (sampleVM 0) .mul ∧
    Room (sampleVM 0) 2 := ⟨.mul, ⟨by decide, rfl⟩, by decide, by decide⟩

/-- **C01** (one operand): NEG, ABS, INC, DEC and NOT. -/
theorem C01_unary (lib : Lib) (code : List Byte) (maxpc : Word) (s : VM) (op : Op)
    (f : Int → Int) (hf : Unary op f) (hn : Next code maxpc s op) (hr : Room s 1) :
    ∃ s' r, execute lib code maxpc s = .ok (eNOERROR, s') ∧ Replaces s s' 1 1 r ∧
      r.toInt = wrap16 (f (opnd s 0).toInt) := by
  cases hf with
  | neg =>
    rw [execute_8 (at_of_next hn) (by decide) (by decide), pexec8, unop_eq s _ hr.2]
    refine ⟨_, _, rfl, replaces_un, ?_⟩
    rw [BitVec.toInt_ofInt]; rfl
  | abs_ =>
    rw [execute_8 (at_of_next hn) (by decide) (by decide), pexec8,
      VM.tos_eq s (k := 0) hr.2 (by omega)]
    simp only [Res.ok_bind]
    by_cases hneg : signExtend16 (s.mem (s.top - 0)) < 0
    · rw [if_pos hneg, VM.setTos_eq s (k := 0) _ hr.2 (by omega)]
      replace hneg : (opnd s 0).toInt < 0 := hneg
      refine ⟨_, _, rfl, replaces_un, ?_⟩
      rw [BitVec.toInt_ofInt]
      simp only [if_pos hneg]; rfl
    · rw [if_neg hneg]
      replace hneg : ¬ (opnd s 0).toInt < 0 := hneg
      refine ⟨_, opnd s 0, rfl, ⟨rfl, rfl, rfl, rfl, fun _ _ => rfl⟩, ?_⟩
      simp only [if_neg hneg, wrap16]
      exact (BitVec.toInt_ofInt (n := 16) (opnd s 0).toInt ▸ by rw [BitVec.ofInt_toInt])
  | inc =>
    rw [execute_8 (at_of_next hn) (by decide) (by decide), pexec8, unop_eq s _ hr.2]
    refine ⟨_, _, rfl, replaces_un, ?_⟩
    rw [BitVec.toInt_add]; rfl
  | dec =>
    rw [execute_8 (at_of_next hn) (by decide) (by decide), pexec8, unop_eq s _ hr.2]
    refine ⟨_, _, rfl, replaces_un, ?_⟩
    rw [BitVec.toInt_sub]; rfl
  | not_ =>
    rw [execute_8 (at_of_next hn) (by decide) (by decide), pexec8, unop_eq s _ hr.2]
    refine ⟨_, _, rfl, replaces_un, ?_⟩
    show (~~~(opnd s 0)).toInt = wrap16 (-(opnd s 0).toInt - 1)
    rw [BitVec.toInt_not, wrap16]
    generalize opnd s 0 = w
    have h1 := w.isLt
    rw [BitVec.toInt_eq_toNat_bmod]
    simp only [Int.bmod_def]
    omega

example : Unary .not_ (fun a => -a - 1) ∧ Next [Op.not_.toByte] 1#16 (sampleVM 0) .not_ ∧
    Room (sampleVM 0) 1 := ⟨.not_, ⟨by decide, rfl⟩, by decide, by decide⟩

/-- **C01** (bitwise): AND, OR and XOR act on each bit. -/
theorem C01_bitwise (lib : Lib) (code : List Byte) (maxpc : Word) (s : VM) (op : Op)
    (f : Bool → Bool → Bool) (hf : Bitwise op f) (hn : Next code maxpc s op) (hr : Room s 2) :
    ∃ s' r, execute lib code maxpc s = .ok (eNOERROR, s') ∧ Replaces s s' 2 1 r ∧
      ∀ i, i < 16 → r.getLsbD i = f ((opnd s 1).getLsbD i) ((opnd s 0).getLsbD i) := by
  have h1 : 1 ≤ s.top := by have := hr.1; simp only [VM.top]; omega
  cases hf
  all_goals
    rw [execute_8 (at_of_next hn) (by decide) (by decide), pexec8, binop_eq s _ h1 hr.2]
    refine ⟨_, _, rfl, replaces_bin h1, ?_⟩
    intro i hi
    simp only [BitVec.getLsbD_and, BitVec.getLsbD_or, BitVec.getLsbD_xor]
    rfl

example : Bitwise .xor_ (fun a b => a != b) ∧ Next [Op.xor_.toByte] 1#16 (sampleVM 0) .xor_ ∧
    Room (sampleVM 0) 2 := ⟨.xor_, ⟨by decide, rfl⟩, by decide, by decide⟩

theorem isBool_pasBool {p : Prop} [Decidable p] : IsBool (pasBool (decide p)) p := by
  constructor
  · intro h; simp [h, pasBool]
  · intro h; simp [h, pasBool]

/-- **C02** (signed, two operands). -/
theorem C02_signed (lib : Lib) (code : List Byte) (maxpc : Word) (s : VM) (op : Op)
    (R : Int → Int → Prop) (hf : Cmp op R) (hn : Next code maxpc s op) (hr : Room s 2) :
    ∃ s' r, execute lib code maxpc s = .ok (eNOERROR, s') ∧ Replaces s s' 2 1 r ∧
      IsBool r (R (opnd s 1).toInt (opnd s 0).toInt) := by
  have h1 : 1 ≤ s.top := by have := hr.1; simp only [VM.top]; omega
  cases hf
  all_goals
    rw [execute_8 (at_of_next hn) (by decide) (by decide), pexec8, binop_eq s _ h1 hr.2]
    refine ⟨_, _, rfl, replaces_bin h1, ?_⟩
    first
    | exact isBool_pasBool
    | (simp only [eq_comm (a := (opnd s 1).toInt), ne_comm (a := (opnd s 1).toInt)]
       exact isBool_pasBool)

example : Cmp .lt (fun a b => a < b) ∧ Next [Op.lt.toByte] 1#16 (sampleVM 0) .lt ∧
    Room (sampleVM 0) 2 := ⟨.lt, ⟨by decide, rfl⟩, by decide, by decide⟩

/-- **C02** (unsigned, two operands). -/
theorem C02_unsigned (lib : Lib) (code : List Byte) (maxpc : Word) (s : VM) (op : Op)
    (R : Nat → Nat → Prop) (hf : UCmp op R) (hn : Next code maxpc s op) (hr : Room s 2) :
    ∃ s' r, execute lib code maxpc s = .ok (eNOERROR, s') ∧ Replaces s s' 2 1 r ∧
      IsBool r (R (opnd s 1).toNat (opnd s 0).toNat) := by
  have h1 : 1 ≤ s.top := by have := hr.1; simp only [VM.top]; omega
  cases hf
  all_goals
    rw [execute_8 (at_of_next hn) (by decide) (by decide), pexec8, binop_eq s _ h1 hr.2]
    exact ⟨_, _, rfl, replaces_bin h1, isBool_pasBool⟩

example : UCmp .ult (fun a b => a < b) ∧ Next [Op.ult.toByte] 1#16 (sampleVM 0) .ult ∧
    Room (sampleVM 0) 2 := ⟨.ult, ⟨by decide, rfl⟩, by decide, by decide⟩

/-- **C02** (comparison with zero).  The operand must not be the very first word of the
memory, because the C code pops and pushes it. -/
theorem C02_zero (lib : Lib) (code : List Byte) (maxpc : Word) (s : VM) (op : Op)
    (R : Int → Prop) (hf : CmpZ op R) (hn : Next code maxpc s op) (hr : Room s 2) :
    ∃ s' r, execute lib code maxpc s = .ok (eNOERROR, s') ∧ Replaces s s' 1 1 r ∧
      IsBool r (R (opnd s 0).toInt) := by
  have h1 : 1 ≤ s.top := by have := hr.1; simp only [VM.top]; omega
  cases hf
  all_goals
    rw [execute_8 (at_of_next hn) (by decide) (by decide), pexec8, cmpz_eq s _ h1 hr.2]
    exact ⟨_, _, rfl, replaces_un, isBool_pasBool⟩

example : CmpZ .gtz (fun a => a > 0) ∧ Next [Op.gtz.toByte] 1#16 (sampleVM 0) .gtz ∧
    Room (sampleVM 0) 2 := ⟨.gtz, ⟨by decide, rfl⟩, by decide, by decide⟩

theorem pops_one {s : VM} (h1 : 1 ≤ s.top) {pc : Word} :
    Pops s { s with sp := s.sp - 2#16, pc := pc } 1 pc := by
  refine ⟨rfl, ?_, rfl⟩
  simp only [VM.top] at h1
  show (s.sp - 2#16).toNat + 2 * 1 = s.sp.toNat
  bv_omega

theorem pops_two {s : VM} (h1 : 2 ≤ s.top) {pc : Word} :
    Pops s { s with sp := s.sp - 4#16, pc := pc } 2 pc := by
  refine ⟨rfl, ?_, rfl⟩
  simp only [VM.top] at h1
  show (s.sp - 4#16).toNat + 2 * 2 = s.sp.toNat
  bv_omega

/-- Where a three-byte branch continues: at the target if `p`, else behind it. -/
def Spec.Branches (s s' : VM) (n : Nat) (t : Word) (p : Prop) : Prop :=
  (p → Pops s s' n t) ∧ (¬p → Pops s s' n (s.pc + 3#16))

/-- **C03** (one operand). -/
theorem C03_zero (lib : Lib) (code : List Byte) (maxpc : Word) (s : VM) (op : Op) (t : Word)
    (R : Int → Prop) (hf : JumpZ op R) (hn : Next code maxpc s op) (hr : Room s 2)
    (ht : Operand16 code (s.pc.toNat + 1) t) :
    ∃ s', execute lib code maxpc s = .ok (eNOERROR, s') ∧
      Branches s s' 1 t (R (opnd s 0).toInt) := by
  obtain ⟨b1, b0, hb1, hb0, rfl⟩ := operand16_append ht
  have h1 : 1 ≤ s.top := by have := hr.1; simp only [VM.top]; omega
  cases hf
  all_goals
    rw [execute_24 (at_of_next hn) (by decide) (by decide) hb1 hb0, pexec24, jump1_eq s _ _ hr.2]
    refine ⟨_, rfl, ?_, ?_⟩
    · intro hp; rw [if_pos (by exact decide_eq_true hp)]; exact pops_one h1
    · intro hp; rw [if_neg (by exact fun h => hp (of_decide_eq_true h))]; exact pops_one h1

/-- **C03** (two signed operands). -/
theorem C03_signed (lib : Lib) (code : List Byte) (maxpc : Word) (s : VM) (op : Op) (t : Word)
    (R : Int → Int → Prop) (hf : Jump op R) (hn : Next code maxpc s op) (hr : Room s 3)
    (ht : Operand16 code (s.pc.toNat + 1) t) :
    ∃ s', execute lib code maxpc s = .ok (eNOERROR, s') ∧
      Branches s s' 2 t (R (opnd s 1).toInt (opnd s 0).toInt) := by
  obtain ⟨b1, b0, hb1, hb0, rfl⟩ := operand16_append ht
  have h1 : 2 ≤ s.top := by have := hr.1; simp only [VM.top]; omega
  cases hf
  all_goals
    rw [execute_24 (at_of_next hn) (by decide) (by decide) hb1 hb0, pexec24,
      jump2_eq s _ _ (by omega) hr.2]
    refine ⟨_, rfl, ?_, ?_⟩
    · intro hp; rw [if_pos (by exact decide_eq_true hp)]; exact pops_two h1
    · intro hp; rw [if_neg (by exact fun h => hp (of_decide_eq_true h))]; exact pops_two h1

/-- **C03** (two unsigned operands). -/
theorem C03_unsigned (lib : Lib) (code : List Byte) (maxpc : Word) (s : VM) (op : Op) (t : Word)
    (R : Nat → Nat → Prop) (hf : UJump op R) (hn : Next code maxpc s op) (hr : Room s 3)
    (ht : Operand16 code (s.pc.toNat + 1) t) :
    ∃ s', execute lib code maxpc s = .ok (eNOERROR, s') ∧
      Branches s s' 2 t (R (opnd s 1).toNat (opnd s 0).toNat) := by
  obtain ⟨b1, b0, hb1, hb0, rfl⟩ := operand16_append ht
  have h1 : 2 ≤ s.top := by have := hr.1; simp only [VM.top]; omega
  cases hf
  all_goals
    rw [execute_24 (at_of_next hn) (by decide) (by decide) hb1 hb0, pexec24,
      jump2_eq s _ _ (by omega) hr.2]
    refine ⟨_, rfl, ?_, ?_⟩
    · intro hp; rw [if_pos (by exact decide_eq_true hp)]; exact pops_two h1
    · intro hp; rw [if_neg (by exact fun h => hp (of_decide_eq_true h))]; exact pops_two h1

/-- **C03** (unconditional jump). -/
theorem C03_jmp (lib : Lib) (code : List Byte) (maxpc : Word) (s : VM) (t : Word)
    (hn : Next code maxpc s .jmp) (ht : Operand16 code (s.pc.toNat + 1) t) :
    execute lib code maxpc s = .ok (eNOERROR, { s with pc := t }) := by
  obtain ⟨b1, b0, hb1, hb0, rfl⟩ := operand16_append ht
  rw [execute_24 (at_of_next hn) (by decide) (by decide) hb1 hb0]
  rfl

example : UJump .jugt (fun a b => a > b) ∧ Next [Op.jugt.toByte, 1, 2] 3#16 (sampleVM 0) .jugt ∧
    Room (sampleVM 0) 3 ∧ Operand16 [Op.jugt.toByte, 1, 2] 1 258#16 :=
  ⟨.jugt, ⟨by decide, rfl⟩, ⟨by decide, by decide⟩, 1, 2, rfl, rfl, by decide⟩
example : Jump .jlt (fun a b => a < b) ∧ Next [Op.jlt.toByte, 1, 2] 3#16 (sampleVM 0) .jlt ∧
    Room (sampleVM 0) 3 := ⟨.jlt, ⟨by decide, rfl⟩, ⟨by decide, by decide⟩⟩
example : JumpZ .jequz (fun a => a = 0) ∧ Next [Op.jequz.toByte, 1, 2] 3#16 (sampleVM 0) .jequz ∧
    Room (sampleVM 0) 2 := ⟨.jequz, ⟨by decide, rfl⟩, ⟨by decide, by decide⟩⟩

end Pas
