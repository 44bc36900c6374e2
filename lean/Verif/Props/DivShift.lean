import Verif.Props.Core

/-! Property C04: division, unsigned multiplication and shifts. -/
namespace Pas
open Spec

theorem shiftOk_iff (b : Word) : shiftOk b = true ↔ b.toNat < 32 := by
  have := b.isLt
  simp only [shiftOk, Bool.and_eq_true, decide_eq_true_eq, BitVec.toInt_eq_toNat_cond]
  split <;> omega

theorem word_eq_zero_iff (b : Word) : b = 0#16 ↔ b.toNat = 0 := by
  constructor
  · rintro rfl; rfl
  · intro h; apply BitVec.eq_of_toNat_eq; simpa using h

theorem toInt_eq_zero_iff (b : Word) : b.toInt = 0 ↔ b = 0#16 := by
  constructor
  · intro h; apply BitVec.eq_of_toInt_eq; rw [h]; rfl
  · rintro rfl; rfl

/-- **C04** (partial: excludes the divisor 0): DIV truncates towards zero (and wraps for
`-32768 div -1`), MOD is the matching remainder. -/
theorem C04_signed_partial (lib : Lib) (code : List Byte) (maxpc : Word) (s : VM) (op : Op)
    (f : Int → Int → Int) (hf : SDiv op f) (hn : Next code maxpc s op) (hr : Room s 2)
    (hb : opnd s 0 ≠ 0#16) :
    ∃ s' r, execute lib code maxpc s = .ok (eNOERROR, s') ∧ Replaces s s' 2 1 r ∧
      r.toInt = wrap16 (f (opnd s 1).toInt (opnd s 0).toInt) := by
  have h1 : 1 ≤ s.top := by have := hr.1; simp only [VM.top]; omega
  have hb' : ¬ (s.mem s.top).toInt = 0 := fun h => hb ((toInt_eq_zero_iff _).1 h)
  cases hf
  all_goals
    rw [execute_8 (at_of_next hn) (by decide) (by decide), pexec8, binop_eq s _ h1 hr.2,
      if_neg hb']
    refine ⟨_, _, rfl, replaces_bin h1, ?_⟩
    rw [BitVec.toInt_ofInt]; rfl

example : SDiv .div_ Int.tdiv ∧ Next [Op.div_.toByte] 1#16 (sampleVM 0) .div_ ∧
    Room (sampleVM 0) 2 ∧ opnd (sampleVM 0) 0 ≠ 0#16 :=
  ⟨.div_, ⟨by decide, rfl⟩, ⟨by decide, by decide⟩, by decide⟩

/-- MOD needs no wrapping: the remainder is exact, and DIV is exact except for
`-32768 div -1`. -/
theorem C04_mod_exact (a b : Word) : wrap16 (Int.tmod a.toInt b.toInt) = Int.tmod a.toInt b.toInt := by
  have ha := BitVec.le_toInt a
  have ha2 := BitVec.toInt_lt (x := a)
  have hle : (Int.tmod a.toInt b.toInt).natAbs ≤ a.toInt.natAbs := by
    rw [Int.natAbs_tmod]; exact Nat.mod_le _ _
  have hs : 0 ≤ a.toInt → 0 ≤ Int.tmod a.toInt b.toInt := fun h => Int.tmod_nonneg _ h
  have hs2 : a.toInt ≤ 0 → Int.tmod a.toInt b.toInt ≤ 0 := fun h => by
    have := Int.tmod_nonneg b.toInt (a := -a.toInt) (by omega)
    rw [Int.neg_tmod] at this; omega
  simp only [wrap16]
  apply Int.bmod_eq_of_le <;> simp at ha ha2 ⊢ <;> omega

/-- **C04** (partial: defined operand pairs only): UDIV, UMOD and UMUL. -/
theorem C04_unsigned_partial (lib : Lib) (code : List Byte) (maxpc : Word) (s : VM) (op : Op)
    (f : Nat → Nat → Nat) (hf : UArith op f) (hn : Next code maxpc s op) (hr : Room s 2)
    (hd : ¬ Undefined op (opnd s 1) (opnd s 0)) :
    ∃ s' r, execute lib code maxpc s = .ok (eNOERROR, s') ∧ Replaces s s' 2 1 r ∧
      r.toNat = f (opnd s 1).toNat (opnd s 0).toNat % 65536 := by
  have h1 : 1 ≤ s.top := by have := hr.1; simp only [VM.top]; omega
  cases hf with
  | udiv =>
    have hb' : ¬ (s.mem s.top).toNat = 0 := fun h => hd ((word_eq_zero_iff _).2 h)
    rw [execute_8 (at_of_next hn) (by decide) (by decide), pexec8, binop_eq s _ h1 hr.2,
      if_neg hb']
    refine ⟨_, _, rfl, replaces_bin h1, ?_⟩
    rw [BitVec.toNat_ofNat]; rfl
  | umod =>
    have hb' : ¬ (s.mem s.top).toNat = 0 := fun h => hd ((word_eq_zero_iff _).2 h)
    rw [execute_8 (at_of_next hn) (by decide) (by decide), pexec8, binop_eq s _ h1 hr.2,
      if_neg hb']
    refine ⟨_, _, rfl, replaces_bin h1, ?_⟩
    rw [BitVec.toNat_ofNat]; rfl
  | umul =>
    have hb' : (s.mem (s.top - 1)).toNat * (s.mem s.top).toNat < 2147483648 := Nat.not_le.1 hd
    rw [execute_8 (at_of_next hn) (by decide) (by decide), pexec8, binop_eq s _ h1 hr.2,
      if_pos hb']
    refine ⟨_, _, rfl, replaces_bin h1, ?_⟩
    rw [BitVec.toNat_ofNat]; rfl

example : UArith .umul (fun a b => a * b) ∧ Next [Op.umul.toByte] 1#16 (sampleVM 0) .umul ∧
    Room (sampleVM 0) 2 ∧ ¬ Undefined .umul (opnd (sampleVM 0) 1) (opnd (sampleVM 0) 0) :=
  ⟨.umul, ⟨by decide, rfl⟩, ⟨by decide, by decide⟩, by simp only [Undefined]; decide⟩

theorem ofInt_mul_pow (a : Word) (k : Nat) :
    (BitVec.ofInt 16 (a.toInt * 2 ^ k)).toNat = a.toNat * 2 ^ k % 65536 := by
  have : BitVec.ofInt 16 (a.toInt * 2 ^ k) = a * BitVec.ofNat 16 (2 ^ k) := by
    rw [BitVec.ofInt_mul, BitVec.ofInt_toInt]
    rw [← BitVec.ofInt_natCast]; simp
  rw [this, BitVec.toNat_mul, BitVec.toNat_ofNat]
  show _ % 65536 = _
  rw [Nat.mul_mod_mod]

/-- **C04** (partial: counts 0..31): SLL and SRL. -/
theorem C04_shift_partial (lib : Lib) (code : List Byte) (maxpc : Word) (s : VM) (op : Op)
    (f : Nat → Nat → Nat) (hf : UShift op f) (hn : Next code maxpc s op) (hr : Room s 2)
    (hd : (opnd s 0).toNat < 32) :
    ∃ s' r, execute lib code maxpc s = .ok (eNOERROR, s') ∧ Replaces s s' 2 1 r ∧
      r.toNat = f (opnd s 1).toNat (opnd s 0).toNat % 65536 := by
  have h1 : 1 ≤ s.top := by have := hr.1; simp only [VM.top]; omega
  have hb' : shiftOk (s.mem s.top) = true := (shiftOk_iff _).2 hd
  cases hf with
  | sll =>
    rw [execute_8 (at_of_next hn) (by decide) (by decide), pexec8, binop_eq s _ h1 hr.2,
      if_pos hb']
    refine ⟨_, _, rfl, replaces_bin h1, ?_⟩
    exact ofInt_mul_pow _ _
  | srl =>
    rw [execute_8 (at_of_next hn) (by decide) (by decide), pexec8, binop_eq s _ h1 hr.2,
      if_pos hb']
    refine ⟨_, _, rfl, replaces_bin h1, ?_⟩
    rw [BitVec.toNat_ofNat, Nat.shiftRight_eq_div_pow]; rfl

/-- **C04** (partial: counts 0..31): SRA divides by a power of two rounding down. -/
theorem C04_sra_partial (lib : Lib) (code : List Byte) (maxpc : Word) (s : VM)
    (hn : Next code maxpc s .sra) (hr : Room s 2) (hd : (opnd s 0).toNat < 32) :
    ∃ s' r, execute lib code maxpc s = .ok (eNOERROR, s') ∧ Replaces s s' 2 1 r ∧
      r.toInt = Int.fdiv (opnd s 1).toInt (2 ^ (opnd s 0).toNat) := by
  have h1 : 1 ≤ s.top := by have := hr.1; simp only [VM.top]; omega
  have hb' : shiftOk (s.mem s.top) = true := (shiftOk_iff _).2 hd
  rw [execute_8 (at_of_next hn) (by decide) (by decide), pexec8, binop_eq s _ h1 hr.2,
    if_pos hb']
  refine ⟨_, _, rfl, replaces_bin h1, ?_⟩
  show (BitVec.ofInt 16 ((opnd s 1).toInt >>> (opnd s 0).toNat)).toInt = _
  generalize opnd s 1 = a; generalize (opnd s 0).toNat = k
  have ha := BitVec.le_toInt a
  have ha2 := BitVec.toInt_lt (x := a)
  have hp : (0 : Int) < 2 ^ k := Int.pow_pos (by decide)
  rw [BitVec.toInt_ofInt, Int.shiftRight_eq_div_pow, Int.fdiv_eq_ediv_of_nonneg _ (by omega)]
  have e : ((2 ^ k : Nat) : Int) = 2 ^ k := by simp
  rw [e]
  simp at ha ha2
  have l1 : -32768 ≤ a.toInt / 2 ^ k := by
    rw [Int.le_ediv_iff_mul_le hp]
    have : (-32768 : Int) * 2 ^ k ≤ -32768 := by
      have : (1 : Int) ≤ 2 ^ k := hp
      omega
    omega
  have l2 : a.toInt / 2 ^ k < 32768 := by
    rw [Int.ediv_lt_iff_lt_mul hp]
    have : (32768 : Int) ≤ 32768 * 2 ^ k := by
      have : (1 : Int) ≤ 2 ^ k := hp
      omega
    omega
  apply Int.bmod_eq_of_le <;> simp <;> omega

example : Next [Op.sra.toByte] 1#16 (sampleMem (fun _ => 3#16)) .sra ∧
    Room (sampleMem (fun _ => 3#16)) 2 ∧
    (opnd (sampleMem (fun _ => 3#16)) 0).toNat < 32 :=
  ⟨⟨by decide, rfl⟩, ⟨by decide, by decide⟩, by decide⟩

/-- The instructions of property C04. -/
def Spec.DivShiftOps : List Op := [.div_, .mod_, .udiv, .umod, .umul, .sll, .srl, .sra]

/-- Exactly the listed operand pairs make the machine itself undefined. -/
theorem C04_undefined_iff (lib : Lib) (code : List Byte) (maxpc : Word) (s : VM) (op : Op)
    (hop : op ∈ DivShiftOps) (hn : Next code maxpc s op) (hr : Room s 2) :
    execute lib code maxpc s = .ub ↔ Undefined op (opnd s 1) (opnd s 0) := by
  have h1 : 1 ≤ s.top := by have := hr.1; simp only [VM.top]; omega
  have hb : ∀ b : Word, 32 ≤ b.toNat ↔ ¬ shiftOk b = true := by
    intro b; rw [shiftOk_iff]; omega
  have key : ∀ (p : Prop) [Decidable p] (x : Word) (g : Word → Nat × VM),
      ((do let r ← (if p then Res.ub else Res.ok x); Res.ok (g r)) = Res.ub ↔ p) := by
    intro p _ x g; by_cases h : p <;> simp [h]
  have key' : ∀ (p : Prop) [Decidable p] (x : Word) (g : Word → Nat × VM),
      ((do let r ← (if p then Res.ok x else Res.ub); Res.ok (g r)) = Res.ub ↔ ¬ p) := by
    intro p _ x g; by_cases h : p <;> simp [h]
  simp only [DivShiftOps, List.mem_cons, List.not_mem_nil, or_false] at hop
  rcases hop with rfl | rfl | rfl | rfl | rfl | rfl | rfl | rfl
  all_goals
    rw [execute_8 (at_of_next hn) (by decide) (by decide), pexec8, binop_eq s _ h1 hr.2]
    first | rw [key] | rw [key']
    first
    | exact toInt_eq_zero_iff _
    | exact (word_eq_zero_iff _).symm
    | exact (hb _).symm
    | exact Nat.not_lt

/-- **C04 fails**: each of these is a reachable operand pair on which the interpreter has
undefined behaviour (division by zero, 65535*65535 as WORD, shift by 40). -/
theorem C04_violation (lib : Lib) :
    (∀ op ∈ [Op.div_, .mod_, .udiv, .umod], ∀ a : Word, ∃ (s : VM),
      Next [op.toByte] 1#16 s op ∧ Room s 2 ∧ opnd s 1 = a ∧ opnd s 0 = 0#16 ∧
      execute lib [op.toByte] 1#16 s = .ub) ∧
    (∃ s, opnd s 1 = 0xffff#16 ∧ opnd s 0 = 0xffff#16 ∧
      execute lib [Op.umul.toByte] 1#16 s = .ub) ∧
    (∀ op ∈ [Op.sll, .srl, .sra], ∃ s, opnd s 1 = 1#16 ∧ opnd s 0 = 40#16 ∧
      execute lib [op.toByte] 1#16 s = .ub) := by
  have hn : ∀ op m, Next [op.toByte] 1#16 (sampleMem m) op := by
    intro op m; exact ⟨show (0#16).toNat < (1#16).toNat by decide, rfl⟩
  have hr : ∀ m, Room (sampleMem m) 2 := by
    intro m
    exact ⟨show 2 ≤ (40#16).toNat / 2 + 1 by decide, show (40#16).toNat / 2 < 100 by decide⟩
  refine ⟨?_, ?_, ?_⟩
  · intro op hop a
    refine ⟨sampleMem (fun i => if i = 20 then 0#16 else a), hn _ _, hr _,
      by simp [opnd, sampleMem], by simp [opnd, sampleMem], ?_⟩
    simp only [List.mem_cons, List.not_mem_nil, or_false] at hop
    rcases hop with rfl | rfl | rfl | rfl <;>
      rw [C04_undefined_iff lib _ _ _ _ (by decide) (hn _ _) (hr _)] <;>
      simp [Undefined, opnd, sampleMem]
  · refine ⟨sampleMem (fun _ => 0xffff#16), rfl, rfl, ?_⟩
    rw [C04_undefined_iff lib _ _ _ .umul (by decide) (hn _ _) (hr _)]
    simp only [Undefined]; decide
  · intro op hop
    refine ⟨sampleMem (fun i => if i = 20 then 40#16 else 1#16), rfl, rfl, ?_⟩
    simp only [List.mem_cons, List.not_mem_nil, or_false] at hop
    rcases hop with rfl | rfl | rfl <;>
      rw [C04_undefined_iff lib _ _ _ _ (by decide) (hn _ _) (hr _)] <;>
      (simp only [Undefined]; decide)

end Pas
