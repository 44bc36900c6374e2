import Verif.Model.VM

/-! Basic lemmas about the machine model. -/
namespace Pas

@[simp] theorem updW_same (m : Nat → Word) (i : Nat) (w : Word) : updW m i w i = w := by
  simp [updW]

theorem updW_other (m : Nat → Word) {i j : Nat} (w : Word) (h : j ≠ i) : updW m i w j = m j := by
  simp [updW, h]

theorem updW_updW (m : Nat → Word) (i : Nat) (v w : Word) : updW (updW m i v) i w = updW m i w := by
  funext j; simp only [updW]; split <;> rfl

theorem updW_comm (m : Nat → Word) {i j : Nat} (v w : Word) (h : i ≠ j) :
    updW (updW m i v) j w = updW (updW m j w) i v := by
  funext k; simp only [updW]; split <;> split <;> first | rfl | omega

theorem updW_id (m : Nat → Word) (i : Nat) : updW m i (m i) = m := by
  funext j; simp only [updW]; split <;> simp_all

namespace VM

/-- The stack holds at least `n` words and lies inside the allocation. -/
structure Has (s : VM) (n : Nat) : Prop where
  low : n ≤ s.top + 1
  high : s.top < s.words

theorem top_lt (s : VM) : s.top < 32768 := by
  have := s.sp.isLt; simp only [top]; omega

theorem sub2_div (w : Word) (h : 1 ≤ w.toNat / 2) : (w - 2#16).toNat / 2 = w.toNat / 2 - 1 := by
  bv_omega

theorem add2_div (w : Word) (h : w.toNat / 2 + 1 < 32768) : (w + 2#16).toNat / 2 = w.toNat / 2 + 1 := by
  bv_omega

@[simp] theorem rd_eq (s : VM) {i : Nat} (h : i < s.words) : s.rd i = .ok (s.mem i) := by
  simp [rd, h]

@[simp] theorem wr_eq (s : VM) {i : Nat} (w : Word) (h : i < s.words) :
    s.wr i w = .ok { s with mem := updW s.mem i w } := by
  simp [wr, h]

theorem pop_eq (s : VM) (h : s.top < s.words) :
    s.pop = .ok (s.mem s.top, { s with sp := s.sp - 2#16 }) := by
  simp [pop, h]

theorem tos_eq (s : VM) {k : Nat} (h : s.top < s.words) (hk : k ≤ s.top) :
    s.tos k = .ok (s.mem (s.top - k)) := by
  have : s.top - k < s.words := by omega
  simp [tos, hk, this]

theorem setTos_eq (s : VM) {k : Nat} (w : Word) (h : s.top < s.words) (hk : k ≤ s.top) :
    s.setTos k w = .ok { s with mem := updW s.mem (s.top - k) w } := by
  have : s.top - k < s.words := by omega
  simp [setTos, hk, this]

theorem push_eq (s : VM) (w : Word) (h : s.top + 1 < s.words) (h2 : s.top + 1 < 32768) :
    s.push w = .ok { s with sp := s.sp + 2#16, mem := updW s.mem (s.top + 1) w } := by
  have h3 : ({ s with sp := s.sp + 2#16 } : VM).top = s.top + 1 := by
    simp only [top]; exact add2_div _ h2
  simp only [push, h3]
  rw [wr_eq]
  exact h

end VM

/-- Result of a two-operand instruction. -/
theorem binop_eq (s : VM) (f : Word → Word → Res Word) (h1 : 1 ≤ s.top) (h2 : s.top < s.words) :
    binop s f = (do
      let r ← f (s.mem (s.top - 1)) (s.mem s.top)
      .ok (eNOERROR, { s with sp := s.sp - 2#16, pc := s.pc + 1#16,
                              mem := updW s.mem (s.top - 1) r })) := by
  have ht : ({ s with sp := s.sp - 2#16 } : VM).top = s.top - 1 := VM.sub2_div _ h1
  unfold binop
  rw [VM.pop_eq s h2]
  simp only [Res.ok_bind]
  rw [VM.tos_eq _ (k := 0) (by rw [ht]; show s.top - 1 < s.words; omega) (by omega)]
  simp only [Res.ok_bind, ht, Nat.sub_zero]
  congr 1; funext r
  rw [VM.setTos_eq _ (k := 0) _ (by rw [ht]; show s.top - 1 < s.words; omega) (by omega)]
  simp only [Res.ok_bind, done8, ht, Nat.sub_zero]

/-- Result of a one-operand instruction. -/
theorem unop_eq (s : VM) (f : Word → Word) (h2 : s.top < s.words) :
    unop s f = .ok (eNOERROR, { s with pc := s.pc + 1#16,
                                       mem := updW s.mem s.top (f (s.mem s.top)) }) := by
  unfold unop
  rw [VM.tos_eq s (k := 0) h2 (by omega)]
  simp only [Res.ok_bind, Nat.sub_zero]
  rw [VM.setTos_eq s (k := 0) _ h2 (by omega)]
  simp [done8]

/-- Result of a comparison with zero. -/
theorem cmpz_eq (s : VM) (f : Int → Bool) (h1 : 1 ≤ s.top) (h2 : s.top < s.words) :
    cmpz s f = .ok (eNOERROR, { s with
        pc := s.pc + 1#16,
        mem := updW s.mem s.top (pasBool (f (s.mem s.top).toInt)) }) := by
  have ht : ({ s with sp := s.sp - 2#16 } : VM).top = s.top - 1 := VM.sub2_div _ h1
  have hlt := s.top_lt
  unfold cmpz
  rw [VM.pop_eq s h2]
  simp only [Res.ok_bind]
  rw [VM.push_eq _ _ (by rw [ht]; show s.top - 1 + 1 < s.words; omega) (by rw [ht]; omega)]
  simp only [Res.ok_bind, done8, ht, BitVec.sub_add_cancel, Nat.sub_add_cancel h1]

theorem jump1_eq (s : VM) (t : Word) (f : Int → Bool) (h2 : s.top < s.words) :
    jump1 s t f = .ok (eNOERROR, { s with
        sp := s.sp - 2#16,
        pc := if f (s.mem s.top).toInt then t else s.pc + 3#16 }) := by
  unfold jump1
  rw [VM.pop_eq s h2]
  simp only [Res.ok_bind, done24]
  split <;> rfl

theorem jump2_eq (s : VM) (t : Word) (f : Word → Word → Bool) (h1 : 1 ≤ s.top)
    (h2 : s.top < s.words) :
    jump2 s t f = .ok (eNOERROR, { s with
        sp := s.sp - 4#16,
        pc := if f (s.mem (s.top - 1)) (s.mem s.top) then t else s.pc + 3#16 }) := by
  have ht : ({ s with sp := s.sp - 2#16 } : VM).top = s.top - 1 := VM.sub2_div _ h1
  unfold jump2
  rw [VM.pop_eq s h2]
  simp only [Res.ok_bind, done24]
  rw [VM.pop_eq _ (by rw [ht]; show s.top - 1 < s.words; omega)]
  have : s.sp - 2#16 - 2#16 = s.sp - 4#16 := by bv_omega
  simp only [Res.ok_bind, ht, this]
  split <;> rfl

/-- The instruction at the program counter is `op` and lies inside the program. -/
structure At (code : List Byte) (maxpc : Word) (s : VM) (op : Op) : Prop where
  inPc : s.pc < maxpc
  byte : code[s.pc.toNat]? = some op.toByte

theorem execute_8 {lib : Lib} {code : List Byte} {maxpc : Word} {s : VM} {op : Op}
    (h : At code maxpc s op) (h8 : hasArg8 op.toByte = false) (h16 : hasArg16 op.toByte = false) :
    execute lib code maxpc s = pexec8 s (some op) := by
  have hp : ¬ maxpc ≤ s.pc := by have := h.inPc; bv_omega
  simp [execute, hp, fetch, h.byte, h8, h16, Op.ofByte_toByte]

theorem execute_16 {lib : Lib} {code : List Byte} {maxpc : Word} {s : VM} {op : Op} {a : Byte}
    (h : At code maxpc s op) (h8 : hasArg8 op.toByte = true) (h16 : hasArg16 op.toByte = false)
    (ha : code[s.pc.toNat + 1]? = some a) :
    execute lib code maxpc s = pexec16 lib s (some op) a := by
  have hp : ¬ maxpc ≤ s.pc := by have := h.inPc; bv_omega
  simp [execute, hp, fetch, h.byte, h8, h16, Op.ofByte_toByte, ha]

theorem execute_24 {lib : Lib} {code : List Byte} {maxpc : Word} {s : VM} {op : Op} {b1 b0 : Byte}
    (h : At code maxpc s op) (h8 : hasArg8 op.toByte = false) (h16 : hasArg16 op.toByte = true)
    (hb1 : code[s.pc.toNat + 1]? = some b1) (hb0 : code[s.pc.toNat + 2]? = some b0) :
    execute lib code maxpc s = pexec24 lib s (some op) (b1 ++ b0) := by
  have hp : ¬ maxpc ≤ s.pc := by have := h.inPc; bv_omega
  simp [execute, hp, fetch, h.byte, h8, h16, Op.ofByte_toByte, hb1, hb0]

theorem execute_32 {lib : Lib} {code : List Byte} {maxpc : Word} {s : VM} {op : Op}
    {a b1 b0 : Byte}
    (h : At code maxpc s op) (h8 : hasArg8 op.toByte = true) (h16 : hasArg16 op.toByte = true)
    (ha : code[s.pc.toNat + 1]? = some a)
    (hb1 : code[s.pc.toNat + 2]? = some b1) (hb0 : code[s.pc.toNat + 3]? = some b0) :
    execute lib code maxpc s = pexec32 lib s (some op) a (b1 ++ b0) := by
  have hp : ¬ maxpc ≤ s.pc := by have := h.inPc; bv_omega
  simp [execute, hp, fetch, h.byte, h8, h16, Op.ofByte_toByte, ha, hb1, hb0]

end Pas
