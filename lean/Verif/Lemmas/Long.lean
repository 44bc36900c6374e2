import Verif.Lemmas.Memory
import Verif.Spec.Long
import Verif.Model.LongOps

/-! Lemmas for 32-bit operations. -/
namespace Pas
open Spec LongOps

theorem hi_append (a b : Word) : (a ++ b : Long).extractLsb' 16 16 = a := by
  apply BitVec.eq_of_getLsbD_eq; intro i hi
  rw [BitVec.getLsbD_extractLsb']
  have := BitVec.getLsbD_append (x := a) (y := b) (i := 16 + i)
  rw [show (a ++ b : Long).getLsbD (16 + i) = _ from this, if_neg (by omega)]
  simp [hi]
theorem lo_append (a b : Word) : (a ++ b : Long).extractLsb' 0 16 = b := by
  apply BitVec.eq_of_getLsbD_eq; intro i hi
  rw [BitVec.getLsbD_extractLsb']
  have := BitVec.getLsbD_append (x := a) (y := b) (i := 0 + i)
  rw [show (a ++ b : Long).getLsbD (0 + i) = _ from this, if_pos (by omega)]
  simp [hi]
theorem split_long (v : Long) : (v.extractLsb' 16 16 ++ v.extractLsb' 0 16 : Long) = v := by
  apply BitVec.eq_of_getLsbD_eq; intro i hi
  simp only [BitVec.getLsbD_append, BitVec.getLsbD_extractLsb']
  by_cases h : i < 16
  · simp [h]
  · rw [if_neg h, show 16 + (i - 16) = i by omega, decide_eq_true (by omega)]
    rfl

theorem pop32_eq (s : VM) (h1 : 1 ≤ s.top) (h2 : s.top < s.words) :
    pop32 s = .ok ((s.mem s.top ++ s.mem (s.top - 1) : Long),
      { s with sp := s.sp - 2#16 - 2#16 }) := by
  unfold pop32
  rw [VM.pop_eq _ h2]
  have h : ({ s with sp := s.sp - 2#16 } : VM).top = s.top - 1 := VM.sub2_div _ h1
  simp only [Res.ok_bind]
  rw [VM.pop_eq _ (by rw [h]; show _ < s.words; omega)]
  simp only [Res.ok_bind, h, Res.pure_eq]

theorem getTos32_eq (s : VM) (k : Nat) (h1 : k + 1 ≤ s.top) (h2 : s.top < s.words) :
    getTos32 s k = .ok (s.mem (s.top - k) ++ s.mem (s.top - (k + 1)) : Long) := by
  unfold getTos32
  rw [VM.tos_eq _ h2 (by omega), VM.tos_eq _ h2 h1]
  rfl

theorem putTos32_eq (s : VM) (v : Long) (k : Nat) (h1 : k + 1 ≤ s.top) (h2 : s.top < s.words) :
    putTos32 s v k = .ok { s with
        mem := updW (updW s.mem (s.top - k) (v.extractLsb' 16 16)) (s.top - (k + 1)) (v.extractLsb' 0 16) } := by
  unfold putTos32
  rw [VM.setTos_eq _ _ h2 (by omega)]
  simp only [Res.ok_bind]
  rw [VM.setTos_eq _ _ (by exact h2) (by exact h1)]
  rfl

theorem push32_eq (s : VM) (v : Long) (h1 : s.top + 2 < s.words) (h2 : s.top + 2 < 32768) :
    push32 s v = .ok { s with
        sp := s.sp + 2#16 + 2#16,
        mem := updW (updW s.mem (s.top + 1) (v.extractLsb' 0 16)) (s.top + 2) (v.extractLsb' 16 16) } := by
  unfold push32
  rw [VM.push_eq _ _ (by omega) (by omega)]
  simp only [Res.ok_bind]
  have h : ({ s with sp := s.sp + 2#16, mem := updW s.mem (s.top + 1) (v.extractLsb' 0 16) } : VM).top
    = s.top + 1 := VM.add2_div _ (by show s.top + 1 < _; omega)
  rw [VM.push_eq _ _ (by rw [h]; exact h1) (by rw [h]; exact h2), h]

/-- One long replaced by another. -/
theorem put_loads (s : VM) (v : Long) (h1 : 1 ≤ s.top) :
    Loads s { s with
        pc := s.pc + 2#16,
        mem := updW (updW s.mem (s.top - 0) (v.extractLsb' 16 16)) (s.top - (0 + 1)) (v.extractLsb' 0 16) } 2 2 2 ∧
    long { s with
        pc := s.pc + 2#16,
        mem := updW (updW s.mem (s.top - 0) (v.extractLsb' 16 16)) (s.top - (0 + 1)) (v.extractLsb' 0 16) } 0
      = v := by
  have ht : s.top = s.sp.toNat / 2 := rfl
  refine ⟨⟨rfl, rfl, rfl, ?_⟩, ?_⟩
  · intro i hi
    show updW _ _ _ i = _
    rw [updW_other _ _ (by omega), updW_other _ _ (by omega)]
  · unfold long opnd
    show (updW _ _ _ (s.top - 0) ++ updW _ _ _ (s.top - (0 + 1)) : Long) = v
    rw [updW_same, updW_other _ _ (by omega), updW_same, split_long]

theorem unop32_ok (s : VM) (f : Long → Res Long) (v : Long) (h1 : 1 ≤ s.top) (h2 : s.top < s.words)
    (hf : f (long s 0) = .ok v) :
    ∃ s', unop32 { s with pc := s.pc + 2#16 } f = .ok (eNOERROR, s') ∧ Loads s s' 2 2 2 ∧
      long s' 0 = v := by
  unfold unop32
  rw [getTos32_eq _ 0 (by exact h1) (by exact h2)]
  have hf' : f (s.mem (s.top - 0) ++ s.mem (s.top - (0 + 1))) = .ok v := hf
  simp only [Res.ok_bind]
  refine ⟨_, ?_, put_loads s v h1⟩
  show (do let r ← f (s.mem (s.top - 0) ++ s.mem (s.top - (0 + 1))); _) = _
  rw [hf', Res.ok_bind, putTos32_eq _ _ 0 (by exact h1) (by exact h2)]
  rfl

theorem unop32_ub (s : VM) (f : Long → Res Long) (h1 : 1 ≤ s.top) (h2 : s.top < s.words)
    (hf : f (long s 0) = .ub) : unop32 { s with pc := s.pc + 2#16 } f = .ub := by
  unfold unop32
  rw [getTos32_eq _ 0 (by exact h1) (by exact h2)]
  have hf' : f (s.mem (s.top - 0) ++ s.mem (s.top - (0 + 1))) = .ub := hf
  simp only [Res.ok_bind]
  show (do let r ← f (s.mem (s.top - 0) ++ s.mem (s.top - (0 + 1))); _) = _
  rw [hf']
  rfl

theorem sub4_top (s : VM) (h : 2 ≤ s.top) : (s.sp - 2#16 - 2#16).toNat / 2 = s.top - 2 := by
  have ht : s.top = s.sp.toNat / 2 := rfl
  bv_omega

theorem sub4_nat (s : VM) (h : 2 ≤ s.top) : (s.sp - 2#16 - 2#16).toNat = s.sp.toNat - 4 := by
  have ht : s.top = s.sp.toNat / 2 := rfl
  bv_omega

theorem binop32_ok (s : VM) (f : Long → Long → Res Long) (v : Long) (h1 : 3 ≤ s.top)
    (h2 : s.top < s.words) (hf : f (long s 2) (long s 0) = .ok v) :
    ∃ s', binop32 { s with pc := s.pc + 2#16 } f = .ok (eNOERROR, s') ∧ Loads s s' 4 2 2 ∧
      long s' 0 = v := by
  unfold binop32
  have ht : s.top = s.sp.toNat / 2 := rfl
  rw [pop32_eq _ (by show 1 ≤ s.top; omega) (by exact h2)]
  simp only [Res.ok_bind]
  have htop : ({ s with pc := s.pc + 2#16, sp := s.sp - 2#16 - 2#16 } : VM).top = s.top - 2 :=
    sub4_top s (by omega)
  rw [getTos32_eq _ 0 (by rw [htop]; omega) (by rw [htop]; show _ < s.words; omega)]
  simp only [Res.ok_bind, htop]
  have hf' : f (s.mem (s.top - 2 - 0) ++ s.mem (s.top - 2 - (0 + 1)))
      (s.mem s.top ++ s.mem (s.top - 1)) = .ok v := by
    rw [show s.top - 2 - 0 = s.top - 2 by omega, show s.top - 2 - (0 + 1) = s.top - (2 + 1) by omega]
    exact hf
  refine ⟨_, (by
    show (do let r ← f (s.mem (s.top - 2 - 0) ++ s.mem (s.top - 2 - (0 + 1)))
                (s.mem s.top ++ s.mem (s.top - 1)); _) = _
    rw [hf', Res.ok_bind, putTos32_eq _ _ 0 (by rw [htop]; omega)
      (by rw [htop]; show _ < s.words; omega)]
    rfl), ⟨rfl, ?_, rfl, ?_⟩, ?_⟩
  · show (s.sp - 2#16 - 2#16).toNat + 2 * 4 = s.sp.toNat + 2 * 2
    have := sub4_nat s (by omega); omega
  · intro i hi
    rw [htop]
    show updW _ _ _ i = _
    rw [updW_other _ _ (by omega), updW_other _ _ (by omega)]
  · unfold long opnd
    rw [htop]
    show (updW _ _ _ ((s.sp - 2#16 - 2#16).toNat / 2 - 0) ++
      updW _ _ _ ((s.sp - 2#16 - 2#16).toNat / 2 - (0 + 1)) : Long) = v
    rw [sub4_top s (by omega), updW_same, updW_other _ _ (by omega), updW_same, split_long]

theorem binop32_ub (s : VM) (f : Long → Long → Res Long) (h1 : 3 ≤ s.top)
    (h2 : s.top < s.words) (hf : f (long s 2) (long s 0) = .ub) :
    binop32 { s with pc := s.pc + 2#16 } f = .ub := by
  unfold binop32
  rw [pop32_eq _ (by show 1 ≤ s.top; omega) (by exact h2)]
  simp only [Res.ok_bind]
  have htop : ({ s with pc := s.pc + 2#16, sp := s.sp - 2#16 - 2#16 } : VM).top = s.top - 2 :=
    sub4_top s (by omega)
  rw [getTos32_eq _ 0 (by rw [htop]; omega) (by rw [htop]; show _ < s.words; omega)]
  simp only [Res.ok_bind, htop]
  have hf' : f (s.mem (s.top - 2 - 0) ++ s.mem (s.top - 2 - (0 + 1)))
      (s.mem s.top ++ s.mem (s.top - 1)) = .ub := by
    rw [show s.top - 2 - 0 = s.top - 2 by omega, show s.top - 2 - (0 + 1) = s.top - (2 + 1) by omega]
    exact hf
  show (do let r ← f (s.mem (s.top - 2 - 0) ++ s.mem (s.top - 2 - (0 + 1)))
                (s.mem s.top ++ s.mem (s.top - 1)); _) = _
  rw [hf']
  rfl

theorem cmpz32_ok (s : VM) (f : Long → Bool) (h1 : 1 ≤ s.top) (h2 : s.top < s.words) :
    ∃ s', cmpz32 { s with pc := s.pc + 2#16 } f = .ok (eNOERROR, s') ∧ Loads s s' 2 1 2 ∧
      opnd s' 0 = pasBool (f (long s 0)) := by
  unfold cmpz32
  have ht : s.top = s.sp.toNat / 2 := rfl
  have hsp := s.sp.isLt
  rw [pop32_eq _ (by exact h1) (by exact h2)]
  simp only [Res.ok_bind]
  refine ⟨{ s with pc := s.pc + 2#16, sp := s.sp - 2#16,
                   mem := updW s.mem (s.top - 1) (pasBool (f (long s 0))) }, ?_, ⟨rfl, ?_, rfl, ?_⟩, ?_⟩
  · have e : s.sp - 2#16 - 2#16 + 2#16 = s.sp - 2#16 := by bv_omega
    unfold VM.push
    simp only [e]
    have : ({ s with pc := s.pc + 2#16, sp := s.sp - 2#16 } : VM).top = s.top - 1 :=
      VM.sub2_div _ h1
    rw [this, VM.wr_eq _ _ (by show _ < s.words; omega)]
    rfl
  · show (s.sp - 2#16).toNat + 2 * 2 = s.sp.toNat + 2 * 1
    bv_omega
  · intro i hi
    exact updW_other _ _ (by omega)
  · unfold opnd
    show updW _ _ _ ((s.sp - 2#16).toNat / 2 - 0) = _
    rw [show (s.sp - 2#16).toNat / 2 - 0 = s.top - 1 by rw [VM.sub2_div _ h1]; omega, updW_same]

theorem cmp32_ok (s : VM) (f : Long → Long → Bool) (h1 : 3 ≤ s.top) (h2 : s.top < s.words) :
    ∃ s', cmp32 { s with pc := s.pc + 2#16 } f = .ok (eNOERROR, s') ∧ Loads s s' 4 1 2 ∧
      opnd s' 0 = pasBool (f (long s 0) (long s 2)) := by
  unfold cmp32
  have ht : s.top = s.sp.toNat / 2 := rfl
  have hsp := s.sp.isLt
  rw [pop32_eq _ (by show 1 ≤ s.top; omega) (by exact h2)]
  simp only [Res.ok_bind]
  have htop : ({ s with pc := s.pc + 2#16, sp := s.sp - 2#16 - 2#16 } : VM).top = s.top - 2 :=
    sub4_top s (by omega)
  rw [pop32_eq _ (by rw [htop]; omega) (by rw [htop]; show _ < s.words; omega)]
  simp only [Res.ok_bind, htop]
  have hn : (s.sp - 2#16 - 2#16 - 2#16).toNat = s.sp.toNat - 6 := by bv_omega
  refine ⟨{ s with pc := s.pc + 2#16, sp := s.sp - 2#16 - 2#16 - 2#16,
                   mem := updW s.mem (s.top - 3) (pasBool (f (long s 0) (long s 2))) },
    ?_, ⟨rfl, ?_, rfl, ?_⟩, ?_⟩
  · have e : s.sp - 2#16 - 2#16 - 2#16 - 2#16 + 2#16 = s.sp - 2#16 - 2#16 - 2#16 := by bv_omega
    unfold VM.push
    simp only [e]
    have : ({ s with pc := s.pc + 2#16, sp := s.sp - 2#16 - 2#16 - 2#16 } : VM).top = s.top - 3 := by
      show (s.sp - 2#16 - 2#16 - 2#16).toNat / 2 = _; omega
    rw [this, VM.wr_eq _ _ (by show _ < s.words; omega)]
    rfl
  · show (s.sp - 2#16 - 2#16 - 2#16).toNat + 2 * 4 = s.sp.toNat + 2 * 1
    omega
  · intro i hi
    exact updW_other _ _ (by omega)
  · unfold opnd
    show updW _ _ _ ((s.sp - 2#16 - 2#16 - 2#16).toNat / 2 - 0) = _
    rw [show (s.sp - 2#16 - 2#16 - 2#16).toNat / 2 - 0 = s.top - 3 by omega, updW_same]

end Pas
