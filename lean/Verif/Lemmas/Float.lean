import Verif.Lemmas.Long
import Verif.Spec.Float
import Verif.Model.FloatOps

/-! Lemmas for floating point operations. -/
namespace Pas.FloatOps
open Spec

/-! ### Numbers -/

theorem denotes_parts {x : Real} {v : Int} (h : RealValue x v) :
    expo x ≠ 2047 ∧ isNan x = false ∧ scaled x = v := by
  obtain ⟨neg, e, f, he, hf, hx, hv⟩ := h
  have h1 : expo x = e := by
    unfold expo; rw [hx]; cases neg <;> simp <;> omega
  have h2 : frac x = f := by
    unfold frac; rw [hx]; cases neg <;> simp <;> omega
  have h3 : negative x = neg := by
    unfold negative; rw [hx]; cases neg <;> simp <;> omega
  refine ⟨by omega, by unfold isNan; rw [h1]; simp; omega, ?_⟩
  unfold scaled magnitude
  rw [h1, h2, h3, hv]
  cases neg
  · simp only [Bool.false_eq_true, if_false, Int.one_mul]
    split
    · rfl
    · rw [Int.natCast_mul, Int.natCast_pow]; rfl
  · simp only [if_true]
    rw [Int.neg_mul, Int.one_mul]
    split
    · rfl
    · rw [Int.natCast_mul, Int.natCast_pow]; rfl

theorem denotes_ofInt {i : Int} (h : i.natAbs < 2 ^ 53) : RealValue (ofInt i) (i * 2 ^ 1074) := by
  by_cases h0 : i.natAbs = 0
  · have : i = 0 := by omega
    subst this
    exact ⟨false, 0, 0, by decide, by decide, rfl, by simp⟩
  · have hk1 := Nat.log2_self_le h0
    have hk2 := Nat.lt_log2_self (n := i.natAbs)
    generalize hk : Nat.log2 i.natAbs = k at hk1 hk2
    have hk3 : k < 53 := by
      refine Nat.lt_of_not_le fun hc => ?_
      have := Nat.pow_le_pow_right (n := 2) (by decide) hc
      omega
    have hlt : (i.natAbs - 2 ^ k) * 2 ^ (52 - k) < 2 ^ 52 := by
      have h1 : i.natAbs - 2 ^ k < 2 ^ k := by rw [Nat.pow_succ] at hk2; omega
      have h2 : 0 < 2 ^ (52 - k) := Nat.two_pow_pos _
      calc _ < 2 ^ k * 2 ^ (52 - k) := Nat.mul_lt_mul_of_pos_right h1 h2
        _ = 2 ^ 52 := by rw [← Nat.pow_add]; congr 1; omega
    have e : 2 ^ 52 + (i.natAbs - 2 ^ k) * 2 ^ (52 - k) = i.natAbs * 2 ^ (52 - k) := by
      have : (2 : Nat) ^ 52 = 2 ^ k * 2 ^ (52 - k) := by rw [← Nat.pow_add]; congr 1; omega
      rw [this, ← Nat.add_mul]; congr 1; omega
    have e2 : ((i.natAbs * 2 ^ (52 - k) : Nat) : Int) * 2 ^ (k + 1023 - 1) = (i.natAbs : Int) * 2 ^ 1074 := by
      rw [Int.natCast_mul, Int.natCast_pow, Int.mul_assoc,
        show ((2 : Nat) : Int) = 2 from rfl, ← Int.pow_add,
        show 52 - k + (k + 1023 - 1) = 1074 by omega]
    generalize hF : (i.natAbs - 2 ^ k) * 2 ^ (52 - k) = F at hlt e
    have hpos : k + 1023 ≠ 0 := by omega
    by_cases hi : i < 0
    · refine ⟨true, k + 1023, F, by omega, hlt, ?_, ?_⟩
      · unfold ofInt
        simp only [if_neg h0, hk, hF, if_pos hi]
        rw [BitVec.toNat_ofNat, Nat.mod_eq_of_lt]
        · simp only [if_true]; omega
        · omega
      · simp only [if_true, if_neg hpos]
        rw [e, e2, ← Int.mul_assoc]
        congr 1
        omega
    · refine ⟨false, k + 1023, F, by omega, hlt, ?_, ?_⟩
      · unfold ofInt
        simp only [if_neg h0, hk, hF, if_neg hi]
        rw [BitVec.toNat_ofNat, Nat.mod_eq_of_lt]
        · simp only [Bool.false_eq_true, if_false]; omega
        · omega
      · simp only [Bool.false_eq_true, if_false, if_neg hpos]
        rw [e, e2, Int.one_mul]
        congr 1
        omega

theorem denotes_word (w : Word) : RealValue (ofInt w.toInt) (w.toInt * 2 ^ 1074) := by
  apply denotes_ofInt
  have h1 := BitVec.le_toInt w
  have h2 := BitVec.toInt_lt (x := w)
  omega

theorem denotes_neg {x : Real} {v : Int} (h : RealValue x v) : RealValue (fneg x) (-v) := by
  obtain ⟨neg, e, f, he, hf, hx, hv⟩ := h
  refine ⟨!neg, e, f, he, hf, ?_, ?_⟩
  · unfold fneg
    rw [BitVec.toNat_ofNat, hx]
    cases neg <;> simp <;> omega
  · rw [hv, ← Int.neg_mul]; cases neg <;> rfl

theorem denotes_abs {x : Real} {v : Int} (h : RealValue x v) : RealValue (fabs x) (v.natAbs : Int) := by
  obtain ⟨neg, e, f, he, hf, hx, hv⟩ := h
  refine ⟨false, e, f, he, hf, ?_, ?_⟩
  · unfold fabs
    rw [BitVec.toNat_ofNat, hx]
    cases neg <;> simp <;> omega
  · rw [hv, Int.natAbs_mul]
    have : (if e = 0 then (f : Int) else ((2 ^ 52 + f : Nat) : Int) * 2 ^ (e - 1)) =
        ((if e = 0 then f else (2 ^ 52 + f) * 2 ^ (e - 1) : Nat) : Int) := by
      split
      · rfl
      · rw [Int.natCast_mul, Int.natCast_pow]; rfl
    rw [this, Int.natAbs_natCast]
    cases neg <;> simp

/-! ### The stack -/

/-- The state with `n` words removed. -/
def cut (s : VM) (n : Nat) : VM := { s with sp := s.sp - BitVec.ofNat 16 (2 * n) }

theorem cut_top {s : VM} {n : Nat} (h : n ≤ s.top) : (cut s n).top = s.top - n := by
  have ht : s.top = s.sp.toNat / 2 := rfl
  show (s.sp - BitVec.ofNat 16 (2 * n)).toNat / 2 = _
  have := s.sp.isLt
  rw [BitVec.toNat_sub, BitVec.toNat_ofNat]
  omega

theorem pop_cut {s : VM} {n : Nat} (h : n ≤ s.top) (h2 : s.top < s.words) :
    (cut s n).pop = .ok (opnd s n, cut s (n + 1)) := by
  have := VM.pop_eq (cut s n) (by rw [cut_top h]; show _ < s.words; omega)
  rw [this, cut_top h]
  show Res.ok (opnd s n, _) = _
  congr 2
  unfold cut
  have e : s.sp - BitVec.ofNat 16 (2 * n) - 2#16 = s.sp - BitVec.ofNat 16 (2 * (n + 1)) := by
    rw [Nat.mul_add, BitVec.ofNat_add]; bv_omega
  rw [show ({ s with sp := s.sp - BitVec.ofNat 16 (2 * n) } : VM).sp = s.sp - BitVec.ofNat 16 (2 * n) from rfl, e]

/-- The operand found `n` words below the top. -/
def argOf (s : VM) (n : Nat) (int : Bool) : Real :=
  if int then ofInt (opnd s n).toInt else real s n

theorem getArg_cut {s : VM} {n : Nat} {int : Bool} (h : n + argWords int ≤ s.top) (h2 : s.top < s.words) :
    getArg (cut s n) int = .ok (argOf s n int, cut s (n + argWords int)) := by
  cases int
  · have h : n + 4 ≤ s.top := h
    unfold getArg
    rw [if_neg (by decide), pop_cut (by omega) h2]
    simp only [Res.ok_bind]
    rw [pop_cut (by omega) h2]
    simp only [Res.ok_bind]
    rw [pop_cut (by omega) h2]
    simp only [Res.ok_bind]
    rw [pop_cut (by omega) h2]
    simp only [Res.ok_bind, Res.pure_eq, argOf, argWords, real, Bool.false_eq_true, if_false, Nat.add_assoc]
  · have h : n + 1 ≤ s.top := h
    unfold getArg
    rw [if_pos rfl, pop_cut (by omega) h2]
    simp only [Res.ok_bind, Res.pure_eq, argOf, argWords, if_true]

theorem push_word {s : VM} {n : Nat} {w : Word} (h : n ≤ s.top) (h3 : s.top + 1 - n < s.words)
    (hw : s.words ≤ 32768) :
    ∃ s', (cut { s with pc := s.pc + 2#16 } n).push w = .ok s' ∧ Loads s s' n 1 2 ∧ opnd s' 0 = w := by
  have ht : s.top = s.sp.toNat / 2 := rfl
  have hc : (cut { s with pc := s.pc + 2#16 } n).top = s.top - n := cut_top (by exact h)
  have hsp : (s.sp - BitVec.ofNat 16 (2 * n)).toNat = s.sp.toNat - 2 * n := by
    have := s.sp.isLt
    rw [BitVec.toNat_sub, BitVec.toNat_ofNat]; omega
  have hsp2 : (s.sp - BitVec.ofNat 16 (2 * n) + 2#16).toNat = s.sp.toNat - 2 * n + 2 := by
    rw [BitVec.toNat_add, hsp]; simp; omega
  rw [VM.push_eq _ _ (by rw [hc]; show _ < s.words; omega) (by rw [hc]; omega), hc]
  refine ⟨_, rfl, ⟨rfl, ?_, rfl, ?_⟩, ?_⟩
  · show (s.sp - BitVec.ofNat 16 (2 * n) + 2#16).toNat + _ = _
    omega
  · intro i hi
    show updW _ _ _ i = _
    rw [updW_other _ _ (by omega)]; rfl
  · show updW _ _ _ ((s.sp - BitVec.ofNat 16 (2 * n) + 2#16).toNat / 2 - 0) = _
    rw [hsp2, show (s.sp.toNat - 2 * n + 2) / 2 - 0 = s.top - n + 1 by omega, updW_same]

theorem real_split (v : Real) :
    (v.extractLsb' 48 16 ++ v.extractLsb' 32 16 ++ v.extractLsb' 16 16 ++ v.extractLsb' 0 16 : BitVec 64) = v := by
  apply BitVec.eq_of_getLsbD_eq; intro i hi
  simp only [BitVec.getLsbD_append, BitVec.getLsbD_extractLsb']
  by_cases h : i < 16
  · simp [h]
  · rw [if_neg h]
    by_cases h2 : i - 16 < 16
    · rw [if_pos h2, show 16 + (i - 16) = i by omega]; simp [h2]
    · rw [if_neg h2]
      by_cases h3 : i - 16 - 16 < 16
      · rw [if_pos h3, show 32 + (i - 16 - 16) = i by omega]; simp [h3]
      · rw [if_neg h3, show 48 + (i - 16 - 16 - 16) = i by omega, decide_eq_true (by omega)]
        rfl

theorem four (m : Nat → Word) (a : Nat) (w0 w1 w2 w3 : Word) :
    w3 = updW (updW (updW (updW m (a + 1) w0) (a + 1 + 1) w1) (a + 1 + 1 + 1) w2) (a + 1 + 1 + 1 + 1) w3
      (a + 1 + 1 + 1 + 1 - 0) ∧
    w2 = updW (updW (updW (updW m (a + 1) w0) (a + 1 + 1) w1) (a + 1 + 1 + 1) w2) (a + 1 + 1 + 1 + 1) w3
      (a + 1 + 1 + 1 + 1 - 1) ∧
    w1 = updW (updW (updW (updW m (a + 1) w0) (a + 1 + 1) w1) (a + 1 + 1 + 1) w2) (a + 1 + 1 + 1 + 1) w3
      (a + 1 + 1 + 1 + 1 - 2) ∧
    w0 = updW (updW (updW (updW m (a + 1) w0) (a + 1 + 1) w1) (a + 1 + 1 + 1) w2) (a + 1 + 1 + 1 + 1) w3
      (a + 1 + 1 + 1 + 1 - 3) := by
  refine ⟨?_, ?_, ?_, ?_⟩ <;> simp [updW]

theorem pushF_real {s : VM} {n : Nat} {v : Real} (h : n ≤ s.top) (h3 : s.top + 4 < s.words + n)
    (hw : s.words ≤ 32768) :
    ∃ s', pushF (cut { s with pc := s.pc + 2#16 } n) v = .ok s' ∧ Loads s s' n 4 2 ∧ real s' 0 = v := by
  have ht : s.top = s.sp.toNat / 2 := rfl
  have hc : (cut { s with pc := s.pc + 2#16 } n).top = s.top - n := cut_top (by exact h)
  have hsp : (s.sp - BitVec.ofNat 16 (2 * n)).toNat = s.sp.toNat - 2 * n := by
    have := s.sp.isLt
    rw [BitVec.toNat_sub, BitVec.toNat_ofNat]; omega
  have hlt := s.sp.isLt
  have step : ∀ (t : VM) (k : Nat) (w : Word), t.top = k → k + 1 < t.words → k + 1 < 32768 →
      t.push w = .ok { t with
          sp := t.sp + 2#16
          mem := updW t.mem (k + 1) w } ∧
        ({ t with
          sp := t.sp + 2#16
          mem := updW t.mem (k + 1) w } : VM).top = k + 1 := by
    intro t k w e h1 h2
    subst e
    exact ⟨VM.push_eq _ _ h1 h2, VM.add2_div _ (by exact h2)⟩
  unfold pushF
  obtain ⟨e1, t1⟩ := step _ _ (v.extractLsb' 0 16) hc (by show _ < s.words; omega) (by omega)
  rw [e1]; simp only [Res.ok_bind]
  obtain ⟨e2, t2⟩ := step _ _ (v.extractLsb' 16 16) t1 (by show _ < s.words; omega) (by omega)
  rw [e2]; simp only [Res.ok_bind]
  obtain ⟨e3, t3⟩ := step _ _ (v.extractLsb' 32 16) t2 (by show _ < s.words; omega) (by omega)
  rw [e3]; simp only [Res.ok_bind]
  obtain ⟨e4, t4⟩ := step _ _ (v.extractLsb' 48 16) t3 (by show _ < s.words; omega) (by omega)
  rw [e4]
  have hsp2 : (s.sp - BitVec.ofNat 16 (2 * n) + 2#16 + 2#16 + 2#16 + 2#16).toNat = s.sp.toNat - 2 * n + 8 := by
    have : (s.sp - BitVec.ofNat 16 (2 * n)).toNat + 8 < 65536 := by omega
    bv_omega
  refine ⟨_, rfl, ⟨rfl, ?_, rfl, ?_⟩, ?_⟩
  · show (s.sp - BitVec.ofNat 16 (2 * n) + 2#16 + 2#16 + 2#16 + 2#16).toNat + _ = _
    omega
  · intro i hi
    show updW _ _ _ i = _
    rw [updW_other _ _ (by omega)]
    show updW _ _ _ i = _
    rw [updW_other _ _ (by omega)]
    show updW _ _ _ i = _
    rw [updW_other _ _ (by omega)]
    show updW _ _ _ i = _
    rw [updW_other _ _ (by omega)]; rfl
  · have hd : (s.sp - BitVec.ofNat 16 (2 * n) + 2#16 + 2#16 + 2#16 + 2#16).toNat / 2 = s.top - n + 1 + 1 + 1 + 1 := by
      omega
    unfold real opnd
    show (updW _ _ _ (((s.sp - BitVec.ofNat 16 (2 * n) + 2#16 + 2#16 + 2#16 + 2#16).toNat) / 2 - 0) ++
      updW _ _ _ (((s.sp - BitVec.ofNat 16 (2 * n) + 2#16 + 2#16 + 2#16 + 2#16).toNat) / 2 - 1) ++
      updW _ _ _ (((s.sp - BitVec.ofNat 16 (2 * n) + 2#16 + 2#16 + 2#16 + 2#16).toNat) / 2 - 2) ++
      updW _ _ _ (((s.sp - BitVec.ofNat 16 (2 * n) + 2#16 + 2#16 + 2#16 + 2#16).toNat) / 2 - 3) : BitVec 64) = v
    rw [hd]
    obtain ⟨q1, q2, q3, q4⟩ := four s.mem (s.top - n) (v.extractLsb' 0 16) (v.extractLsb' 16 16)
      (v.extractLsb' 32 16) (v.extractLsb' 48 16)
    refine Eq.trans ?_ (real_split v)
    exact congr (congrArg _ (congr (congrArg _ (congr (congrArg _ q1.symm) q2.symm)) q3.symm)) q4.symm

theorem cut_zero (s : VM) : cut s 0 = s := by
  unfold cut
  rw [show s.sp - BitVec.ofNat 16 (2 * 0) = s.sp by simp]

theorem isArg_argOf (s : VM) (n : Nat) (int : Bool) : IsArg s n int (argOf s n int) := by
  unfold IsArg argOf
  split
  · exact denotes_word _
  · rfl

theorem argValue_argOf {s : VM} {n : Nat} {int : Bool} {v : Int} (h : ArgValue s n int v) :
    RealValue (argOf s n int) v := by
  unfold ArgValue at h
  unfold argOf
  split at h
  · next hi =>
    rw [h, if_pos hi]
    exact denotes_word _
  · next hi =>
    rw [if_neg hi]
    exact h

theorem get2_eq {s : VM} {b : Byte} (h : argWords (b.getLsbD 7) + argWords (b.getLsbD 6) ≤ s.top)
    (h2 : s.top < s.words) :
    get2 s b = .ok ((argOf s (argWords (b.getLsbD 7)) (b.getLsbD 6), argOf s 0 (b.getLsbD 7)),
      cut s (argWords (b.getLsbD 7) + argWords (b.getLsbD 6))) := by
  unfold get2
  have e1 := getArg_cut (s := s) (n := 0) (int := b.getLsbD 7) (by omega) h2
  rw [cut_zero] at e1
  rw [e1]
  simp only [Res.ok_bind, Nat.zero_add]
  rw [getArg_cut h h2]
  rfl

end Pas.FloatOps
