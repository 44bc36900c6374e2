import Verif.Lemmas.VM
import Verif.Spec.Memory

/-! Lemmas for loads and stores. -/
namespace Pas
open Spec

theorem byteAt_eq (m : Nat → Word) (a : Nat) : byteAt m a = byte m a := by
  unfold byteAt byte
  rcases Nat.mod_two_eq_zero_or_one a with h | h <;> simp only [h] <;>
    (ext i; simp)

theorem byte_updB (m : Nat → Word) (a b : Nat) (v : Byte) :
    byte (updB m a v) b = if b = a then v else byte m b := by
  unfold updB byte
  by_cases hw : b / 2 = a / 2
  · rw [hw]
    rcases Nat.mod_two_eq_zero_or_one a with h | h <;>
      rcases Nat.mod_two_eq_zero_or_one b with h' | h'
    · have : b = a := by omega
      simp only [this, h, if_true, updW_same]
      ext i hi
      have hc : ((0xff00#16 : Word).getLsbD i) = false := by
        have : ∀ i < 8, ((0xff00#16 : Word).getLsbD i) = false := by decide
        exact this i hi
      simp only [BitVec.getElem_extractLsb', BitVec.getLsbD_or, BitVec.getLsbD_and, Nat.mul_zero,
        Nat.zero_add, hc, Bool.and_false, Bool.false_or]
      have : i < 16 := by omega
      simp [this, hi]
    · have : b ≠ a := by omega
      simp only [this, h, h', if_true, if_false, updW_same]
      ext i hi
      have hc : ((0xff00#16 : Word).getLsbD (8+i)) = true := by
        have : ∀ i < 8, ((0xff00#16 : Word).getLsbD (8+i)) = true := by decide
        exact this i hi
      simp [hi] at hc ⊢
      rw [hc]; simp
    · have : b ≠ a := by omega
      simp only [this, h, h', if_true, if_false, updW_same]
      ext i hi
      have hc : ((0x00ff#16 : Word).getLsbD (0+i)) = true := by
        have : ∀ i < 8, ((0x00ff#16 : Word).getLsbD (0+i)) = true := by decide
        exact this i hi
      simp [hi] at hc ⊢
      simp [hc]
    · have : b = a := by omega
      simp only [this, h, if_true, if_false, updW_same]
      ext i hi
      have hc : ((0x00ff#16 : Word).getLsbD (8+i)) = false := by
        have : ∀ i < 8, ((0x00ff#16 : Word).getLsbD (8+i)) = false := by decide
        exact this i hi
      simp only [BitVec.getElem_extractLsb', BitVec.getLsbD_or, BitVec.getLsbD_and, Nat.mul_one,
        hc, Bool.and_false, Bool.false_or]
      have h1 : i < 16 := by omega
      have h2 : 8 + i < 16 := by omega
      have h3 : ¬ 8 + i < 8 := by omega
      rw [if_neg (by decide), BitVec.getLsbD_or, BitVec.getLsbD_and, hc]
      simp [h1, h2, h3, hi]
  · have : b ≠ a := by rintro rfl; exact hw rfl
    rw [updW_other _ _ hw, if_neg this]

/-- Two consecutive pops. -/
theorem pop2_eq (s : VM) (h1 : 1 ≤ s.top) (h2 : s.top < s.words) :
    ({ s with sp := s.sp - 2#16 } : VM).pop =
      .ok (s.mem (s.top - 1), { s with sp := s.sp - 4#16 }) := by
  have ht : ({ s with sp := s.sp - 2#16 } : VM).top = s.top - 1 := VM.sub2_div _ h1
  rw [VM.pop_eq _ (by rw [ht]; show s.top - 1 < s.words; omega)]
  have : s.sp - 2#16 - 2#16 = s.sp - 4#16 := by bv_omega
  simp only [ht, this]

theorem chase_of_link {s : VM} {d : Nat} {f g : Word} (h : Link s d f g) :
    chase s d f = .ok g := by
  induction h with
  | here f => rfl
  | out inside _ ih =>
    rw [chase, VM.getStack, VM.rd_eq _ inside]
    exact ih

theorem ofInt_add_toNat (f : Word) (off : Int) :
    ((f + BitVec.ofInt 16 off).toNat : Int) = ((f.toNat : Int) + off) % 65536 := by
  rw [BitVec.toNat_add, BitVec.toNat_ofInt]
  omega

theorem getBase_of {s : VM} {lev : Byte} {off : Int} {a : Word}
    (h : FrameAddr s lev.toNat off a) : getBaseAddress s lev off = .ok a := by
  obtain ⟨f, hl, ha⟩ := h
  unfold getBaseAddress
  rw [chase_of_link hl]
  simp only [Res.ok_bind]
  congr 1
  apply BitVec.eq_of_toNat_eq
  have e := ofInt_add_toNat f off
  by_cases ho : 0 ≤ off
  · rw [if_pos (show off ≥ 0 from ho), BitVec.toNat_add]
    rw [if_pos ho] at ha
    have : fBase.toNat = 10 := rfl
    rw [this]; omega
  · rw [if_neg (show ¬ off ≥ 0 from ho)]
    rw [if_neg ho] at ha
    omega

/-- The frame address does not depend on the stack pointer. -/
theorem getBase_sp (s : VM) (x : Word) (lev : Byte) (off : Int) :
    getBaseAddress { s with sp := x } lev off = getBaseAddress s lev off := by
  have : ∀ d f, chase { s with sp := x } d f = chase s d f := by
    intro d; induction d with
    | zero => intro f; rfl
    | succ n ih =>
      intro f
      simp only [chase, VM.getStack, VM.rd]
      split
      · exact ih _
      · rfl
  simp only [getBaseAddress, this]

/-- The words pushed by a block load. -/
def blkWord (m : Nat → Word) (base n k : Nat) : Word :=
  if 2 * k + 1 < n then m (base + k) else (byte m (2 * (base + k))).zeroExtend 16

/-- Memory after a block load. -/
def pushMem (m : Nat → Word) (top base n : Nat) : Nat → Word := fun j =>
  if top < j ∧ j ≤ top + wordsFor n then blkWord m base n (j - top - 1) else m j

theorem wordsFor_zero : wordsFor 0 = 0 := rfl
theorem wordsFor_one : wordsFor 1 = 1 := rfl

theorem pushBlock_eq (n : Nat) : ∀ (s : VM) (a : Word), a.toNat % 2 = 0 →
    a.toNat / 2 + wordsFor n ≤ s.top + 1 →
    s.top + wordsFor n < s.words → s.top + wordsFor n < 32768 →
    pushBlock s a n = .ok { s with
      sp := s.sp + BitVec.ofNat 16 (2 * wordsFor n),
      mem := pushMem s.mem s.top (a.toNat / 2) n } := by
  induction n using Nat.strongRecOn with
  | _ n ih =>
    intro s a he hb hw hl
    match n with
    | 0 =>
      have : pushMem s.mem s.top (a.toNat / 2) 0 = s.mem := by
        funext j; unfold pushMem; rw [if_neg]; rw [wordsFor_zero]; omega
      rw [this]
      simp [pushBlock, wordsFor]
    | 1 =>
      rw [wordsFor_one] at hb hw hl
      simp only [pushBlock]
      rw [VM.rdB, if_pos (by omega)]
      simp only [Res.ok_bind]
      rw [VM.push_eq _ _ (by omega) (by omega)]
      congr 2
      funext j
      simp only [updW, pushMem]
      rw [wordsFor_one]
      by_cases h : j = s.top + 1
      · rw [if_pos h, if_pos (by omega)]
        have e1 : j - s.top - 1 = 0 := by omega
        have e2 : 2 * (a.toNat / 2) = a.toNat := by omega
        rw [blkWord, if_neg (by omega), e1, byteAt_eq, Nat.add_zero, e2]
      · rw [if_neg h, if_neg (by omega)]
    | n + 2 =>
      have hR : wordsFor (n + 2) = wordsFor n + 1 := by simp only [wordsFor]; omega
      rw [hR] at hb hw hl
      simp only [pushBlock, VM.getStack]
      rw [VM.rd_eq _ (by omega)]
      simp only [Res.ok_bind]
      rw [VM.push_eq _ _ (by omega) (by omega)]
      simp only [Res.ok_bind]
      have ht : ({ s with
          sp := s.sp + 2#16,
          mem := updW s.mem (s.top + 1) (s.mem (a.toNat / 2)) } : VM).top = s.top + 1 :=
        VM.add2_div _ (by show s.top + 1 < 32768; omega)
      have hlt := s.top_lt
      have ha2 : (a + 2#16).toNat = a.toNat + 2 ∨ n = 0 := by
        rcases n with _ | n
        · right; rfl
        · left
          have : wordsFor (n + 1) ≥ 1 := by simp only [wordsFor]; omega
          bv_omega
      have main : ∀ a' : Word, (n = 0 ∨ a'.toNat = a.toNat + 2) →
          pushMem (updW s.mem (s.top + 1) (s.mem (a.toNat / 2))) (s.top + 1) (a'.toNat / 2) n
            = pushMem s.mem s.top (a.toNat / 2) (n + 2) := by
        intro a' ha'
        funext j
        unfold pushMem
        rw [hR]
        by_cases h1 : j = s.top + 1
        · rw [if_neg (by omega), if_pos (by omega), h1, updW_same, blkWord, if_pos (by omega)]
          congr 1; omega
        · by_cases h2 : s.top < j ∧ j ≤ s.top + (wordsFor n + 1)
          · have hn : n ≠ 0 := by
              rintro rfl; simp only [wordsFor] at h2; omega
            have ha'' : a'.toNat = a.toNat + 2 := by rcases ha' with h | h; exact absurd h hn; exact h
            have e : a'.toNat / 2 = a.toNat / 2 + 1 := by omega
            rw [if_pos (by omega), if_pos h2, blkWord, blkWord, e]
            have hk : a.toNat / 2 + 1 + (j - (s.top + 1) - 1) = a.toNat / 2 + (j - s.top - 1) := by
              omega
            rw [hk]
            have hne : a.toNat / 2 + (j - s.top - 1) ≠ s.top + 1 := by omega
            rw [updW_other _ _ hne]
            have : byte (updW s.mem (s.top + 1) (s.mem (a.toNat / 2)))
                (2 * (a.toNat / 2 + (j - s.top - 1))) =
                byte s.mem (2 * (a.toNat / 2 + (j - s.top - 1))) := by
              unfold byte
              rw [updW_other]
              omega
            rw [this]
            by_cases h3 : 2 * (j - (s.top + 1) - 1) + 1 < n
            · rw [if_pos h3, if_pos (by omega)]
            · rw [if_neg h3, if_neg (by omega)]
          · rw [if_neg (by omega), if_neg h2, updW_other _ _ h1]
      rcases ha2 with ha2 | rfl
      · rw [ih n (by omega) _ _ (by omega) (by rw [ht]; omega)
          (by rw [ht]; show s.top + 1 + wordsFor n < s.words; omega) (by rw [ht]; omega), ht]
        congr 2
        · exact main _ (.inr ha2)
        · rw [hR]; show s.sp + 2#16 + _ = _
          rw [BitVec.add_assoc]; congr 1
          apply BitVec.eq_of_toNat_eq
          simp only [BitVec.toNat_add, BitVec.toNat_ofNat]; omega
      · simp only [pushBlock]
        congr 2
        have := main (a + 2#16) (.inl rfl)
        rw [← this]
        funext j
        unfold pushMem
        rw [wordsFor_zero, if_neg (by omega)]

/-- Memory after a block store of the `n` bytes on top of the stack. -/
def storeMem (m : Nat → Word) (top base n : Nat) : Nat → Word := fun j =>
  if base ≤ j ∧ j < base + n / 2 then m (top + 1 - wordsFor n + (j - base))
  else if n % 2 = 1 ∧ j = base + n / 2 then updB m (2 * j) ((m top).truncate 8) j
  else m j

theorem storeBlock_eq (n : Nat) : ∀ (s : VM) (a : Word), a.toNat % 2 = 0 →
    (a.toNat / 2 + wordsFor n ≤ s.top + 1 - wordsFor n ∨ s.top < a.toNat / 2) →
    wordsFor n ≤ s.top + 1 → s.top < s.words → a.toNat / 2 + wordsFor n ≤ s.words →
    a.toNat + n ≤ 65536 →
    storeBlock s a n = .ok { s with mem := storeMem s.mem s.top (a.toNat / 2) n } := by
  induction n using Nat.strongRecOn with
  | _ n ih =>
    intro s a he hd hn ht hw hl
    match n with
    | 0 =>
      have : storeMem s.mem s.top (a.toNat / 2) 0 = s.mem := by
        funext j; simp only [storeMem]; rw [if_neg (by omega), if_neg (by omega)]
      rw [this]; rfl
    | 1 =>
      rw [wordsFor_one] at hd hn hw
      simp only [storeBlock]
      rw [VM.tos_eq _ ht (by omega)]
      simp only [Res.ok_bind]
      rw [VM.wrB, if_pos (by omega)]
      congr 2
      funext j
      have e2 : 2 * (a.toNat / 2) = a.toNat := by omega
      unfold storeMem
      rw [wordsFor_one, Nat.sub_zero]
      by_cases h : j = a.toNat / 2
      · rw [if_neg (by omega), if_pos (by omega), h, e2]
      · rw [if_neg (by omega), if_neg (by omega)]
        rw [updB, updW_other _ _ h]
    | n + 2 =>
      have hR : wordsFor (n + 2) = wordsFor n + 1 := by simp only [wordsFor]; omega
      have hR' : roundBtoI (n + 2) = wordsFor n + 1 := hR
      rw [hR] at hd hn hw
      simp only [storeBlock, hR']
      rw [VM.tos_eq _ ht (by omega)]
      simp only [Res.ok_bind, VM.putStack]
      rw [VM.wr_eq _ _ (by omega)]
      simp only [Res.ok_bind]
      have main : ∀ a' : Word, (n = 0 ∨ a'.toNat = a.toNat + 2) →
          storeMem (updW s.mem (a.toNat / 2) (s.mem (s.top - (wordsFor n + 1 - 1)))) s.top
            (a'.toNat / 2) n = storeMem s.mem s.top (a.toNat / 2) (n + 2) := by
        intro a' ha'
        funext j
        unfold storeMem
        rw [hR]
        have hq : (n + 2) / 2 = n / 2 + 1 := by omega
        have hm : (n + 2) % 2 = n % 2 := by omega
        rw [hq, hm]
        by_cases h1 : j = a.toNat / 2
        · have hne : ¬ (a'.toNat / 2 ≤ j ∧ j < a'.toNat / 2 + n / 2) := by
            rcases ha' with h | h <;> omega
          have hne2 : ¬ (n % 2 = 1 ∧ j = a'.toNat / 2 + n / 2) := by
            rcases ha' with h | h <;> omega
          rw [if_neg hne, if_neg hne2, if_pos (by omega), h1, updW_same]
          congr 1; omega
        · by_cases hn0 : n = 0
          · subst hn0
            rw [if_neg (by omega), if_neg (by omega), if_neg (by omega), if_neg (by omega),
              updW_other _ _ h1]
          · have ha'' : a'.toNat = a.toNat + 2 := by
              rcases ha' with h | h; exact absurd h hn0; exact h
            have e : a'.toNat / 2 = a.toNat / 2 + 1 := by omega
            rw [e]
            have hwn : 2 * wordsFor n = n + n % 2 := by simp only [wordsFor]; omega
            by_cases h2 : a.toNat / 2 + 1 ≤ j ∧ j < a.toNat / 2 + 1 + n / 2
            · rw [if_pos h2, if_pos (by omega), updW_other _ _ (by omega)]
              congr 1; omega
            · by_cases h3 : n % 2 = 1 ∧ j = a.toNat / 2 + 1 + n / 2
              · rw [if_neg h2, if_pos h3, if_neg (by omega), if_pos (by omega)]
                have hj : 2 * j / 2 = j := by omega
                simp only [updB, hj, updW_same]
                rw [updW_other _ _ h1, updW_other _ _ (by omega)]
              · rw [if_neg h2, if_neg h3, if_neg (by omega), if_neg (by omega), updW_other _ _ h1]
      by_cases hn0 : n = 0
      · subst hn0
        simp only [storeBlock]
        have := main (a + 2#16) (.inl rfl)
        simp only [wordsFor] at this ⊢
        rw [← this]
        congr 2
        funext j
        unfold storeMem
        rw [if_neg (by omega), if_neg (by omega)]
      · have ha2 : (a + 2#16).toNat = a.toNat + 2 := by bv_omega
        have htt : ({ s with
            mem := updW s.mem (a.toNat / 2) (s.mem (s.top - (wordsFor n + 1 - 1))) } : VM).top
            = s.top := rfl
        rw [ih n (by omega) _ _ (by omega) (by rw [htt]; omega) (by rw [htt]; omega)
          (by rw [htt]; exact ht) (by show _ ≤ s.words; omega) (by omega), htt]
        congr 2
        exact main _ (.inr ha2)

end Pas
