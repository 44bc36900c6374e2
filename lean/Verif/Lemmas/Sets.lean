import Verif.Lemmas.Memory
import Verif.Spec.Sets
import Verif.Model.SetOps

/-! Lemmas for set operations. -/
namespace Pas
open Spec SetOps

theorem ptr_eq {s : VM} {k : Nat} (h : k ≤ s.top) : ptr s k = .ok (s.top - k) := by
  rw [ptr, if_pos h]

/-- Memory after a word-wise operation on adjacent sets. -/
def zipMem (m : Nat → Word) (dest : Nat) (f : Word → Word → Word) : Nat → Word :=
  fun i => if dest ≤ i ∧ i < dest + 4 then f (m i) (m (i + 4)) else m i

theorem zip4_eq (s : VM) (dest : Nat) (f : Word → Word → Word) (h : dest + 7 < s.words) :
    zip4 s (dest + 4) dest f = .ok { s with mem := zipMem s.mem dest f } := by
  simp only [zip4, VM.rd, VM.wr, if_pos (show dest < s.words by omega),
    if_pos (show dest + 4 < s.words by omega), if_pos (show dest + 1 < s.words by omega),
    if_pos (show dest + 4 + 1 < s.words by omega), if_pos (show dest + 2 < s.words by omega),
    if_pos (show dest + 4 + 2 < s.words by omega), if_pos (show dest + 3 < s.words by omega),
    if_pos (show dest + 4 + 3 < s.words by omega), Res.ok_bind]
  congr 2
  funext i
  unfold zipMem
  by_cases h3 : i = dest + 3
  · subst h3; simp [updW]; rw [if_neg (by omega), Nat.add_right_comm]
  · rw [updW_other _ _ h3]
    by_cases h2 : i = dest + 2
    · subst h2; simp [updW]; rw [if_neg (by omega), Nat.add_right_comm]
    · rw [updW_other _ _ h2]
      by_cases h1 : i = dest + 1
      · subst h1; simp [updW]; rw [if_neg (by omega), Nat.add_right_comm]
      · rw [updW_other _ _ h1]
        by_cases h0 : i = dest
        · subst h0; simp
        · rw [updW_other _ _ h0, if_neg (by omega)]

theorem elem_zip (m : Nat → Word) (dest : Nat) (f : Word → Word → Word) (g : Bool → Bool → Bool)
    (hfg : ∀ (a b : Word), ∀ i < 16, (f a b).getLsbD i = g (a.getLsbD i) (b.getLsbD i))
    {x : Nat} (hx : x < 64) :
    elem (zipMem m dest f) dest x = g (elem m dest x) (elem m (dest + 4) x) := by
  unfold elem zipMem
  rw [if_pos (by omega), hfg _ _ _ (by omega), show dest + x / 16 + 4 = dest + 4 + x / 16 by omega]

theorem rd4_eq (s : VM) (p : Nat) (h : p + 3 < s.words) :
    rd4 s p = .ok (s.mem p, s.mem (p + 1), s.mem (p + 2), s.mem (p + 3)) := by
  simp only [rd4, VM.rd, if_pos (show p < s.words by omega), if_pos (show p + 1 < s.words by omega),
    if_pos (show p + 2 < s.words by omega), if_pos h, Res.ok_bind, Res.pure_eq]

/-- Quantification over elements is quantification over words. -/
theorem forall_elem (A B : Nat → Word) (a b : Nat) (f : Word → Word → Bool)
    (g : Bool → Bool → Bool)
    (hfg : ∀ (x y : Word), f x y = true ↔ ∀ i < 16, g (x.getLsbD i) (y.getLsbD i) = true) :
    (f (A a) (B b) && f (A (a+1)) (B (b+1)) && f (A (a+2)) (B (b+2)) && f (A (a+3)) (B (b+3))) = true
      ↔ ∀ x < 64, g (elem A a x) (elem B b x) = true := by
  simp only [Bool.and_eq_true, hfg, elem]
  constructor
  · rintro ⟨⟨⟨h0, h1⟩, h2⟩, h3⟩ x hx
    have : x / 16 = 0 ∨ x / 16 = 1 ∨ x / 16 = 2 ∨ x / 16 = 3 := by omega
    rcases this with e | e | e | e <;> rw [e]
    · exact h0 _ (by omega)
    · exact h1 _ (by omega)
    · exact h2 _ (by omega)
    · exact h3 _ (by omega)
  · intro h
    refine ⟨⟨⟨?_, ?_⟩, ?_⟩, ?_⟩ <;> intro i hi
    · have := h i (by omega)
      rw [show i / 16 = 0 by omega, show i % 16 = i by omega] at this; exact this
    · have := h (16 + i) (by omega)
      rw [show (16 + i) / 16 = 1 by omega, show (16 + i) % 16 = i by omega] at this; exact this
    · have := h (32 + i) (by omega)
      rw [show (32 + i) / 16 = 2 by omega, show (32 + i) % 16 = i by omega] at this; exact this
    · have := h (48 + i) (by omega)
      rw [show (48 + i) / 16 = 3 by omega, show (48 + i) % 16 = i by omega] at this; exact this

theorem word_eq_iff (x y : Word) :
    (x == y) = true ↔ ∀ i < 16, (x.getLsbD i == y.getLsbD i) = true := by
  rw [beq_iff_eq]
  constructor
  · rintro rfl i _; simp
  · intro h
    apply BitVec.eq_of_getLsbD_eq
    intro i hi
    exact beq_iff_eq.1 (h i hi)

theorem word_sub_iff (x y : Word) :
    (x &&& y == y) = true ↔ ∀ i < 16, (!(y.getLsbD i) || x.getLsbD i) = true := by
  rw [word_eq_iff]
  constructor
  · intro h i hi
    have := h i hi
    rw [BitVec.getLsbD_and] at this
    revert this
    cases x.getLsbD i <;> cases y.getLsbD i <;> decide
  · intro h i hi
    have := h i hi
    rw [BitVec.getLsbD_and]
    revert this
    cases x.getLsbD i <;> cases y.getLsbD i <;> decide

theorem bit_getLsbD (i j : Nat) (_hi : i < 16) (hj : j < 16) :
    (bit i).getLsbD j = decide (j = i) := by
  have : ∀ i < 16, ∀ j < 16, (bit i).getLsbD j = decide (j = i) := by decide +kernel
  exact this i _hi j hj

theorem and_bit_ne (w : Word) (i : Nat) (hi : i < 16) :
    (w &&& bit i != 0#16) = w.getLsbD i := by
  cases h : w.getLsbD i
  · have : w &&& bit i = 0#16 := by
      apply BitVec.eq_of_getLsbD_eq
      intro j hj
      rw [BitVec.getLsbD_and, bit_getLsbD i j hi hj]
      by_cases e : j = i
      · subst e; rw [h]; simp
      · simp [e]
    rw [this]; rfl
  · have : w &&& bit i ≠ 0#16 := by
      intro e
      have e' : (w &&& bit i).getLsbD i = (0#16 : Word).getLsbD i := by rw [e]
      rw [BitVec.getLsbD_and, bit_getLsbD i i hi hi, h] at e'
      simp at e'
    simp [this]

theorem filter_len_cons (p : Nat → Bool) (a : Nat) (l : List Nat) :
    ((a :: l).filter p).length = (p a).toNat + (l.filter p).length := by
  rw [List.filter_cons]
  cases p a <;> simp <;> omega

theorem nibble_count (n : Nat) (h : n < 16) : bitsInNibble n =
    (n.testBit 0).toNat + (n.testBit 1).toNat + (n.testBit 2).toNat + (n.testBit 3).toNat := by
  have : ∀ n < 16, bitsInNibble n =
    (n.testBit 0).toNat + (n.testBit 1).toNat + (n.testBit 2).toNat + (n.testBit 3).toNat := by
    decide
  exact this n h

theorem nibble_bit (w k j : Nat) (hj : j < 4) :
    (w / 2 ^ k % 16).testBit j = w.testBit (k + j) := by
  rw [show 16 = 2 ^ 4 by rfl, Nat.testBit_mod_two_pow, Nat.testBit_div_two_pow]
  simp [hj, Nat.add_comm]

theorem bits_count (w : Word) : bitsInWord w = ((List.range 16).filter w.getLsbD).length := by
  have hr : List.range 16 = [0, 1, 2, 3, 4, 5, 6, 7, 8, 9, 10, 11, 12, 13, 14, 15] := by decide
  rw [hr]
  simp only [filter_len_cons, List.filter_nil, List.length_nil, BitVec.getLsbD]
  unfold bitsInWord bitsInByte
  have hw := w.isLt
  rw [show w.toNat / 256 / 16 % 16 = w.toNat / 2 ^ 12 % 16 by omega,
    show w.toNat / 256 % 16 = w.toNat / 2 ^ 8 % 16 by omega,
    show w.toNat % 256 / 16 % 16 = w.toNat / 2 ^ 4 % 16 by omega,
    show w.toNat % 256 % 16 = w.toNat / 2 ^ 0 % 16 by omega]
  rw [nibble_count _ (by omega), nibble_count _ (by omega), nibble_count _ (by omega),
    nibble_count _ (by omega)]
  simp only [nibble_bit _ _ 0 (by omega), nibble_bit _ _ 1 (by omega), nibble_bit _ _ 2 (by omega),
    nibble_bit _ _ 3 (by omega)]
  simp only [Nat.zero_add, Nat.reduceAdd, Nat.add_zero]
  omega

theorem small_index {m : Word} (h0 : 0 ≤ m.toInt) (h1 : m.toInt < 1000) :
    m.toInt = m.toNat ∧ wordIndex m = m.toNat / 16 ∧ bitIndex m = m.toNat % 16 := by
  have h : m.toInt = m.toNat := by
    rw [BitVec.toInt_eq_toNat_cond] at h0 ⊢
    split <;> rename_i h
    · rfl
    · have := m.isLt; rw [if_neg h] at h0; omega
  refine ⟨h, ?_, rfl⟩
  have hm : m.msb = false := by
    rw [BitVec.msb_eq_false_iff_two_mul_lt]
    omega
  rw [wordIndex, BitVec.toNat_sshiftRight_of_msb_false hm, Nat.shiftRight_eq_div_pow]

/-- Memory after writing the list `l` from word `p` on. -/
def blit (m : Nat → Word) (p : Nat) (l : List Word) : Nat → Word :=
  fun i => if p ≤ i ∧ i < p + l.length then l.getD (i - p) 0 else m i

theorem blit_cons (m : Nat → Word) (p : Nat) (w : Word) (l : List Word) :
    blit (updW m p w) (p + 1) l = blit m p (w :: l) := by
  funext i
  unfold blit
  simp only [List.length_cons]
  by_cases h : i = p
  · subst h
    rw [if_neg (by omega), if_pos (by omega), updW_same]; simp
  · rw [updW_other _ _ h]
    by_cases h2 : p + 1 ≤ i ∧ i < p + 1 + l.length
    · rw [if_pos h2, if_pos (by omega)]
      rw [show i - p = (i - (p + 1)) + 1 by omega]
      simp
    · rw [if_neg h2, if_neg (by omega)]

theorem blit_nil (m : Nat → Word) (p : Nat) : blit m p [] = m := by
  funext i; unfold blit; rw [if_neg (by simp)]

/-- The words written by the loop of the subrange constructor. -/
def subVals (tailBits : Int) (tailMask : Word) : Nat → Int → Int → Word → Option (List Word)
  | 0, _, _, _ => none
  | fuel + 1, nBits, bw, mask =>
    if nBits > 0 then
      let n := nBits - bw
      (fun l => mask :: l) <$> (if n ≥ 16 then subVals tailBits tailMask fuel n 16 0xffff#16
      else if n > 0 then subVals tailBits tailMask fuel tailBits bw tailMask
      else subVals tailBits tailMask fuel n bw mask)
    else some []

theorem subLoop_eq (tb : Int) (tm : Word) (k : Nat) (n bw : Int) (mask : Word) (l : List Word)
    (h : subVals tb tm k n bw mask = some l) (fuel : Nat) (hf : k ≤ fuel) (s : VM) (wi : Nat)
    (hw : wi + l.length ≤ s.words) :
    subLoop tb tm fuel s wi n bw mask = .ok { s with mem := blit s.mem wi l } := by
  induction k generalizing n bw mask l fuel s wi with
  | zero => simp [subVals] at h
  | succ k ih =>
    obtain ⟨fuel, rfl⟩ : ∃ f, fuel = f + 1 := ⟨fuel - 1, by omega⟩
    unfold subVals at h
    unfold subLoop
    by_cases hn : n > 0
    · rw [if_pos hn] at h ⊢
      simp only [Option.map_eq_map, Option.map_eq_some_iff] at h
      obtain ⟨l', hl', rfl⟩ := h
      rw [List.length_cons] at hw
      rw [VM.wr_eq _ _ (by omega)]
      simp only [Res.ok_bind]
      by_cases h1 : n - bw ≥ 16
      · rw [if_pos h1] at hl' ⊢
        rw [ih _ _ _ _ hl' fuel (by omega) _ _ (by show wi + 1 + _ ≤ s.words; omega)]
        simp only [blit_cons]
      · rw [if_neg h1] at hl' ⊢
        by_cases h2 : n - bw > 0
        · rw [if_pos h2] at hl' ⊢
          rw [ih _ _ _ _ hl' fuel (by omega) _ _ (by show wi + 1 + _ ≤ s.words; omega)]
          simp only [blit_cons]
        · rw [if_neg h2] at hl' ⊢
          rw [ih _ _ _ _ hl' fuel (by omega) _ _ (by show wi + 1 + _ ≤ s.words; omega)]
          simp only [blit_cons]
    · rw [if_neg hn] at h ⊢
      cases h
      rw [blit_nil]

/-- The words of the constructor `[a..b]` crossing a word boundary. -/
def rangeVals (a b : Nat) : Option (List Word) :=
  subVals ((b % 16 : Nat) + 1 : Int) (0xffff#16 >>> (15 - b % 16)) 5 ((b : Int) - a + 1) (16 - a)
    (0xffff#16 <<< (a % 16))

/-- Check of the words for one pair of bounds. -/
def rangeOk (a b : Nat) : Bool :=
  match rangeVals a b with
  | none => false
  | some l => decide (a / 16 + l.length ≤ 4) && (List.range 64).all fun x =>
      (if a / 16 ≤ x / 16 then l.getD (x / 16 - a / 16) 0 else 0#16).getLsbD (x % 16) ==
        decide (a ≤ x ∧ x ≤ b)

/-- All good bounds crossing a word boundary give the right words. -/
theorem rangeVals_good : ∀ a < 64, ∀ b < 64, a < b → a / 16 ≠ b / 16 → GoodBounds a b →
    ∃ l, rangeVals a b = some l ∧ a / 16 + l.length ≤ 4 ∧ ∀ x < 64,
      (if a / 16 ≤ x / 16 then l.getD (x / 16 - a / 16) 0 else 0#16).getLsbD (x % 16) =
        decide (a ≤ x ∧ x ≤ b) := by
  have h : ∀ a < 64, ∀ b < 64, a < b ∧ a / 16 ≠ b / 16 ∧
    (a / 16 = b / 16 ∨ (a < 16 ∧ (32 ≤ b ∨ b % 16 = 15 ∨ b % 16 + 1 ≤ 16 - a))) →
    rangeOk a b = true := by decide +kernel
  intro a ha b hb hab hw hg
  have := h a ha b hb ⟨hab, hw, hg⟩
  revert this
  unfold rangeOk
  cases rangeVals a b with
  | none => intro h; cases h
  | some l =>
    intro h
    rw [Bool.and_eq_true, List.all_eq_true] at h
    exact ⟨l, rfl, of_decide_eq_true h.1, fun x hx => beq_iff_eq.1 (h.2 x (by simpa using hx))⟩

/-- Bounds in the same word. -/
theorem mask_good : ∀ a < 64, ∀ b < 64, a ≤ b → a / 16 = b / 16 → ∀ x < 64,
    (if x / 16 = a / 16 then ((0xffff#16 <<< (a % 16)) &&& (0xffff#16 >>> (15 - b % 16)))
      else 0#16).getLsbD (x % 16) = decide (a ≤ x ∧ x ≤ b) := by
  decide +kernel

/-- Memory after clearing a set. -/
theorem clear4_eq (s : VM) (p : Nat) (h : p + 3 < s.words) :
    clear4 s p = .ok { s with mem := blit s.mem p [0, 0, 0, 0] } := by
  unfold clear4
  rw [VM.wr_eq _ _ (by omega)]
  simp only [Res.ok_bind]
  rw [VM.wr_eq _ _ (by show _ < s.words; omega)]
  simp only [Res.ok_bind]
  rw [VM.wr_eq _ _ (by show _ < s.words; omega)]
  simp only [Res.ok_bind]
  rw [VM.wr_eq _ _ (by show _ < s.words; omega)]
  rw [← blit_cons, ← blit_cons, ← blit_cons, ← blit_cons, blit_nil]
  rfl

theorem blit_zero (m : Nat → Word) (p k : Nat) (hk : k < 4) : blit m p [0, 0, 0, 0] (p + k) = 0#16 := by
  unfold blit
  rw [if_pos (by simp; omega), show p + k - p = k by omega]
  have : ∀ k < 4, [0, 0, 0, 0].getD k (0 : Word) = 0#16 := by decide
  exact this k hk

theorem blit_outside (m : Nat → Word) (p : Nat) (l : List Word) {i : Nat}
    (h : i < p ∨ p + l.length ≤ i) : blit m p l i = m i := by
  unfold blit; rw [if_neg (by omega)]

end Pas
