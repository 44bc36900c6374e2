import Verif.Spec.Poff
/-! Lemmas about byte images of 16- and 32-bit fields. -/
namespace Pas.Poff
open Pas.Spec

theorem below8 {i : Nat} (h : i < 8) : i = 0 ∨ i = 1 ∨ i = 2 ∨ i = 3 ∨ i = 4 ∨ i = 5 ∨ i = 6 ∨ i = 7 := by
  omega

/-- Two bytes agree if their eight bits do. -/
theorem byte_ext {a b : Byte} (h : ∀ i, i < 8 → a.getLsbD i = b.getLsbD i) : a = b := by
  apply BitVec.eq_of_getLsbD_eq
  intro i hi; exact h i hi

theorem le16_swap (v : Word) : le16 (swap16 v) = be16 v := by
  simp only [le16, be16, swap16, List.cons.injEq, and_true]
  constructor <;>
  · apply byte_ext
    intro i hi
    rcases below8 hi with rfl | rfl | rfl | rfl | rfl | rfl | rfl | rfl <;> simp

theorem le32_swap (v : U32) : le32 (swap32 v) = be32 v := by
  simp only [le32, be32, swap32, List.cons.injEq, and_true]
  refine ⟨?_, ?_, ?_, ?_⟩ <;>
  · apply byte_ext
    intro i hi
    rcases below8 hi with rfl | rfl | rfl | rfl | rfl | rfl | rfl | rfl <;> simp <;> decide

theorem le16_reverse (v : Word) : (le16 v).reverse = be16 v := rfl

theorem le32_reverse (v : U32) : (le32 v).reverse = be32 v := rfl

/-- The two bytes determine the value. -/
theorem le16_inj {a b : Word} (h : le16 a = le16 b) : a = b := by
  simp only [le16, List.cons.injEq, and_true] at h
  apply BitVec.eq_of_toNat_eq
  have h0 := congrArg BitVec.toNat h.1
  have h1 := congrArg BitVec.toNat h.2
  simp [Nat.shiftRight_eq_div_pow] at h0 h1
  have := a.isLt; have := b.isLt
  omega

theorem le32_inj {a b : U32} (h : le32 a = le32 b) : a = b := by
  simp only [le32, List.cons.injEq, and_true] at h
  apply BitVec.eq_of_toNat_eq
  have h0 := congrArg BitVec.toNat h.1
  have h1 := congrArg BitVec.toNat h.2.1
  have h2 := congrArg BitVec.toNat h.2.2.1
  have h3 := congrArg BitVec.toNat h.2.2.2
  simp [Nat.shiftRight_eq_div_pow] at h0 h1 h2 h3
  have := a.isLt; have := b.isLt
  omega

theorem swap16_swap16 (v : Word) : swap16 (swap16 v) = v := by
  apply le16_inj
  rw [le16_swap]
  have := le16_swap v
  simp only [le16, be16, List.cons.injEq, and_true] at this ⊢
  exact ⟨this.2, this.1⟩

theorem swap32_swap32 (v : U32) : swap32 (swap32 v) = v := by
  apply le32_inj
  rw [le32_swap]
  have := le32_swap v
  simp only [le32, be32, List.cons.injEq, and_true] at this ⊢
  exact ⟨this.2.2.2, this.2.2.1, this.2.1, this.1⟩

@[simp] theorem le16_length (v : Word) : (le16 v).length = 2 := rfl
@[simp] theorem le32_length (v : U32) : (le32 v).length = 4 := rfl

theorem le16_of_bytes (a b : Byte) : le16 (BitVec.ofNat 16 (a.toNat + 256 * b.toNat)) = [a, b] := by
  simp only [le16, List.cons.injEq, and_true]
  have := a.isLt; have := b.isLt
  constructor <;>
  · apply BitVec.eq_of_toNat_eq
    simp [Nat.shiftRight_eq_div_pow]; omega

theorem le32_of_bytes (a b c d : Byte) :
    le32 (BitVec.ofNat 32 (a.toNat + 256 * b.toNat + 65536 * c.toNat + 16777216 * d.toNat))
      = [a, b, c, d] := by
  simp only [le32, List.cons.injEq, and_true]
  have := a.isLt; have := b.isLt; have := c.isLt; have := d.isLt
  refine ⟨?_, ?_, ?_, ?_⟩ <;>
  · apply BitVec.eq_of_toNat_eq
    simp [Nat.shiftRight_eq_div_pow]; omega

/-- Reading back a stored 32-bit value. -/
theorem rd32_le32 (pre : List Byte) (v : U32) (post : List Byte) (i : Nat) (h : pre.length = i) :
    rd32 (pre ++ (le32 v ++ post)) i = v := by
  subst h
  apply le32_inj
  rw [rd32, le32_of_bytes]
  have e : ∀ k, k < 4 → (pre ++ (le32 v ++ post)).getD (pre.length + k) 0 = (le32 v).getD k 0 := by
    intro k hk
    simp only [List.getD_eq_getElem?_getD]
    rw [List.getElem?_append_right (by omega), List.getElem?_append_left (by simp; omega)]
    simp
  rw [e 3 (by omega), e 2 (by omega), e 1 (by omega)]
  have := e 0 (by omega)
  simp only [Nat.add_zero] at this
  rw [this]
  rfl

/-- Reading back a stored 16-bit value. -/
theorem rd16_le16 (pre : List Byte) (v : Word) (post : List Byte) (i : Nat) (h : pre.length = i) :
    rd16 (pre ++ (le16 v ++ post)) i = v := by
  subst h
  apply le16_inj
  rw [rd16, le16_of_bytes]
  have e : ∀ k, k < 2 → (pre ++ (le16 v ++ post)).getD (pre.length + k) 0 = (le16 v).getD k 0 := by
    intro k hk
    simp only [List.getD_eq_getElem?_getD]
    rw [List.getElem?_append_right (by omega), List.getElem?_append_left (by simp; omega)]
    simp
  rw [e 1 (by omega)]
  have := e 0 (by omega)
  simp only [Nat.add_zero] at this
  rw [this]
  rfl

end Pas.Poff
