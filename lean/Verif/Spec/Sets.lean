import Verif.Spec.Memory

/-! Specification of set values (properties C11-C15): a set of ordinals 0..63 occupies four
consecutive words; ordinal `x` is represented by bit `x mod 16` of word `x div 16`. -/
namespace Pas.Spec

/-- Is `x` an element of the set stored from word `base` on? -/
def elem (m : Nat → Word) (base x : Nat) : Bool := (m (base + x / 16)).getLsbD (x % 16)

/-- First word of a set whose last word is the `k`-th word below the top of stack. -/
def setAt (s : VM) (k : Nat) : Nat := s.sp.toNat / 2 - (k + 3)

/-- The set operators by their code. -/
inductive SetOperator : Byte → (Bool → Bool → Bool) → Prop
  | intersection : SetOperator 2#8 (fun a b => a && b)
  | union : SetOperator 3#8 (fun a b => a || b)
  | difference : SetOperator 4#8 (fun a b => a && !b)
  | symmetricDifference : SetOperator 5#8 (fun a b => a != b)

/-- The set relations by their code: `A` is the set pushed first. -/
inductive SetRelation : Byte → ((Nat → Bool) → (Nat → Bool) → Prop) → Prop
  | equal : SetRelation 6#8 (fun A B => ∀ x < 64, A x = B x)
  | notEqual : SetRelation 7#8 (fun A B => ∃ x < 64, A x ≠ B x)
  | subset : SetRelation 8#8 (fun A B => ∀ x < 64, A x = true → B x = true)

/-- Number of elements. -/
def card (A : Nat → Bool) : Nat := ((List.range 64).filter A).length

/-- Bounds for which the constructor `[a..b]` of the code is right: both in the same word, or
`a` in the first word and `b` beyond the second word, at its end, or with a tail no longer than
the lead. -/
def GoodBounds (a b : Nat) : Prop :=
  a / 16 = b / 16 ∨ (a < 16 ∧ (32 ≤ b ∨ b % 16 = 15 ∨ b % 16 + 1 ≤ 16 - a))

end Pas.Spec
