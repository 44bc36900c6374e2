import Verif.Spec.Float
import Verif.Spec.Files
import Verif.Model.FloatOps
import Mathlib.Tactic.Linarith

/-! The number in a text and the number a REAL stands for (READ of REALs, property C65). -/
namespace Pas.Spec

/-- `x` represents the rational number `q`. -/
def RealIs (x : BitVec 64) (q : ℚ) : Prop := ∃ v : Int, RealValue x v ∧ q = v / 2 ^ 1074

/-- The arithmetic of the host rounds as IEEE 754 says, in any direction: the result is off by less than a unit of
the last place (a 2^-52th part of it, or 2^-1074 for the smallest numbers), if it is not too large. -/
structure Ieee (fpu : FloatOps.Fpu) : Prop where
  add : ∀ x y a b, RealIs x a → RealIs y b → |a + b| ≤ 2 ^ 1000 →
    ∃ c, RealIs (fpu.add x y) c ∧ |c - (a + b)| ≤ |a + b| / 2 ^ 52 + 1 / 2 ^ 1074
  mul : ∀ x y a b, RealIs x a → RealIs y b → |a * b| ≤ 2 ^ 1000 →
    ∃ c, RealIs (fpu.mul x y) c ∧ |c - a * b| ≤ |a * b| / 2 ^ 52 + 1 / 2 ^ 1074
  div : ∀ x y a b, RealIs x a → RealIs y b → b ≠ 0 → |a / b| ≤ 2 ^ 1000 →
    ∃ c, RealIs (fpu.div x y) c ∧ |c - a / b| ≤ |a / b| / 2 ^ 52 + 1 / 2 ^ 1074

/-- `d` consists of digits and is the notation of `n`; it may be empty. -/
structure DigitText (d : List Byte) (n : Nat) : Prop where
  digits : ∀ b ∈ d, 48 ≤ b.toNat ∧ b.toNat ≤ 57
  value : d.foldl (fun v b => 10 * v + (b.toNat - 48)) 0 = n

/-- The notation of the non-negative number with whole part `whole` and `places` digits behind the point,
which are those of `part`: digits, and a point with further digits if there are any. -/
inductive RealUnsigned : List Byte → (whole places part : Nat) → Prop
  | whole {w : List Byte} {i : Nat} (h : DigitText w i) (h0 : w ≠ []) : RealUnsigned w i 0 0
  | point {w d : List Byte} {i f : Nat} (h : DigitText w i) (hd : DigitText d f) (h0 : w ≠ [] ∨ d ≠ []) :
      RealUnsigned (w ++ 46#8 :: d) i d.length f

/-- The number with its sign. -/
inductive RealText : List Byte → (neg : Bool) → (whole places part : Nat) → Prop
  | none {w : List Byte} {i n f : Nat} (h : RealUnsigned w i n f) : RealText w false i n f
  | plus {w : List Byte} {i n f : Nat} (h : RealUnsigned w i n f) : RealText (43#8 :: w) false i n f
  | minus {w : List Byte} {i n f : Nat} (h : RealUnsigned w i n f) : RealText (45#8 :: w) true i n f

/-- The number written. -/
def written (neg : Bool) (whole places part : Nat) : ℚ :=
  (if neg then -1 else 1) * (whole + part / 10 ^ places)

/-- What follows does not continue the number, by a digit, a point or an exponent. -/
def Ends (places : Nat) (tail : List Byte) : Prop :=
  ∀ c, tail.head? = some c → ¬(48 ≤ c.toNat ∧ c.toNat ≤ 57) ∧ (places = 0 → c ≠ 46#8) ∧ c ≠ 69#8 ∧ c ≠ 101#8

/-- The REAL in the four words of a variable. -/
def realAt (m : Nat → Word) (a : Nat) : BitVec 64 := m (a + 3) ++ m (a + 2) ++ m (a + 1) ++ m a

end Pas.Spec
