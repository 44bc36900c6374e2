import Verif.Spec.Files

/-! Specification of STR and VAL (property C69). -/
namespace Pas.Spec

/-- The forms of STR: their code, the number of words they take from the stack, and the text.  The value is pushed
first, then the field width (its upper byte counts), then the address of the string variable. -/
inductive StrCall (s : VM) : (code : Word) → (words : Nat) → (List Byte → Prop) → Prop
  | integer : StrCall s 0x15#16 3 fun out =>
      ∃ l, DecimalInt l (opnd s 2).toInt ∧ Justified ((opnd s 1).toNat / 256) l out
  | word : StrCall s 0x16#16 3 fun out =>
      ∃ l, Decimal l (opnd s 2).toNat ∧ Justified ((opnd s 1).toNat / 256) l out
  | longInteger : StrCall s 0x17#16 4 fun out =>
      ∃ l, DecimalInt l ((opnd s 2).toInt * 65536 + (opnd s 3).toNat) ∧ Justified ((opnd s 1).toNat / 256) l out
  | longWord : StrCall s 0x18#16 4 fun out =>
      ∃ l, Decimal l ((opnd s 2).toNat * 65536 + (opnd s 3).toNat) ∧ Justified ((opnd s 1).toNat / 256) l out

/-- A number as VAL takes it: blanks, an optional sign, and the decimal notation without superfluous zeros. -/
inductive DecimalText : List Byte → Int → Prop
  | plain {blanks d : List Byte} {n : Nat} (hb : ∀ b ∈ blanks, BlankChar b) (h : Decimal d n) :
      DecimalText (blanks ++ d) n
  | plus {blanks d : List Byte} {n : Nat} (hb : ∀ b ∈ blanks, BlankChar b) (h : Decimal d n) :
      DecimalText (blanks ++ 43#8 :: d) n
  | minus {blanks d : List Byte} {n : Nat} (hb : ∀ b ∈ blanks, BlankChar b) (h : Decimal d n) :
      DecimalText (blanks ++ 45#8 :: d) (-n)

/-- The situation of VAL: the address of the code, the address of the value, and the text (buffer size, address,
length) are on the stack.  The text is inside the memory and no temporary string, the string stack has room for a copy
of it, and the two variables are different words of the memory. -/
structure ValCall (s : VM) : Prop where
  stack : Room s 5
  plain : ¬Temp (opnd s 2)
  room : s.csp.toNat + (opnd s 4).toNat + 1 < s.spb.toNat
  inside : s.spb.toNat ≤ 2 * s.words
  source : (opnd s 3).toNat + (opnd s 4).toNat ≤ 2 * s.words
  apart : Apart s.csp.toNat ((opnd s 4).toNat + 1) (opnd s 3).toNat (opnd s 4).toNat
  code : (opnd s 0).toNat / 2 < s.words
  value : (opnd s 1).toNat / 2 < s.words
  targets : (opnd s 0).toNat / 2 ≠ (opnd s 1).toNat / 2

/-- 0-9, A-F, a-f. -/
def HexDigit (b : Byte) : Prop :=
  48 ≤ b.toNat ∧ b.toNat ≤ 57 ∨ 65 ≤ b.toNat ∧ b.toNat ≤ 70 ∨ 97 ≤ b.toNat ∧ b.toNat ≤ 102

end Pas.Spec
