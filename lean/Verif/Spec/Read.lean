import Verif.Spec.Statements

/-! Specification for property C79: a text with a number in each line. -/
namespace Pas.Src

/-- The text consists of the numbers `is`, each in a line of its own with blanks before and behind it, and
`more`.  Lines have at most 254 characters. -/
inductive Column : List Byte → List Int → List Byte → Prop where
  | nil {more} : Column more [] more
  | cons {blanks num trail rest i is more} : (∀ b ∈ blanks ++ trail, Spec.BlankChar b) → 10#8 ∉ blanks ++ trail →
      Spec.Numeral num i → -32767 ≤ i → i ≤ 32767 → (blanks ++ num ++ trail).length ≤ 254 →
      Column rest is more → Column (blanks ++ num ++ trail ++ 10#8 :: rest) (i :: is) more

/-- The rest of the input after a statement that has left `i`: READLN goes on to the next line. -/
def Left (ln : Bool) (i left : Inp) : Prop :=
  if ln then ∃ line, 10#8 ∉ line ∧ i.rest = line ++ 10#8 :: left.rest ∧ left.begun = false else left = i

end Pas.Src
