import Verif.Spec.Source

/-! All that a source file can spell: a complete list of the tokens and of what stands between them, to say what the
characters that have been read were.  `Verif.Spec.Source` is the part of it a program should use. -/
namespace Pas.Src
open Pas.Comp (Tk Lx)
open Pas.Spec (SameName Identifier IdentChar Digit Letter Layout Blank decimal hexDigit hexadecimal quoted RealNumber)

/-- A character of a line: a blank or no control character. -/
def TextChar (c : Byte) : Prop := c ≠ 10#8 ∧ (Blank c ∨ 32 ≤ c.toNat)

instance (c : Byte) : Decidable (TextChar c) := by unfold TextChar Blank; infer_instance

/-- A text file with these lines: each has at most 254 characters, none of them a control character, and ends with
the end of the line. -/
structure TextFile (file : List Byte) (lines : List (List Byte)) : Prop where
  some : lines ≠ []
  chars : ∀ l ∈ lines, ∀ c ∈ l, TextChar c
  short : ∀ l ∈ lines, l.length ≤ 254
  file : file = lines.flatMap fun l => l ++ [10#8]

/-- What the compiler reads when it goes on after the end of the file: a question mark and the last line, again and
again. -/
def afterEnd (lines : List (List Byte)) (k : Nat) : List Byte :=
  (List.replicate k (63#8 :: (lines.getLastD [] ++ [10#8]))).flatten

/-- What may stand between tokens: white space, the three kinds of comments that `Layout` has, comments from `//` to
the end of the line, and characters that are not ASCII characters. -/
inductive Gap : List Byte → Prop where
  | nil : Gap []
  | blank (b : Byte) {cs} : Blank b → Gap cs → Gap (b :: cs)
  | brace (body : List Byte) {cs} : 125#8 ∉ body → Gap cs → Gap (123#8 :: (body ++ 125#8 :: cs))
  | paren (body : List Byte) {cs} : ¬ [42#8, 41#8] <:+: body → Gap cs →
      Gap (40#8 :: 42#8 :: (body ++ 42#8 :: 41#8 :: cs))
  | slash (body : List Byte) {cs} : ¬ [42#8, 47#8] <:+: body → Gap cs →
      Gap (47#8 :: 42#8 :: (body ++ 42#8 :: 47#8 :: cs))
  | line (body : List Byte) {cs} : 10#8 ∉ body → Gap cs → Gap (47#8 :: 47#8 :: (body ++ 10#8 :: cs))
  | high (b : Byte) {cs} : 128 ≤ b.toNat → Gap cs → Gap (b :: cs)

/-- A spelling of a name: the name itself or another name for it. -/
def Names (w k : List Byte) : Prop := SameName k w ∨ ∃ p ∈ Names.aliases, SameName p.1 w ∧ SameName k p.2

/-- `Token w x stop`: the characters `w` are the token `x` if the two characters behind them have `stop`. -/
inductive Token : List Byte → Lx → (Byte → Byte → Prop) → Prop where
  /-- A name, which is not a word of the language. -/
  | name {w} : Identifier w → (∀ k ∈ Names.reserved, ¬ Names w k.name) →
      Token w (.name w) fun c _ => ¬ IdentChar c
  /-- The words of the part of the language that is modelled. -/
  | word {w k x} : (k, x) ∈ words → SameName k w → Token w x fun c _ => ¬ IdentChar c
  /-- The other words: none of them is taken for one of the former. -/
  | otherWord {w k c} : k ∈ Names.reserved → Names w k.name → (∀ p ∈ words, p.1 ≠ k.name ∧ p.2 ≠ .tk (.other c)) →
      Token w (.tk (.other c)) fun c _ => ¬ IdentChar c
  | symbol {w t no} : (w, t, no) ∈ symbols → Token w (.tk t) fun c _ => c ∉ no
  /-- Characters without a meaning in the part of the language that is modelled. -/
  | other {b : Byte} : b ∈ [33#8, 34#8, 36#8, 63#8, 64#8, 92#8, 94#8, 96#8, 125#8, 127#8] →
      Token [b] (.tk (.other b.toNat)) fun _ _ => True
  /-- A number, also directly before `..`. -/
  | number {ds} : ds ≠ [] → (∀ d ∈ ds, Digit d) → decimal ds < 2 ^ 32 →
      Token ds (.tk (.int (BitVec.ofNat 32 (decimal ds)))) fun c c' =>
        ¬ Digit c ∧ c ≠ 101#8 ∧ c ≠ 69#8 ∧ (c = 46#8 → c' = 46#8)
  /-- A number with a percent sign is hexadecimal. -/
  | hex {ds} : ds ≠ [] → (∀ d ∈ ds, (hexDigit d).isSome) → hexadecimal ds < 2 ^ 32 →
      Token (37#8 :: ds) (.tk (.int (BitVec.ofNat 32 (hexadecimal ds)))) fun c _ => hexDigit c = none
  /-- A percent sign alone is taken for some number. -/
  | percent {v} : Token [37#8] (.tk (.int v)) fun c _ => hexDigit c = none
  /-- Real numbers are not modelled further. -/
  | real {w m e} : RealNumber w m e → Token w (.tk (.other 5)) fun c _ => ¬ Digit c
  | char {b} : b ≠ 10#8 → Token (quoted [b]) (.tk (.char (b.signExtend 32))) fun c _ => c ≠ 39#8
  | string {t} : t.length ≠ 1 → 10#8 ∉ t → Token (quoted t) (.tk (.str t)) fun c _ => c ≠ 39#8

/-- `Spelled cs xs`: the characters `cs` begin with the tokens `xs`, with gaps before them. -/
inductive Spelled : List Byte → List Lx → Prop where
  | nil {cs} : Spelled cs []
  | cons {l w x stop c c' t xs} : Gap l → Token w x stop → stop c c' → Spelled (c :: c' :: t) xs →
      Spelled (l ++ (w ++ c :: c' :: t)) (x :: xs)

end Pas.Src
