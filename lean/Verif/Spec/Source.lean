import Verif.Spec.Tokens
import Verif.Spec.Program

/-! How the tokens of a program are written as characters. -/
namespace Pas.Src
open Pas.Comp (Tk Lx)
open Pas.Spec (SameName Identifier IdentChar Digit Layout decimal quoted)

/-- The word symbols and the names of the standard procedures and functions, as they are written in
upper case. -/
def words : List (List Byte × Lx) := [
  ([65, 78, 68], .tk .and_),
  ([65, 82, 82, 65, 89], .tk (.other 0x81)),
  ([66, 69, 71, 73, 78], .tk .begin_),
  ([66, 82, 69, 65, 75], .tk .break_),
  ([67, 65, 83, 69], .tk .case_),
  ([67, 79, 78, 83, 84], .tk (.other 0x84)),
  ([67, 79, 78, 84, 73, 78, 85, 69], .tk .continue_),
  ([68, 73, 86], .tk .div_),
  ([68, 79], .tk .do_),
  ([68, 79, 87, 78, 84, 79], .tk .downto_),
  ([69, 76, 83, 69], .tk .else_),
  ([69, 78, 68], .tk .end_),
  ([70, 79, 82], .tk .for_),
  ([73, 70], .tk .if_),
  ([73, 78], .tk .in_),
  ([77, 79, 68], .tk .mod_),
  ([78, 79, 84], .tk .not_),
  ([79, 70], .tk .of_),
  ([79, 82], .tk .or_),
  ([82, 69, 65, 68], .tk .read_),
  ([82, 69, 65, 68, 76, 78], .tk .readln_),
  ([82, 69, 80, 69, 65, 84], .tk .repeat_),
  ([83, 72, 76], .tk .shl),
  ([83, 72, 82], .tk .shr),
  ([84, 72, 69, 78], .tk .then_),
  ([84, 79], .tk .to_),
  ([85, 78, 84, 73, 76], .tk .until_),
  ([87, 72, 73, 76, 69], .tk .while_),
  ([87, 82, 73, 84, 69], .tk .write_),
  ([87, 82, 73, 84, 69, 76, 78], .tk .writeln_),
  ([88, 79, 82], .tk .xor_),
  ([65, 66, 83], .tk Fn.abs.tk),
  ([67, 72, 82], .tk Fn.chr.tk),
  ([79, 68, 68], .tk Fn.odd.tk),
  ([79, 82, 68], .tk Fn.ord.tk),
  ([80, 82, 69, 68], .tk Fn.pred.tk),
  ([83, 81, 82], .tk Fn.sqr.tk),
  ([83, 85, 67, 67], .tk Fn.succ.tk),
  ([86, 65, 82], .var_),
  ([80, 82, 79, 67, 69, 68, 85, 82, 69], .tk (.other 0x9c)),
  ([80, 82, 79, 71, 82, 65, 77], .tk (.other 0x9d))]

/-- The symbols made of special characters, with the characters that must not follow (because then
another symbol or a comment starts). -/
def symbols : List (List Byte × Tk × List Byte) := [
  ([58, 61], .assign, []),
  ([58], .colon, [61]),
  ([60, 62], .ne, []),
  ([60, 61], .le, []),
  ([60, 60], .shl, []),
  ([60], .lt, [60, 61, 62]),
  ([62, 60], .symdiff, []),
  ([62, 61], .ge, []),
  ([62, 62], .shr, []),
  ([62], .gt, [60, 61, 62]),
  ([43], .plus, []),
  ([45], .minus, []),
  ([42], .mul, []),
  ([47], .fdiv, [42, 47]),
  ([61], .eq, []),
  ([44], .comma, []),
  ([59], .semi, []),
  ([40], .lparen, [42]),
  ([41], .rparen, []),
  ([91], .lbracket, []),
  ([93], .rbracket, []),
  ([46, 46], .other 0x0b, []),
  ([126], .tilde, []),
  ([124], .bar, []),
  ([38], .amp, []),
  ([35], .ne, []),
  ([46], .period, [46, 48, 49, 50, 51, 52, 53, 54, 55, 56, 57])]

/-- `Lexeme w x stop`: the characters `w`, followed by a character with `stop`, are the token `x`.
Names are not words of the language; names and words are written in any mixture of upper and lower
case. -/
inductive Lexeme : List Byte → Lx → (Byte → Prop) → Prop where
  | name {w} : Identifier w → Plain w → (∀ k ∈ Names.reserved, ¬ SameName k.name w) →
      Lexeme w (.name w) fun c => ¬ IdentChar c
  | word {w k x} : (k, x) ∈ words → SameName k w → Lexeme w x fun c => ¬ IdentChar c
  | symbol {w t no} : (w, t, no) ∈ symbols → Lexeme w (.tk t) fun c => c ∉ no
  | number {ds} : ds ≠ [] → (∀ d ∈ ds, Digit d) → decimal ds < 2 ^ 32 →
      Lexeme ds (.tk (.int (BitVec.ofNat 32 (decimal ds)))) fun c => ¬ IdentChar c ∧ c ≠ 46#8
  | char {b} : b.toNat < 128 → b ≠ 10#8 →
      Lexeme (quoted [b]) (.tk (.char (b.zeroExtend 32))) fun c => c ≠ 39#8
  | string {t} : t.length ≠ 1 → 10#8 ∉ t → 0#8 ∉ t →
      Lexeme (quoted t) (.tk (.str t)) fun c => c ≠ 39#8

/-- `Written cs xs`: the characters `cs` are the tokens `xs`, with white space and comments before them,
and anything behind the last. -/
inductive Written : List Byte → List Lx → Prop where
  | last {l w x stop c t} : Layout l → Lexeme w x stop → stop c → w.length ≤ 65535 →
      Written (l ++ (w ++ c :: t)) [x]
  | cons {l w x stop c t y xs} : Layout l → Lexeme w x stop → stop c → w.length ≤ 65535 →
      Written (c :: t) (y :: xs) → Written (l ++ (w ++ c :: t)) (x :: y :: xs)
  /-- A number directly before `..`. -/
  | range {l ds t y xs} : Layout l → ds ≠ [] → (∀ d ∈ ds, Digit d) → decimal ds < 2 ^ 32 → ds.length ≤ 65535 →
      Written (46#8 :: 46#8 :: t) (y :: xs) →
      Written (l ++ (ds ++ 46#8 :: 46#8 :: t)) (.tk (.int (BitVec.ofNat 32 (decimal ds))) :: y :: xs)

/-- After some tokens, none of them the period, a string is not closed at the end of its line. -/
inductive Unclosed : List Byte → Prop where
  | here {l : List Byte} {u t : List Byte} : Layout l → 10#8 ∉ u → u.length ≤ 65535 →
      Unclosed (l ++ 39#8 :: (u.flatMap (fun c => if c = 39#8 then [39#8, 39#8] else [c]) ++ 10#8 :: t))
  | later {l w x stop c t} : Layout l → Lexeme w x stop → stop c → w.length ≤ 65535 → x ≠ .tk .period →
      Unclosed (c :: t) → Unclosed (l ++ (w ++ c :: t))

end Pas.Src
