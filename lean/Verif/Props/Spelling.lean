import Verif.Lemmas.SpellingEnd
import Verif.Props.AcceptFile

/-! Property C84: the compiler reads what is written in the source file. -/
namespace Pas.Src
open Pas.Comp Pas.Chain Pas.Tok
open Pas.Accept (Program)

/-- C84 (partial): whatever tokens are read from a text file, if the tokenizer reports no error then the file spells
these tokens, one after the other from its beginning, with nothing but gaps between them and each token as long as
possible.  Missing: the file ends where it ends; what has been read may go on with a question mark and the last line
again and again (`C84_violation_end` shows that this makes a difference). -/
theorem C84_tokens_partial (file : List Byte) (lines : List (List Byte)) (text : TextFile file lines) (n : Nat)
    (toks : List Lx) (h : readTokens n (startOfFile file) = .ok (toks, 0)) :
    ∃ k, Spelled (file ++ afterEnd lines k) toks :=
  readTokens_file text h

/-- C84 (partial): if moreover the last line has no closing brace and no star, so that no comment can end in it, then
the tokens up to the first question mark, which is no token of Pascal, are spelled in the file itself (the question
mark behind it stands for its end).  Missing: other last lines, and files with control characters, long lines, or no
end of the last line. -/
theorem C84_inside_partial (file : List Byte) (lines : List (List Byte)) (text : TextFile file lines)
    (brace : 125#8 ∉ lines.getLastD []) (star : 42#8 ∉ lines.getLastD []) (n : Nat)
    (toks : List Lx) (h : readTokens n (startOfFile file) = .ok (toks, 0)) :
    ∃ ys zs, toks = ys ++ zs ∧ Spelled (file ++ [63#8]) ys ∧ (zs = [] ∨ ∃ zs', zs = .tk (.other 63) :: zs') := by
  obtain ⟨k, hk⟩ := readTokens_file text h
  exact spelled_inside (afterEnd_junk brace star k) hk (textFile_end text) rfl

/-- C84 with C82 (partial, as both): if the compiler writes an object file then the text of the source file is the word
PROGRAM and what follows it in a program. -/
theorem C84_program_partial (line : Nat → Byte × Word) (pad : Byte) (n : Nat) (file : List Byte)
    (lines : List (List Byte)) (text : TextFile file lines) (obj : Object)
    (h : compileFile line pad n file = .ok (some obj)) :
    ∃ toks, (∃ k, Spelled (file ++ afterEnd lines k) (.tk (.other 0x9d) :: toks)) ∧ Program toks := by
  obtain ⟨_, toks, h1, _, h2⟩ := Accept.C82_file_partial line pad n file obj h
  exact ⟨toks, C84_tokens_partial file lines text n _ h1, h2⟩

/-- C84 with C82 (partial, as both): if moreover the last line has no closing brace and no star then the program is in
the file, as a whole. -/
theorem C84_whole_partial (line : Nat → Byte × Word) (pad : Byte) (n : Nat) (file : List Byte)
    (lines : List (List Byte)) (text : TextFile file lines)
    (brace : 125#8 ∉ lines.getLastD []) (star : 42#8 ∉ lines.getLastD []) (obj : Object)
    (h : compileFile line pad n file = .ok (some obj)) :
    ∃ toks, Spelled (file ++ [63#8]) (.tk (.other 0x9d) :: toks) ∧ Program toks := by
  obtain ⟨_, toks, h1, _, h2⟩ := Accept.C82_file_partial line pad n file obj h
  refine ⟨toks, ?_, h2⟩
  obtain ⟨ys, zs, he, hs, hz⟩ := C84_inside_partial file lines text brace star n _ h1
  rcases hz with rfl | ⟨zs', rfl⟩
  · rw [List.append_nil] at he
    rw [he]; exact hs
  · obtain ⟨us, rfl, hi⟩ := h2.inner
    have hm : (.tk (.other 63) : Lx) ∈ .tk (.other 0x9d) :: (us ++ [.tk .period]) := by rw [he]; simp
    rcases List.mem_cons.1 hm with hm | hm
    · injection hm with hm; injection hm with hm; omega
    · rcases List.mem_append.1 hm with hm | hm
      · cases List.all_eq_true.1 hi _ hm
      · rcases List.mem_cons.1 hm with hm | hm
        · injection hm with hm; cases hm
        · cases hm

/-- The lines of `writeText`. -/
def writeLines : List (List Byte) :=
  [[80, 82, 79, 71, 82, 65, 77, 32, 119, 40, 79, 85, 84, 80, 85, 84, 41, 59, 32, 123, 32, 110, 32, 105, 115,
   32, 99, 111, 117, 110, 116, 101, 100, 32, 125], [118, 97, 114, 32, 110, 58, 105, 110, 116, 101, 103, 101,
   114, 59], [66, 101, 103, 105, 110], [32, 110, 58, 61, 48, 59, 32, 114, 101, 112, 101, 97, 116, 32, 78, 58,
   61, 110, 43, 49, 59], [32, 87, 114, 105, 116, 101, 40, 39, 110, 32, 61, 39, 44, 110, 58, 51, 41, 32, 85,
   78, 84, 73, 76, 40, 42, 32, 42, 42, 32, 42, 41, 110, 61, 50, 59, 119, 114, 105, 116, 101, 108, 110, 59, 87,
   114, 105, 116, 101, 76, 110, 40, 79, 117, 116, 112, 117, 116, 44, 39, 101, 110, 100, 39, 44, 39, 88, 39,
   41], [101, 110, 100, 46]]

theorem writeText_lines : TextFile writeText writeLines := ⟨by decide, by decide, by decide, by decide⟩

/-- The hypotheses are met by the file of the example of `C71_source_partial`. -/
example : TextFile writeText writeLines ∧ (125#8 ∉ writeLines.getLastD [] ∧ 42#8 ∉ writeLines.getLastD []) ∧
    (match compileFile (fun _ => (0, 7)) 0 300 writeText with
    | .ok (some _) => true
    | _ => false) = true ∧
    (match readTokens 300 (startOfFile writeText) with
    | .ok (toks, 0) => toks.length == 48
    | _ => false) = true := ⟨writeText_lines, by decide, by decide +kernel, by decide +kernel⟩

/-- `program p;`, a new line, and `begin end (* } . *) {`. -/
def openText : List Byte :=
  [112, 114, 111, 103, 114, 97, 109, 32, 112, 59, 10, 98, 101, 103, 105, 110, 32, 101, 110, 100, 32] ++
  [40, 42, 32, 125, 32, 46, 32, 42, 41, 32, 123, 10]

/-- The lines of `openText`. -/
def openLines : List (List Byte) :=
  [[112, 114, 111, 103, 114, 97, 109, 32, 112, 59], [98, 101, 103, 105, 110, 32, 101, 110, 100, 32, 40, 42,
   32, 125, 32, 46, 32, 42, 41, 32, 123]]

/-- C84 fails at the end of the file, where the last line is read again: this file is compiled, although its only period
is in a comment, and a comment is not closed. -/
theorem C84_violation_end : TextFile openText openLines ∧
    (∃ u v, openText = u ++ 40#8 :: 42#8 :: (v ++ [42#8, 41#8, 32#8, 123#8, 10#8]) ∧ 46#8 ∉ u ∧ ¬ [42#8, 41#8] <:+: v) ∧
    ∃ obj, compileFile (fun _ => (0, 0)) 0 300 openText = .ok (some obj) := by
  refine ⟨⟨by decide, by decide, by decide, by decide⟩,
    ⟨[112, 114, 111, 103, 114, 97, 109, 32, 112, 59, 10, 98, 101, 103, 105, 110, 32, 101, 110, 100, 32], [32, 125, 32, 46, 32], by decide, by decide, ?_⟩, ?_⟩
  · rintro ⟨a, b, h⟩
    have : (a ++ [42#8, 41#8] ++ b).all (· != 42#8) = true := by rw [h]; decide
    simp at this
  · have h : (match compileFile (fun _ => (0, 0)) 0 300 openText with
        | .ok (some _) => true
        | _ => false) = true := by decide +kernel
    split at h
    · rename_i obj he; exact ⟨obj, he⟩
    · cases h

end Pas.Src
