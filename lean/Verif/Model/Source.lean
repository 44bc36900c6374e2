import Verif.Model.Token
import Verif.Model.Toolchain
import Verif.Spec.Tokens

/-! From the characters of a source file to the tokens of the compiler: `getToken` again and again.

As a simplification the tokens are read ahead, with an empty symbol table, and names are looked up
when the compiler takes them (`Lx.tok`); that the characters read and the token do not depend on
this is a theorem (`C71_table`).  For the same reason the string stack is emptied after each token;
in the code the names that are declared stay on it, so that the names of a program must have at most
65536 characters together. -/
namespace Pas.Comp

/-- The token for a code and the code of a standard procedure or function, `pascal/pas_tkndefs.h`
41-260. -/
def codeTk (code sub : Nat) : Tk :=
  match code with
  | 0x08 => .le
  | 0x09 => .ge
  | 0x0a => .assign
  | 0x0c => .symdiff
  | 0x23 => .ne
  | 0x26 => .amp
  | 0x28 => .lparen
  | 0x29 => .rparen
  | 0x2a => .mul
  | 0x2b => .plus
  | 0x2c => .comma
  | 0x2d => .minus
  | 0x2e => .period
  | 0x2f => .fdiv
  | 0x3a => .colon
  | 0x3b => .semi
  | 0x3c => .lt
  | 0x3d => .eq
  | 0x3e => .gt
  | 0x5b => .lbracket
  | 0x5d => .rbracket
  | 0x7c => .bar
  | 0x7e => .tilde
  | 0x80 => .and_
  | 0x82 => .begin_
  | 0x83 => .case_
  | 0x85 => .div_
  | 0x86 => .do_
  | 0x87 => .downto_
  | 0x88 => .else_
  | 0x89 => .end_
  | 0x8c => .for_
  | 0x8f => .if_
  | 0x91 => .in_
  | 0x95 => .mod_
  | 0x97 => .not_
  | 0x98 => .of_
  | 0x99 => .or_
  | 0x9a => .xor_
  | 0x9f => .repeat_
  | 0xa1 => .shl
  | 0xa2 => .shr
  | 0xa3 => .then_
  | 0xa4 => .to_
  | 0xa7 => .until_
  | 0xb0 => .while_
  | 0xc0 => .other (0xc000 + sub)
  | 0xc1 => match sub with
    | 0x9c => .break_
    | 0xa0 => .continue_
    | 0x8f => .read_
    | 0x90 => .readln_
    | 0x96 => .write_
    | 0x97 => .writeln_
    | _ => .other (0xc100 + sub)
  | _ => .other code

/-- What has been read, by `g_token`, `g_tknSubType`, `g_tknUInt` and `g_tokenString`.
`pascal/pas_main.h` 74-78, `pascal/pas_token.c` 88. -/
def lexOf (s : Tok.State) : Lx :=
  match s.token with
  | 1 => .name s.string
  | 2 => .tk (.int s.uint)
  | 3 => .tk (.char s.uint)
  | 6 => .tk (.str s.string)
  | 0xa9 => .var_
  | _ => .tk (codeTk s.token s.sub)

/-- The tokens up to the first period, and the number of errors the tokenizer has reported.  (In the
part of the language that is modelled there are no other periods.)  The fuel bounds the number of
tokens and the loops of the tokenizer.
`getToken` of `pascal/pas_token.c` 827-1040, as often as the compiler calls it. -/
def readTokens : Nat → Tok.State → Res (List Lx × Nat)
  | 0, _ => .hang
  | n + 1, s => do
    let t ← Tok.getToken [] 0 false n s
    if t.token = 46 then .ok ([lexOf t], t.errors)
    else do
      let (l, e) ← readTokens n { t with stack := [] }
      .ok (lexOf t :: l, e)

/-- The tokenizer at the start of a file without NUL characters: `pas_PrimeTokenizer` and
`pas_RePrimeTokenizer`, `pascal/pas_token.c` 706-754; `Spec.buffers` is what `fgets` delivers. -/
def startOfFile (file : List Byte) : Tok.State :=
  ⟨Tok.skipLine [] (Spec.buffers file), [], 0, 0, 0, 0, [], none, 0⟩

/-- `main` of `pas`, `pascal/pas_main.c` 376-400, for a program, and the other tools. -/
def buildFile (line : Nat → Byte × Word) (pad : Byte) (name : List Byte) (files : List (List Byte))
    (n : Nat) (file : List Byte) : Res (Option Link.Output) := do
  let (toks, errs) ← readTokens n (startOfFile file)
  match toks with
  | .tk (.other 0x9d) :: toks => if errs ≠ 0 then .ok none else build line pad name files n toks
  | _ => .ok none

end Pas.Comp
