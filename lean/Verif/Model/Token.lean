import Verif.Model.Names
import Verif.Model.Res

/-! The tokenizer, `pascal/pas_token.c`.

Not modelled: included files, the listing, the value of real numbers (the text given to `sscanf`
is kept instead), the abort after too many errors.  Loops take a number of rounds as a bound; a
loop that needs more is `hang`, and every theorem says for which bounds it holds. -/

namespace Pas.Tok

open Pas.Names (Entry lower mapToAlias findReserved identSymbol)

/-- The input of the tokenizer (`g_inChar`, `pascal/pas_token.c:78`; `cp` and `buffer` of
`fileState_t`, `pascal/pas_defns.h:288-300`): the current character, what is left of the line
buffer, the whole line buffer, and the contents of the buffers that `fgets` will still deliver, all
up to the first NUL. -/
structure Input where
  inChar : Byte
  rest : List Byte
  buf : List Byte
  lines : List (List Byte)
deriving DecidableEq, Repr

/-- `pas_GetLine` and `pas_SkipLine` with the `pas_GetCharacter` it calls,
`pascal/pas_token.c:291-374`: at the end of the file the buffer is left as it was and read again. -/
def skipLine (buf : List Byte) : List (List Byte) → Input
  | [] => ⟨63#8, buf, buf, []⟩
  | [] :: ls => skipLine [] ls
  | (c :: r) :: ls => ⟨c, r, c :: r, ls⟩

/-- `pas_GetCharacter`, `pascal/pas_token.c:291-304`. -/
def Input.get (i : Input) : Input :=
  match i.rest with
  | c :: r => ⟨c, r, i.buf, i.lines⟩
  | [] => skipLine i.buf i.lines

/-- The reading of lines in `pas_GetNextCharacter`, `pascal/pas_token.c:777-790`: the character is
looked at and not taken. -/
def peekLine (buf : List Byte) : List (List Byte) → Input
  | [] => ⟨63#8, buf, buf, []⟩
  | [] :: ls => peekLine [] ls
  | (c :: r) :: ls => ⟨c, c :: r, c :: r, ls⟩

/-- `pas_GetNextCharacter(false)`, `pascal/pas_token.c:765-823`. -/
def Input.peek (i : Input) : Input :=
  match i.rest with
  | c :: r => ⟨c, c :: r, i.buf, i.lines⟩
  | [] => peekLine i.buf i.lines

/-- `isdigit`, `isalpha`, `isspace` of the C locale.  Used in `pascal/pas_token.c` 408, 841, 849. -/
def isDigit (b : Byte) : Bool := decide (48#8 ≤ b ∧ b ≤ 57#8)
/-- See `isDigit`.  Used in `pascal/pas_token.c` 849. -/
def isAlpha (b : Byte) : Bool := decide ((65#8 ≤ b ∧ b ≤ 90#8) ∨ (97#8 ≤ b ∧ b ≤ 122#8))
/-- See `isDigit`.  Used in `pascal/pas_token.c` 800, 841. -/
def isSpace (b : Byte) : Bool := decide ((9#8 ≤ b ∧ b ≤ 13#8) ∨ b = 32#8)
/-- The characters of an identifier, `pascal/pas_token.c:169-173`. -/
def isIdent (b : Byte) : Bool := isAlpha b || isDigit b || b == 95#8

/-- The globals of the tokenizer, `pascal/pas_token.c:77-94` and `pascal/pas_main.c`: the string
stack, the start of the token in it, the token and its attributes. -/
structure State where
  inp : Input
  stack : List Byte
  start : Nat
  token : Nat
  sub : Nat
  uint : BitVec 32
  real : List Byte
  sym : Option Entry
  errors : Nat
deriving DecidableEq, Repr

/-- `*g_stringSP++ = c`; the string stack has `MAX_STRINGS` bytes (`pascal/pas_defns.h:60`) and its
end is not checked. -/
def State.push (s : State) (c : Byte) : Res State :=
  if s.stack.length < 65536 then .ok { s with stack := s.stack ++ [c] } else .ub

/-- `pas_GetCharacter()` on the globals.  `pascal/pas_token.c` 77-94. -/
def State.get (s : State) : State := { s with inp := s.inp.get }

/-- `g_stringSP = g_tokenString`.  `pascal/pas_token.c` 127. -/
def State.pop (s : State) : State := { s with stack := s.stack.take s.start }

/-- `error`, `pascal/pas_error.c:164-179`: the string stack is cleaned up. -/
def State.error (s : State) : State := { s.pop with errors := s.errors + 1 }

/-- The C string at `g_tokenString`.  `pascal/pas_token.c` 88. -/
def State.string (s : State) : List Byte := (s.stack.drop s.start).takeWhile (· ≠ 0#8)

/-- `while (p(g_inChar)) { *g_stringSP++ = g_inChar; pas_GetCharacter(); }`, as in
`pascal/pas_token.c:169-173`, `403-408`, `481-485`, `571-576`. -/
def takeWhile (p : Byte → Bool) : Nat → State → Res State
  | 0, _ => .hang
  | n + 1, s => if p s.inp.inChar then do takeWhile p n (← s.push s.inp.inChar).get else .ok s

/-- The value of a string of decimal digits.  Part of `sscanf`, `pascal/pas_token.c` 429. -/
def decValue (ds : List Byte) : Nat := ds.foldl (fun v d => 10 * v + (d.toNat - 48)) 0

/-- The value of a string of digits and letters A to F.  Part of `sscanf`, `pascal/pas_token.c` 642. -/
def hexValue (ds : List Byte) : Nat :=
  ds.foldl (fun v d => 16 * v + (if d.toNat ≤ 57 then d.toNat - 48 else d.toNat - 55)) 0

/-- `sscanf(g_tokenString, "%u", &g_tknUInt)` (or with `%x`): a value that does not fit is undefined
in C; without digits nothing is assigned.  `pascal/pas_token.c` 429, 642. -/
def State.scan (s : State) (value : List Byte → Nat) : Res State :=
  if s.string = [] then .ok s
  else if value s.string < 2 ^ 32 then .ok { s with uint := BitVec.ofNat 32 (value s.string) }
  else .ub

/-- `sscanf(g_tokenString, "%lf", &g_tknReal)`: the text is kept.  `pascal/pas_token.c` 502, 583. -/
def State.scanReal (s : State) : State := { s with real := s.string }

/-- `pas_Identifier`, `pascal/pas_token.c:158-225`, with the assignments of `pas_SymbolToken`
(`102-154`); `tab` is the symbol table, `from` the first symbol to look at (`g_symStart`), `inWith`
whether `g_withRecord.wParent` is set. -/
def identifier (tab : List Entry) (from_ : Nat) (inWith : Bool) (last : Nat) (n : Nat) (s : State) :
    Res State := do
  let s := { s with sub := 0 }
  let s ← s.push s.inp.inChar
  let s ← takeWhile isIdent n s.get
  let s ← s.push 0#8
  let name := mapToAlias s.string
  match findReserved name with
  | some w => .ok { s.pop with
      token := w.type
      sub := w.sub }
  | none =>
    match identSymbol tab name from_ (last == 46 || inWith) with
    | some e =>
      if e.kind = 5 then .ok { s.pop with
        token := e.kind
        sym := some e }
      else .ok { s.pop with
        token := e.kind
        uint := e.value
        sym := some e }
    | none => .ok { s with
        token := 1
        sym := none }

/-- The loops of `pas_StringToken`, `pascal/pas_token.c:239-277`; the count of characters is
returned. -/
def stringLoop : Nat → Word → State → Res (Word × State)
  | 0, _, _ => .hang
  | n + 1, count, s =>
    if s.inp.inChar = 39#8 then
      let s := s.get
      if s.inp.inChar = 39#8 then do
        let s ← s.push s.inp.inChar
        stringLoop n (count + 1) s.get
      else .ok (count, s)
    else if s.inp.inChar = 10#8 then .ok (count, s.error.get)
    else do
      let s ← s.push s.inp.inChar
      stringLoop n (count + 1) s.get

/-- `pas_StringToken`, `pascal/pas_token.c:230-287`; `char` is signed, so the value of a single
character is sign extended. -/
def stringToken (n : Nat) (s : State) : Res State := do
  let s := { s with token := 6 }
  let (count, s) ← stringLoop n 0#16 s.get
  let s ← s.push 0#8
  if count = 1#16 then
    match s.stack[s.start]? with
    | some c => .ok { s.pop with
        token := 3
        uint := c.signExtend 32 }
    | none => .ub
  else .ok s

/-- The sign of an exponent, `pascal/pas_token.c:542-553`. -/
def sign (s : State) : Res State :=
  if s.inp.inChar = 45#8 ∨ s.inp.inChar = 43#8 then do
    let t ← s.push s.inp.inChar
    .ok t.get
  else s.push 43#8

/-- The digits of an exponent, `pascal/pas_token.c:559-588`. -/
def exponentDigits (n : Nat) (s : State) : Res State :=
  if isDigit s.inp.inChar then do
    let s ← takeWhile isDigit n s
    let s ← s.push 0#8
    .ok s.scanReal.pop
  else .ok { s.error with real := [48#8] }.pop

/-- `pas_UnsignedExponent`, `pascal/pas_token.c:512-589`. -/
def exponent (n : Nat) (s : State) : Res State := do
  let s := { s with token := 5 }
  let s ← s.push s.inp.inChar
  let s ← sign s.get
  exponentDigits n s

/-- The end of a real number, `pascal/pas_token.c:491-507`. -/
def realTail (n : Nat) (s : State) : Res State :=
  if s.inp.inChar = 101#8 ∨ s.inp.inChar = 69#8 then do
    let s ← exponent n s
    .ok s.pop
  else do
    let s ← s.push 0#8
    .ok s.scanReal.pop

/-- `pas_UnsignedRealNumber`, `pascal/pas_token.c:449-508`. -/
def realNumber (n : Nat) (s : State) : Res State := do
  let s := { s with token := 5 }
  let s ← s.push 46#8
  let s ← takeWhile isDigit n s
  realTail n s

/-- `pas_UnsignedNumber`, `pascal/pas_token.c:378-445`. -/
def number (n : Nat) (s : State) : Res State := do
  let s := { s with token := 2 }
  let s ← s.push s.inp.inChar
  let s ← takeWhile isDigit n s.get
  if s.inp.inChar = 101#8 ∨ s.inp.inChar = 69#8 then exponent n s
  else if s.inp.inChar ≠ 46#8 then do
    let s ← s.push 0#8
    let s ← s.scan decValue
    .ok s.pop
  else
    let s := { s with inp := s.inp.peek }
    if s.inp.inChar = 46#8 then do
      let s ← s.push 0#8
      let s ← s.scan decValue
      .ok s.pop
    else realNumber n s.get

/-- The loop of `pas_UnsignedHexadecimal`, `pascal/pas_token.c:612-638`. -/
def hexLoop : Nat → State → Res State
  | 0, _ => .hang
  | n + 1, s =>
    let s := s.get
    let c := s.inp.inChar
    if isDigit c then do hexLoop n (← s.push c)
    else if 65#8 ≤ c ∧ c ≤ 70#8 then do hexLoop n (← s.push c)
    else if 97#8 ≤ c ∧ c ≤ 102#8 then do hexLoop n (← s.push (c - 32#8))
    else .ok s

/-- `pas_UnsignedHexadecimal`, `pascal/pas_token.c:593-647`. -/
def hexadecimal (n : Nat) (s : State) : Res State := do
  let s := { s with token := 2 }
  let s ← hexLoop n s
  let s ← s.push 0#8
  let s ← s.scan hexValue
  .ok s.pop

/-- `while (isspace(g_inChar)) pas_GetCharacter();`, `pascal/pas_token.c:841`. -/
def skipSpace : Nat → State → Res State
  | 0, _ => .hang
  | n + 1, s => if isSpace s.inp.inChar then skipSpace n s.get else .ok s

/-- A comment in braces, `pascal/pas_token.c:968-969`, from its opening brace to its closing one. -/
def braceLoop : Nat → State → Res State
  | 0, _ => .hang
  | n + 1, s =>
    let s := s.get
    if s.inp.inChar ≠ 125#8 then braceLoop n s else .ok s

/-- A comment that ends with a star and `close`, `pascal/pas_token.c:987-997`, `1024-1034`. -/
def starLoop (close : Byte) : Nat → Byte → State → Res State
  | 0, _, _ => .hang
  | n + 1, last, s =>
    let s := s.get
    if last = 42#8 ∧ s.inp.inChar = close then .ok s else starLoop close n s.inp.inChar s

/-- The rest of `getToken`, `pascal/pas_token.c:843-1072`, when the character after `first` is
looked at to choose between `first` alone and pairs: the token codes of the pairs. -/
def pair (s : State) (first : Byte) (pairs : List (Byte × Nat)) : State :=
  let s := s.get
  match pairs.find? fun p => p.1 = s.inp.inChar with
  | some p => { s with token := p.2 }.get
  | none => { s with token := first.toNat }

/-- The choice of `getToken`, `pascal/pas_token.c:849-1070`, by the first character `c` of the token
(`g_inChar`);
`again` is the recursive call after a comment or a character that is no ASCII character.  The second
test for a percent sign (`pas_UnsignedBinary`) can never succeed. -/
def dispatch (tab : List Entry) (from_ : Nat) (inWith : Bool) (last n : Nat)
    (again : State → Res State) (s : State) (c : Byte) : Res State :=
  if isAlpha c || c == 95#8 then identifier tab from_ inWith last n s
  else if isDigit c then number n s
  else if c = 39#8 then stringToken n s
  else if c = 58#8 then .ok (pair s c [(61#8, 0x0a)])
  else if c = 46#8 then
    if isDigit s.get.inp.inChar then realNumber n s.get
    else .ok (pair s c [(46#8, 0x0b)])
  else if c = 60#8 then .ok (pair s c [(62#8, 35), (61#8, 8), (60#8, 0xa1)])
  else if c = 62#8 then .ok (pair s c [(60#8, 0x0c), (61#8, 9), (62#8, 0xa2)])
  else if c = 123#8 then do
    let s ← braceLoop n s
    again s.get
  else if c = 40#8 then
    if s.get.inp.inChar ≠ 42#8 then .ok { s.get with token := 40 }
    else do
      let s ← starLoop 41#8 n 32#8 s.get
      again s.get
  else if c = 47#8 then
    if s.get.inp.inChar = 47#8 then
      again { s with inp := skipLine s.get.inp.buf s.get.inp.lines }
    else if s.get.inp.inChar ≠ 42#8 then .ok { s.get with token := 47 }
    else do
      let s ← starLoop 47#8 n 32#8 s.get
      again s.get
  else if c = 37#8 then hexadecimal n s
  else if c.toNat < 128 then .ok { s with token := c.toNat }.get
  else again s.get

/-- `getToken`, `pascal/pas_token.c:827-1073`. -/
def getToken (tab : List Entry) (from_ : Nat) (inWith : Bool) : Nat → State → Res State
  | 0, _ => .hang
  | n + 1, s => do
    let t ← skipSpace n { s with sym := none }
    dispatch tab from_ inWith s.token n (getToken tab from_ inWith n)
      { t with start := t.stack.length } t.inp.inChar

end Pas.Tok
