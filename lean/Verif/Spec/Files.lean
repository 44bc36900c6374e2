import Verif.Model.IoState
import Verif.Spec.Machine
import Verif.Spec.Strings

/-! Specification of text files (properties C64-C68): decimal notation, fields, and what it means that an
instruction has written to a file or read from it.  Only the state type of the model is mentioned. -/
namespace Pas.Spec

/-- `l` is the decimal notation of `n`: digits, no superfluous zero in front, with this value. -/
structure Decimal (l : List Byte) (n : Nat) : Prop where
  digits : ∀ b ∈ l, 48 ≤ b.toNat ∧ b.toNat ≤ 57
  nonempty : l ≠ []
  short : l.head? = some 48#8 → l.length = 1
  value : l.foldl (fun v b => 10 * v + (b.toNat - 48)) 0 = n

/-- `l` is the decimal notation of the integer `i`, with a minus sign in front of a negative number. -/
def DecimalInt (l : List Byte) (i : Int) : Prop :=
  (∃ n : Nat, i = n ∧ Decimal l n) ∨ ∃ (n : Nat) (r : List Byte), 0 < n ∧ i = -n ∧ l = 45#8 :: r ∧ Decimal r n

/-- `out` is `l` written right-justified in a field of `w` characters; a longer `l` is written in full. -/
def Justified (w : Nat) (l out : List Byte) : Prop :=
  ∃ k, out = List.replicate k 32#8 ++ l ∧ out.length = max w l.length

/-- The contents of a file of the host. -/
def fileText (s : VM) (f : HostFile) : List Byte := (s.io.files f).getD []

/-- File number `n` is open for output on the file `f`, and the next byte goes to position `pos`: the end
for files opened for appending and for the standard output, the position of the stream otherwise. -/
structure OpenOut (s : VM) (n : Word) (f : HostFile) (pos : Nat) : Prop where
  number : n.toNat < 8
  isOpen : ∃ t, (s.io.table n.toNat).stream = some t ∧ t.file = f ∧
    (((s.io.table n.toNat).openMode = .append ∧ pos = (fileText s f).length) ∨
     ((s.io.table n.toNat).openMode = .write ∧
        pos = match f with | .named _ => t.pos | _ => (fileText s f).length))

/-- `new` is `old` with `bs` written at position `pos`; a gap behind the old end is filled with zeros. -/
structure Overwritten (old : List Byte) (pos : Nat) (bs new : List Byte) : Prop where
  inside : ∀ i (h : i < bs.length), new[pos + i]? = some bs[i]
  before : ∀ i < pos, i < old.length → new[i]? = old[i]?
  gap : bs ≠ [] → ∀ i < pos, old.length ≤ i → new[i]? = some 0#8
  after : ∀ i, pos + bs.length ≤ i → new[i]? = old[i]?

/-- `s'` is `s` after an instruction of 3 bytes that has removed `k` words from the stack and has written
`bs` to the file `f` at position `pos` through file number `n`.  Memory, the other registers, the other
files and the other file numbers are as before. -/
structure Wrote (s s' : VM) (k : Nat) (n : Word) (f : HostFile) (pos : Nat) (bs : List Byte) : Prop where
  regs : s' = { s with sp := s'.sp, pc := s'.pc, io := s'.io }
  sp : s'.sp = s.sp - BitVec.ofNat 16 (2 * k)
  pc : s'.pc = s.pc + 3#16
  text : Overwritten (fileText s f) pos bs (fileText s' f)
  files : ∀ g, g ≠ f → s'.io.files g = s.io.files g
  numbers : ∀ i, i ≠ n.toNat → s'.io.table i = s.io.table i
  entry : s'.io.table n.toNat = { s.io.table n.toNat with stream := (s'.io.table n.toNat).stream }
  stream : OpenOut s' n f (pos + bs.length)

/-- `s'` is `s` after an instruction of 3 bytes that has removed `k` words from the stack and done nothing
else. -/
def OnlyPopped (s s' : VM) (k : Nat) : Prop :=
  s' = { s with sp := s.sp - BitVec.ofNat 16 (2 * k), pc := s.pc + 3#16 }

/-- The operations that write text: their code, the number of words they take from the stack, the number
of the file and the text.  The file number is pushed first, the field width last; its upper byte counts. -/
inductive WriteCall (s : VM) : (code : Word) → (words : Nat) → (file : Word) → (List Byte → Prop) → Prop
  | integer : WriteCall s 0x1b#16 3 (opnd s 2) fun out =>
      ∃ l, DecimalInt l (opnd s 1).toInt ∧ Justified ((opnd s 0).toNat / 256) l out
  | word : WriteCall s 0x1c#16 3 (opnd s 2) fun out =>
      ∃ l, Decimal l (opnd s 1).toNat ∧ Justified ((opnd s 0).toNat / 256) l out
  | longInteger : WriteCall s 0x1d#16 4 (opnd s 3) fun out =>
      ∃ l, DecimalInt l ((opnd s 1).toInt * 65536 + (opnd s 2).toNat) ∧ Justified ((opnd s 0).toNat / 256) l out
  | longWord : WriteCall s 0x1e#16 4 (opnd s 3) fun out =>
      ∃ l, Decimal l ((opnd s 1).toNat * 65536 + (opnd s 2).toNat) ∧ Justified ((opnd s 0).toNat / 256) l out
  | character : WriteCall s 0x1f#16 3 (opnd s 2) fun out =>
      ∃ c : Byte, c.toNat = (opnd s 1).toNat % 256 ∧ Justified ((opnd s 0).toNat / 256) [c] out
  | newline : WriteCall s 0x18#16 1 (opnd s 0) fun out => out = [10#8]
  | page : WriteCall s 0x19#16 1 (opnd s 0) fun out => out = [12#8]

/-- Digits (at least one) and their value. -/
def Digits (d : List Byte) (n : Nat) : Prop :=
  d ≠ [] ∧ (∀ b ∈ d, 48 ≤ b.toNat ∧ b.toNat ≤ 57) ∧ d.foldl (fun v b => 10 * v + (b.toNat - 48)) 0 = n

/-- A number as it may be typed: an optional sign and digits. -/
inductive Numeral : List Byte → Int → Prop
  | plain {d : List Byte} {n : Nat} (h : Digits d n) : Numeral d n
  | plus {d : List Byte} {n : Nat} (h : Digits d n) : Numeral (43#8 :: d) n
  | minus {d : List Byte} {n : Nat} (h : Digits d n) : Numeral (45#8 :: d) (-n)

/-- A space or another blank character (tabulator, ..., carriage return). -/
def BlankChar (b : Byte) : Prop := b.toNat = 32 ∨ 9 ≤ b.toNat ∧ b.toNat ≤ 13

/-- The line begins with the number `i`: blanks, the number, and something that does not continue it. -/
def BeginsWith (line : List Byte) (i : Int) : Prop :=
  ∃ blanks num tail, line = blanks ++ num ++ tail ∧ (∀ b ∈ blanks, BlankChar b) ∧ Numeral num i ∧
    ∀ c, tail.head? = some c → ¬(48 ≤ c.toNat ∧ c.toNat ≤ 57)

/-- File number `n` is open for reading on the file `f`, and the next byte is the one at position `pos`. -/
structure OpenIn (s : VM) (n : Word) (f : HostFile) (pos : Nat) : Prop where
  number : n.toNat < 8
  mode : (s.io.table n.toNat).openMode = .read
  isOpen : ∃ t, (s.io.table n.toNat).stream = some t ∧ t.file = f ∧ t.pos = pos

/-- What follows in the file is the line `line` (without its end), the end of the line, and `more`. -/
structure LineComes (s : VM) (f : HostFile) (pos : Nat) (line more : List Byte) : Prop where
  text : (fileText s f).drop pos = line ++ 10#8 :: more
  oneLine : 10#8 ∉ line
  noNul : 0#8 ∉ line

/-- `s'` is `s` after an instruction of 3 bytes that has removed `k` words from the stack and has read from
file number `n`, which is now at position `pos`, behind the end of a line if `eoln`.  The files, the other
file numbers and the other registers are as before. -/
structure DidRead (s s' : VM) (k : Nat) (n : Word) (f : HostFile) (pos : Nat) (eoln : Bool) : Prop where
  regs : s' = { s with sp := s'.sp, pc := s'.pc, mem := s'.mem, io := s'.io }
  sp : s'.sp = s.sp - BitVec.ofNat 16 (2 * k)
  pc : s'.pc = s.pc + 3#16
  files : s'.io.files = s.io.files
  numbers : ∀ i, i ≠ n.toNat → s'.io.table i = s.io.table i
  entry : s'.io.table n.toNat = { s.io.table n.toNat with
    stream := (s'.io.table n.toNat).stream
    eoln := eoln }
  stream : OpenIn s' n f pos

/-- A text that consists of lines beginning with the numbers `is`, and `more`.  The lines have at most 254
characters. -/
inductive NumberLines : List Byte → List Int → List Byte → Prop
  | nil (more : List Byte) : NumberLines more [] more
  | cons {line rest more : List Byte} {i : Int} {is : List Int} (number : BeginsWith line i)
      (low : -32767 ≤ i) (high : i ≤ 32767) (oneLine : 10#8 ∉ line) (noNul : 0#8 ∉ line)
      (short : line.length ≤ 254) (tail : NumberLines rest is more) :
      NumberLines (line ++ 10#8 :: rest) (i :: is) more

end Pas.Spec
