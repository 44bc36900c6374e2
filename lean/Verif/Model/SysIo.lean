import Verif.Model.Strings
import Verif.Model.FloatOps
import Verif.Model.LongOps
import Verif.Model.Init

/-! `insn16/libexec/libexec_sysio.c`: files, READ and WRITE.

Simplifications: reading and writing a C stream never fails (`ferror` is false, `fprintf` does not return
a negative number, `fclose` and `fflush` succeed); streams are not buffered; the standard input and output
are pipes or terminals (`ftell` and `fseek` fail with `ESPIPE`); the characters `isspace` accepts are those of
the C locale.  Not modelled: the directory operations (`libexec_sysio.c` 1636-2087), a parameter. -/
namespace Pas.SysIo
open Pas.FloatOps (Real Fpu)

/-! Error codes, `include/pas_errcodes.h` 356-378. -/
def eBADSYSIOFUNC : Nat := 0xa7
/-- `include/pas_errcodes.h` 365. -/
def eBADFILE : Nat := 0xb0
/-- `include/pas_errcodes.h` 366. -/
def eBADFILENAME : Nat := 0xb1
/-- `include/pas_errcodes.h` 367. -/
def eFILENOTINUSE : Nat := 0xb2
/-- `include/pas_errcodes.h` 368. -/
def eTOOMANYFILES : Nat := 0xb3
/-- `include/pas_errcodes.h` 369. -/
def eFILENOTOPEN : Nat := 0xb4
/-- `include/pas_errcodes.h` 370. -/
def eFILEALREADYOPEN : Nat := 0xb5
/-- `include/pas_errcodes.h` 372. -/
def eOPENFAILED : Nat := 0xb7
/-- `include/pas_errcodes.h` 373. -/
def eNOTOPENFORREAD : Nat := 0xb8
/-- `include/pas_errcodes.h` 375. -/
def eNOTOPENFORWRITE : Nat := 0xba
/-- `include/pas_errcodes.h` 377. -/
def eFSEEKFAILED : Nat := 0xbc
/-- `include/pas_errcodes.h` 378. -/
def eFTELLFAILED : Nat := 0xbd

/-- `MAX_OPEN_FILES`, `LINE_SIZE` and `FNAME_SIZE`.  `include/pas_machine.h` 55-57. -/
def maxFiles : Nat := 8
/-- `LINE_SIZE`, `include/pas_machine.h` 56. -/
def lineSize : Nat := 256
/-- `FNAME_SIZE`, `include/pas_machine.h` 55. -/
def fnameSize : Nat := 40

/-- The host: what it permits to open, its `%f` conversion (field width and precision as far as they are
in the format) and the directory operations.  For `insn16/libexec/libexec_sysio.c` 419, 808 and 1636-2087. -/
structure Host where
  mayOpen : List Byte → OpenMode → Bool
  fmtReal : Option Nat → Option Nat → Real → List Byte
  dir : VM → Word → Res (Nat × VM)

/-! ### The C library -/

/-- C `isspace`.  Used in `insn16/libexec/libexec_sysio.c` 175, 1142, 1192. -/
def isspace (b : Byte) : Bool := decide (9 ≤ b.toNat ∧ b.toNat ≤ 13 ∨ b.toNat = 32)

/-- C `'0' <= c && c <= '9'`.  `insn16/libexec/libexec_sysio.c` 189-201. -/
def isdigit (b : Byte) : Bool := decide (48 ≤ b.toNat ∧ b.toNat ≤ 57)

/-- The digits of `printf` conversions `u` and `d`; `fuel` bounds their number.
Used in `insn16/libexec/libexec_sysio.c` 710-768. -/
def digits : Nat → Nat → List Byte
  | 0, _ => []
  | fuel + 1, n =>
      if n < 10 then [BitVec.ofNat 8 (48 + n)]
      else digits fuel (n / 10) ++ [BitVec.ofNat 8 (48 + n % 10)]

/-- `printf` `%u`; ten digits are enough for 32 bits. -/
def fmtU (n : Nat) : List Byte := digits 10 n

/-- `printf` `%d`.  Used in `insn16/libexec/libexec_sysio.c` 710-730. -/
def fmtD (i : Int) : List Byte := if i < 0 then 45#8 :: fmtU i.natAbs else fmtU i.natAbs

/-- `printf` field width: padded with spaces on the left.
Used in `insn16/libexec/libexec_sysio.c` 710-808. -/
def pad (w : Nat) (l : List Byte) : List Byte := List.replicate (w - l.length) 32#8 ++ l

/-- Writing to a file at a position.
As `fwrite` and `fprintf` in `insn16/libexec/libexec_sysio.c` 684-857. -/
def writeAt (c : List Byte) (pos : Nat) (bs : List Byte) : List Byte :=
  if bs = [] then c
  else c.take pos ++ List.replicate (pos - c.length) 0#8 ++ bs ++ c.drop (pos + bs.length)

/-- The bytes `fgets` stores: at most `n`, up to and including the first newline.
Used in `insn16/libexec/libexec_sysio.c` 76, 501-650. -/
def takeLine : Nat → List Byte → List Byte
  | 0, _ => []
  | _, [] => []
  | n + 1, b :: r => if b = 10#8 then [b] else b :: takeLine n r

/-- The C string in an array of bytes.  `ioBuffer`, `insn16/include/libexec.h` 328. -/
def cstr (l : List Byte) : List Byte := l.takeWhile (· != 0#8)

/-! ### The file table -/

/-- `st->fileTable[n]`, `insn16/include/libexec.h` 327. -/
def entry (s : VM) (n : Nat) : FileEntry := s.io.table n

/-- `st->fileTable[n] = e`, `insn16/include/libexec.h` 327. -/
def setEntry (s : VM) (n : Nat) (e : FileEntry) : VM :=
  { s with io := { s.io with table := fun i => if i = n then e else s.io.table i } }

/-- A file of the host gets another content, `insn16/libexec/libexec_sysio.c` 684-857. -/
def setFile (s : VM) (f : HostFile) (c : List Byte) : VM :=
  { s with io := { s.io with files := fun g => if g = f then some c else s.io.files g } }

/-- `st->ioBuffer`, `insn16/include/libexec.h` 328. -/
def setBuffer (s : VM) (l : List Byte) : VM := { s with io := { s.io with buffer := l } }

/-- What is in a file of the host.  As `insn16/libexec/libexec_sysio.c` 501-650 reads it. -/
def content (s : VM) (f : HostFile) : List Byte := (s.io.files f).getD []

/-- What has not been read.  As `insn16/libexec/libexec_sysio.c` 501-650 reads it. -/
def rest (s : VM) (t : Stream) : List Byte := (content s t.file).drop t.pos

/-- Can the stream tell and set its position?.  `insn16/libexec/libexec_sysio.c` 883, 941-953. -/
def seekable (t : Stream) : Bool :=
  match t.file with
  | .named _ => true
  | _ => false

/-- C `fopen`, with the modes "r", "w" and "a".  `insn16/libexec/libexec_sysio.c` 419. -/
def fopen (h : Host) (s : VM) (name : List Byte) (m : OpenMode) : Option Stream × VM :=
  if name = [] ∨ h.mayOpen name m = false then (none, s)
  else
    match m with
    | .read => if (s.io.files (.named name)).isSome then (some ⟨.named name, 0, false⟩, s) else (none, s)
    | .write => (some ⟨.named name, 0, false⟩, setFile s (.named name) [])
    | .append =>
        (some ⟨.named name, (content s (.named name)).length, false⟩,
          setFile s (.named name) (content s (.named name)))
    | .none => (none, s)

/-- Writing bytes to the stream of a file; a file opened with "a" and the standard output grow at the end.
As in `insn16/libexec/libexec_sysio.c` 684-857. -/
def put (s : VM) (n : Nat) (bs : List Byte) : VM :=
  match (entry s n).stream with
  | none => s
  | some t =>
      let pos :=
        if (entry s n).openMode = .append ∨ seekable t = false then (content s t.file).length else t.pos
      let s := setFile s t.file (writeAt (content s t.file) pos bs)
      setEntry s n { entry s n with stream := some { t with pos := pos + bs.length } }

/-- Reading `k` bytes from the stream moves it; `eof` = the end was met.
As in `insn16/libexec/libexec_sysio.c` 501-650. -/
def advance (s : VM) (n : Nat) (t : Stream) (k : Nat) (eof : Bool) : VM :=
  setEntry s n { entry s n with stream := some { t with pos := t.pos + k, eof := t.eof || eof } }

/-- C `fgets(_, size, stream)`: the bytes stored (`none` = `NULL`, nothing stored).
`insn16/libexec/libexec_sysio.c` 76. -/
def fgets (s : VM) (n : Nat) (t : Stream) (size : Nat) : Option (List Byte) × VM :=
  if size = 0 then (none, s)
  else
    let l := takeLine (size - 1) (rest s t)
    let eof := decide (l.length < size - 1) && l.getLast? != some 10#8
    let s := advance s n t l.length eof
    if eof && l.isEmpty then (none, s) else (some l, s)

/-! ### `libexec_sysio.c` -/

/-- The digit loop of `libexec_ConvertInteger`, `libexec_sysio.c` 189-201. -/
def convDigits (neg : Bool) : Nat → List Byte → Nat
  | v, [] => v
  | v, b :: r =>
      if isdigit b then
        let v := 10 * v + (b.toNat - 48)
        if v > 32767 then (if neg then 32767 else 32768) else convDigits neg v r
      else v

/-- `libexec_ConvertInteger`, `libexec_sysio.c` 168-209. -/
def convertInteger (l : List Byte) : Word :=
  let l := l.dropWhile isspace
  let neg := l.head? = some 45#8
  let l := if l.head? = some 43#8 ∨ l.head? = some 45#8 then l.tail else l
  let v : Int := convDigits neg 0 l
  BitVec.ofInt 16 (if neg then -v else v)

/-- The loop over the integer part in `libexec_ConvertReal`, `libexec_sysio.c` 238-241; overflow of `int32_t` is undefined. -/
def intPart : Nat → List Byte → Res (Nat × List Byte)
  | v, [] => .ok (v, [])
  | v, b :: r =>
      if isdigit b then
        if 10 * v + b.toNat ≤ 2147483647 then intPart (10 * v + b.toNat - 48) r else .ub
      else .ok (v, b :: r)

/-- The loop over the fraction, `libexec_sysio.c` 251-255. -/
def fracPart (fpu : Fpu) (r f : Real) : List Byte → Real
  | [] => r
  | b :: l =>
      if isdigit b then
        fracPart fpu (fpu.add r (fpu.mul f (FloatOps.ofInt ((b.toNat : Int) - 48)))) (fpu.div f 0x4024000000000000#64) l
      else r

/-- `libexec_ConvertReal`, `libexec_sysio.c` 219-271, without the store; 0.1 and 10.0 are the constants of the C text as binary64. -/
def convertReal (fpu : Fpu) (l : List Byte) : Res Real := do
  let neg := l.head? = some 45#8
  let l := if l.head? = some 43#8 ∨ l.head? = some 45#8 then l.tail else l
  let (v, l) ← intPart 0 l
  let r := FloatOps.ofInt v
  let r := if l.head? = some 46#8 then fracPart fpu r 0x3fb999999999999a#64 l.tail else r
  pure (if neg then FloatOps.fneg r else r)

/-- `libexec_CheckEoln`, `libexec_sysio.c` 275-296: the string without its newline, and the new `eoln`.  The newline of a
line without any other character stays. -/
def checkEoln (l : List Byte) : List Byte × Bool :=
  if l.length > 1 ∧ l.getLast? = some 10#8 then (l.dropLast, true) else (l, false)

/-- `st->fileTable[n].eoln = b`, `insn16/libexec/libexec_sysio.c` 275-296. -/
def setEoln (s : VM) (n : Nat) (b : Bool) : VM := setEntry s n { entry s n with eoln := b }

/-- The loop of `libexec_AllocateFile`, `libexec_sysio.c` 304-311, from entry `n` with `k` entries left. -/
def findFree (s : VM) : Nat → Nat → Nat
  | 0, n => n
  | k + 1, n => if (entry s n).inUse then findFree s k (n + 1) else n

/-- `libexec_AllocateFile`, `libexec_sysio.c` 300-314. -/
def allocateFile (s : VM) : Nat × VM :=
  let n := findFree s maxFiles 0
  if n < maxFiles then (n, setEntry s n { entry s n with inUse := true }) else (n, s)

/-- `libexec_CloseFile`, `libexec_sysio.c` 436-455. -/
def closeFile (s : VM) (n : Nat) : Nat × VM :=
  if n ≥ maxFiles then (eBADFILE, s)
  else if (entry s n).stream = none then (eFILENOTOPEN, s)
  else (eNOERROR, setEntry s n { entry s n with stream := none })

/-- `libexec_FreeFile`, `libexec_sysio.c` 318-345. -/
def freeFile (s : VM) (n : Nat) : Nat × VM :=
  if n ≥ maxFiles then (eBADFILE, s)
  else if (entry s n).inUse = false then (eFILENOTINUSE, s)
  else (eNOERROR, setEntry s n FileEntry.zero)

/-- `libexec_AssignFile`, `libexec_sysio.c` 349-380. -/
def assignFile (s : VM) (n : Nat) (text : Bool) (addr size : Nat) : Res (Nat × VM) :=
  if n ≥ maxFiles then .ok (eBADFILE, s)
  else if size > fnameSize then .ok (eBADFILENAME, s)
  else do
    let name ← Str.readBytes s addr size
    .ok (eNOERROR, setEntry s n { entry s n with fileName := cstr name, text := text })

/-- `libexec_OpenFile`, `libexec_sysio.c` 384-432, for the three valid modes. -/
def openFile (h : Host) (s : VM) (n : Nat) (m : OpenMode) : Nat × VM :=
  if n ≥ maxFiles then (eBADFILE, s)
  else if (entry s n).stream ≠ none then (eFILEALREADYOPEN, s)
  else
    match fopen h s (entry s n).fileName m with
    | (none, s) => (eOPENFAILED, s)
    | (some t, s) => (eNOERROR, setEntry s n { entry s n with stream := some t, openMode := m })

/-- `libexec_RecordSize`, `libexec_sysio.c` 459-474. -/
def recordSize (s : VM) (n : Nat) (size : Word) : Nat × VM :=
  if n ≥ maxFiles then (eBADFILE, s)
  else (eNOERROR, setEntry s n { entry s n with recordSize := size })

/-- `libexec_CheckReadAccess`, `libexec_sysio.c` 478-497, and what follows it: `f` runs with the stream. -/
def withRead (s : VM) (n : Nat) (f : Stream → Res (Nat × VM)) : Res (Nat × VM) :=
  if n ≥ maxFiles then .ok (eBADFILE, s)
  else
    match (entry s n).stream with
    | none => .ok (eNOTOPENFORREAD, s)
    | some t => if (entry s n).openMode ≠ .read then .ok (eNOTOPENFORREAD, s) else f t

/-- `libexec_ReadLn`, `libexec_sysio.c` 501-523. -/
def readLn (s : VM) (n : Nat) : Res (Nat × VM) :=
  withRead s n fun t =>
    if (entry s n).eoln then .ok (eNOERROR, setEoln s n false)
    else
      let r := rest s t
      let l := takeLine r.length r
      .ok (eNOERROR, advance s n t l.length (l.getLast? != some 10#8))

/-- `libexec_ReadBinary`, `libexec_sysio.c` 527-542. -/
def readBinary (s : VM) (n : Nat) (dest size : Nat) : Res (Nat × VM) :=
  withRead s n fun t => do
    let l := (rest s t).take size
    let s ← copyIn s dest l
    .ok (eNOERROR, advance s n t l.length (decide (l.length < size)))

/-- Reading a line into `ioBuffer` and `libexec_CheckEoln`, as in `libexec_sysio.c` 552-564.  When `fgets` stores nothing the
buffer keeps its contents. -/
def readBuffer (s : VM) (n : Nat) (t : Stream) : VM :=
  let (o, s) := fgets s n t lineSize
  let l := match o with
    | some l => cstr l
    | none => s.io.buffer
  let (l, e) := checkEoln l
  setEoln (setBuffer s l) n e

/-- `libexec_ReadInteger`, `libexec_sysio.c` 546-568. -/
def readInteger (s : VM) (n : Nat) (dest : Word) : Res (Nat × VM) :=
  withRead s n fun t => do
    let s := readBuffer s n t
    let s ← Heap.wrF s dest.toNat 0 (convertInteger s.io.buffer).toNat
    .ok (eNOERROR, s)

/-- `libexec_ReadChar`, `libexec_sysio.c` 572-594. -/
def readChar (s : VM) (n : Nat) (dest : Word) : Res (Nat × VM) :=
  withRead s n fun t => do
    let s := readBuffer s n t
    let s ← s.wrB dest.toNat (s.io.buffer.headD 0#8)
    .ok (eNOERROR, s)

/-- What `fgets` stores in the data memory, `libexec_sysio.c` 616-617. -/
def storeLine (s : VM) (data : Nat) : Option (List Byte) → Res VM
  | some l => copyIn s data (l ++ [0#8])
  | none => .ok s

/-- The assignment in `libexec_CheckEoln` for a string `l` in the data memory, `libexec_sysio.c` 290. -/
def dropNewline (s : VM) (data : Nat) (l : List Byte) : Res VM :=
  if (checkEoln l).2 then s.wrB (data + (l.length - 1)) 0#8 else .ok s

/-- `libexec_ReadString`, `libexec_sysio.c` 598-632; the string variable at `v` holds size, data address and allocation. -/
def readString (s : VM) (n : Nat) (v : Word) : Res (Nat × VM) :=
  withRead s n fun t => do
    let alloc ← Heap.rdF s v.toNat 2
    let data ← Heap.rdF s v.toNat 1
    let (o, s) := fgets s n t (Str.capacity (BitVec.ofNat 16 alloc))
    let s ← storeLine s data o
    let l ← Str.cString s (2 * s.words + 1) data
    let s ← dropNewline s data l
    let s := setEoln s n (checkEoln l).2
    let s ← Heap.wrF s v.toNat 0 (checkEoln l).1.length
    .ok (eNOERROR, s)

/-- `libexec_ReadReal`, `libexec_sysio.c` 634-656. -/
def readReal (fpu : Fpu) (s : VM) (n : Nat) (dest : Word) : Res (Nat × VM) :=
  withRead s n fun t => do
    let s := readBuffer s n t
    let r ← convertReal fpu s.io.buffer
    let s ← Heap.wrF s dest.toNat 0 (r.extractLsb' 0 16).toNat
    let s ← Heap.wrF s dest.toNat 1 (r.extractLsb' 16 16).toNat
    let s ← Heap.wrF s dest.toNat 2 (r.extractLsb' 32 16).toNat
    let s ← Heap.wrF s dest.toNat 3 (r.extractLsb' 48 16).toNat
    .ok (eNOERROR, s)

/-- `libexec_CheckWriteAccess`, `libexec_sysio.c` 660-680. -/
def writeError (s : VM) (n : Nat) : Nat :=
  if n ≥ maxFiles then eBADFILE
  else if (entry s n).stream = none ∨ ((entry s n).openMode ≠ .write ∧ (entry s n).openMode ≠ .append) then
    eNOTOPENFORWRITE
  else eNOERROR

/-- `libexec_WriteInteger`, `libexec_WriteLongInteger`, `libexec_WriteWord`, `libexec_WriteLongWord`,
`libexec_WriteChar`, `libexec_WriteReal`, `libexec_sysio.c` 703-816: check the access, format, write. -/
def writeText (s : VM) (n : Nat) (l : List Byte) : Nat × VM :=
  if writeError s n = eNOERROR then (eNOERROR, put s n l) else (writeError s n, s)

/-- `fieldWidth >> 8`; `libexec_GetFormat`, `libexec_sysio.c` 2098-2120, leaves a width of zero out of the format, which is
the same as padding to zero characters. -/
def width (fieldWidth : Word) : Nat := (fieldWidth >>> 8).toNat

/-- The `%f` conversion with the format of `libexec_GetFormat`.  `insn16/libexec/libexec_sysio.c` 800-816. -/
def realText (h : Host) (fieldWidth : Word) (r : Real) : List Byte :=
  let w := width fieldWidth
  let p := fieldWidth.toNat % 256
  if w > 0 then h.fmtReal (some w) (if p > 0 then some p else none) r else h.fmtReal none none r

/-- `libexec_WriteBinary`, `libexec_sysio.c` 684-699. -/
def writeBinary (s : VM) (n : Nat) (src size : Nat) : Res (Nat × VM) :=
  if writeError s n = eNOERROR then do
    let l ← Str.readBytes s src size
    .ok (eNOERROR, put s n l)
  else .ok (writeError s n, s)

/-- `libexec_WriteString`, `libexec_sysio.c` 820-855. -/
def writeString (s : VM) (n : Nat) (addr size alloc fieldWidth : Word) : Res (Nat × VM) :=
  if writeError s n = eNOERROR then do
    let l ← Str.readBytes s addr.toNat size.toNat
    let s := put s n (pad (width fieldWidth) l)
    let s ← Str.freeTmp s addr alloc
    .ok (eNOERROR, s)
  else .ok (writeError s n, s)

/-- `libexec_GetFileSize`, `libexec_sysio.c` 874-917: the size is 0 on failure.  The seeks clear the end-of-file indicator. -/
def getFileSize (s : VM) (n : Nat) (t : Stream) : Nat × Nat × VM :=
  if seekable t then
    (eNOERROR, (content s t.file).length, setEntry s n { entry s n with stream := some { t with eof := false } })
  else (eFTELLFAILED, 0, s)

/-- `PASCAL_TRUE`, `PASCAL_FALSE` as pushed in `insn16/libexec/libexec_sysio.c` 930-985. -/
def bool (b : Bool) : Word := if b then 0xffff#16 else 0#16

/-- `libexec_Eof`, `libexec_sysio.c` 921-972. -/
def eof (s : VM) (n : Nat) : Res (Nat × VM) :=
  let (e, b, s) : Nat × Bool × VM :=
    if n ≥ maxFiles then (eBADFILE, true, s)
    else
      match (entry s n).stream with
      | none => (eFILENOTOPEN, true, s)
      | some t =>
          if t.eof then (eNOERROR, true, s)
          else if n ≠ 0 then
            let (e, size, s) := getFileSize s n t
            (e, decide (e ≠ eNOERROR ∨ t.pos ≥ size), s)
          else (eNOERROR, false, s)
  do
    let s ← s.push (bool b)
    .ok (e, s)

/-- `libexec_Eoln`, `libexec_sysio.c` 976-994. -/
def eoln (s : VM) (n : Nat) : Res (Nat × VM) :=
  if n ≥ maxFiles then do
    let s ← s.push (bool true)
    .ok (eBADFILE, s)
  else do
    let s ← s.push (bool (entry s n).eoln)
    .ok (eNOERROR, s)

/-- `libexec_FilePos`, `libexec_sysio.c` 999-1031. -/
def filePos (s : VM) (n : Nat) : Res (Nat × VM) :=
  if n ≥ maxFiles then .ok (eBADFILE, s)
  else
    match (entry s n).stream with
    | none => .ok (eFILENOTOPEN, s)
    | some t =>
        if seekable t then do
          let s ← LongOps.push32 s (BitVec.ofNat 32 t.pos)
          .ok (eNOERROR, s)
        else do
          let s ← LongOps.push32 s 0xffffffff#32
          .ok (eFTELLFAILED, s)

/-- `libexec_FileSize`, `libexec_sysio.c` 1036-1067. -/
def fileSize (s : VM) (n : Nat) : Res (Nat × VM) :=
  if n ≥ maxFiles then .ok (eBADFILE, s)
  else
    match (entry s n).stream with
    | none => .ok (eFILENOTOPEN, s)
    | some t =>
        let (e, size, s) := getFileSize s n t
        do
          let s ← LongOps.push32 s (BitVec.ofNat 32 size)
          .ok (e, s)

/-- `libexec_Seek`, `libexec_sysio.c` 1072-1103. -/
def seek (s : VM) (n : Nat) (pos : Nat) : Nat × VM :=
  if n ≥ maxFiles then (eBADFILE, s)
  else
    match (entry s n).stream with
    | none => (eFILENOTOPEN, s)
    | some t =>
        if seekable t then
          (eNOERROR, setEntry s n { entry s n with stream := some { t with pos := pos, eof := false } })
        else (eFSEEKFAILED, s)

/-- The loops of `libexec_SeekEof` and `libexec_SeekEoln`: how many bytes `fgetc` takes while they are
white space and not `stop`, and the first other one (`none` = end of file).
`insn16/libexec/libexec_sysio.c` 1109-1202. -/
def skipSpace (stop : Byte → Bool) : List Byte → Nat × Option Byte
  | [] => (0, none)
  | b :: r =>
      if stop b || !isspace b then (1, some b)
      else
        let (k, o) := skipSpace stop r
        (k + 1, o)

/-- `libexec_SeekEof`, `libexec_sysio.c` 1108-1152, and `libexec_SeekEoln`, 1157-1202: `found` gives the result for the
byte at which the loop stops; that byte has been taken from the stream. -/
def seekOver (s : VM) (n : Nat) (stop : Byte → Bool) (found : Option Byte → Bool) : Res (Nat × VM) :=
  let (e, b, s) : Nat × Bool × VM :=
    if n ≥ maxFiles then (eBADFILE, false, s)
    else
      match (entry s n).stream with
      | none => (eFILENOTOPEN, false, s)
      | some t =>
          let (k, o) := skipSpace stop (rest s t)
          (eNOERROR, found o, advance s n t k o.isNone)
  do
    let s ← s.push (bool b)
    .ok (e, s)

/-- `libexec_SeekEof`, `insn16/libexec/libexec_sysio.c` 1109-1153. -/
def seekEof (s : VM) (n : Nat) : Res (Nat × VM) := seekOver s n (fun _ => false) (fun o => o.isNone)
/-- `libexec_SeekEoln`, `insn16/libexec/libexec_sysio.c` 1158-1202. -/
def seekEoln (s : VM) (n : Nat) : Res (Nat × VM) := seekOver s n (· == 10#8) (fun o => o == some 10#8)

/-- `libexec_sysio`, `libexec_sysio.c` 1249-2094. -/
def sysIo (fpu : Fpu) (h : Host) (s : VM) (sub : Word) : Res (Nat × VM) :=
  match sub.toNat with
  | 0x01 => do                                                     -- xALLOCFILE, 1264-1272
      let (n, s) := allocateFile s
      let s ← s.push (BitVec.ofNat 16 n)
      .ok (if n ≥ maxFiles then eTOOMANYFILES else eNOERROR, s)
  | 0x02 => do                                                     -- xFREEFILE, 1276-1279
      let (n, s) ← s.pop
      .ok (freeFile s n.toNat)
  | 0x03 => do                                                     -- xEOF, 1283-1286
      let (n, s) ← s.pop
      eof s n.toNat
  | 0x04 => do                                                     -- xEOLN, 1290-1293
      let (n, s) ← s.pop
      eoln s n.toNat
  | 0x05 => do                                                     -- xFILEPOS, 1297-1300
      let (n, s) ← s.pop
      filePos s n.toNat
  | 0x06 => do                                                     -- xFILESIZE, 1304-1307
      let (n, s) ← s.pop
      fileSize s n.toNat
  | 0x07 => do                                                     -- xSEEK, 1315-1323
      let (n, s) ← s.pop
      let (p, s) ← LongOps.pop32 s
      .ok (seek s n.toNat p.toNat)
  | 0x08 => do                                                     -- xSEEKEOF, 1327-1330
      let (n, s) ← s.pop
      seekEof s n.toNat
  | 0x09 => do                                                     -- xSEEKEOLN, 1334-1337
      let (n, s) ← s.pop
      seekEoln s n.toNat
  | 0x0a => do                                                     -- xASSIGNFILE, 1346-1355
      let s := s.discard 1
      let (addr, s) ← s.pop
      let (size, s) ← s.pop
      let (text, s) ← s.pop
      let (n, s) ← s.pop
      assignFile s n.toNat (decide (text ≠ 0#16)) addr.toNat size.toNat
  | 0x0b => do                                                     -- xRESET, 1359-1362
      let (n, s) ← s.pop
      .ok (openFile h s n.toNat .read)
  | 0x0c => do                                                     -- xRESETR, 1368-1373
      let (size, s) ← s.pop
      let (n, s) ← s.pop
      let (_, s) := openFile h s n.toNat .read
      .ok (recordSize s n.toNat size)
  | 0x0d => do                                                     -- xREWRITE, 1377-1380
      let (n, s) ← s.pop
      .ok (openFile h s n.toNat .write)
  | 0x0e => do                                                     -- xREWRITER, 1386-1391
      let (size, s) ← s.pop
      let (n, s) ← s.pop
      let (_, s) := openFile h s n.toNat .write
      .ok (recordSize s n.toNat size)
  | 0x0f => do                                                     -- xAPPEND, 1395-1398
      let (n, s) ← s.pop
      .ok (openFile h s n.toNat .append)
  | 0x10 => do                                                     -- xCLOSEFILE, 1402-1405
      let (n, s) ← s.pop
      .ok (closeFile s n.toNat)
  | 0x11 => do                                                     -- xREADLN, 1409-1413
      let (n, s) ← s.pop
      readLn s n.toNat
  | 0x13 => do                                                     -- xREAD_BINARY, 1420-1428
      let (a, s) ← s.pop
      let (size, s) ← s.pop
      let (n, s) ← s.pop
      readBinary s n.toNat a.toNat size.toNat
  | 0x14 => do                                                     -- xREAD_INT, 1434-1441
      let (a, s) ← s.pop
      let (n, s) ← s.pop
      readInteger s n.toNat a
  | 0x15 => do                                                     -- xREAD_CHAR, 1447-1453
      let (a, s) ← s.pop
      let (n, s) ← s.pop
      readChar s n.toNat a
  | 0x16 => do                                                     -- xREAD_STRING, 1459-1469
      let (a, s) ← s.pop
      let (n, s) ← s.pop
      readString s n.toNat a
  | 0x17 => do                                                     -- xREAD_REAL, 1475-1481
      let (a, s) ← s.pop
      let (n, s) ← s.pop
      readReal fpu s n.toNat a
  | 0x18 => do                                                     -- xWRITELN, 1485-1488
      let (n, s) ← s.pop
      .ok (writeText s n.toNat [10#8])
  | 0x19 => do                                                     -- xWRITE_PAGE, 1492-1495
      let (n, s) ← s.pop
      .ok (writeText s n.toNat [12#8])
  | 0x1a => do                                                     -- xWRITE_BINARY, 1502-1510
      let (a, s) ← s.pop
      let (size, s) ← s.pop
      let (n, s) ← s.pop
      writeBinary s n.toNat a.toNat size.toNat
  | 0x1b => do                                                     -- xWRITE_INT, 1517-1523
      let (w, s) ← s.pop
      let (v, s) ← s.pop
      let (n, s) ← s.pop
      .ok (writeText s n.toNat (pad (width w) (fmtD v.toInt)))
  | 0x1c => do                                                     -- xWRITE_WORD, 1568-1574
      let (w, s) ← s.pop
      let (v, s) ← s.pop
      let (n, s) ← s.pop
      .ok (writeText s n.toNat (pad (width w) (fmtU v.toNat)))
  | 0x1d => do                                                     -- xWRITE_LONGINT, 1530-1542
      let (w, s) ← s.pop
      let (hi, s) ← s.pop
      let (lo, s) ← s.pop
      let (n, s) ← s.pop
      .ok (writeText s n.toNat (pad (width w) (fmtD (hi ++ lo : BitVec 32).toInt)))
  | 0x1e => do                                                     -- xWRITE_LONGWORD, 1549-1561
      let (w, s) ← s.pop
      let (hi, s) ← s.pop
      let (lo, s) ← s.pop
      let (n, s) ← s.pop
      .ok (writeText s n.toNat (pad (width w) (fmtU (hi ++ lo : BitVec 32).toNat)))
  | 0x1f => do                                                     -- xWRITE_CHAR, 1581-1588
      let (w, s) ← s.pop
      let (v, s) ← s.pop
      let (n, s) ← s.pop
      .ok (writeText s n.toNat (pad (width w) [v.truncate 8]))
  | 0x20 => do                                                     -- xWRITE_STRING, 1597-1610
      let (w, s) ← s.pop
      let (alloc, s) ← s.pop
      let (addr, s) ← s.pop
      let (size, s) ← s.pop
      let (n, s) ← s.pop
      writeString s n.toNat addr size alloc w
  | 0x21 => do                                                     -- xWRITE_REAL, 1617-1626
      let (w, s) ← s.pop
      let (v3, s) ← s.pop
      let (v2, s) ← s.pop
      let (v1, s) ← s.pop
      let (v0, s) ← s.pop
      let (n, s) ← s.pop
      .ok (writeText s n.toNat (realText h w (v3 ++ v2 ++ v1 ++ v0 : BitVec 64)))
  | 0x22 => do                                                     -- xFLUSH, 1630-1634
      let (n, s) ← s.pop
      .ok (writeError s n.toNat, s)
  | k => if 0x23 ≤ k ∧ k ≤ 0x2b then h.dir s sub else .ok (eBADSYSIOFUNC, s)

end Pas.SysIo
