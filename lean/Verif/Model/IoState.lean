import Verif.Model.Opcodes

/-! The files of a running program: `fileTable` and `ioBuffer` of `struct libexec_s`
(`insn16/include/libexec.h` 327-328) and the files of the host behind them. -/
namespace Pas

/-- What a C `FILE` stands for: the standard input, the standard output or a named file.
The streams of `insn16/include/libexec.h` 183-194. -/
inductive HostFile where
  | stdin
  | stdout
  | named (name : List Byte)
deriving DecidableEq

/-- `openMode_t`, `libexec.h` 173-181. -/
inductive OpenMode where
  | none
  | read
  | write
  | append
deriving DecidableEq

/-- A C `FILE`: the file, the position of the next byte and the end-of-file indicator.
`stream` in `insn16/include/libexec.h` 191. -/
structure Stream where
  file : HostFile
  pos : Nat
  eof : Bool
deriving DecidableEq

/-- `execFileTable_t`, `libexec.h` 183-194.  `fileName` is the C string in the array, `stream = none`
is `NULL`. -/
structure FileEntry where
  fileName : List Byte
  inUse : Bool
  text : Bool
  eoln : Bool
  recordSize : Word
  stream : Option Stream
  openMode : OpenMode
deriving DecidableEq

/-- An entry after `memset`.  `insn16/libexec/libexec_run.c` 1444. -/
def FileEntry.zero : FileEntry := ⟨[], false, false, false, 0#16, none, .none⟩

/-- The file table, the C string in `ioBuffer` and the contents of the files of the host (`none` = does
not exist; the content of the standard input is everything that will ever be typed).  Simplification:
C streams are not buffered, so what has been written is in the file at once.
`insn16/include/libexec.h` 327-328. -/
structure Io where
  table : Nat → FileEntry
  buffer : List Byte
  files : HostFile → Option (List Byte)

/-- No files.  `insn16/libexec/libexec_run.c` 1444. -/
def Io.empty : Io := ⟨fun _ => FileEntry.zero, [], fun _ => none⟩
/-- `libexec_InitializeFile`, `libexec_sysio.c` 1208-1239.  Simplification: the standard input is at its beginning. -/
def Io.initializeFile (io : Io) : Io :=
  { io with
    table := fun n =>
      if n = 0 then ⟨[73#8, 78#8, 80#8, 85#8, 84#8], true, true, false, 1#16, some ⟨.stdin, 0, false⟩, .read⟩
      else if n = 1 then
        ⟨[79#8, 85#8, 84#8, 80#8, 85#8, 84#8], true, true, false, 1#16, some ⟨.stdout, 0, false⟩, .write⟩
      else FileEntry.zero }

end Pas
