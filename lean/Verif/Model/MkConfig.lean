import Verif.Model.Opcodes

/-! # The generator of the configuration header, `tools/mkconfig.c`

A C string is the list of its bytes; a pointer into a line is what is left of the line.  The C functions `isspace` and
`isalnum` are those of the C locale (bytes from 128 on, for which they are undefined where `char` is signed, are taken
as neither). -/
namespace Pas.MkConfig

/-- `isspace`, used in `tools/mkconfig.c:80-84`. -/
def isSpace (c : Byte) : Bool := c == 32#8 || (9 ≤ c.toNat && c.toNat ≤ 13)

/-- `isalnum((int)*ptr) || *ptr == '_'`, `tools/mkconfig.c:90`. -/
def isNameChar (c : Byte) : Bool :=
  (48 ≤ c.toNat && c.toNat ≤ 57) || (65 ≤ c.toNat && c.toNat ≤ 90) || (97 ≤ c.toNat && c.toNat ≤ 122) || c == 95#8

/-- `pas_SkipSpaces`, `tools/mkconfig.c:80-84`. -/
def skipSpaces : List Byte → List Byte
  | [] => []
  | c :: cs => if isSpace c then skipSpaces cs else c :: cs

/-- `pas_FindNameEnd`, `tools/mkconfig.c:88-92`: what is before the end, and what is from the end on. -/
def findNameEnd : List Byte → List Byte × List Byte
  | [] => ([], [])
  | c :: cs => if isNameChar c then ((c :: (findNameEnd cs).1), (findNameEnd cs).2) else ([], c :: cs)

/-- `pas_FindValueEnd`, `tools/mkconfig.c:96-112`: what is before the end.  The state is `none` outside of quotes (the
outer loop and the inner loop for other characters stop at the same characters, so they are one here) and the preceding
character inside of quotes. -/
def findValueEnd : Option Byte → List Byte → List Byte
  | _, [] => []
  | none, c :: cs =>
    if isSpace c then []
    else if c = 34#8 then c :: findValueEnd (some c) cs
    else c :: findValueEnd none cs
  | some last, c :: cs =>
    if c ≠ 34#8 ∨ last = 92#8 then c :: findValueEnd (some c) cs
    else c :: findValueEnd none cs

/-- The calls of `fgets` for a file, `tools/mkconfig.c:123`: up to `max` characters, which end with the end of the line
if that is reached.  `k` characters, `acc` in reverse, have been read for the current line. -/
def splitLines (max : Nat) : Nat → List Byte → List Byte → List (List Byte)
  | _, acc, [] => if acc = [] then [] else [acc.reverse]
  | k, acc, c :: cs =>
    if c = 10#8 ∨ k + 1 = max then (c :: acc).reverse :: splitLines max 0 [] cs
    else splitLines max (k + 1) (c :: acc) cs

/-- What is read for one line, as a C string. `tools/mkconfig.c:123`. -/
def cString (l : List Byte) : List Byte := l.takeWhile (· != 0#8)

/-- One turn of the loop of `pas_ReadLine`, `tools/mkconfig.c:116-136`: `none` if the line is passed over. -/
def readLine (l : List Byte) : Option (List Byte) :=
  match skipSpaces (cString l) with
  | [] => none
  | c :: cs => if c ≠ 35#8 ∧ c ≠ 10#8 then some (c :: cs) else none

/-- What is left when the name has been terminated. `tools/mkconfig.c:149-163`. -/
def afterName : List Byte → List Byte
  | [] => []
  | c :: cs => if c ≠ 61#8 then skipSpaces cs else c :: cs

/-- `pas_ParseLine`, `tools/mkconfig.c:142-194`: name and value. -/
def parseLine (l : List Byte) : List Byte × Option (List Byte) :=
  let r := findNameEnd l
  match afterName r.2 with
  | [] => (r.1, none)
  | c :: cs =>
    if c = 61#8 then
      match skipSpaces cs with
      | [] => (r.1, none)
      | v => (r.1, some (findValueEnd none v))
    else (r.1, none)

/-- `"#undef "`, `"#define "` and so on. `tools/mkconfig.c:225-248`. -/
def str (s : String) : List Byte := s.toList.map fun c => BitVec.ofNat 8 c.toNat

/-- What is printed for a line, `tools/mkconfig.c:217-250`. -/
def definition (name : List Byte) (value : Option (List Byte)) : List Byte :=
  match value with
  | none => str "#undef " ++ name ++ [10#8]
  | some v =>
    if v = [110#8] then str "#undef " ++ name ++ [10#8]
    else if v = [121#8] then str "#define " ++ name ++ str " 1\n"
    else if v = [109#8] then str "#define " ++ name ++ str " 2\n"
    else str "#define " ++ name ++ [32#8] ++ v ++ [10#8]

/-- One turn of the loop of `pas_GenerateDefinitions`, `tools/mkconfig.c:204-253`, for one line. -/
def forLine (l : List Byte) : List Byte :=
  match readLine l with
  | none => []
  | some s => definition (parseLine s).1 (parseLine s).2

/-- `pas_GenerateDefinitions`, `tools/mkconfig.c:196-254`: 4095 characters at most are read at once (`PATH_MAX` is 4096,
lines 53 and 123). -/
def definitions (file : List Byte) : List Byte :=
  (splitLines 4095 0 [] file).flatMap forLine

/-- What `main` writes for a file that can be opened, `tools/mkconfig.c:285-291`. -/
def generate (file : List Byte) : List Byte :=
  str "/* Automatically generated file; DO NOT EDIT. */\n\n" ++ str "#ifndef __CONFIG_H\n" ++ str "#define __CONFIG_H\n\n" ++
    definitions file ++ str "#endif /* __CONFIG_H */\n"

/-- `pas_GetFilePath`, `tools/mkconfig.c:71-76`: `snprintf` keeps 4095 characters.  `strdup` is taken to succeed. -/
def filePath (name : List Byte) : List Byte := (name ++ str "/.config").take 4095

/-- `main`, `tools/mkconfig.c:260-296`: the arguments without the name of the program, and the content of the file of
each name that can be opened.  The result is the exit status and what is written to the standard output; the messages
on the error output are left out. -/
def main (args : List (List Byte)) (files : List Byte → Option (List Byte)) : Nat × List Byte :=
  match args with
  | [name] =>
    match files (filePath name) with
    | none => (3, [])
    | some file => (0, generate file)
  | _ => (1, [])

end Pas.MkConfig
