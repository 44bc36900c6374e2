import Verif.Model.Source
import Verif.Model.PoffFile

/-! The tools with the files between them: `pas` writes an object file, `popt` reads it, finalizes it
and writes another, `plink` reads that and writes an executable file, `prun` loads that.

The optimizer proper is left out as in `Model/Toolchain`.  Files that cannot be opened or written and
memory exhaustion, which end the programs, are not modelled. -/
namespace Pas.Chain
open Pas.Poff Pas.Comp

/-- `pas` up to the point where the object file is written, `pascal/pas_main.c` 376-428: `none` if there
were errors (the status is then not 0, lines 424-428). -/
def compileFile (line : Nat → Byte × Word) (pad : Byte) (n : Nat) (file : List Byte) :
    Res (Option Object) := do
  let (toks, errs) ← readTokens n (startOfFile file)
  match toks with
  | .tk (.other 0x9d) :: toks =>
    if errs ≠ 0 then .ok none
    else
      match ← program line pad n toks with
      | none => .ok none
      | some obj => if obj.errs ≠ 0 then .ok none else .ok (some obj)
  | _ => .ok none

/-- The bytes `poffWriteFile`, `libpoff/pfwrite.c` 522-527, writes. -/
def fileOf (p : Poff) : Res (List Byte) := do
  let r ← writeFile p
  .ok r.1

/-! ### `popt` -/

/-- A symbol as the finalization looks at it: `STT_PROC` is 3, `STT_FUNC` 4 (`include/poff.h` 122-127),
all other kinds are passed on alike (`popt_finalize.c` 213); `STF_UNDEFINED` is bit 0
(`popt_finalize.c` 219). -/
def optSym (s : LibSymbol) : Pas.Sym :=
  ⟨s.name.getD [], if s.stype = 3#8 then .proc else if s.stype = 4#8 then .func else .data,
    s.flags &&& 1#8 != 0#8, s.value.toNat, s.size.toNat⟩

/-- `pass2`, `popt_finalize.c` 236-241: is a value replaced (`nchanges`)? -/
def changes (s : LibSymbol) : Bool :=
  (optSym s).type != .data && !(optSym s).undefined

/-- The symbols added to the temporary table, `popt_finalize.c` 246-250 and `poffAddTmpSymbol`,
`libpoff/pftsymbol.c` 63-135: the table and the object, whose string table gets the names.  `vs` are the
values. -/
def tmpSyms : Poff → List LibSymbol → List Nat → Res (List Byte × Poff)
  | p, s :: ss, v :: vs => do
    let r ← p.addStr s.name
    let t ← tmpSyms r.2 ss vs
    .ok (symImage { s with value := BitVec.ofNat 32 v } (BitVec.ofNat 32 r.1) ++ t.1, t.2)
  | p, _, _ => .ok ([], p)

/-- `poffAddLineNumber`, `libpoff/pfwlineno.c` 116-148, for each line number found by `pass1`,
`popt_finalize.c` 170-173. -/
def addLines : Poff → List LineNo → Poff
  | p, [] => p
  | p, l :: ls => addLines (p.addLine l.line (l.file.zeroExtend 16) (BitVec.ofNat 32 l.offset)).2 ls

/-- `poffDiscardDebugFuncInfo`, `libpoff/pfdbgdiscard.c` 53-70. -/
def discardDebug (p : Poff) : Poff := { p.put .dbgfunc [] with debugAlloc := 0 }

/-- The 8 bytes of a relocation, `popt_finalize.c` 353-360 and `poffAddTmpRelocation`,
`libpoff/pftreloc.c` 95-152. -/
def relBytes (r : Reloc) : List Byte :=
  le32 (BitVec.ofNat 32 r.sym <<< 8 ||| BitVec.ofNat 32 (r.kind % 256)) ++ le32 (BitVec.ofNat 32 r.offset)

/-- `main` of `popt`, `insn16/popt/popt.c` 162-201, from the object read to the object to be written:
`createRelocationHandles` and `popt_Finalization`, `popt_finalize.c` 497-605.  Relocations in the file
are copied into a block of no bytes (`libpoff/pftreloc.c` 60-87, `PoffMem.clone`): undefined.  Line numbers
in the file (the compiler writes none) are taken as undefined, too: the table may overflow when others are
added (property C41). -/
def poptObject (q : Poff) : Res (Option Poff) :=
  if q.data .rel ≠ [] ∨ q.data .lineno ≠ [] then .ub
  else do
    let syms ← q.symbols
    match ← finalize ⟨q.program, syms.map optSym, [], [],
        if q.hdr.ftype = 3#8 then some q.hdr.entry.toNat else none⟩ with
    | none => .ok none
    | some f => do
      let q := addLines q f.lines
      let r ← tmpSyms q syms (f.syms.map (·.value))
      let q := if syms.any changes then r.2.put .symtab r.1 else r.2
      let q := (discardDebug q).put .text f.prog
      let q := match f.entry with
        | some e => q.setEntry (BitVec.ofNat 32 e)
        | none => q
      .ok (some (q.put .rel (f.rels.flatMap relBytes)))

/-- `popt`: `readPoffFile` and `writePoffFile`, `popt.c` 86-154, around `poptObject`.  `none`: it ends
with a message. -/
def poptFile (f : List Byte) : Res (Option (List Byte)) := do
  match ← readFile f with
  | .error _ => .ok none
  | .ok q =>
    match ← poptObject q with
    | none => .ok none
    | some q => do
      let g ← fileOf q
      .ok (some g)

/-! ### `plink` -/

/-- What `plink_LoadInputFiles`, `plink/plink.c` 155-244, takes out of the object read.  (All of it is
taken at once here, in the program one after the other while the output is built.) -/
def inputOf (q : Poff) : Res Link.Input := do
  let name ← q.hdrName
  let files ← q.files
  let lines ← q.rawLines
  let syms ← q.symbols
  let rels ← q.relocs
  .ok ⟨q.hdr.ftype, name, q.hdr.entry, q.data .rodata, q.program, files, lines,
    syms.map fun s => ⟨s.name.getD [], s.stype, s.align, s.flags, s.value, s.size⟩,
    rels.map fun r => ⟨r.1, r.2⟩⟩

/-- The input files read one after the other, `plink/plink.c` 157-189. -/
def readInputs : List (List Byte) → Res (Option (List Link.Input))
  | [] => .ok (some [])
  | f :: fs => do
    match ← readFile f with
    | .error _ => .ok none
    | .ok q => do
      let i ← inputOf q
      match ← readInputs fs with
      | none => .ok none
      | some is => .ok (some (i :: is))

/-- `poffAddFileName` for each name, `plink/plink.c` 401-411. -/
def addFiles : Poff → List (List Byte) → Res Poff
  | p, [] => .ok p
  | p, n :: ns => do
    let r ← p.addFile (some n)
    addFiles r.2 ns

/-- `poffAddLineNumber` for each line, `plink/plink.c` 437-449. -/
def addRawLines : Poff → List (Word × Word × U32) → Poff
  | p, [] => p
  | p, l :: ls => addRawLines (p.addLine l.1 l.2.1 l.2.2).2 ls

/-- `writeSymbols`, `plink/plsym.c` 188-198. -/
def addSyms : Poff → List Link.Sym → Res Poff
  | p, [] => .ok p
  | p, s :: ss => do
    let r ← p.addSym ⟨s.stype, s.align, s.flags, some s.name, s.value, s.size⟩
    addSyms r.2 ss

/-- The object `plink` writes: entry point and name (`plink/plink.c` 288-297; FHT_EXEC is 1), read-only
data (`plink/plink.c` 319-341, `libpoff/pfirodata.c` 76-101), the program (`insn_AddOpCode`,
`plink/plink.c` 374, byte by byte; the relocations are applied in place), file names, line numbers and
symbols.  The architecture is not set: it stays 0, which is `FHA_PCODE_INSN16` (`include/poff.h` 82-92). -/
def outObject (o : Link.Output) : Res Poff := do
  let p ← (create.setEntry o.entry).setType 1#8 (some o.name)
  let p := (p.app .rodata o.rodata).app .text o.prog
  let p ← addFiles p o.files
  addSyms (addRawLines p o.lines) o.syms

/-- `main` of `plink`, `plink/plink.c` 491-534.  `none`: it ends with a message. -/
def plinkFiles (fs : List (List Byte)) : Res (Option (List Byte)) := do
  match ← readInputs fs with
  | none => .ok none
  | some is =>
    match ← Link.link is with
    | none => .ok none
    | some o => do
      let p ← outObject o
      let f ← fileOf p
      .ok (some f)

/-! ### `prun` -/

/-- `libexec_Load`, `insn16/libexec/libexec_load.c` 57-146, up to the call of `libexec_Initialize`: the
attributes, the program and `maxpc`; `none`: NULL is returned.  Entry point and size of the program are cut
to 16 bits. -/
def loadExe (f : List Byte) (strSize stkSize hpSize : Word) : Res (Option (Attr × List Byte × Word)) := do
  match ← readFile f with
  | .error _ => .ok none
  | .ok q =>
    if q.hdr.ftype ≠ 1#8 then .ok none
    else if q.hdr.arch ≠ 0#8 then .ok none
    else .ok (some (⟨q.hdr.entry.truncate 16, q.data .rodata, strSize, stkSize, hpSize⟩, q.data .text,
      BitVec.ofNat 16 (q.data .text).length))

end Pas.Chain
