import Verif.Model.Poff
/-! Model of building, writing and reading object files (`libpoff/pfhandle.c`,
`pfw*.c`, `pfr*.c`, `pfswap.c`, `pfwrite.c`, `pfread.c`) on a little-endian host. -/
namespace Pas.Poff

/-- `include/poff.h:163-229` `poffFileHeader_t`. -/
structure FileHdr where
  ident : List Byte
  version : Byte
  ftype : Byte
  arch : Byte
  padding : Byte
  shsize : Word
  shnum : Word
  name : U32
  entry : U32
  shoff : U32
deriving DecidableEq, Repr

/-- `include/poff.h:232-281` `poffSectionHeader_t`. -/
structure SecHdr where
  stype : Byte
  flags : Byte
  entsize : Word
  name : U32
  addr : U32
  offset : U32
  size : U32
deriving DecidableEq, Repr

/-- The eight sections of `libpoff/pfprivate.h:107-114`. -/
inductive Sec where
  | text | rodata | symtab | strtab | rel | filetab | lineno | dbgfunc
deriving DecidableEq, Repr

/-- Section names, `libpoff/pfwrite.c:170`, `192`, `214`, `236`, `258`, `280`, `302`,
`325`. -/
def Sec.text? : Sec → String
  | .text => ".text" | .rodata => ".rodata" | .symtab => ".symtab" | .strtab => ".strtab"
  | .rel => ".rel" | .filetab => ".filetab" | .lineno => ".lineno" | .dbgfunc => ".dbgfunc"

/-- The section name as a C string.  `libpoff/pfwrite.c` 67-95. -/
def Sec.name (k : Sec) : List Byte := k.text?.toList.map fun c => BitVec.ofNat 8 c.toNat

/-- `libpoff/pfprivate.h:98-150` `poffInfo_t`: header, section headers, section data and
the allocation sizes of the two tables whose byte swapping can leave the section. -/
structure Poff where
  hdr : FileHdr
  sh : Sec → SecHdr
  data : Sec → List Byte
  fileAlloc : Nat
  debugAlloc : Nat

/-- Function update at one section.  For the section data of `libpoff/pfhandle.c` 56-118. -/
def upd {α : Type} (f : Sec → α) (k : Sec) (v : α) : Sec → α := fun j => if j = k then v else f j

/-- Section headers set up by `libpoff/pfhandle.c:78-115`; everything else is zero. -/
def freshSh : Sec → SecHdr
  | .text => ⟨1, 6, 0, 0, 0, 0, 0⟩
  | .rodata => ⟨1, 3, 0, 0, 0, 0, 0⟩
  | .symtab => ⟨2, 0, 16, 0, 0, 0, 0⟩
  | .strtab => ⟨3, 0, 0, 0, 0, 0, 0⟩
  | .rel => ⟨4, 0, 8, 0, 0, 0, 0⟩
  | .filetab => ⟨5, 0, 4, 0, 0, 0, 0⟩
  | .lineno => ⟨6, 0, 8, 0, 0, 0, 0⟩
  | .dbgfunc => ⟨7, 0, 12, 0, 0, 0, 0⟩

/-- `libpoff/pfhandle.c:56-118` `poffCreateHandle`. -/
def create : Poff where
  hdr := ⟨[0x50, 0x4F, 0x46, 0x46], 1, 0, 0, 0, 20, 0, 0, 0, 24⟩
  sh := freshSh
  data := fun _ => []
  fileAlloc := 0
  debugAlloc := 0

/-- The string table as `addString` sees it: not allocated while the section is empty.
`libpoff/pfwstring.c` 106-184. -/
def Poff.strs (p : Poff) : Option (List Byte) :=
  if p.data .strtab = [] then none else some (p.data .strtab)

/-- Replacing the contents of a section, `sh_size` included.  As in `libpoff/pfwprog.c` 58-104. -/
def Poff.put (p : Poff) (k : Sec) (d : List Byte) : Poff :=
  { p with
    data := upd p.data k d
    sh := upd p.sh k { p.sh k with size := BitVec.ofNat 32 d.length } }

/-- Appending to a section: the common effect of the `poffAdd…` functions.
As in `libpoff/pfwprog.c` 58-104, `pfwsymbol.c` 63-131, `pfwreloc.c` 114-145. -/
def Poff.app (p : Poff) (k : Sec) (d : List Byte) : Poff := p.put k (p.data k ++ d)

/-- `poffAddString` on an object (`libpoff/pfwstring.c:106-184`). -/
def Poff.addStr (p : Poff) (s : Option (List Byte)) : Res (Nat × Poff) := do
  let r ← addString p.strs s
  .ok (r.1, p.put .strtab r.2)

/-- `libpoff/pfwprog.c:58-104` `poffAddProgByte`. -/
def Poff.addProg (p : Poff) (b : Byte) : Poff := p.app .text [b]

/-- `libpoff/pfwrodata.c:147-176` `poffAddRoDataString`: the string, its terminator, and
an indeterminate byte `pad` if needed to keep the size even. -/
def Poff.addRo (p : Poff) (s : List Byte) (pad : Byte) : Nat × Poff :=
  ((p.data .rodata).length,
   p.app .rodata (s ++ [0#8] ++ if (s.length + 1) % 2 = 0 then [] else [pad]))

/-- `include/pofflib.h:69-113` `poffLibSymbol_t`. -/
structure LibSymbol where
  stype : Byte
  align : Byte
  flags : Byte
  name : Option (List Byte)
  value : U32
  size : U32
deriving DecidableEq, Repr

/-- `include/poff.h:306-350` `poffSymbol_t`, memory image. -/
def symImage (s : LibSymbol) (name : U32) : List Byte :=
  [s.stype, s.align, s.flags, 0] ++ (le32 name ++ (le32 s.value ++ le32 s.size))

/-- `libpoff/pfwsymbol.c:63-131` `poffAddSymbol`. -/
def Poff.addSym (p : Poff) (s : LibSymbol) : Res (Nat × Poff) := do
  let r ← p.addStr s.name
  let q := r.2
  .ok ((q.data .symtab).length / 16, q.app .symtab (symImage s (BitVec.ofNat 32 r.1)))

/-- `libpoff/pfwreloc.c:114-145` `poffAddRelocation`; `RLI_MAKE` is
`include/poff.h:155`. -/
def Poff.addReloc (p : Poff) (t : Byte) (sym off : U32) : Nat × Poff :=
  ((p.data .rel).length, p.app .rel (le32 (sym <<< 8 ||| t.setWidth 32) ++ le32 off))

/-- `libpoff/pfwfname.c:64-125` `poffAddFileName`: 64 entries at first, 64 more when
full. -/
def Poff.addFile (p : Poff) (name : Option (List Byte)) : Res (Nat × Poff) := do
  let r ← p.addStr name
  let q := r.2
  let a := if q.fileAlloc = 0 then 256 else q.fileAlloc
  let a := if (q.data .filetab).length + 4 > a then a + 256 else a
  .ok ((q.data .filetab).length / 4,
       { q.app .filetab (le32 (BitVec.ofNat 32 r.1)) with fileAlloc := a })

/-- `libpoff/pfwlineno.c:116-148` `poffAddLineNumber`. -/
def Poff.addLine (p : Poff) (line file : Word) (off : U32) : Nat × Poff :=
  ((p.data .lineno).length, p.app .lineno (le16 line ++ (le16 file ++ le32 off)))

/-- `libpoff/pfwdbgfunc.c:115-157` `poffAddDebugFuncInfo` on an object. -/
def Poff.addDbg (p : Poff) (r : DebugFunc) : Res Poff := do
  let t ← addDebug ⟨p.data .dbgfunc, p.debugAlloc⟩ r
  .ok { p.put .dbgfunc t.data with debugAlloc := t.alloc }

/-- `libpoff/pfwhdr.c:61-74` `poffSetFileType`. -/
def Poff.setType (p : Poff) (t : Byte) (name : Option (List Byte)) : Res Poff := do
  let r ← p.addStr name
  .ok { r.2 with hdr := { r.2.hdr with ftype := t, name := BitVec.ofNat 32 r.1 } }

/-- `libpoff/pfwhdr.c:78-85` `poffSetArchitecture`. -/
def Poff.setArch (p : Poff) (a : Byte) : Poff := { p with hdr := { p.hdr with arch := a } }

/-- `libpoff/pfwhdr.c:90-95` `poffSetEntryPoint`. -/
def Poff.setEntry (p : Poff) (e : U32) : Poff := { p with hdr := { p.hdr with entry := e } }

/-! ### Byte swapping of headers and tables (`pfswap.c`) -/

/-- `libpoff/pfswap.c:115-122` `poffSwapFileHeader`. -/
def FileHdr.swap (h : FileHdr) : FileHdr :=
  { h with
    shsize := swap16 h.shsize
    shnum := swap16 h.shnum
    name := swap32 h.name
    entry := swap32 h.entry
    shoff := swap32 h.shoff }

/-- `libpoff/pfswap.c:128-135` `poffSwapSectionHeader`. -/
def SecHdr.swap (h : SecHdr) : SecHdr :=
  { h with
    entsize := swap16 h.entsize
    name := swap32 h.name
    addr := swap32 h.addr
    offset := swap32 h.offset
    size := swap32 h.size }

/-- Memory image of a file header (24 bytes). -/
def FileHdr.image (h : FileHdr) : List Byte :=
  h.ident ++ ([h.version, h.ftype, h.arch, h.padding] ++ (le16 h.shsize ++ (le16 h.shnum ++
    (le32 h.name ++ (le32 h.entry ++ le32 h.shoff)))))

/-- Memory image of a section header (20 bytes). -/
def SecHdr.image (h : SecHdr) : List Byte :=
  [h.stype, h.flags] ++ (le16 h.entsize ++ (le32 h.name ++ (le32 h.addr ++ (le32 h.offset ++
    le32 h.size))))

/-- The file header occupying 24 bytes of memory. -/
def fileHdrOf (d : List Byte) : FileHdr :=
  ⟨d.take 4, d.getD 4 0, d.getD 5 0, d.getD 6 0, d.getD 7 0, rd16 d 8, rd16 d 10, rd32 d 12,
   rd32 d 16, rd32 d 20⟩

/-- The section header occupying 20 bytes of memory. -/
def secHdrOf (d : List Byte) : SecHdr :=
  ⟨d.getD 0 0, d.getD 1 0, rd16 d 2, rd32 d 4, rd32 d 8, rd32 d 12, rd32 d 16⟩

/-- Swapping one 16- or 32-bit field at byte offset `i` of a block with `alloc` bytes
allocated, of which the list holds the first ones.  Accesses that lie entirely in the
unused part of the allocation change nothing that is represented; all others outside the
list are undefined behaviour. -/
def swapField (alloc : Nat) (d : List Byte) (i : Nat) (wide : Bool) : Res (List Byte) :=
  let w := if wide then 4 else 2
  if i + w ≤ d.length then
    .ok (d.take i ++ (if wide then le32 (swap32 (rd32 d i)) else le16 (swap16 (rd16 d i))) ++
      d.drop (i + w))
  else if d.length ≤ i ∧ i + w ≤ alloc then .ok d
  else .ub

/-- Swapping the fields `fs` (offset, is it 32 bits wide) of the record at `i`. -/
def swapRec (alloc : Nat) (fs : List (Nat × Bool)) (i : Nat) (d : List Byte) : Res (List Byte) :=
  match fs with
  | [] => .ok d
  | f :: fs => do
    let d ← swapField alloc d (i + f.1) f.2
    swapRec alloc fs i d

/-- Fields swapped by `libpoff/pfswap.c:62-67`, `poffSwapSymbolTableEntry`. -/
def symFields : List (Nat × Bool) := [(4, true), (8, true), (12, true)]
/-- Fields swapped by `libpoff/pfswap.c:52-56`, `poffSwapRelocationEntry`. -/
def relFields : List (Nat × Bool) := [(0, true), (4, true)]
/-- Fields swapped by `libpoff/pfswap.c:82-87`, `poffSwaplineno`. -/
def lineFields : List (Nat × Bool) := [(0, false), (2, false), (4, true)]
/-- Fields swapped by `libpoff/pfswap.c:93-98`, `poffDebugFuncEntry`. -/
def dbgFields : List (Nat × Bool) := [(0, true), (4, true), (8, true)]

/-- The loops of `libpoff/pfswap.c:146-152`, `164-170`, `200-206`: records at byte offsets
0, `ent`, 2·`ent`, … below `size`. -/
def swapLoop (alloc : Nat) (fs : List (Nat × Bool)) (ent size : Nat) :
    Nat → Nat → List Byte → Res (List Byte)
  | 0, i, d => if i < size then .hang else .ok d
  | fuel + 1, i, d =>
    if i < size then do
      let d ← swapRec alloc fs i d
      swapLoop alloc fs ent size fuel (i + ent) d
    else .ok d

/-- `libpoff/pfswap.c:177-191` `poffSwapFileTableData`: the index counts bytes but
subscripts an array of 32-bit words. -/
def swapFileLoop (alloc ent size : Nat) : Nat → Nat → List Byte → Res (List Byte)
  | 0, i, d => if i < size then .hang else .ok d
  | fuel + 1, i, d =>
    if i < size then do
      let d ← swapField alloc d (4 * i) true
      swapFileLoop alloc ent size fuel (i + ent) d
    else .ok d

/-- `libpoff/pfswap.c:227-232`: the parameter sizes of one debug record. -/
def swapArgs (alloc : Nat) : Nat → Nat → List Byte → Res (List Byte)
  | 0, _, d => .ok d
  | n + 1, i, d => do
    let d ← swapField alloc d i true
    swapArgs alloc n (i + 4) d

/-- `libpoff/pfswap.c:213-234` `poffSwapDebugData`: bounded by the size of the
*relocation* section, and taking the number of parameters after it has been swapped.  A
count in the unused part of the allocation is indeterminate; using it is taken as
undefined behaviour. -/
def swapDebugLoop (alloc relsize : Nat) : Nat → Nat → List Byte → Res (List Byte)
  | 0, i, d => if i + 12 < relsize then .hang else .ok d
  | fuel + 1, i, d =>
    if i + 12 < relsize then do
      let d ← swapRec alloc dbgFields i d
      if i + 12 ≤ d.length then do
        let n := (rd32 d (i + 8)).toNat
        let d ← swapArgs alloc n (i + 12) d
        swapDebugLoop alloc relsize fuel (i + 12 + 4 * n) d
      else .ub
    else .ok d

/-- Swapping the data of a section; program, constants and strings are bytes.  `libpoff/pfswap.c` 52-234. -/
def Poff.swapData (p : Poff) (k : Sec) : Res (List Byte) :=
  let d := p.data k
  let n := (p.sh k).size.toNat
  let e := (p.sh k).entsize.toNat
  match k with
  | .symtab => swapLoop d.length symFields e n (n + 1) 0 d
  | .rel => swapLoop d.length relFields e n (n + 1) 0 d
  | .lineno => swapLoop d.length lineFields e n (n + 1) 0 d
  | .filetab => swapFileLoop p.fileAlloc e n (n + 1) 0 d
  | .dbgfunc => swapDebugLoop p.debugAlloc (p.sh .rel).size.toNat ((p.sh .rel).size.toNat + 1) 0 d
  | _ => .ok d

/-! ### Writing (`pfwrite.c`) -/

/-- Order in which sections are written, the string table last
(`libpoff/pfwrite.c:164-332`, `337-515`). -/
def writeOrder : List Sec := [.text, .rodata, .symtab, .rel, .filetab, .lineno, .dbgfunc, .strtab]

/-- Is the section written?  The `HAVE_…` tests of `libpoff/pfprivate.h:78-85`; the string
table always is. -/
def Poff.have (p : Poff) (k : Sec) : Bool := k == .strtab || (p.sh k).size != 0

/-- `libpoff/pfwrite.c:67-95` `poffCountSections`. -/
def Poff.count (p : Poff) : Nat := (writeOrder.filter p.have).length

/-- A section header with its name and file offset filled in, e.g.
`libpoff/pfwrite.c:170-171`. -/
def SecHdr.placed (h : SecHdr) (name offset : U32) : SecHdr :=
  ⟨h.stype, h.flags, h.entsize, name, h.addr, offset, h.size⟩

/-- `libpoff/pfwrite.c:150-341` `poffWriteSectionHeaders`: bytes written and the object
with the section names added to its string table. -/
def writeHdrs : List Sec → Poff → U32 → Res (List Byte × Poff)
  | [], p, _ => .ok ([], p)
  | k :: ks, p, off =>
    if p.have k then do
      let r ← p.addStr (some k.name)
      let q := r.2
      let h := (q.sh k).placed (BitVec.ofNat 32 r.1) off
      let q := { q with sh := upd q.sh k h }
      let t ← writeHdrs ks q (off + h.size)
      .ok (h.swap.image ++ t.1, t.2)
    else writeHdrs ks p off

/-- `libpoff/pfwrite.c:332-515` `poffWriteSectionData`: each table is swapped, written and
swapped back. -/
def writeData : List Sec → Poff → Res (List Byte × Poff)
  | [], p => .ok ([], p)
  | k :: ks, p =>
    if p.have k then do
      let d ← p.swapData k
      let p1 := { p with data := upd p.data k d }
      let d2 ← p1.swapData k
      let t ← writeData ks { p1 with data := upd p1.data k d2 }
      .ok (d ++ t.1, t.2)
    else writeData ks p

/-- `libpoff/pfwrite.c:522-527` `poffWriteFile`: the file and the object afterwards. -/
def writeFile (p : Poff) : Res (List Byte × Poff) := do
  let h := { p.hdr with shnum := BitVec.ofNat 16 p.count }
  let p := { p with hdr := h }
  let off := h.shoff + h.shnum.setWidth 32 * h.shsize.setWidth 32
  let a ← writeHdrs writeOrder p off
  let b ← writeData writeOrder a.2
  .ok (h.swap.image ++ (a.1 ++ b.1), b.2)

/-! ### Reading (`pfread.c`) -/

/-- Error codes of `poffReadFile`.  `include/pas_errcodes.h` 343-344. -/
inductive PErr where
  | readError | badFormat
deriving DecidableEq, Repr

/-- `fseek` to `off` and `fread` of `n` bytes: `none` if fewer bytes are left.  `libpoff/pfread.c` 197-228. -/
def readAt (f : List Byte) (off n : Nat) : Option (List Byte) :=
  let d := (f.drop off).take n
  if d.length = n then some d else none

/-- `libpoff/pfread.c:73-109` `poffReadFileHeader`. -/
def readHdr (f : List Byte) : Except PErr FileHdr :=
  match readAt f 0 24 with
  | none => .error .readError
  | some d =>
    let h := (fileHdrOf d).swap
    if h.ident ≠ [0x50, 0x4F, 0x46, 0x46] ∨ h.version ≠ 1 then .error .badFormat else .ok h

/-- `libpoff/pfread.c:149-186`: which section a header describes. -/
def destOf (h : SecHdr) : Option Sec :=
  if h.stype = 1 then some (if h.flags &&& 4 ≠ 0 then .text else .rodata)
  else if h.stype = 2 then some .symtab
  else if h.stype = 3 then some .strtab
  else if h.stype = 4 then some .rel
  else if h.stype = 5 then some .filetab
  else if h.stype = 6 then some .lineno
  else if h.stype = 7 then some .dbgfunc
  else none

/-- `libpoff/pfread.c:114-192` `poffReadSectionHeaders`. -/
def readHdrs (f : List Byte) (shsize : Nat) : Nat → Nat → (Sec → SecHdr) → Except PErr (Sec → SecHdr)
  | 0, _, sh => .ok sh
  | n + 1, off, sh =>
    match readAt f off 20 with
    | none => .error .readError
    | some d =>
      let h := (secHdrOf d).swap
      match destOf h with
      | none => .error .readError
      | some k => readHdrs f shsize n (off + shsize) (upd sh k h)

/-- Order in which section data are read (`libpoff/pfread.c:235-322`). -/
def readOrder : List Sec := [.text, .rodata, .symtab, .strtab, .rel, .filetab, .lineno, .dbgfunc]

/-- Setting the allocation of a block just read: exactly its size
(`libpoff/pfread.c:212`). -/
def Poff.alloced (p : Poff) (k : Sec) (n : Nat) : Poff :=
  match k with
  | .filetab => { p with fileAlloc := n }
  | .dbgfunc => { p with debugAlloc := n }
  | _ => p

/-- `libpoff/pfread.c:197-226`, `230-322` `poffReadAllSectionData`. -/
def readData (f : List Byte) : List Sec → Poff → Res (Except PErr Poff)
  | [], p => .ok (.ok p)
  | k :: ks, p =>
    if (p.sh k).size ≠ 0 then
      match readAt f (p.sh k).offset.toNat (p.sh k).size.toNat with
      | none => .ok (.error .readError)
      | some d => do
        let q := { p with data := upd p.data k d }.alloced k d.length
        let d ← q.swapData k
        readData f ks { q with data := upd q.data k d }
    else readData f ks p

/-- `libpoff/pfread.c:331-347` `poffReadFile` into a new handle. -/
def readFile (f : List Byte) : Res (Except PErr Poff) :=
  match readHdr f with
  | .error e => .ok (.error e)
  | .ok h =>
    match readHdrs f h.shsize.toNat h.shnum.toNat h.shoff.toNat create.sh with
    | .error e => .ok (.error e)
    | .ok sh => readData f readOrder { create with hdr := h, sh := sh }

/-! ### Access (`pfr*.c`) -/

/-- `libpoff/pfrsymbol.c:60-91` `poffGetSymbol` repeated to the end, from byte offset
`i`. -/
def symLoop (p : Poff) : Nat → Nat → Res (List LibSymbol)
  | 0, i => if i ≥ (p.sh .symtab).size.toNat then .ok [] else .hang
  | fuel + 1, i =>
    if i ≥ (p.sh .symtab).size.toNat then .ok []
    else if i + 16 > (p.data .symtab).length then .ub
    else do
      let d := p.data .symtab
      let s ← getString p.strs (rd32 d (i + 4)).toNat
      let r ← symLoop p fuel (i + (p.sh .symtab).entsize.toNat)
      .ok (⟨d.getD i 0, d.getD (i + 1) 0, d.getD (i + 2) 0, some s, rd32 d (i + 8),
        rd32 d (i + 12)⟩ :: r)

/-- All symbols.  `libpoff/pfrsymbol.c` 60-91, until the end. -/
def Poff.symbols (p : Poff) : Res (List LibSymbol) := symLoop p (p.data .symtab).length 0

/-- `libpoff/pfreloc.c:68-94` `poffNextRelocation` repeated to the end: (info, offset). -/
def relLoop (p : Poff) : Nat → Nat → Res (List (U32 × U32))
  | 0, i => if i ≥ (p.sh .rel).size.toNat then .ok [] else .hang
  | fuel + 1, i =>
    if i ≥ (p.sh .rel).size.toNat then .ok []
    else if i + 8 > (p.data .rel).length then .ub
    else do
      let r ← relLoop p fuel (i + (p.sh .rel).entsize.toNat)
      .ok ((rd32 (p.data .rel) i, rd32 (p.data .rel) (i + 4)) :: r)

/-- All relocations.  `libpoff/pfreloc.c` 68-94, until the end. -/
def Poff.relocs (p : Poff) : Res (List (U32 × U32)) := relLoop p (p.data .rel).length 0

/-- `libpoff/pfrfname.c:60-96` `poffGetFileName` repeated to the end. -/
def fileLoop (p : Poff) : Nat → Nat → Res (List (List Byte))
  | 0, i => if 4 * i ≥ (p.sh .filetab).size.toNat then .ok [] else .hang
  | fuel + 1, i =>
    if 4 * i ≥ (p.sh .filetab).size.toNat then .ok []
    else if 4 * i + 4 > (p.data .filetab).length then .ub
    else do
      let s ← getString p.strs (rd32 (p.data .filetab) (4 * i)).toNat
      let r ← fileLoop p fuel (i + 1)
      .ok (s :: r)

/-- All file names.  `libpoff/pfrfname.c` 60-96, until the end. -/
def Poff.files (p : Poff) : Res (List (List Byte)) := fileLoop p (p.data .filetab).length 0

/-- `libpoff/pfrrawlineno.c:60-90` `poffGetRawLineNumber` repeated to the end: (line, file index,
offset). -/
def rawLineLoop (p : Poff) : Nat → Nat → Res (List (Word × Word × U32))
  | 0, i => if i ≥ (p.sh .lineno).size.toNat then .ok [] else .hang
  | fuel + 1, i =>
    if i ≥ (p.sh .lineno).size.toNat then .ok []
    else if i + 8 > (p.data .lineno).length then .ub
    else do
      let d := p.data .lineno
      let r ← rawLineLoop p fuel (i + (p.sh .lineno).entsize.toNat)
      .ok ((rd16 d i, rd16 d (i + 2), rd32 d (i + 4)) :: r)

/-- All line numbers.  `libpoff/pfrrawlineno.c` 60-90, until the end. -/
def Poff.rawLines (p : Poff) : Res (List (Word × Word × U32)) :=
  rawLineLoop p (p.data .lineno).length 0

/-- `libpoff/pfrprog.c:59-73` `poffGetProgByte` repeated to the end. -/
def Poff.program (p : Poff) : List Byte := (p.data .text).take (p.sh .text).size.toNat

/-- `libpoff/pfrhdr.c:88-92` `poffGetFileHdrName`. -/
def Poff.hdrName (p : Poff) : Res (List Byte) := getString p.strs p.hdr.name.toNat

end Pas.Poff
