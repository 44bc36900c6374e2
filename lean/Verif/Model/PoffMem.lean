import Verif.Model.Poff

/-! # The memory of the growing tables of the object file library (`libpoff`)

`Verif.Model.PoffFile` gives the contents of the sections as lists.  Here the memory that
holds them is modelled: a block obtained from `malloc`/`realloc`, the number of bytes in
use, the number of bytes the library believes it has allocated, and the traversal index.
A write or read outside the block is undefined behaviour (`Res.ub`).

Simplifications: `malloc` and `realloc` never fail (failures end the program through
`fatal`); the bytes of a new block are `junk`; sizes of 2^32 bytes and more are not
modelled (an allocation of such a size is reported as `ub`, so nothing is claimed). -/

namespace Pas.PoffMem

open Pas.Poff

/-- One table: `libpoff/pfprivate.h:80-181`, e.g. the members `relocTable`, `relocSize`
(or `relocSection.sh_size`), `relocAlloc`, `relocIndex`.  `block` is `none` for NULL and
otherwise has the length that was passed to `malloc`/`realloc`. -/
structure Buf where
  block : Option (List Byte) := none
  size : Nat := 0
  alloc : Nat := 0
  index : Nat := 0
deriving DecidableEq, Repr

/-- How one kind of table grows: the bytes of the first block, the number recorded for it,
the increment, and whether the increment is repeated until the new data fit.
`libpoff/pfprivate.h:54-76`. -/
structure Kind where
  initial : Nat
  recorded : Nat
  inc : Nat
  loop : Bool
deriving DecidableEq, Repr

/-- `libpoff/pfwprog.c:64-97`: 8096 bytes are allocated and `INITIAL_STRING_TABLE_SIZE`
(4096) are recorded; sizes from `libpoff/pfprivate.h:54,72,73`. -/
def progKind : Kind := ⟨8096, 4096, 2048, false⟩
/-- `libpoff/pftprog.c:56-103`; sizes from `libpoff/pfprivate.h:72,73`. -/
def tmpProgKind : Kind := ⟨8096, 8096, 2048, true⟩
/-- `libpoff/pfwrodata.c:59-108`; sizes from `libpoff/pfprivate.h:75,76`. -/
def roKind : Kind := ⟨4096, 4096, 1024, true⟩
/-- `libpoff/pfwstring.c:114-183`; sizes from `libpoff/pfprivate.h:54,55`. -/
def strKind : Kind := ⟨4096, 4096, 1024, true⟩
/-- `libpoff/pfwsymbol.c:76-111` and `libpoff/pftsymbol.c:82-116`; sizes from
`libpoff/pfprivate.h:57,58`. -/
def symKind : Kind := ⟨256 * 16, 256 * 16, 64 * 16, false⟩
/-- `libpoff/pfwreloc.c:58-103` and `libpoff/pftreloc.c:102-136`; sizes from
`libpoff/pfprivate.h:63,64`. -/
def relKind : Kind := ⟨128 * 8, 128 * 8, 64 * 8, false⟩
/-- `libpoff/pfwfname.c:79-113`; sizes from `libpoff/pfprivate.h:60,61`. -/
def fileKind : Kind := ⟨64 * 4, 64 * 4, 64 * 4, false⟩
/-- `libpoff/pfwlineno.c:58-105`; sizes from `libpoff/pfprivate.h:66,67`. -/
def lineKind : Kind := ⟨2048 * 8, 2048 * 8, 512 * 8, false⟩

/-- `realloc`: the old bytes that fit, then `junk`.  `libpoff/pftprog.c:93`. -/
def realloc (junk : Nat → Byte) (old : List Byte) (n : Nat) : List Byte :=
  (old ++ (List.range n).map junk).take n

/-- `malloc`.  `libpoff/pftprog.c:62`. -/
def malloc (junk : Nat → Byte) (n : Nat) : List Byte := (List.range n).map junk

/-- The loop `while (size + len > newAlloc) newAlloc += INCREMENT`,
`libpoff/pftprog.c:86-89`, `libpoff/pfwrodata.c:89-92`, `libpoff/pfwstring.c:168-169`.
(The increments are positive constants.) -/
def growTo (inc need a : Nat) : Nat :=
  if h : need ≤ a ∨ inc = 0 then a else growTo inc need (a + inc)
termination_by need - a

/-- First allocation: `libpoff/pfwreloc.c:62-74` and the same lines of the other tables. -/
def Buf.check (junk : Nat → Byte) (k : Kind) (b : Buf) : Buf :=
  match b.block with
  | none => { b with block := some (malloc junk k.initial), size := 0, alloc := k.recorded }
  | some _ => b

/-- Growth before `len` bytes are added: `libpoff/pfwreloc.c:81-102` and the same lines of
the other tables. -/
def Buf.room (junk : Nat → Byte) (k : Kind) (len : Nat) (b : Buf) : Res Buf :=
  if b.size + len > b.alloc then
    let n := if k.loop then growTo k.inc (b.size + len) (b.alloc + k.inc) else b.alloc + k.inc
    if n ≥ 2 ^ 32 then .ub
    else .ok { b with block := some (realloc junk (b.block.getD []) n), alloc := n }
  else .ok b

/-- Writing `d` at offset `i` of the block: outside the block it is undefined.
`libpoff/pfwreloc.c:135-138`, `libpoff/pftprog.c:169-170`. -/
def Buf.store (i : Nat) (d : List Byte) (b : Buf) : Res Buf :=
  match b.block with
  | none => .ub
  | some m =>
    if i + d.length ≤ m.length then
      .ok { b with block := some (m.take i ++ d ++ m.drop (i + d.length)) }
    else .ub

/-- The common shape of the functions that add data: first allocation, growth for `len`
bytes, the write, the new size (`adv` more), the offset of the new data.
`libpoff/pfwreloc.c:114-144`. -/
def Buf.add (junk : Nat → Byte) (k : Kind) (len : Nat) (d : List Byte) (adv : Nat) (b : Buf) :
    Res (Nat × Buf) := do
  let b ← (b.check junk k).room junk k len
  let c ← b.store b.size d
  .ok (b.size, { c with size := b.size + adv })

/-- `libpoff/pfwprog.c:58-106` `poffAddProgByte`. -/
def addProgByte (junk : Nat → Byte) (x : Byte) (b : Buf) : Res (Nat × Buf) :=
  b.add junk progKind 1 [x] 1

/-- `libpoff/pftprog.c:111-140` `poffAddTmpProgByte`. -/
def addTmpProgByte (junk : Nat → Byte) (x : Byte) (b : Buf) : Res (Nat × Buf) :=
  b.add junk tmpProgKind 1 [x] 1

/-- `libpoff/pftprog.c:144-176` `poffWriteTmpProgBytes`: the 32-bit number of bytes is
passed to a parameter `uint16_t len` (line 74) when room is made. -/
def writeTmpProgBytes (junk : Nat → Byte) (d : List Byte) (b : Buf) : Res (Nat × Buf) :=
  b.add junk tmpProgKind (d.length % 65536) d d.length

/-- `libpoff/pfwrodata.c:147-176` `poffAddRoDataString`: the terminated string is copied,
the size grows by `INT_ALIGNUP(len)` (`insn16/include/pas_machine.h`: even), the length is
passed to a parameter `uint16_t len` (line 77) when room is made. -/
def addRoString (junk : Nat → Byte) (s : List Byte) (b : Buf) : Res (Nat × Buf) :=
  b.add junk roKind ((s.length + 1) % 65536) (s ++ [0#8]) (2 * ((s.length + 2) / 2))

/-- `libpoff/pfwreloc.c:114-144` `poffAddRelocation`, `libpoff/pftreloc.c:95-152`
`poffAddTmpRelocation`: `e` is the 8-byte entry; the result is its byte offset. -/
def addReloc (junk : Nat → Byte) (e : List Byte) (b : Buf) : Res (Nat × Buf) :=
  b.add junk relKind 8 e 8

/-- `libpoff/pfwlineno.c:116-147` `poffAddLineNumber`: `e` is the 8-byte entry. -/
def addLine (junk : Nat → Byte) (e : List Byte) (b : Buf) : Res (Nat × Buf) :=
  b.add junk lineKind 8 e 8

/-- `libpoff/pfwsymbol.c:74-130` `poffAddSymbol` after the name has been added to the
string table: `e` is the 16-byte entry (`sh_entsize` is set by
`libpoff/pfhandle.c:85`); the result is the number of the entry. -/
def addSym (junk : Nat → Byte) (e : List Byte) (b : Buf) : Res (Nat × Buf) := do
  let r ← b.add junk symKind 16 e 16
  .ok (r.1 / 16, r.2)

/-- `libpoff/pftsymbol.c:80-135` `poffAddTmpSymbol` after the name has been added to the
string table; the result is the byte offset of the entry. -/
def addTmpSym (junk : Nat → Byte) (e : List Byte) (b : Buf) : Res (Nat × Buf) :=
  b.add junk symKind 16 e 16

/-- `libpoff/pfwfname.c:74-124` `poffAddFileName` after the name has been added to the
string table: `e` is the 4-byte entry, the result is its number.  The write is at
`fileNameTable[sh_size / 4]`. -/
def addFile (junk : Nat → Byte) (e : List Byte) (b : Buf) : Res (Nat × Buf) := do
  let b ← (b.check junk fileKind).room junk fileKind 4
  let c ← b.store (4 * (b.size / 4)) e
  .ok (b.size / 4, { c with size := b.size + 4 })

/-- The bytes in use: the first `sh_size` bytes of the block, what
`libpoff/pfwrite.c` writes to the file for the section.  `libpoff/pfwrite.c:332-440`. -/
def Buf.contents (b : Buf) : List Byte := (b.block.getD []).take b.size

/-- `libpoff/pfwstring.c:114-129`: the first allocation of the string table, with the empty
string at offset 0. -/
def firstStr (junk : Nat → Byte) (b : Buf) : Res Buf :=
  match b.block with
  | none =>
    Buf.store 0 [0#8]
      { b with
        block := some (malloc junk strKind.initial)
        size := 1
        alloc := strKind.recorded }
  | some _ => .ok b

/-- `libpoff/pfwstring.c:106-196` `poffAddString`; the search is
`Poff.findString` (lines 64-98) on the bytes in use. -/
def addStr (junk : Nat → Byte) (s : Option (List Byte)) (b : Buf) : Res (Nat × Buf) := do
  let b ← firstStr junk b
  match ← findString (some b.contents) s with
  | some i => .ok (i, b)
  | none =>
    match s with
    | none => .ok (0, b)
    | some s =>
      if s.length = 0 then .ok (0, b)
      else do
        let b ← b.room junk strKind (s.length + 1)
        let c ← b.store b.size (s ++ [0#8])
        .ok (b.size, { c with size := b.size + (s.length + 1) })

/-- A new table: the handle is filled with zeros, `libpoff/pfhandle.c:62-70`,
`libpoff/pfrelochandle.c:58-73`, `libpoff/pfproghandle.c:58-72`. -/
def Buf.new : Buf := {}

/-- The table after `poffReadFile`: `libpoff/pfread.c:195-348` allocates exactly `sh_size`
bytes for a section that is not empty and reads it; no `…Alloc` member is assigned, so it
keeps the zero of `libpoff/pfhandle.c:70`. -/
def Buf.ofFile (d : List Byte) : Buf :=
  if d = [] then {} else { block := some d, size := d.length }

/-- `libpoff/pftreloc.c:60-87` `poffCloneRelocations` into an empty container.  Copying no
bytes is harmless also when there is no table. -/
def clone (junk : Nat → Byte) (src : Buf) : Res Buf :=
  let b : Buf := { block := some (malloc junk src.alloc), size := src.size, alloc := src.alloc }
  if src.size > (src.block.getD []).length then .ub
  else b.store 0 src.contents

/-- `libpoff/pftreloc.c:156-185` `poffReplaceRelocationTable`,
`libpoff/pftsymbol.c:139-167` `poffReplaceSymbolTable`, `libpoff/pftprog.c:180-207`
`poffReplaceProgData`: the file's table and the emptied container. -/
def replace (tmp : Buf) : Buf × Buf :=
  ({ tmp with index := 0 }, { tmp with block := none, size := 0, alloc := 0 })

/-- `libpoff/pftgetreloc.c:60-64` `poffResetTmpRelocationTraversal`. -/
def rewind (b : Buf) : Buf := { b with index := 0 }

/-- `libpoff/pftgetreloc.c:68-95` `poffNextTmpRelocation`: `none` is −1, otherwise the
offset and the 8 bytes of the entry. -/
def next (b : Buf) : Res (Option (Nat × List Byte) × Buf) :=
  if b.index ≥ b.size then .ok (none, b)
  else match b.block with
    | none => .ub
    | some m =>
      if b.index + 8 ≤ m.length then
        .ok (some (b.index, (m.drop b.index).take 8), { b with index := b.index + 8 })
      else .ub

/-- `libpoff/pfrelochandle.c:90-106` `poffResetTmpRelocHandle`: the index is left. -/
def reset (b : Buf) : Buf := { b with block := none, size := 0, alloc := 0 }

/-- `libpoff/pfirodata.c:76-101` `poffAppendRoData`. -/
def appendRo (junk : Nat → Byte) (d : List Byte) (b : Buf) : Res Buf :=
  if d = [] then .ok b
  else
    let n := b.size + d.length
    if n ≥ 2 ^ 32 then .ub
    else do
      let c ← Buf.store b.size d { b with block := some (realloc junk (b.block.getD []) n) }
      .ok { c with size := n, alloc := n }

/-- `libpoff/pfiprog.c:60-75` `poffInsertProgramData`: the caller's block becomes the
section. -/
def insertProg (d : List Byte) (b : Buf) : Buf :=
  { b with block := some d, size := d.length, alloc := d.length, index := 0 }

/-! ### The relocation containers of the optimizer -/

/-- `insn16/popt/popt_reloc.c:55-64`: the relocations of the last pass and of this one. -/
structure Relocs where
  prev : Buf
  cur : Buf
deriving DecidableEq, Repr

/-- `insn16/popt/popt_reloc.c:73-90` `createRelocationHandles`. -/
def createRelocs (junk : Nat → Byte) (file : Buf) : Res Relocs := do
  let p ← clone junk file
  .ok ⟨p, Buf.new⟩

/-- `insn16/popt/popt_reloc.c:107-126` `swapRelocationHandles`. -/
def swapRelocs (r : Relocs) : Relocs := ⟨rewind r.cur, reset r.prev⟩

end Pas.PoffMem
