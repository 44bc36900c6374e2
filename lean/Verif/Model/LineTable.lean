import Verif.Model.Disasm
import Verif.Model.PoffFile

/-! The line numbers of an object file with the names of their files (`libpoff/pfrlineno.c`), and the sorted table
that is searched (`libpoff/pflineno.c`). -/
namespace Pas.Poff

/-- What `poffGetLineNumber` does: it returns -1, it ends the program (`fatal`), or it delivers a line and moves
`lineNumberIndex` on.  `libpoff/pfrlineno.c` 68-114. -/
inductive Got where
  | last
  | fatal
  | line (e : LineEntry) (next : Nat)
deriving DecidableEq, Repr

/-- `poffGetLineNumber` with `lineNumberIndex` = `i`, `libpoff/pfrlineno.c` 68-114.  A line number record is 2 bytes
for the line, 2 for the number of the file, 4 for the offset; an entry of the file name table is 4 bytes. -/
def getLine (p : Poff) (i : Nat) : Res Got :=
  if i ≥ (p.sh .lineno).size.toNat then .ok .last
  else if i + 8 > (p.data .lineno).length then .ub
  else
    let d := p.data .lineno
    let f := (rd16 d (i + 2)).toNat
    if f * 4 > (p.sh .filetab).size.toNat then .ok .fatal
    else if 4 * f + 4 > (p.data .filetab).length then .ub
    else do
      let s ← getString p.strs (rd32 (p.data .filetab) (4 * f)).toNat
      .ok (.line ⟨(rd16 d i).toNat, s, (rd32 d (i + 4)).toNat⟩ ((i + (p.sh .lineno).entsize.toNat) % 2 ^ 32))

/-- The loop of `poffReadLineNumberTable`, `libpoff/pflineno.c` 204-212: the index is an `int32_t` there, negative
ones end it (`none`: the program has ended with `fatal`).  The memory of the table, which grows by 512 entries before
an entry is added that has no room (lines 96-117), is not modelled. -/
def lineLoop (p : Poff) : Nat → Nat → Res (Option (List LineEntry))
  | 0, _ => .hang
  | fuel + 1, i => do
    let g ← getLine p i
    match g with
    | .last => .ok (some [])
    | .fatal => .ok none
    | .line e next =>
      if i ≥ 2 ^ 31 then .ok (some [])
      else do
        let r ← lineLoop p fuel next
        .ok (r.map (e :: ·))

/-- `poffReadLineNumberTable` for a handle just read, `libpoff/pflineno.c` 193-222; `sort` is the `qsort` of the host
(lines 220-221), which may put lines with equal offsets in any order. -/
def readLines (sort : List LineEntry → List LineEntry) (p : Poff) : Res (Option (List LineEntry)) := do
  let r ← lineLoop p ((p.data .lineno).length + 1) 0
  .ok (r.map sort)

/-- `plist_DumpProgramData` with the table that is read at its start, `insn16/plist/plist.c` 215-294. -/
def listing (sort : List LineEntry → List LineEntry) (p : Poff) : Res (Option (List Byte)) := do
  let r ← readLines sort p
  match r with
  | none => .ok none
  | some t => do
    let l ← Disasm.dump t p.program
    .ok (some l)

end Pas.Poff
