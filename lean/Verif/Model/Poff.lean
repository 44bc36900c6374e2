import Verif.Model.Opcodes
import Verif.Model.Res
/-! Model of the object-file library (`libpoff`) on a little-endian host.

Memory blocks obtained from malloc are lists of bytes.  A section is its header fields
plus the bytes `0 .. sh_size-1` of its buffer and the number of bytes allocated for the
buffer; what lies between `sh_size` and the allocation is not represented because no
modelled function lets it influence a result.  Allocation failure is not modelled
(`fatal(eNOMEMORY)`), and sizes are natural numbers: the 32-bit size fields are those of
blocks that malloc did return. -/
namespace Pas.Poff

/-- 32-bit field (`uint32_t`). -/
abbrev U32 := BitVec 32

/-! ### Byte order -/

/-- `libpas/pswap.c:50-53` `poffSwap16`. -/
def swap16 (v : Word) : Word := v >>> 8 ||| v <<< 8

/-- `libpas/pswap.c:55-58` `poffSwap32`. -/
def swap32 (v : U32) : U32 :=
  v >>> 24 ||| ((v >>> 8) &&& 0x0000ff00#32) ||| ((v <<< 8) &&& 0x00ff0000#32) ||| v <<< 24

/-- Memory image of a `uint16_t` on a little-endian host (`include/paslib.h:56-64`
selects `CONFIG_POFF_SWAPNEEDED` exactly for such hosts). -/
def le16 (v : Word) : List Byte := [v.truncate 8, (v >>> 8).truncate 8]

/-- Memory image of a `uint32_t` on a little-endian host. -/
def le32 (v : U32) : List Byte :=
  [v.truncate 8, (v >>> 8).truncate 8, (v >>> 16).truncate 8, (v >>> 24).truncate 8]

/-- Reading a `uint16_t` back from memory at byte offset `i`. -/
def rd16 (d : List Byte) (i : Nat) : Word :=
  BitVec.ofNat 16 ((d.getD i 0).toNat + 256 * (d.getD (i + 1) 0).toNat)

/-- Reading a `uint32_t` back from memory at byte offset `i`. -/
def rd32 (d : List Byte) (i : Nat) : U32 :=
  BitVec.ofNat 32 ((d.getD i 0).toNat + 256 * (d.getD (i + 1) 0).toNat +
    65536 * (d.getD (i + 2) 0).toNat + 16777216 * (d.getD (i + 3) 0).toNat)

/-! ### String table (`pfwstring.c`, `pfrstring.c`) -/

/-- `strlen`/`strcmp` operand: the C string starting at the head of a memory block;
running off the block is undefined behaviour.  As in `libpoff/pfwstring.c` 64-98. -/
def cstr : List Byte → Res (List Byte)
  | [] => .ub
  | b :: bs => if b = 0#8 then .ok [] else do
      let s ← cstr bs
      .ok (b :: s)

/-- `libpoff/pfwstring.c:82-93`, the search loop of `poffFindString`: `rest` is the part
of the table from `offset` on.  `fuel` bounds the number of iterations; each one
advances by at least a byte, so the table length suffices (`findLoop_enough`). -/
def findLoop (s : List Byte) : Nat → List Byte → Nat → Res (Option Nat)
  | _, [], _ => .ok none
  | 0, _ :: _, _ => .hang
  | fuel + 1, b :: bs, off => do
      let t ← cstr (b :: bs)
      if t = s then .ok (some off)
      else findLoop s fuel ((b :: bs).drop (t.length + 1)) (off + t.length + 1)

/-- `libpoff/pfwstring.c:64-98` `poffFindString`: `none` is −1.  The table is `none` when
it has not been allocated; the string is `none` for a NULL pointer. -/
def findString (tab : Option (List Byte)) (s : Option (List Byte)) : Res (Option Nat) :=
  match tab with
  | none => .ok none
  | some t =>
    match s with
    | none => .ok (some 0)
    | some s => findLoop s t.length t 0

/-- `libpoff/pfwstring.c:106-184` `poffAddString`: returns the offset and the new
table.  Buffer growth (150-175) always makes room and is not represented. -/
def addString (tab : Option (List Byte)) (s : Option (List Byte)) : Res (Nat × List Byte) := do
  let t := tab.getD [0#8]
  match ← findString (some t) s with
  | some i => .ok (i, t)
  | none =>
    match s with
    | none => .ok (0, t)
    | some s => if s.length = 0 then .ok (0, t) else .ok (t.length, t ++ s ++ [0#8])

/-- The constant `"<NULL>"` of `libpoff/pfrstring.c:71`. -/
def nullString : List Byte := [0x3C, 0x4E, 0x55, 0x4C, 0x4C, 0x3E]

/-- `libpoff/pfrstring.c:60-73` `poffGetString`, followed by reading the C string at the
returned address. -/
def getString (tab : Option (List Byte)) (i : Nat) : Res (List Byte) :=
  match tab with
  | none => .ok nullString
  | some t => if i < t.length then cstr (t.drop i) else .ok nullString

/-! ### Line number lookup (`pflineno.c`) -/

/-- `include/pofflib.h:119-136` `poffLibLineNumber_t`. -/
structure LineEntry where
  lineno : Nat
  filename : List Byte
  offset : Nat
deriving DecidableEq, Repr

/-- Reading an entry of the line table; outside it is undefined behaviour.
`g_lineNumberTable`, `libpoff/pflineno.c` 64. -/
def lineAt (t : List LineEntry) (i : Nat) : Res LineEntry :=
  match t[i]? with
  | some e => .ok e
  | none => .ub

/-- `libpoff/pflineno.c:266-307`, the search loop of `poffFindLineNumber`.  Arguments:
fuel, `firstLineNumberIndex`, `lastLineNumberIndex`, `lineNumberIndex`; the result is the
final `lineNumberIndex`. -/
def searchLoop (t : List LineEntry) (offset : Nat) : Nat → Nat → Nat → Nat → Res Nat
  | 0, first, last, idx => if first = last then .ok idx else .hang
  | fuel + 1, first, last, idx =>
    if first = last then .ok idx
    else do
      let mid := (first + last) / 2
      let m ← lineAt t mid
      if m.offset > offset then searchLoop t offset fuel first mid mid
      else if m.offset = offset then .ok mid
      else do
        let n ← lineAt t (mid + 1)
        if n.offset > offset then .ok mid
        else searchLoop t offset fuel (mid + 1) last mid

/-- `libpoff/pflineno.c:226-326` `poffFindLineNumber`: takes the sorted table (empty when
`g_lineNumberTable` is NULL) and `g_prevLineNumberIndex`; returns the entry (`none` is
NULL) and the new `g_prevLineNumberIndex`. -/
def findLine (t : List LineEntry) (prev offset : Nat) : Res (Option LineEntry × Nat) :=
  if t = [] then .ok (none, prev)
  else do
    let p ← lineAt t prev
    let first := if p.offset ≤ offset then prev else 0
    let last := if p.offset ≤ offset then t.length - 1 else prev
    let i ← searchLoop t offset t.length first last first
    let e ← lineAt t i
    if e.offset > offset then .ok (none, 0) else .ok (some e, i)

/-! ### Debug function records (`pfwdbgfunc.c`, `pfrdbgfunc.c`) -/

/-- `include/pofflib.h:141-174` `poffLibDebugFuncInfo_t`; `nparms` is the length of
`args`. -/
structure DebugFunc where
  value : U32
  retsize : U32
  args : List U32
deriving DecidableEq, Repr

/-- The debug section: `sh_size` bytes of data and the allocated size (0: not
allocated).  `libpoff/pfwdbgfunc.c` 57-105. -/
structure DebugTab where
  data : List Byte
  alloc : Nat
deriving DecidableEq, Repr

/-- `libpoff/pfwdbgfunc.c:57-75`, `80-105` allocation and growth: initially 128 records of
12 bytes, grown by a single increment of 64 records. -/
def debugRoom (t : DebugTab) (nparms : Nat) : DebugTab :=
  let t := if t.alloc = 0 then { data := [], alloc := 128 * 12 } else t
  if t.data.length + (12 + nparms * 4) > t.alloc then { t with alloc := t.alloc + 64 * 12 }
  else t

/-- Memory image of a record: `libpoff/pfwdbgfunc.c:138-152`. -/
def debugImage (r : DebugFunc) : List Byte :=
  le32 r.value ++ le32 r.retsize ++ le32 (BitVec.ofNat 32 r.args.length) ++
    r.args.flatMap le32

/-- `libpoff/pfwdbgfunc.c:115-158` `poffAddDebugFuncInfo`: writing beyond the allocation
is undefined behaviour. -/
def addDebug (t : DebugTab) (r : DebugFunc) : Res DebugTab :=
  let t := debugRoom t r.args.length
  if t.data.length + (12 + r.args.length * 4) > t.alloc then .ub
  else .ok { t with data := t.data ++ debugImage r }

/-- `libpoff/pfrdbgfunc.c:98-104`, the loop over parameters. -/
def readArgs (d : List Byte) : Nat → Nat → Res (List U32)
  | _, 0 => .ok []
  | i, n + 1 => if i + 4 > d.length then .ub else do
      let r ← readArgs d (i + 4) n
      .ok (rd32 d i :: r)

/-- `libpoff/pfrdbgfunc.c:60-110` `poffGetDebugFuncInfo` at `debugFuncIndex = i`: the
record and the next index, or `none` for NULL. -/
def getDebug (d : List Byte) (i : Nat) : Res (Option (DebugFunc × Nat)) :=
  if i + 12 ≥ d.length then .ok none
  else do
    let n := (rd32 d (i + 8)).toNat
    let args ← readArgs d (i + 12) n
    .ok (some (⟨rd32 d i, rd32 d (i + 4), args⟩, i + 12 + n * 4))

/-- Iterating `poffGetDebugFuncInfo` until it returns NULL, as
`libpoff/pfdbginfo.c` `poffReadDebugFuncInfoTable` does.  Lines 62-99. -/
def debugLoop (d : List Byte) : Nat → Nat → Res (List DebugFunc)
  | 0, _ => .hang
  | fuel + 1, i => do
    match ← getDebug d i with
    | none => .ok []
    | some (r, j) => do
      let rest ← debugLoop d fuel j
      .ok (r :: rest)

/-- All records of a debug section.  `libpoff/pfdbginfo.c` 62-99. -/
def readDebug (d : List Byte) : Res (List DebugFunc) := debugLoop d (d.length + 1) 0

end Pas.Poff
