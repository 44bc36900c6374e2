import Verif.Model.Poff
/-! # The listing of relocations, `libpoff/pfdreloc.c` and `libpoff/pfdtreloc.c`

The table is the list of the bytes of the section, as it was read from a file, and the position in it is what is left of
the list.  The 32-bit position is taken as a number, so a size of an entry near 2^32 is not represented. -/
namespace Pas.RelocDump
open Pas.Poff

/-- The bytes of a text in the program.  `libpoff/pfdreloc.c:55-60`, `72-74`. -/
def str (s : String) : List Byte := s.toList.map fun c => BitVec.ofNat 8 c.toNat

/-- A hexadecimal digit as `fprintf` writes it for `PRIx32`, `libpoff/pfdreloc.c:82`. -/
def hexDigit (n : Nat) : Byte := if n < 10 then BitVec.ofNat 8 (48 + n) else BitVec.ofNat 8 (87 + n)

/-- `%08" PRIx32`, `libpoff/pfdreloc.c:82`. -/
def hex8 (v : U32) : List Byte :=
  [hexDigit (v.toNat / 268435456 % 16), hexDigit (v.toNat / 16777216 % 16), hexDigit (v.toNat / 1048576 % 16),
    hexDigit (v.toNat / 65536 % 16), hexDigit (v.toNat / 4096 % 16), hexDigit (v.toNat / 256 % 16),
    hexDigit (v.toNat / 16 % 16), hexDigit (v.toNat % 16)]

/-- `poffRelocationTypes`, `libpoff/pfdreloc.c:55-60`, and `g_relocationTypeNames`, `libpoff/pfdtreloc.c:55-60`; reading
behind the array is undefined. -/
def typeName (t : Nat) : Res (List Byte) :=
  match t with
  | 0 => .ok (str "NULL")
  | 1 => .ok (str "PCAL")
  | 2 => .ok (str "LDST")
  | _ => .ub

/-- `%-6s`, `libpoff/pfdreloc.c:82`. -/
def pad6 (l : List Byte) : List Byte := l ++ List.replicate (6 - l.length) 32#8

/-- One turn of the loop, `libpoff/pfdreloc.c:80-85`, `libpoff/pfdtreloc.c:80-85`; `RLI_SYM` and `RLI_TYPE` are those of
`include/poff.h:153-154`. -/
def relocLine (rest : List Byte) : Res (List Byte) :=
  if rest.length < 8 then .ub
  else do
    let info := rd32 rest 0
    let name ← typeName (info &&& 0xff#32).toNat
    .ok (pad6 name ++ str " 0x" ++ hex8 (info >>> 8) ++ str " 0x" ++ hex8 (rd32 rest 4) ++ str "\n")

/-- The loop, `libpoff/pfdreloc.c:76-86`, `libpoff/pfdtreloc.c:76-86`: with entries of no size it does not end. -/
def relocLines (ent : Nat) (rest : List Byte) : Res (List Byte) :=
  if h : rest = [] then .ok []
  else do
    let l ← relocLine rest
    if h0 : ent = 0 then .hang
    else do
      let ls ← relocLines ent (rest.drop ent)
      .ok (l ++ ls)
termination_by rest.length
decreasing_by
  have := List.length_pos_iff.2 h
  rw [List.length_drop]; omega

/-- `poffDumpRelocTable`, `libpoff/pfdreloc.c:66-87`. -/
def dumpRelocs (ent : Nat) (table : List Byte) : Res (List Byte) := do
  let ls ← relocLines ent table
  .ok (str "\nPOFF Relocation Table:\n" ++ str "RELO   SYMBOL     SECTION\n" ++ str "TYPE   TBL INDEX  DATA OFFSET\n" ++ ls)

/-- `poffDumpTmpRelocTable`, `libpoff/pfdtreloc.c:66-87`. -/
def dumpTmpRelocs (table : List Byte) : Res (List Byte) := do
  let ls ← relocLines 8 table
  .ok (str "\nTmp Relocation Buffer:\n" ++ str "RELO   SYMBOL     SECTION\n" ++ str "TYPE   TBL INDEX  DATA OFFSET\n" ++ ls)

end Pas.RelocDump
