import Verif.Model.RelocDump
/-! # The listing of symbols, `libpoff/pfdsymbol.c`

Tables as in `Model/RelocDump.lean`. -/
namespace Pas.SymDump
open Pas.Poff Pas.RelocDump

/-- `0x%02x` for a byte, `libpoff/pfdsymbol.c:88`. -/
def hex2 (v : Byte) : List Byte := [hexDigit (v.toNat / 16 % 16), hexDigit (v.toNat % 16)]

/-- `poffSymTypes`, `libpoff/pfdsymbol.c:55-62`; reading behind the array is undefined. -/
def symTypeName (t : Nat) : Res (List Byte) :=
  match t with
  | 0 => .ok (str "NULL  ")
  | 1 => .ok (str "DATA  ")
  | 2 => .ok (str "RODATA")
  | 3 => .ok (str "PROC  ")
  | 4 => .ok (str "FUNC  ")
  | _ => .ub

/-- `%-20s`, `libpoff/pfdsymbol.c:88`. -/
def pad20 (l : List Byte) : List Byte := l ++ List.replicate (20 - l.length) 32#8

/-- One turn of the loop, `libpoff/pfdsymbol.c:86-96`, with the layout of `include/poff.h:306-349`.  The names of the
types have the six characters of `%6s`. -/
def symLine (strs : Option (List Byte)) (rest : List Byte) : Res (List Byte) :=
  if rest.length < 16 then .ub
  else do
    let name ← getString strs (rd32 rest 4).toNat
    let type ← symTypeName (rest.getD 0 0).toNat
    .ok (pad20 name ++ str " " ++ type ++ str " 0x" ++ hex2 (rest.getD 2 0) ++ str " 0x" ++ hex2 (rest.getD 1 0) ++
      str " 0x" ++ hex8 (rd32 rest 8) ++ str " 0x" ++ hex8 (rd32 rest 12) ++ str "\n")

/-- The loop, `libpoff/pfdsymbol.c:82-97`: with entries of no size it does not end. -/
def symLines (strs : Option (List Byte)) (ent : Nat) (rest : List Byte) : Res (List Byte) :=
  if h : rest = [] then .ok []
  else do
    let l ← symLine strs rest
    if h0 : ent = 0 then .hang
    else do
      let ls ← symLines strs ent (rest.drop ent)
      .ok (l ++ ls)
termination_by rest.length
decreasing_by
  have := List.length_pos_iff.2 h
  rw [List.length_drop]; omega

/-- `poffDumpSymbolTable`, `libpoff/pfdsymbol.c:68-98`. -/
def dumpSymbols (strs : Option (List Byte)) (ent : Nat) (table : List Byte) : Res (List Byte) := do
  let ls ← symLines strs ent table
  .ok (str "\nPOFF Symbol Table:\n" ++ str "NAME                 TYPE   FLAG ALGN VALUE      SIZE\n" ++ ls)

end Pas.SymDump
