import Verif.Spec.RelocDump
/-! What a listing of symbols shows. -/
namespace Pas.SymDump
open Pas.RelocDump

/-- A symbol: its kind, alignment and flags, an unused byte, the place of its name, its value and its size. -/
structure Symbol where
  kind : Fin 5
  align : Byte
  flags : Byte
  pad : Byte
  nameAt : Fin 4294967296
  value : Fin 4294967296
  size : Fin 4294967296

/-- The sixteen bytes of a symbol in an object file. -/
def Symbol.bytes (s : Symbol) : List Byte :=
  [BitVec.ofNat 8 s.kind.val, s.align, s.flags, s.pad] ++
    (bytes4 s.nameAt.val ++ (bytes4 s.value.val ++ bytes4 s.size.val))

/-- The table of strings has the name, ended by a zero, at the place. -/
def NameIn (strs : List Byte) (place : Nat) (name : List Byte) : Prop :=
  0#8 ∉ name ∧ ∃ a b, strs = a ++ (name ++ 0#8 :: b) ∧ a.length = place

/-- How a kind is shown. -/
def kindText : Fin 5 → List Byte
  | 0 => text "NULL  "
  | 1 => text "DATA  "
  | 2 => text "RODATA"
  | 3 => text "PROC  "
  | 4 => text "FUNC  "

/-- The line shows the symbol with its name, which is filled up with blanks to 20 characters: the kind, and flags,
alignment, value and size in hexadecimal digits. -/
def Shows (strs : List Byte) (s : Symbol) (line : List Byte) : Prop :=
  ∃ name f a v z, NameIn strs s.nameAt.val name ∧
    f.length = 2 ∧ hexVal 0 f = some s.flags.toNat ∧ a.length = 2 ∧ hexVal 0 a = some s.align.toNat ∧
    v.length = 8 ∧ hexVal 0 v = some s.value.val ∧ z.length = 8 ∧ hexVal 0 z = some s.size.val ∧
    line = name ++ List.replicate (20 - name.length) 32#8 ++ text " " ++ kindText s.kind ++ text " 0x" ++ f ++
      text " 0x" ++ a ++ text " 0x" ++ v ++ text " 0x" ++ z ++ text "\n"

/-- The lines show the symbols, one each, in order. -/
inductive ShowsAll (strs : List Byte) : List Symbol → List (List Byte) → Prop where
  | nil : ShowsAll strs [] []
  | cons {s ss l ls} : Shows strs s l → ShowsAll strs ss ls → ShowsAll strs (s :: ss) (l :: ls)

end Pas.SymDump
