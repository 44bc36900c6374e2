import Verif.Model.Opcodes
/-! What a listing of relocations shows. -/
namespace Pas.RelocDump

/-- A relocation: a procedure call or a load, or none, with the number of its symbol and the place of the instruction. -/
structure Entry where
  kind : Fin 3
  sym : Fin 16777216
  offset : Fin 4294967296

/-- The four bytes of a number, the lowest first. -/
def bytes4 (n : Nat) : List Byte :=
  [BitVec.ofNat 8 n, BitVec.ofNat 8 (n / 256), BitVec.ofNat 8 (n / 65536), BitVec.ofNat 8 (n / 16777216)]

/-- The eight bytes of a relocation in an object file: the kind, the symbol in three bytes, the place in four. -/
def Entry.bytes (e : Entry) : List Byte := bytes4 (256 * e.sym.val + e.kind.val) ++ bytes4 e.offset.val

/-- The characters of a text. -/
def text (s : String) : List Byte := s.toList.map fun c => BitVec.ofNat 8 c.toNat

/-- The value of a hexadecimal digit. -/
def digitVal (c : Byte) : Option Nat :=
  if 48 ≤ c.toNat ∧ c.toNat ≤ 57 then some (c.toNat - 48)
  else if 97 ≤ c.toNat ∧ c.toNat ≤ 102 then some (c.toNat - 87)
  else none

/-- The number a text of hexadecimal digits stands for, after a first part that stands for `acc`. -/
def hexVal : Nat → List Byte → Option Nat
  | acc, [] => some acc
  | acc, c :: cs => match digitVal c with
    | some d => hexVal (16 * acc + d) cs
    | none => none

/-- How a kind is shown. -/
def kindText : Fin 3 → List Byte
  | 0 => text "NULL  "
  | 1 => text "PCAL  "
  | 2 => text "LDST  "

/-- The line shows the relocation: its kind, and the symbol and the place with eight hexadecimal digits each. -/
def Shows (e : Entry) (line : List Byte) : Prop :=
  ∃ s o, s.length = 8 ∧ hexVal 0 s = some e.sym.val ∧ o.length = 8 ∧ hexVal 0 o = some e.offset.val ∧
    line = kindText e.kind ++ text " 0x" ++ s ++ text " 0x" ++ o ++ text "\n"

/-- The lines show the relocations, one each, in order. -/
inductive ShowsAll : List Entry → List (List Byte) → Prop where
  | nil : ShowsAll [] []
  | cons {e es l ls} : Shows e l → ShowsAll es ls → ShowsAll (e :: es) (l :: ls)

end Pas.RelocDump
