import Verif.Model.Opcodes

/-! File name utilities of `libpas`. -/

namespace Pas.FileName

/-- `strrchr`, as used in `libpas/pextension.c:59` and `libpas/pbasename.c:51`: what starts with the
last occurrence of a character. -/
def strrchr (c : Byte) : List Byte → Option (List Byte)
  | [] => none
  | x :: xs =>
    match strrchr c xs with
    | some r => some r
    | none => if x = c then some (x :: xs) else none

/-- `strncpy` of a string into a buffer (`libpas/pextension.c:79`): `n` bytes are written. -/
def strncpy (s : List Byte) (n : Nat) : List Byte := (s ++ List.replicate (n - s.length) 0#8).take n

/-- How much of a name is kept (`libpas/pextension.c:88-101`). -/
def copyLength (namelen : Nat) : Option (List Byte) → Nat
  | some d => namelen - d.length
  | none => namelen

/-- `extension` (`libpas/pextension.c:50-132`).  The result is `none` when the function returns true
(the name does not fit), and the bytes written from the beginning of the output buffer otherwise.
Names are shorter than `INT_MAX`. -/
def extension (inName ext : List Byte) (outSize : Nat) (force : Bool) : Option (List Byte) :=
  let namelen := inName.length
  let lastdot := strrchr 46#8 inName
  if lastdot.isSome && !force then
    if namelen + 1 > outSize then none else some (strncpy inName outSize)
  else
    let extlen := ext.length
    let copylen := copyLength namelen lastdot
    if copylen + extlen + 2 > outSize then none
    else some (inName.take copylen ++ [46#8] ++ (ext ++ [0#8]).take (extlen + 1))

/-- `pbasename` (`libpas/pbasename.c:46-62`). -/
def pbasename (path : List Byte) : List Byte :=
  match strrchr 47#8 path with
  | some d => d.drop 1
  | none => path

end Pas.FileName
