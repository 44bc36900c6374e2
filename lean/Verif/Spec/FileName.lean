import Verif.Model.Opcodes

/-! What file names are made of. -/

namespace Pas.Spec

/-- A path is a directory part, empty or ending in a slash, and a file name without slashes. -/
structure IsPath (path dir file : List Byte) : Prop where
  whole : path = dir ++ file
  dir : dir = [] ∨ ∃ d, dir = d ++ [47#8]
  file : 47#8 ∉ file

/-- A file name is a stem and possibly an extension behind the last period. -/
inductive IsFile : (file stem : List Byte) → (ext : Option (List Byte)) → Prop where
  | plain {f} : 46#8 ∉ f → IsFile f f none
  | dotted (stem ext : List Byte) : 46#8 ∉ ext → IsFile (stem ++ 46#8 :: ext) stem (some ext)

/-- What a C string in a buffer says. -/
def cstring (buf : List Byte) : List Byte := buf.takeWhile (· ≠ 0#8)

/-- The name that is asked for: the extension is appended to a name without one, and replaces that
of a name that has one if this is forced. -/
def newName (dir stem : List Byte) (old : Option (List Byte)) (ext : List Byte) (force : Bool) :
    List Byte :=
  dir ++ stem ++ 46#8 :: (match old with
    | some e => if force then ext else e
    | none => ext)

end Pas.Spec
