import Verif.Model.Block
import Verif.Spec.Encoding
import Verif.Spec.ObjectFile

/-! What the compiler puts into an object file. -/
namespace Pas.Spec
open Pas.Poff

/-- Whatever the order of the calls, they leave in the object file the code and the read-only data of the
compiled program, its entry label, its name, the name of the source file and the type "program object";
no symbols, relocations and line numbers.  The architecture and the records for the debugger are left
open. -/
structure Emits (os : List ObjOp) (obj : Comp.Object) (name file : List Byte) : Prop where
  program : (contents os).program = encode obj.code
  rodata : (contents os).rodata = obj.rodata
  entry : (contents os).entry.toNat = obj.entry.toNat
  ftype : (contents os).ftype = 3#8
  name : (contents os).name = name
  files : (contents os).files = [file]
  symbols : (contents os).symbols = []
  relocs : (contents os).relocs = []
  lines : (contents os).lines = []

end Pas.Spec
