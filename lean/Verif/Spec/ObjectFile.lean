import Verif.Model.PoffFile
import Verif.Spec.Poff
/-! What a user puts into an object file, and what it means for an object to hold it. -/
namespace Pas.Spec
open Pas.Poff

/-- One call of the object-file building interface. -/
inductive ObjOp where
  | prog (b : Byte)
  | ro (s : List Byte) (pad : Byte)
  | sym (s : LibSymbol)
  | reloc (type : Byte) (sym off : U32)
  | file (name : List Byte)
  | line (line file : Word) (off : U32)
  | dbg (r : DebugFunc)
  | ftype (t : Byte) (name : List Byte)
  | arch (a : Byte)
  | entry (e : U32)

/-- Performing a call on a handle. -/
def ObjOp.run (p : Poff) : ObjOp → Res Poff
  | .prog b => .ok (p.addProg b)
  | .ro s pad => .ok (p.addRo s pad).2
  | .sym s => do let r ← p.addSym s; .ok r.2
  | .reloc t s o => .ok (p.addReloc t s o).2
  | .file n => do let r ← p.addFile (some n); .ok r.2
  | .line l f o => .ok (p.addLine l f o).2
  | .dbg r => p.addDbg r
  | .ftype t n => p.setType t (some n)
  | .arch a => .ok (p.setArch a)
  | .entry e => .ok (p.setEntry e)

/-- Performing a history of calls. -/
def runOps : Poff → List ObjOp → Res Poff
  | p, [] => .ok p
  | p, o :: os => do
    let p ← o.run p
    runOps p os

/-- What the user asked to be stored. -/
structure Contents where
  program : List Byte := []
  rodata : List Byte := []
  symbols : List LibSymbol := []
  relocs : List (Byte × U32 × U32) := []
  files : List (List Byte) := []
  lines : List (Word × Word × U32) := []
  debug : List DebugFunc := []
  ftype : Byte := 0
  name : List Byte := []
  arch : Byte := 0
  entry : U32 := 0

/-- Effect of a call on the contents. -/
def Contents.add (c : Contents) : ObjOp → Contents
  | .prog b => { c with program := c.program ++ [b] }
  | .ro s pad => { c with rodata := c.rodata ++ (s ++ [0#8] ++ if s.length % 2 = 1 then [] else [pad]) }
  | .sym s => { c with symbols := c.symbols ++ [s] }
  | .reloc t s o => { c with relocs := c.relocs ++ [(t, s, o)] }
  | .file n => { c with files := c.files ++ [n] }
  | .line l f o => { c with lines := c.lines ++ [(l, f, o)] }
  | .dbg r => { c with debug := c.debug ++ [r] }
  | .ftype t n => { c with ftype := t, name := n }
  | .arch a => { c with arch := a }
  | .entry e => { c with entry := e }

/-- Contents after a history of calls. -/
def contents (os : List ObjOp) : Contents := os.foldl Contents.add {}

/-- Arguments allowed by the interface: names are C strings, symbol indices fit the 24
bits the format has for them, and a debug record has no more parameters than one growth
step of the table has room for. -/
def ObjOp.WF : ObjOp → Prop
  | .sym s => IsCStr (textOf s.name)
  | .reloc _ s _ => s.toNat < 2 ^ 24
  | .file n => IsCStr n
  | .ftype _ n => IsCStr n
  | .dbg r => r.args.length ≤ 189
  | _ => True

/-- Bytes a call can add to the file. -/
def ObjOp.cost : ObjOp → Nat
  | .prog _ => 1
  | .ro s _ => s.length + 2
  | .sym s => 16 + (textOf s.name).length + 2
  | .reloc _ _ _ => 8
  | .file n => 4 + n.length + 2
  | .line _ _ _ => 8
  | .dbg r => 12 + 4 * r.args.length
  | .ftype _ n => n.length + 2
  | _ => 0

/-- Bytes a history can add. -/
def costs (os : List ObjOp) : Nat := (os.map ObjOp.cost).sum

/-- A symbol as it comes back: a missing name reads as the empty string. -/
def named (s : LibSymbol) : LibSymbol := { s with name := some (textOf s.name) }

/-- Everything but the debug records of `c` is found in the object `q` through the
reading interface.  Relocations come back as an info word from which type and symbol are
taken with the `RLI_TYPE` and `RLI_SYM` macros of `include/poff.h`. -/
def Holds (q : Poff) (c : Contents) : Prop :=
  q.program = c.program ∧
  q.data .rodata = c.rodata ∧
  q.symbols = .ok (c.symbols.map named) ∧
  (∃ rs, q.relocs = .ok rs ∧
    rs.map (fun (r : U32 × U32) => (((r.1 &&& 0xff#32).setWidth 8 : Byte), r.1 >>> 8, r.2)) = c.relocs) ∧
  q.files = .ok c.files ∧
  q.rawLines = .ok c.lines ∧
  q.hdr.ftype = c.ftype ∧ q.hdrName = .ok c.name ∧ q.hdr.arch = c.arch ∧ q.hdr.entry = c.entry

end Pas.Spec
