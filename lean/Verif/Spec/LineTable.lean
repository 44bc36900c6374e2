import Verif.Model.LineTable
import Verif.Spec.Poff

/-! What the table of line numbers should be. -/
namespace Pas.Spec
open Pas.Poff

/-- What `qsort` promises: all elements in the order of their offsets. -/
def Sorts (sort : List LineEntry → List LineEntry) : Prop := ∀ t, (sort t).Perm t ∧ SortedLines (sort t)

/-- A recorded line (line, number of the file, offset) with the name of its file. -/
def withName (files : List (List Byte)) (l : Word × Word × U32) : LineEntry :=
  ⟨l.1.toNat, files.getD l.2.1.toNat [], l.2.2.toNat⟩

/-- A line is given the entry recorded for it. -/
def Recorded (files : List (List Byte)) (ls : List (Word × Word × U32)) (t : List LineEntry) : Prop :=
  t.Perm (ls.map (withName files))

end Pas.Spec
