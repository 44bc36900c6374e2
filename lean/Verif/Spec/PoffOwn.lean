import Verif.Model.PoffOwn

/-! How the object file library is to be used, and what it promises about memory (property C87).  Only the calls and
the names of the pointer variables are used. -/
namespace Pas.Spec
open Pas.Poff Pas.PoffOwn

/-- What the program knows: the handles and containers that exist, the variables that hold data it has to free, the
handles into which nothing has been put yet. -/
structure Known where
  files : List Nat := []
  tmps : List (TmpKind × Nat) := []
  own : List Nat := []
  empty : List Nat := []

/-- One call: `none` if the program breaks the rules.  A handle is used from its creation to its destruction only; a
file is read into a new handle, every section once; data are extracted into a variable that holds none, and only what
has been extracted is inserted or freed, once. -/
def Known.after (K : Known) : Call → Option Known
  | .create h => if h ∈ K.files then none else some { K with files := h :: K.files, empty := h :: K.empty }
  | .add h _ _ => if h ∈ K.files then some { K with empty := K.empty.filter (· ≠ h) } else none
  | .read h l => if h ∈ K.files ∧ h ∈ K.empty ∧ l.Nodup then
      some { K with empty := K.empty.filter (· ≠ h) } else none
  | .appendRo h _ => if h ∈ K.files then some { K with empty := K.empty.filter (· ≠ h) } else none
  | .extractProg h n => if h ∈ K.files ∧ n ∉ K.own then some { K with own := n :: K.own } else none
  | .extractRo h n => if h ∈ K.files ∧ n ∉ K.own then some { K with own := n :: K.own } else none
  | .insertProg h n => if h ∈ K.files ∧ n ∈ K.own then
      some { K with own := K.own.filter (· ≠ n), empty := K.empty.filter (· ≠ h) } else none
  | .releaseProg h => if h ∈ K.files then some K else none
  | .discardDebug h => if h ∈ K.files then some K else none
  | .destroy h => if h ∈ K.files then
      some { K with files := K.files.filter (· ≠ h), empty := K.empty.filter (· ≠ h) } else none
  | .createTmp k t => if (k, t) ∈ K.tmps then none else some { K with tmps := (k, t) :: K.tmps }
  | .addTmp k t _ => if (k, t) ∈ K.tmps then some K else none
  | .resetTmp k t => if (k, t) ∈ K.tmps then some K else none
  | .destroyTmp k t => if (k, t) ∈ K.tmps then some { K with tmps := K.tmps.filter (· ≠ (k, t)) } else none
  | .replace k h t => if h ∈ K.files ∧ (k, t) ∈ K.tmps then
      some { K with empty := K.empty.filter (· ≠ h) } else none
  | .clone h t => if h ∈ K.files ∧ (.reloc, t) ∈ K.tmps then some K else none
  | .freeOwn n => if n ∈ K.own then some { K with own := K.own.filter (· ≠ n) } else none

/-- A history of calls. -/
def Known.afterAll (K : Known) : List Call → Option Known
  | [] => some K
  | o :: os => match K.after o with
    | none => none
    | some K' => K'.afterAll os

/-- The pointer variables that may hold a block. -/
def Known.Has (K : Known) : Slot → Prop
  | .file h => h ∈ K.files
  | .sec h _ => h ∈ K.files
  | .tmp k t => (k, t) ∈ K.tmps
  | .data k t => (k, t) ∈ K.tmps
  | .user n => n ∈ K.own

/-- Every allocated block is held by exactly one pointer variable, of an existing handle or container or of the
program; and these hold allocated blocks only. -/
structure Owned (K : Known) (m : Mem) : Prop where
  alive : ∀ s b, m.ptr s = some b → m.live b = true ∧ K.Has s
  once : ∀ s s' b, m.ptr s = some b → m.ptr s' = some b → s = s'
  held : ∀ b, m.live b = true → ∃ s, m.ptr s = some b

end Pas.Spec
