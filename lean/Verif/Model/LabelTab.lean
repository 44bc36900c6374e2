import Verif.Model.Finalize

/-! # The label tables of the optimizer (`libpoff/pflabel.c`), with their memory

The finalization in `Model/Finalize.lean` keeps labels in lists.  Here are the two arrays that hold them, with the
sizes they are allocated with; writing outside of them, reading a cell that has not been written and using or freeing
a table that has been freed is undefined (`Res.ub`).  `malloc` and `realloc` do not fail. -/
namespace Pas.LabelTab

/-- An entry: a label and its value, two `uint32_t`.  `libpoff/pflabel.c:66-78`. -/
abbrev Entry := BitVec 32 × BitVec 32

/-- The cells of an allocated array; cells that have not been written hold nothing.  A static pointer is NULL, points
to cells or to memory that has been freed.  `libpoff/pflabel.c:84-90`. -/
inductive Ptr where
  | null
  | cells (c : List (Option Entry))
  | freed
deriving DecidableEq, Repr

/-- One of the two tables: the pointer, the allocated size in bytes (a `uint32_t`) and the number of entries.
`definedLabelRefs`, `definedLabelRefAlloc`, `nDefinedLabelRefs` and `undefined...`, `libpoff/pflabel.c:84-90`. -/
structure Table where
  ptr : Ptr
  alloc : Nat
  n : Nat
deriving DecidableEq, Repr

/-- The tables when a program starts. `libpoff/pflabel.c:84-90`. -/
def Table.start : Table := ⟨.null, 0, 0⟩

/-- The array `c` after `realloc` to `bytes` bytes, 8 for an entry; used in `libpoff/pflabel.c:127-150`. -/
def resize (c : List (Option Entry)) (bytes : Nat) : List (Option Entry) :=
  c.take (bytes / 8) ++ List.replicate (bytes / 8 - c.length) none

/-- `poffCheckDefinedLabelAlloc` and `poffCheckUndefinedLabelAlloc`, `libpoff/pflabel.c:106-123` and 154-171: 1024
entries. -/
def checkAlloc (t : Table) : Table :=
  match t.ptr with
  | .null => { t with ptr := .cells (List.replicate 1024 none), alloc := 1024 * 8 }
  | _ => t

/-- `poffCheckDefinedLabelRealloc` and `poffCheckUndefinedLabelRealloc`, `libpoff/pflabel.c:127-150` and 175-198: 256
entries more; the new size is a `uint32_t`. -/
def checkRealloc (t : Table) : Res Table :=
  if (t.n + 1) * 8 > t.alloc then
    let newAlloc := (t.alloc + 256 * 8) % 2 ^ 32
    match t.ptr with
    | .cells c => .ok { t with ptr := .cells (resize c newAlloc), alloc := newAlloc }
    | .null => .ok { t with ptr := .cells (resize [] newAlloc), alloc := newAlloc }
    | .freed => .ub
  else .ok t

/-- `poffAddToDefinedLabelTable` and `poffAddToUndefinedLabelTable`, `libpoff/pflabel.c:208-220` and 224-236. -/
def addEntry (t : Table) (label value : BitVec 32) : Res Table := do
  let t ← checkRealloc (checkAlloc t)
  match t.ptr with
  | .cells c =>
    if t.n < c.length then .ok { t with ptr := .cells (c.set t.n (some (label, value))), n := (t.n + 1) % 2 ^ 32 }
    else .ub
  | _ => .ub

/-- The loop over the entries from the `i`th one on, `k` of them; the result is an `int`.
`libpoff/pflabel.c:240-252` and 256-268. -/
def search (c : List (Option Entry)) (label : BitVec 32) (i : Nat) : Nat → Res Int
  | 0 => .ok (-1)
  | k + 1 =>
    match c[i]? with
    | some (some e) => if e.1 = label then .ok e.2.toInt else search c label (i + 1) k
    | _ => .ub

/-- `poffGetPcForDefinedLabel` and `poffGetSymIndexForUndefinedLabel`, `libpoff/pflabel.c:256-268` and 240-252. -/
def getValue (t : Table) (label : BitVec 32) : Res Int :=
  match t.ptr with
  | .cells c => search c label 0 t.n
  | _ => if t.n = 0 then .ok (-1) else .ub

/-- `poffReleaseLabelReferences` for one table, `libpoff/pflabel.c:272-282`: the pointer and the number of entries stay
as they are. -/
def release (t : Table) : Res Table :=
  match t.ptr with
  | .null => .ok t
  | .cells _ => .ok { t with ptr := .freed }
  | .freed => .ub

/-! ### The list of relocations of the linker -/

/-- `addRelocToList`, `plink/plreloc.c:214-255`: the same steps as for labels, since a relocation has two `uint32_t`
(`include/poff.h:353-371`) and 1024 and 256 times the size of a pointer, 8 bytes, are allocated. -/
def addReloc (t : Table) (info offset : BitVec 32) : Res Table := addEntry t info offset

/-- The relocations that `mergeRelocations` adds for all files, `plink/plreloc.c:88-115`. -/
def addRelocs (t : Table) : List Entry → Res Table
  | [] => .ok t
  | r :: rs => do
    let t ← addReloc t r.1 r.2
    addRelocs t rs

/-- `relocList[i]` in `applyRelocations`, `plink/plreloc.c:131-134`. -/
def relocAt (t : Table) (i : Nat) : Res Entry :=
  match t.ptr with
  | .cells c =>
    match c[i]? with
    | some (some e) => .ok e
    | _ => .ub
  | _ => .ub

/-- `releaseRelocations`, `plink/plreloc.c:181-185`: the pointer is cleared, the number of relocations is not. -/
def releaseRelocs (t : Table) : Res Table :=
  match t.ptr with
  | .null => .ok t
  | .cells _ => .ok { t with ptr := .null }
  | .freed => .ub

/-- Both tables. `libpoff/pflabel.c:84-90`. -/
structure Tables where
  defined : Table
  undefined : Table
deriving DecidableEq, Repr

/-- The tables when a program starts. `libpoff/pflabel.c:84-90`. -/
def Tables.start : Tables := ⟨.start, .start⟩

/-- The functions of `libpoff/pflabel.c:208-282`. -/
inductive Call where
  | addDefined (label pc : BitVec 32)
  | addUndefined (label symIndex : BitVec 32)
  | pcOf (label : BitVec 32)
  | symOf (label : BitVec 32)
  | release
deriving DecidableEq, Repr

/-- A call: the tables after it and, for the questions, the answer. `libpoff/pflabel.c:208-282`. -/
def exec (s : Tables) : Call → Res (Tables × List Int)
  | .addDefined l v => do let t ← addEntry s.defined l v; .ok ({ s with defined := t }, [])
  | .addUndefined l v => do let t ← addEntry s.undefined l v; .ok ({ s with undefined := t }, [])
  | .pcOf l => do let a ← getValue s.defined l; .ok (s, [a])
  | .symOf l => do let a ← getValue s.undefined l; .ok (s, [a])
  | .release => do
    let d ← LabelTab.release s.defined
    let u ← LabelTab.release s.undefined
    .ok (⟨d, u⟩, [])

/-- One call after the other, with all answers.  Not a function of /repo: a caller such as
`insn16/popt/popt_finalize.c:516-605`. -/
def run (s : Tables) : List Call → Res (Tables × List Int)
  | [] => .ok (s, [])
  | c :: cs => do
    let (s, a) ← exec s c
    let (s, as) ← run s cs
    .ok (s, a ++ as)

end Pas.LabelTab
