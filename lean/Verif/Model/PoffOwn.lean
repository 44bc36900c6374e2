import Verif.Model.PoffFile

/-! # Who owns the memory of the object file library (`libpoff`)

Blocks are numbers; a pointer variable holds a block or NULL.  Freeing a block that is not allocated, or using
a handle that is not, is undefined (`Res.ub`).  The contents of the blocks are in `Model/PoffMem.lean`; `malloc`
and `realloc` never fail here (failures end the program through `fatal`). -/
namespace Pas.PoffOwn
open Pas.Poff

/-- The containers for temporary data: program data, relocations, symbols.  `libpoff/pfprivate.h:145-181`. -/
inductive TmpKind where
  | prog | reloc | sym
deriving DecidableEq, Repr

/-- The pointer variables: the program's variables with handles, the members of the handles with the data
(`libpoff/pfprivate.h:80-181`), the program's own variables with data. -/
inductive Slot where
  | file (h : Nat)
  | sec (h : Nat) (k : Sec)
  | tmp (k : TmpKind) (h : Nat)
  | data (k : TmpKind) (h : Nat)
  | user (n : Nat)
deriving DecidableEq

/-- Pointer variables and allocated blocks; blocks from `next` on have never been used.  The heap of C, which
`libpoff/pfhandle.c:62` and the other allocations use. -/
structure Mem where
  ptr : Slot → Option Nat
  live : Nat → Bool
  next : Nat

/-- Assigning a pointer.  `libpoff/pfxprog.c:73`. -/
def Mem.set (m : Mem) (s : Slot) (v : Option Nat) : Mem :=
  { m with ptr := fun x => if x = s then v else m.ptr x }

/-- `p = malloc(...)`.  `libpoff/pfhandle.c:62`. -/
def Mem.malloc (m : Mem) (s : Slot) : Mem :=
  { ptr := fun x => if x = s then some m.next else m.ptr x
    live := fun b => b = m.next || m.live b
    next := m.next + 1 }

/-- `if (p) free(p)`.  `libpoff/pfhandle.c:129-130`.  The pointer is left as it is. -/
def Mem.free (m : Mem) (s : Slot) : Res Mem :=
  match m.ptr s with
  | none => .ok m
  | some b => if m.live b then .ok { m with live := fun x => m.live x && x ≠ b } else .ub

/-- Using the structure a handle points to, `libpoff/pfhandle.c:125`: undefined if it is not allocated. -/
def Mem.use (m : Mem) (s : Slot) : Res Unit :=
  match m.ptr s with
  | none => .ub
  | some b => if m.live b then .ok () else .ub

/-- `p = realloc(p, ...)`, `libpoff/pftprog.c:93`: the block stays where it is or moves. -/
def Mem.realloc (m : Mem) (s : Slot) (moves : Bool) : Res Mem :=
  match m.ptr s with
  | none => .ok (m.malloc s)
  | some _ => do
    m.use s
    if moves then do
      let m ← m.free s
      .ok (m.malloc s)
    else .ok m

/-- Freeing all of these.  `libpoff/pfhandle.c:129-151`. -/
def Mem.freeAll : List Slot → Mem → Res Mem
  | [], m => .ok m
  | s :: l, m => do
    let m ← m.free s
    Mem.freeAll l m

/-- The variables in a structure that has been freed are gone, and so is the handle.  `libpoff/pfhandle.c:155`. -/
def Mem.forget (m : Mem) (l : List Slot) : Mem :=
  { m with ptr := fun x => if x ∈ l then none else m.ptr x }

/-- The sections, in the order in which `poffDestroyHandle` frees them, `libpoff/pfhandle.c:129-151`. -/
def sections : List Sec := [.text, .rodata, .symtab, .strtab, .rel, .filetab, .lineno, .dbgfunc]

/-- The data and the handle itself, `libpoff/pfhandle.c:129-155`. -/
def fileSlots (h : Nat) : List Slot := sections.map (.sec h) ++ [.file h]

/-- The section that a container replaces: `libpoff/pftprog.c:180-207`, `libpoff/pftreloc.c:156-185`,
`libpoff/pftsymbol.c:139-167`. -/
def TmpKind.sec : TmpKind → Sec
  | .prog => .text
  | .reloc => .rel
  | .sym => .symtab

/-- The first allocation, if there is none.  `libpoff/pfwreloc.c:62-74`. -/
def Mem.first (m : Mem) (s : Slot) : Mem :=
  match m.ptr s with
  | none => m.malloc s
  | some _ => m

/-- Room for more data: the first allocation if there is none, then perhaps `realloc`
(`moves` says whether, and whether it moves).  `libpoff/pfwreloc.c:58-103` and the same functions of the other tables. -/
def Mem.grow (m : Mem) (s : Slot) (moves : Option Bool) : Res Mem :=
  match moves with
  | none => .ok (m.first s)
  | some b => (m.first s).realloc s b

/-- The allocations of `poffReadSectionData`, `libpoff/pfread.c:195-230` and 235-320: the pointers of the sections that
are in the file are assigned. -/
def Mem.readAll (h : Nat) : List Sec → Mem → Mem
  | [], m => m
  | k :: l, m => Mem.readAll h l (m.malloc (.sec h k))

/-- The calls of the library that have to do with the ownership of memory. -/
inductive Call where
  | create (h : Nat)
  | add (h : Nat) (k : Sec) (moves : Option Bool)
  | read (h : Nat) (l : List Sec)
  | appendRo (h : Nat) (moves : Bool)
  | extractProg (h n : Nat)
  | extractRo (h n : Nat)
  | insertProg (h n : Nat)
  | releaseProg (h : Nat)
  | discardDebug (h : Nat)
  | destroy (h : Nat)
  | createTmp (k : TmpKind) (t : Nat)
  | addTmp (k : TmpKind) (t : Nat) (moves : Option Bool)
  | resetTmp (k : TmpKind) (t : Nat)
  | destroyTmp (k : TmpKind) (t : Nat)
  | replace (k : TmpKind) (h t : Nat)
  | clone (h t : Nat)
  | freeOwn (n : Nat)

/-- What the calls do with pointers and blocks.

`create`: `poffCreateHandle`, `libpoff/pfhandle.c:56-118`.  `add`: `poffAdd...`, `libpoff/pfw*.c`.  `read`:
`poffReadFile`, `libpoff/pfread.c:325-348`.  `appendRo`: `libpoff/pfirodata.c:76-101` with data.  `extractProg`:
`libpoff/pfxprog.c:60-78`.  `extractRo`: `libpoff/pfxrodata.c:60-77`.  `insertProg`: `libpoff/pfiprog.c:60-75`, after
which the program's variable is not used any more.  `releaseProg`: `libpoff/pfrelease.c:75-92`.  `discardDebug`:
`libpoff/pfdbgdiscard.c:53-72`.  `destroy`: `libpoff/pfhandle.c:123-156`.  `createTmp`:
`libpoff/pfproghandle.c:58-72`, `libpoff/pfrelochandle.c:58-73`, `libpoff/pfsymhandle.c:58-73`.  `addTmp`:
`libpoff/pftprog.c:56-103`, `libpoff/pftreloc.c:102-136`, `libpoff/pftsymbol.c:82-116`.  `resetTmp`:
`libpoff/pfproghandle.c:88-105`, `libpoff/pfrelochandle.c:90-106`, `libpoff/pfsymhandle.c:90-106`.  `destroyTmp`:
`libpoff/pfproghandle.c:76-85`, `libpoff/pfrelochandle.c:77-86`, `libpoff/pfsymhandle.c:77-86`.  `replace`:
`libpoff/pftprog.c:180-207`, `libpoff/pftreloc.c:156-185`, `libpoff/pftsymbol.c:139-167`.  `clone`:
`libpoff/pftreloc.c:60-87`.  `freeOwn`: the program frees what it has extracted. -/
def exec (m : Mem) : Call → Res Mem
  | .create h => .ok (m.malloc (.file h))
  | .add h k moves => do
    m.use (.file h)
    m.grow (.sec h k) moves
  | .read h l => do
    m.use (.file h)
    .ok (m.readAll h l)
  | .appendRo h moves => do
    m.use (.file h)
    m.realloc (.sec h .rodata) moves
  | .extractProg h n => do
    m.use (.file h)
    .ok ((m.set (.user n) (m.ptr (.sec h .text))).set (.sec h .text) none)
  | .extractRo h n => do
    m.use (.file h)
    .ok ((m.set (.user n) (m.ptr (.sec h .rodata))).set (.sec h .rodata) none)
  | .insertProg h n => do
    m.use (.file h)
    let m ← m.free (.sec h .text)
    .ok ((m.set (.sec h .text) (m.ptr (.user n))).set (.user n) none)
  | .releaseProg h => do
    m.use (.file h)
    let m ← m.free (.sec h .text)
    .ok (m.set (.sec h .text) none)
  | .discardDebug h => do
    m.use (.file h)
    let m ← m.free (.sec h .dbgfunc)
    .ok (m.set (.sec h .dbgfunc) none)
  | .destroy h => do
    m.use (.file h)
    let m ← m.freeAll (fileSlots h)
    .ok (m.forget (fileSlots h))
  | .createTmp k t => .ok (m.malloc (.tmp k t))
  | .addTmp k t moves => do
    m.use (.tmp k t)
    m.grow (.data k t) moves
  | .resetTmp k t => do
    m.use (.tmp k t)
    let m ← m.free (.data k t)
    .ok (m.set (.data k t) none)
  | .destroyTmp k t => do
    m.use (.tmp k t)
    let m ← m.free (.data k t)
    let m := m.set (.data k t) none
    let m ← m.free (.tmp k t)
    .ok (m.forget [.data k t, .tmp k t])
  | .replace k h t => do
    m.use (.file h)
    m.use (.tmp k t)
    let m ← m.free (.sec h k.sec)
    .ok ((m.set (.sec h k.sec) (m.ptr (.data k t))).set (.data k t) none)
  | .clone h t => do
    m.use (.file h)
    m.use (.tmp .reloc t)
    let m ← m.free (.data .reloc t)
    .ok (m.malloc (.data .reloc t))
  | .freeOwn n => do
    let m ← m.free (.user n)
    .ok (m.set (.user n) none)

/-- A history of calls.  Calls follow each other as in `insn16/popt/popt.c:86-201`. -/
def run : Mem → List Call → Res Mem
  | m, [] => .ok m
  | m, o :: os => do
    let m ← exec m o
    run m os

/-- Before the first call: no pointer is set (`libpoff/pfhandle.c:70` for the members), nothing is allocated. -/
def start : Mem := ⟨fun _ => none, fun _ => false, 0⟩

/-! ### The calls of the tools

What the tools do with program bytes, relocations and so on is elsewhere; here are the calls that have to do with
memory, with any number of additions and any decisions of `realloc`. -/

/-- Additions to the new program and to the current relocations, in any order.
`insn16/popt/popt_peephole.c:221-348`, `insn16/popt/popt_finalize.c:103-187` and 281-470. -/
def passAdds (reloc : Nat) (w : List (Bool × Option Bool)) : List Call :=
  w.map fun x => if x.1 then .addTmp .prog 0 x.2 else .addTmp .reloc reloc x.2

/-- `pass2`, `insn16/popt/popt_finalize.c:191-277`: the names go to the string table of the file. -/
def symbolCalls (w : List (Option Bool × Option Bool)) (changed : Bool) : List Call :=
  [.createTmp .sym 0] ++ (w.flatMap fun x => [.add 0 .strtab x.1, .addTmp .sym 0 x.2]) ++
    (if changed then [.replace .sym 0 0] else []) ++ [.destroyTmp .sym 0]

/-- The optimizer: `main`, `readPoffFile`, `writePoffFile` (`insn16/popt/popt.c:88-202`), the handles of relocations
(`insn16/popt/popt_reloc.c:73-126`), `popt_StringOptimization` (`insn16/popt/popt_strings.c:62-90`),
`popt_LocalOptimization` (`insn16/popt/popt_local.c:67-143`), `popt_Finalization`
(`insn16/popt/popt_finalize.c:516-605`).  `inp` are the sections of the file. -/
def poptCalls (inp : List Sec) (w1 w2 w3 w4 : List (Bool × Option Bool)) (ws : List (Option Bool × Option Bool))
    (changed : Bool) (lines : List (Option Bool)) : List Call :=
  [.create 0, .read 0 inp, .createTmp .reloc 0, .createTmp .reloc 1, .clone 0 0] ++
  ([.createTmp .prog 0] ++ passAdds 1 w1 ++ [.replace .prog 0 0, .destroyTmp .prog 0]) ++
  ([.createTmp .prog 0, .resetTmp .reloc 0] ++ passAdds 0 w2 ++ [.replace .prog 0 0, .destroyTmp .prog 0]) ++
  ([.createTmp .prog 0, .resetTmp .reloc 1] ++ passAdds 1 w3 ++ [.replace .prog 0 0] ++ symbolCalls ws changed ++
    [.discardDebug 0] ++ passAdds 1 w4 ++ lines.map (.add 0 .lineno) ++
    [.replace .prog 0 0, .replace .reloc 0 1, .destroyTmp .prog 0]) ++
  [.destroy 0, .destroyTmp .reloc 0, .destroyTmp .reloc 1]

/-- The loader: `libexec_Load`, `insn16/libexec/libexec_load.c:57-158`, and `libexec_Release`,
`insn16/libexec/libexec_run.c:1585-1602`, for a file that can be loaded. -/
def prunCalls (inp : List Sec) : List Call :=
  [.create 0, .read 0 inp, .extractProg 0 0, .extractRo 0 1, .destroy 0, .freeOwn 1, .freeOwn 0]

/-- The end of `libexec_Load`, `insn16/libexec/libexec_load.c:132-148`, where `st` says whether `libexec_Initialize` has
found memory for the machine: otherwise `st->ispace` is read through a null pointer if there is a program. -/
def loadEnd (m : Mem) (st : Bool) : Res Mem :=
  if !st && (m.ptr (.user 0)).isSome then .ub else exec m (.freeOwn 1)

/-- The loader when the file cannot be opened, cannot be read (after the sections `inp`) or is not one that can be
executed: `errout_with_file` and `errout_with_handle`, `insn16/libexec/libexec_load.c:150-157`. -/
def refusedCalls (opened : Bool) (inp : List Sec) : List Call :=
  [.create 0] ++ (if opened then [.read 0 inp] else []) ++ [.destroy 0]

/-- The append in `plink_MergeRoData`, `plink/plink.c:317-340`; `none` for a file without constants. -/
def roCalls : Option Bool → List Call
  | some moves => [.appendRo 0 moves]
  | none => []

/-- One file in `plink_LoadInputFiles`, `plink/plink.c:137-255`, with `plink_MergeRoData`, 317-340: the pointer to the
extracted constants (the `i`th one here) is a local variable of that function. -/
def linkFile (i : Nat) (inp : List Sec) (ro : Option Bool) (w : List (Sec × Option Bool)) : List Call :=
  [.create 1, .read 1 inp, .extractRo 1 i] ++
    roCalls ro ++ w.map (fun x => .add 0 x.1 x.2) ++ [.destroy 1]

/-- All of them. `plink/plink.c:137-255`. -/
def linkFiles (i : Nat) : List (List Sec × Option Bool × List (Sec × Option Bool)) → List Call
  | [] => []
  | f :: fs => linkFile i f.1 f.2.1 f.2.2 ++ linkFiles (i + 1) fs

/-- The linker: `main`, `plink/plink.c:491-534`, with `applyRelocations`, `plink/plreloc.c:119-177`. -/
def plinkCalls (fs : List (List Sec × Option Bool × List (Sec × Option Bool))) (w : List (Sec × Option Bool)) :
    List Call :=
  [.create 0] ++ linkFiles 1 fs ++ [.extractProg 0 0, .insertProg 0 0] ++ w.map (fun x => .add 0 x.1 x.2) ++
    [.destroy 0]

end Pas.PoffOwn
