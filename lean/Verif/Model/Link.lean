import Verif.Model.Insn
import Verif.Model.PoffFile
/-! Model of the linker, `plink/plsym.c`, `plink/plreloc.c`, `plink/plink.c`.

Memory exhaustion and files that cannot be opened, which end the program, are not modelled. -/
namespace Pas.Link
open Pas.Poff

/-- A symbol as the linker sees it, `include/pofflib.h:69-113`; names read from a file are never
NULL (`libpoff/pfrstring.c:60-73`). -/
structure Sym where
  name : List Byte
  stype : Byte
  align : Byte
  flags : Byte
  value : U32
  size : U32
deriving DecidableEq, Repr, Inhabited

/-- `STF_UNDEFINED` is set, `include/poff.h:142`. -/
def Sym.undef (s : Sym) : Bool := s.flags &&& 1#8 != 0#8

/-- `strcmp`: unsigned bytes, a proper prefix comes first.  Used in `plink/plsym.c` 310. -/
def strcmp : List Byte → List Byte → Ordering
  | [], [] => .eq
  | [], _ :: _ => .lt
  | _ :: _, [] => .gt
  | a :: as, b :: bs => if a < b then .lt else if b < a then .gt else strcmp as bs

/-- `offsetSymbolValue`, `plink/plsym.c:244-263`; `STT_PROC` is 3 and `STT_FUNC` 4. -/
def offsetSymbol (s : Sym) (pcOffset : Nat) : Sym :=
  if s.undef = false ∧ (s.stype = 3#8 ∨ s.stype = 4#8) then
    { s with value := s.value + BitVec.ofNat 32 pcOffset }
  else s

/-- The linker's symbol data, `plink/plsym.c:82-88`: containers by number, the sorted list of
containers, the table from symbol index to container and its allocated length, and the count of
multiple definitions. -/
structure SymTab where
  heap : List Sym
  order : List Nat
  slots : Nat → Option Nat
  alloc : Nat
  multi : Nat

/-- Initial state, `plink/plsym.c:82-88`. -/
def SymTab.empty : SymTab := ⟨[], [], fun _ => none, 0, 0⟩

/-- The container with a number.  `symContainer_t`, `plink/plsym.c` 70-76. -/
def SymTab.get (t : SymTab) (id : Nat) : Sym := t.heap.getD id default

/-- The loop of `insertSymbol`, `plink/plsym.c:306-342`: the containers passed, those from `curr`
on, and whether `compare` is 0 at a non-NULL `curr`. -/
def locate (heap : List Sym) (s : Sym) : List Nat → List Nat × List Nat × Bool
  | [] => ([], [], false)
  | id :: ids =>
    let c := heap.getD id default
    match strcmp c.name s.name with
    | .gt => ([], id :: ids, false)
    | .eq =>
      if c.stype > s.stype then ([], id :: ids, false)
      else if c.stype = s.stype then ([], id :: ids, true)
      else
        let r := locate heap s ids
        (id :: r.1, r.2.1, r.2.2)
    | .lt =>
      let r := locate heap s ids
      (id :: r.1, r.2.1, r.2.2)

/-- `insertSymbol`, `plink/plsym.c:297-434`: the container used and the new state. -/
def insertSymbol (t : SymTab) (s : Sym) : Nat × SymTab :=
  match locate t.heap s t.order with
  | (_, id :: _, true) =>
    let c := t.get id
    if c.undef then
      if s.undef then (id, t)
      else (id, { t with heap := t.heap.set id { s with name := c.name } })
    else
      if s.undef then (id, t) else (id, { t with multi := t.multi + 1 })
  | (pre, rest, _) =>
    (t.heap.length,
     { t with
       heap := t.heap ++ [s]
       order := pre ++ t.heap.length :: rest })

/-- `addSymbolToList`, `plink/plsym.c:443-484`: 1024 slots at first, 256 more when full; storing
outside is undefined behaviour. -/
def addToList (t : SymTab) (id index : Nat) : Res SymTab :=
  let a := if t.alloc = 0 then 1024 else t.alloc
  let a := if index + 1 > a then a + 256 else a
  if index < a then
    .ok { t with
          slots := fun i => if i = index then some id else t.slots i
          alloc := a }
  else .ub

/-- The loop of `mergeSymbols`, `plink/plsym.c:116-153`, from symbol `inIndex` of the file. -/
def mergeSymLoop (pcOffset symOffset : Nat) : List Sym → Nat → SymTab → Res SymTab
  | [], _, t => .ok t
  | s :: ss, inIndex, t => do
    let r := insertSymbol t (offsetSymbol s pcOffset)
    let t ← addToList r.2 r.1 (inIndex + symOffset)
    mergeSymLoop pcOffset symOffset ss (inIndex + 1) t

/-- `mergeSymbols`, `plink/plsym.c:104-158`: new state and offset of the next file's symbols. -/
def mergeSymbols (t : SymTab) (ss : List Sym) (pcOffset symOffset : Nat) : Res (SymTab × Nat) := do
  let t ← mergeSymLoop pcOffset symOffset ss 0 t
  .ok (t, symOffset + ss.length)

/-- `verifySymbols`, `plink/plsym.c:162-184`: `false` if a fatal error is reported. -/
def verifySymbols (t : SymTab) : Bool :=
  (t.order.all fun id => !(t.get id).undef) && t.multi == 0

/-- `getSymbolByIndex`, `plink/plsym.c:202-207`: `none` for the fatal error; a slot that was never
assigned is undefined behaviour. -/
def symbolByIndex (t : SymTab) (i : Nat) : Res (Option Sym) :=
  if i ≥ t.alloc then .ok none
  else match t.slots i with
    | none => .ub
    | some id => .ok (some (t.get id))

/-- A relocation, `include/poff.h:353-371`. -/
structure Rel where
  info : U32
  offset : U32
deriving DecidableEq, Repr

/-- `RLI_SYM`, `include/poff.h:153`. -/
def Rel.sym (r : Rel) : U32 := r.info >>> 8
/-- `RLI_TYPE`, `include/poff.h:154`. -/
def Rel.type (r : Rel) : U32 := r.info &&& 0xff#32

/-- `offsetRelocation`, `plink/plreloc.c:191-209`. -/
def offsetRel (r : Rel) (pcOffset symOffset : Nat) : Rel :=
  if r.type = 1 ∨ r.type = 2 then
    ⟨(r.sym + BitVec.ofNat 32 symOffset) <<< 8 ||| (r.type &&& 0xff#32),
     r.offset + BitVec.ofNat 32 pcOffset⟩
  else r

/-- One step of `applyRelocations`, `plink/plreloc.c:131-172`, on the program bytes; `none` when a
fatal error ends the program. -/
def applyOne (t : SymTab) (prog : List Byte) (r : Rel) : Res (Option (List Byte)) := do
  match ← symbolByIndex t r.sym.toNat with
  | none => .ok none
  | some s =>
    -- `progSize - 4` is unsigned
    if s.undef ∨ r.offset > BitVec.ofNat 32 prog.length - 4#32 then .ok none
    else
      let i := r.offset.toNat
      if r.type = 1 then do
        match ← fixupCall (prog.drop i) s.value.toNat with
        | none => .ok none
        | some d => .ok (some (prog.take i ++ d))
      else if r.type = 2 then do
        match ← fixupFrame (prog.drop i) s.value.toNat with
        | none => .ok none
        | some d => .ok (some (prog.take i ++ d))
      else .ok (some prog)

/-- `applyRelocations`, `plink/plreloc.c:119-177`. -/
def applyAll (t : SymTab) : List Byte → List Rel → Res (Option (List Byte))
  | prog, [] => .ok (some prog)
  | prog, r :: rs => do
    match ← applyOne t prog r with
    | none => .ok none
    | some p => applyAll t p rs

/-! ### Loading the input files (`plink.c`) -/

/-- What the linker reads from an object file.  `plink/plink.c` 137-313. -/
structure Input where
  ftype : Byte
  name : List Byte
  entry : U32
  rodata : List Byte
  prog : List Byte
  files : List (List Byte)
  lines : List (Word × Word × U32)
  syms : List Sym
  rels : List Rel
deriving DecidableEq, Repr

/-- State while loading: the output object, the linker's tables and the offsets of
`plink/plink.c:142-150`. -/
structure State where
  rodata : List Byte
  prog : List Byte
  files : List (List Byte)
  lines : List (Word × Word × U32)
  entry : U32
  name : List Byte
  progFound : Bool
  syms : SymTab
  rels : List Rel
  pcOffset : Nat
  fnOffset : Nat
  symOffset : Nat

/-- State before the first file, `plink/plink.c:142-150`. -/
def State.init : State :=
  ⟨[], [], [], [], 0, [], false, SymTab.empty, [], 0, 0, 0⟩

/-- `plink_CheckFileHeader`, `plink/plink.c:259-313`; `none`: the program ends with a message.
`FHT_PROGRAM` is 3 and `FHT_UNIT` 4. -/
def checkHeader (st : State) (i : Input) : Option State :=
  if i.ftype = 3#8 then
    if st.progFound then none
    else some { st with
                entry := i.entry + BitVec.ofNat 32 st.pcOffset
                name := i.name
                progFound := true }
  else if i.ftype ≠ 4#8 then none
  else some st

/-- `plink_MergeFileNames`, `plink/plink.c:390-416`: the offset returned is uninitialised when the
file has no names. -/
def mergeFiles (out fs : List (List Byte)) : Res (List (List Byte) × Nat) :=
  if fs = [] then .ub else .ok (out ++ fs, out.length + fs.length)

/-- `plink_MergeLineNumbers`, `plink/plink.c:424-454`; `poffAddLineNumber` takes a 16-bit file
number (`libpoff/pfwlineno.c:116`). -/
def mergeLine (pcOffset fnOffset : Nat) (l : Word × Word × U32) : Word × Word × U32 :=
  (l.1, l.2.1 + BitVec.ofNat 16 fnOffset, l.2.2 + BitVec.ofNat 32 pcOffset)

/-- One iteration of `plink_LoadInputFiles`, `plink/plink.c:155-244`. -/
def loadFile (st : State) (i : Input) : Res (Option State) :=
  match checkHeader st i with
  | none => .ok none
  | some st => do
    let roOffset := st.rodata.length
    let (prog, pcEnd) ← mergeProgram i.prog st.prog st.pcOffset roOffset
    let (files, fnEnd) ← mergeFiles st.files i.files
    let (syms, symEnd) ← mergeSymbols st.syms i.syms st.pcOffset st.symOffset
    .ok (some { st with
                rodata := st.rodata ++ i.rodata
                prog := prog
                files := files
                lines := st.lines ++ i.lines.map (mergeLine st.pcOffset st.fnOffset)
                syms := syms
                rels := st.rels ++ i.rels.map (offsetRel · st.pcOffset st.symOffset)
                pcOffset := pcEnd
                fnOffset := fnEnd
                symOffset := symEnd })

/-- `plink_LoadInputFiles`, `plink/plink.c:137-255`, the loop. -/
def loadFiles : State → List Input → Res (Option State)
  | st, [] => .ok (some st)
  | st, i :: is => do
    match ← loadFile st i with
    | none => .ok none
    | some st => loadFiles st is

/-- The linked program.  `plink/plink.c` 390-454. -/
structure Output where
  rodata : List Byte
  prog : List Byte
  files : List (List Byte)
  lines : List (Word × Word × U32)
  entry : U32
  name : List Byte
  syms : List Sym

/-- `main`, `plink/plink.c:491-534`, up to writing the file; more than 8 input files overflow an
array (`plink/plink.c:65`, `120-124`). -/
def link (is : List Input) : Res (Option Output) :=
  if is.length > 8 then .ub
  else do
    match ← loadFiles State.init is with
    | none => .ok none
    | some st =>
      if st.progFound = false then .ok none
      else if verifySymbols st.syms = false then .ok none
      else do
        match ← applyAll st.syms st.prog st.rels with
        | none => .ok none
        | some prog =>
          .ok (some ⟨st.rodata, prog, st.files, st.lines, st.entry, st.name,
            st.syms.order.map st.syms.get⟩)

end Pas.Link
