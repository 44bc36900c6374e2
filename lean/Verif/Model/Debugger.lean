import Verif.Model.Init

/-! # The debugger of the virtual machine (`insn16/libexec/libexec_debug.c`)

The displays are represented by the memory they read (which may be undefined) and not by
their text; the messages about stops are kept.  The program's own output is part of the
machine (`VM.io`). -/

namespace Pas.Debugger

/-- `struct trace_s`, `insn16/include/libexec.h:215-221`. -/
structure Trace where
  pc : Word := 0
  sp : Word := 0
  tos : Word := 0
  wp : Word := 0
deriving DecidableEq, Repr

/-- `enum command_e`, `insn16/include/libexec.h:194-213`. -/
inductive Cmd
  | none | reset | run | step | next | go | bs | bc | ws | wc | dp | dt | ds | di | db | help | quit
deriving DecidableEq, Repr

/-- What is printed when execution stops or a command is refused:
`insn16/libexec/libexec_debug.c:189,194,213,226,600,685,689`. -/
inductive Msg
  | breakpoint (n : Nat)
  | normal
  | error (code : Nat)
  | tooManyBreaks
  | invalidBreak
  | invalidNumber
  | tooManyWatches
  | invalidWatch
  | invalidStack
  | invalidInsn
deriving DecidableEq, Repr

/-- The debug monitor part of `struct libexec_s`, `insn16/include/libexec.h:333-350`, with
the machine.  `breaks` holds the first `nBreakPoints` entries of `breakPoint[8]`, `watch` the
watchpoint if `nWatchPoints` is 1, `trace` the 16 entries of `traceArray`.  `out` collects
the messages, newest first. -/
structure State where
  vm : VM
  lastCmd : Cmd := .none
  lastValue : Nat := 0
  trace : List Trace := List.replicate 16 {}
  traceIndex : Nat := 0
  nTracePoints : Nat := 0
  breaks : List Word := []
  watch : Option Word := none
  untilPoint : Word := 0
  stop : Bool := false
  out : List Msg := []

/-- The program under the debugger: `ispace`, `maxpc`, `entry`
(`insn16/include/libexec.h:286-300`) and the run-time library. -/
structure Prog where
  lib : Lib
  code : List Byte
  maxpc : Word
  entry : Word

/-- `pdbg_ReadDecimal`, `insn16/libexec/libexec_debug.c:291-304`, from the third character of
the line on: first the characters up to white space are skipped, then the white space.  The
list is the rest of the buffer; running off it is undefined.  Overflow of the 32-bit
result is undefined. -/
def isSpace (b : Byte) : Bool := b == 32 || (9 ≤ b && b ≤ 13)

/-- `insn16/libexec/libexec_debug.c:295` and `314`. -/
def skipWord : List Byte → Res (List Byte)
  | [] => .ub
  | b :: bs => if isSpace b then .ok (b :: bs) else skipWord bs

/-- `insn16/libexec/libexec_debug.c:296` and `315`. -/
def skipSpace : List Byte → Res (List Byte)
  | [] => .ub
  | b :: bs => if isSpace b then skipSpace bs else .ok (b :: bs)

/-- `insn16/libexec/libexec_debug.c:297-300`. -/
def decimalLoop : List Byte → Nat → Res Nat
  | [], _ => .ub
  | b :: bs, n =>
    if 48 ≤ b ∧ b ≤ 57 then
      if 10 * n + (b.toNat - 48) < 2 ^ 31 then decimalLoop bs (10 * n + (b.toNat - 48)) else .ub
    else .ok n

/-- `pdbg_ReadDecimal`, `insn16/libexec/libexec_debug.c:291-304`. -/
def readDecimal (l : List Byte) : Res Nat := do
  let l ← skipWord l
  let l ← skipSpace l
  decimalLoop l 0

/-- The value of a hexadecimal digit, `insn16/libexec/libexec_debug.c:318-326`. -/
def hexDigit (b : Byte) : Option Nat :=
  if 48 ≤ b ∧ b ≤ 57 then some (b.toNat - 48)
  else if 65 ≤ b ∧ b ≤ 70 then some (b.toNat - 55)
  else if 97 ≤ b ∧ b ≤ 102 then some (b.toNat - 87)
  else none

/-- `insn16/libexec/libexec_debug.c:316-334`: a shift of a 32-bit integer into or beyond its
sign is undefined. -/
def hexLoop : List Byte → Bool → Nat → Nat → Res Nat
  | [], _, _, _ => .ub
  | b :: bs, found, n, dflt =>
    match hexDigit b with
    | some d => if 16 * n + d < 2 ^ 31 then hexLoop bs true (16 * n + d) dflt else .ub
    | none => .ok (if found then n else dflt)

/-- `pdbg_ReadHex`, `insn16/libexec/libexec_debug.c:308-335`. -/
def readHex (l : List Byte) (dflt : Nat) : Res Nat := do
  let l ← skipWord l
  let l ← skipSpace l
  hexLoop l false 0 dflt

/-- `stackSize` in bytes; the memory has `words` words.  `insn16/libexec/libexec_run.c:1405`. -/
def stackSize (s : VM) : Nat := 2 * s.words

/-- `pdbg_ValidAddress`, `insn16/libexec/libexec_debug.c:339-343`. -/
def validAddress (s : VM) (a : Word) : Bool :=
  (s.sp.toNat < stackSize s && a.toNat ≤ s.sp.toNat) ||
    (s.hpb.toNat ≤ a.toNat && a.toNat < s.hpb.toNat + s.hpSize.toNat)

/-- `pdbg_PrintPCode`, `insn16/libexec/libexec_debug.c:359-420`: `n` instructions from `pc`
on are read while `pc < maxpc`; the result is the address behind them (16 bits). -/
def printPCode (p : Prog) : Nat → Word → Res Word
  | 0, pc => .ok pc
  | n + 1, pc =>
    if pc < p.maxpc then do
      let op ← fetch p.code pc.toNat
      let a := pc.toNat + 1
      let a ← if hasArg8 op then (do let _ ← fetch p.code a; .ok (a + 1)) else .ok a
      let a ← if hasArg16 op then (do
          let _ ← fetch p.code a
          let _ ← fetch p.code (a + 1)
          .ok (a + 2)) else .ok a
      printPCode p n (BitVec.ofNat 16 a)
    else .ok pc

/-- The words read by `pdbg_PrintStack`, `insn16/libexec/libexec_debug.c:425-451`: the word
at `sp` must be in the memory, the ones below then are.  The result is the value of `sp`
after `n` words (or fewer at the bottom of the memory). -/
def printStack (s : VM) (sp : Word) (n : Nat) : Res Word :=
  if validAddress s sp then
    if sp.toNat / 2 < s.words then
      .ok (BitVec.ofNat 16 (sp.toNat + 65536 * 2 - 2 * (1 + min (n - 1) (sp.toNat / 2))))
    else .ub
  else .ok sp

/-- `pdbg_PrintWatchpoint`, `insn16/libexec/libexec_debug.c:468-485`: the index of the word,
not its address, is checked. -/
def printWatch (d : State) : Res Unit :=
  match d.watch with
  | none => .ok ()
  | some w =>
    if validAddress d.vm (BitVec.ofNat 16 (w.toNat / 2)) then
      if w.toNat / 2 < d.vm.words then .ok () else .ub
    else .ok ()

/-- `pdbg_ProgramStatus`, `insn16/libexec/libexec_debug.c:348-354`. -/
def programStatus (p : Prog) (d : State) : Res Unit := do
  let _ ← printPCode p 1 d.vm.pc
  let _ ← printStack d.vm d.vm.sp 2
  printWatch d

/-- The entries shown by `pdbg_PrintTraceArray`, `insn16/libexec/libexec_debug.c:489-523`,
oldest first. -/
def shown (d : State) : List Trace :=
  let start := d.traceIndex + 16 - d.nTracePoints
  let start := if start ≥ 16 then start - 16 else start
  (List.range d.nTracePoints).map fun i => d.trace.getD ((start + i) % 16) {}

/-- Reading the instructions of a list of addresses, as in `pdbg_PrintTraceArray` and
`pdbg_PrintBreakPoints`, `insn16/libexec/libexec_debug.c:509,583`. -/
def printEach (p : Prog) : List Word → Res Unit
  | [] => .ok ()
  | a :: as => do
    let _ ← printPCode p 1 a
    printEach p as

/-- `pdbg_AddBreakPoint`, `insn16/libexec/libexec_debug.c:527-552`. -/
def addBreakPoint (d : State) (a : Word) : State :=
  if d.breaks.length < 8 then
    if a ∈ d.breaks then d else { d with breaks := d.breaks ++ [a] }
  else d

/-- `pdbg_DeleteBreakPoint`, `insn16/libexec/libexec_debug.c:556-569`: `n` counts from 1. -/
def deleteBreakPoint (d : State) (n : Nat) : State :=
  if 1 ≤ n ∧ n ≤ d.breaks.length then { d with breaks := d.breaks.eraseIdx (n - 1) } else d

/-- `pdbg_CheckBreakPoint`, `insn16/libexec/libexec_debug.c:589-606`, when execution has not
been stopped for another reason. -/
def checkBreakPoint (d : State) : State :=
  match d.breaks.findIdx? (· = d.vm.pc) with
  | some i => { d with stop := true, out := .breakpoint (i + 1) :: d.out }
  | none => d

/-- `pdbg_InitDebugger`, `insn16/libexec/libexec_debug.c:626-632`. -/
def initDebugger (d : State) : State :=
  { d with lastCmd := .none, stop := false, traceIndex := 0, nTracePoints := 0 }

/-- The entry recorded before an instruction, `insn16/libexec/libexec_debug.c:646-667`.  The
watchpoint was checked when it was set. -/
def entryOf (d : State) : Res Trace := do
  let wp ← match d.watch with
    | some w => if w.toNat / 2 < d.vm.words then .ok (d.vm.mem (w.toNat / 2)) else .ub
    | none => .ok 0#16
  let tos := if d.vm.sp.toNat < stackSize d.vm then d.vm.mem (d.vm.sp.toNat / 2) else 0#16
  .ok { pc := d.vm.pc, sp := d.vm.sp, tos := tos, wp := wp }

/-- Recording it: `insn16/libexec/libexec_debug.c:646-677`. -/
def record (d : State) (t : Trace) : State :=
  { d with
    trace := d.trace.set d.traceIndex t
    traceIndex := if d.traceIndex + 1 ≥ 16 then 0 else d.traceIndex + 1
    nTracePoints := if d.nTracePoints < 16 then d.nTracePoints + 1 else d.nTracePoints }

/-- What is done after an instruction: `insn16/libexec/libexec_debug.c:681-723`. -/
def afterInsn (p : Prog) (d : State) (e : Nat) : State :=
  let d := if e ≠ eNOERROR then
      { d with stop := true, out := (if e = eEXIT then .normal else .error e) :: d.out } else d
  if d.stop then d
  else if p.maxpc ≤ d.vm.pc then { d with stop := true }
  else if 0#16 < d.untilPoint ∧ d.untilPoint = d.vm.pc then { d with stop := true }
  else checkBreakPoint d

/-- One iteration of the loop of `pdbg_DebugPCode`, `insn16/libexec/libexec_debug.c:642-723`. -/
def oneInsn (p : Prog) (d : State) : Res State := do
  let t ← entryOf d
  let d := record d t
  let (e, vm) ← execute p.lib p.code p.maxpc d.vm
  .ok (afterInsn p { d with vm := vm } e)

/-- `pdbg_DebugPCode`, `insn16/libexec/libexec_debug.c:638-726`: at least one instruction, until
execution is stopped.  `fuel` bounds the number of instructions; `hang` is a program that
has not been stopped by then. -/
def debugPCode (p : Prog) : Nat → State → Res State
  | 0, _ => .hang
  | fuel + 1, d => do
    let d ← oneInsn p d
    if d.stop then .ok d else debugPCode p fuel d

/-- `pdbg_ExecCommand`, `insn16/libexec/libexec_debug.c:132-287`.  `none`: the debugger ends. -/
def execCommand (p : Prog) (fuel : Nat) (d : State) (c : Cmd) (value : Nat) : Res (Option State) := do
  let d := { d with lastCmd := c, lastValue := value }
  match c with
  | .none => .ok (some d)
  | .reset => do
    let vm ← reset p.entry d.vm
    let d := initDebugger { d with vm := vm }
    programStatus p d
    .ok (some { d with lastCmd := .none })
  | .run => do
    let vm ← reset p.entry d.vm
    let d ← debugPCode p fuel (initDebugger { d with vm := vm })
    programStatus p d
    .ok (some d)
  | .step => do
    let d ← debugPCode p fuel { d with stop := true }
    programStatus p d
    .ok (some d)
  | .next => do
    let op ← fetch p.code d.vm.pc.toNat
    let d := if op = Op.pcal.toByte then
        { d with stop := false, untilPoint := d.vm.pc + 4#16 } else { d with stop := true }
    let d ← debugPCode p fuel d
    let d := { d with untilPoint := 0#16 }
    programStatus p d
    .ok (some d)
  | .go => do
    let d ← debugPCode p fuel { d with stop := false }
    programStatus p d
    .ok (some d)
  | .bs =>
    if d.breaks.length ≥ 8 then .ok (some { d with lastCmd := .none, out := .tooManyBreaks :: d.out })
    else if value ≥ p.maxpc.toNat then
      .ok (some { d with lastCmd := .none, out := .invalidBreak :: d.out })
    else do
      let d := addBreakPoint d (BitVec.ofNat 16 value)
      printEach p d.breaks
      .ok (some d)
  | .bc => do
    let d := if 1 ≤ value ∧ value ≤ d.breaks.length then deleteBreakPoint d value
      else { d with lastCmd := .none, out := .invalidNumber :: d.out }
    printEach p d.breaks
    .ok (some d)
  | .ws =>
    if d.watch ≠ none then .ok (some { d with lastCmd := .none, out := .tooManyWatches :: d.out })
    else if value ≥ stackSize d.vm then
      .ok (some { d with lastCmd := .none, out := .invalidWatch :: d.out })
    else .ok (some { d with watch := some (BitVec.ofNat 16 value) })
  | .wc => .ok (some { d with watch := none })
  | .dp => do
    programStatus p d
    .ok (some d)
  | .dt => do
    printEach p ((shown d).map Trace.pc)
    .ok (some d)
  | .ds =>
    if validAddress d.vm (BitVec.ofNat 16 value) then do
      let a ← printStack d.vm (BitVec.ofNat 16 value) 16
      .ok (some { d with lastValue := a.toNat })
    else .ok (some { d with lastCmd := .none, out := .invalidStack :: d.out })
  | .di =>
    if value ≥ p.maxpc.toNat then
      .ok (some { d with lastCmd := .none, out := .invalidInsn :: d.out })
    else do
      let a ← printPCode p 16 (BitVec.ofNat 16 value)
      .ok (some { d with lastValue := a.toNat })
  | .db => do
    printEach p d.breaks
    .ok (some d)
  | .quit => .ok none
  | .help => .ok (some { d with lastCmd := .none })

/-- `toupper` on a character of the line.  `insn16/libexec/libexec_debug.c:747`. -/
def upper (b : Byte) : Byte := if 97 ≤ b ∧ b ≤ 122 then b - 32 else b

/-- The command of a line and its value: `insn16/libexec/libexec_debug.c:747-869`.  `l` is the
line as read, up to and with its terminator; addresses are cut to 16 bits (`pasSize_t`). -/
def parse (d : State) (l : List Byte) : Res (Cmd × Nat) :=
  let c0 := upper (l.getD 0 0)
  let c1 := upper (l.getD 1 0)
  let rest := l.drop 2
  let hex (dflt : Word) (off : Word) : Res Nat := do
    let v ← readHex rest dflt.toNat
    .ok (BitVec.ofNat 16 v + off).toNat
  if c0 = 82 then                                                       -- R
    if c1 = 69 then .ok (.reset, 0) else if c1 = 85 then .ok (.run, 0) else .ok (.help, 0)
  else if c0 = 83 then .ok (.step, 0)                                   -- S
  else if c0 = 78 then .ok (.next, 0)                                   -- N
  else if c0 = 71 then .ok (.go, 0)                                     -- G
  else if c0 = 66 then                                                  -- B
    if c1 = 83 then do let v ← hex d.vm.pc 0; .ok (.bs, v)
    else if c1 = 67 then do let v ← readDecimal rest; .ok (.bc, v)
    else .ok (.help, 0)
  else if c0 = 87 then                                                  -- W
    if c1 = 83 then do let v ← hex d.vm.pc 0; .ok (.ws, v)
    else if c1 = 70 then do let v ← hex d.vm.pc d.vm.spb; .ok (.ws, v)
    else if c1 = 67 then .ok (.wc, 0)
    else .ok (.help, 0)
  else if c0 = 68 then                                                  -- D
    if c1 = 80 then .ok (.dp, 0)
    else if c1 = 84 then .ok (.dt, 0)
    else if c1 = 83 then do let v ← hex d.vm.sp 0; .ok (.ds, v)
    else if c1 = 73 then do let v ← hex d.vm.pc 0; .ok (.di, v)
    else if c1 = 66 then .ok (.db, 0)
    else .ok (.help, 0)
  else if c0 = 81 then .ok (.quit, 0)                                   -- Q
  else if c0 = 0 ∨ c0 = 10 then .ok (d.lastCmd, d.lastValue)
  else .ok (.help, 0)

/-- The loop of `libexec_DebugLoop`, `insn16/libexec/libexec_debug.c:742-871`, over the lines
the user types.  At the end of the input the C program repeats the last command for ever;
here the state reached is returned. -/
def session (p : Prog) (fuel : Nat) : List (List Byte) → State → Res (Option State)
  | [], d => .ok (some d)
  | l :: ls, d => do
    let (c, v) ← parse d l
    match ← execCommand p fuel d c v with
    | none => .ok none
    | some d => session p fuel ls d

/-- `libexec_DebugLoop`, `insn16/libexec/libexec_debug.c:732-740`: the start. -/
def start (p : Prog) (d : State) : Res State := do
  let d := initDebugger d
  programStatus p d
  .ok d

end Pas.Debugger
