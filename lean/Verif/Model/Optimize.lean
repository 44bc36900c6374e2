import Verif.Model.Peephole
import Verif.Model.Finalize

/-! The passes of the optimizer over a whole program: the peephole window of
`insn16/popt/popt_peephole.c`, the loops of `popt_constants.c`, `popt_longconst.c`,
`popt_branch.c`, `popt_loadstore.c` and `popt_strconst.c`, and the drivers
`popt_LocalOptimization` (`popt_local.c`) and `popt_StringOptimization` (`popt_strings.c`).

The program is given as the list of its instructions (what `insn_GetOpCode` returns one after the
other, see C28).  Loops carry a step counter; `.hang` is returned when it is used up. -/
namespace Pas.Popt

/-- `opTypeR_t`, `popt.h` 53-61: an instruction and the section offset it was read from. -/
structure OpR where
  ins : OpType
  off : Nat
deriving DecidableEq

/-- `g_opTable`, `popt_peephole.c` 64; `WINDOW`, `popt_peephole.h` 56. -/
abbrev Table := List OpR
/-- `insn16/popt/popt_peephole.h` 56. -/
def WINDOW : Nat := 16

/-- What `popt_SetupOpcodePointerList` does with an instruction, `popt_peephole.c` 170-210. -/
inductive Listing where
  | stop | last | skip | take
deriving DecidableEq

/-- The `switch` of `popt_SetupOpcodePointerList`, `popt_peephole.c` 172-210. -/
def listing (i : OpType) : Listing :=
  match Op.ofByte i.op with
  | some .ret | some .end_ | some .label | some .pcal => .stop
  | some .jmp | some .jequz | some .jneqz | some .jltz | some .jgtez | some .jgtz
  | some .jltez => .last
  | some .nop | some .line => .skip
  | _ => .take

/-- Places in the table of the listed instructions, from place `p` on.
`popt_SetupOpcodePointerList`, `insn16/popt/popt_peephole.c` 160-213. -/
def visFrom : Nat → Table → List Nat
  | _, [] => []
  | p, x :: r =>
    match listing x.ins with
    | .stop => []
    | .last => [p]
    | .skip => visFrom (p + 1) r
    | .take => p :: visFrom (p + 1) r

/-- `popt_SetupOpcodePointerList`, `popt_peephole.c` 160-213: `g_opPtr[0 .. g_nOpPtrs-1]` as
places in the table.  The code recomputes the list after deletions only; the other changes the
optimizer makes do not change which instructions are listed, so here it is always computed from
the table. -/
def vis (t : Table) : List Nat := visFrom 0 t

/-- `g_nOpPtrs`.  `insn16/popt/popt_peephole.c` 67. -/
def count (t : Table) : Nat := (vis t).length

/-- `*g_opPtr[i]`; `none` for a null pointer.  `insn16/popt/popt_peephole.c` 65. -/
def get (t : Table) (i : Nat) : Option OpR :=
  match (vis t)[i]? with
  | some p => t[p]?
  | none => none

/-- Stores an instruction at a place of the table; the offset stays.  `insn16/popt/popt.h` 53-61. -/
def putAt (t : Table) (p : Nat) (i : OpType) : Table := t.modify p (fun x => { x with ins := i })

/-- Changes the instruction `*g_opPtr[i]` (nothing for a null pointer).
As in `insn16/popt/popt_constants.c` 69-613. -/
def adjust (t : Table) (i : Nat) (f : OpType → OpType) : Table :=
  match (vis t)[i]? with
  | some p => t.modify p (fun x => { x with ins := f x.ins })
  | none => t

/-- `popt_OptimizePush(g_opPtr[i])`, `popt_util.c` 80-101 (a null pointer is accepted). -/
def optAt (t : Table) (i : Nat) : Table := adjust t i optimizePush

/-- Replaces the listed instructions `i`, `i + 1`.  As in `insn16/popt/popt_constants.c` 69-613. -/
def put2 (t : Table) (i : Nat) (a b : OpType) : Table :=
  match (vis t)[i]?, (vis t)[i + 1]? with
  | some p, some q => putAt (putAt t p a) q b
  | _, _ => t

/-- Replaces the listed instructions `i`, `i + 1`, `i + 2`.  As in `insn16/popt/popt_constants.c` 634-1381. -/
def put3 (t : Table) (i : Nat) (a b c : OpType) : Table :=
  match (vis t)[i]?, (vis t)[i + 1]?, (vis t)[i + 2]? with
  | some p, some q, some r => putAt (putAt (putAt t p a) q b) r c
  | _, _, _ => t

/-- The offsets of the listed instructions `i` and `i + 1` are exchanged
(`popt_SwapPCodePair`, `popt_peephole.c` 412-432, exchanges the offsets with the
instructions). -/
def swapOff (t : Table) (i : Nat) : Table :=
  match (vis t)[i]?, (vis t)[i + 1]? with
  | some p, some q =>
    match t[p]?, t[q]? with
    | some x, some y =>
      (t.modify p (fun z => { z with off := y.off })).modify q (fun z => { z with off := x.off })
    | _, _ => t
  | _, _ => t

/-- Result of one iteration of a loop: the table, the next index, the changes counted.
`insn16/popt/popt_constants.c` 69, 634. -/
abbrev Step := Table × Nat × Nat

/-- One iteration of `popt_UnaryOptimize`, `popt_constants.c` 69-613. -/
def unaryStep (t : Table) (i : Nat) : Res Step :=
  match get t i, get t (i + 1) with
  | some a, some b =>
    match unaryRule a.ins b.ins with
    | .next =>
      .ok (if isPush a.ins then adjust t i (fun x => optimizePush (expandPush x)) else t, i + 1, 0)
    | .rewrite (a', b') =>
      let t' := put2 t i a' b'
      .ok (if isPush a.ins then optAt t' i else t', i, 1)
    | .stuck => .hang
  | _, _ => .ub

/-- The second of the forms of `popt_BinaryOptimize`, `popt_constants.c` 827-834. -/
def form2 (a b : OpType) : Bool := isPush a && isFrameLoad b

/-- The third of the forms of `popt_BinaryOptimize`, `popt_constants.c` 1037-1038. -/
def form3 (b c : OpType) : Bool := isPush b && isBinary c

/-- The fourth of the forms of `popt_BinaryOptimize`, `popt_constants.c` 1275-1277. -/
def form4 (a b c : OpType) : Bool := isPush a && isLoad b && isBinary c

/-- Which constants an iteration of `popt_BinaryOptimize` expands and shortens again
(`pushIndex1`, `pushIndex2`) when nothing is rewritten.  `insn16/popt/popt_constants.c` 634-1381. -/
def binaryIdle (t : Table) (i : Nat) (a b c : OpType) : Table :=
  let re : OpType → OpType := fun x => optimizePush (expandPush x)
  if form2 a b then adjust t i re
  else if form3 b c then adjust t (i + 1) re
  else if form4 a b c then adjust t i re
  else t

/-- The table after an iteration of `popt_BinaryOptimize` has rewritten its three instructions:
`popt_SwapPCodePair` (1294) moves the offsets too, and the constants that may remain are
shortened (815-820, 1028, 1076, 1266, 1335). -/
def binaryDone (t : Table) (i : Nat) (a b c a' b' c' : OpType) : Table :=
  let t' := put3 t i a' b' c'
  if isPush a && isPush b && isBinary c then optAt (optAt t' i) (i + 1)
  else if form2 a b then optAt t' i
  else if form3 b c then optAt t' (i + 1)
  else if form4 a b c then
    if isTransitive c then optAt (swapOff t' i) (i + 1) else optAt t' i
  else t'

/-- One iteration of `popt_BinaryOptimize`, `popt_constants.c` 632-1381. -/
def binaryStep (t : Table) (i : Nat) : Res Step :=
  match get t i, get t (i + 1), get t (i + 2) with
  | some a, some b, some c => do
    match ← binaryRule a.ins b.ins c.ins with
    | .next => .ok (binaryIdle t i a.ins b.ins c.ins, i + 1, 0)
    | .rewrite (a', b', c') => .ok (binaryDone t i a.ins b.ins c.ins a' b' c', i, 1)
    | .stuck => .hang
  | _, _, _ => .ub

/-- One iteration of `popt_BranchOptimize`, `popt_branch.c` 63-556. -/
def branchStep (t : Table) (i : Nat) : Res Step :=
  match get t i, get t (i + 1) with
  | some a, some b =>
    match branchRule a.ins b.ins with
    | .next => .ok (t, i + 1, 0)
    | .rewrite (a', b') => .ok (put2 t i a' b', i, 1)
    | .stuck => .hang
  | _, _ => .ub

/-- One iteration of `popt_StackOrderOptimize`, `popt_loadstore.c` 70-136, at the index `i + 2`.
The changes are not counted. -/
def stackStep (t : Table) (i : Nat) : Res Step :=
  match get t i, get t (i + 1), get t (i + 2) with
  | some a, some b, some c =>
    match stackOrderRule a.ins b.ins c.ins with
    | .next => .ok (t, i + 1, 0)
    | .rewrite (a', b', c') =>
      let t' := put3 t i a' b' c'
      .ok (if c.ins.op = Op.xchg.toByte then swapOff t' i else t', i, 0)
    | .stuck => .hang
  | _, _, _ => .ub

/-- Replaces two listed instructions and, if there is one, the third.
As in `insn16/popt/popt_loadstore.c` 152-302. -/
def put2or3 (t : Table) (i : Nat) (a b : OpType) (c : Option OpType) : Table :=
  match c with
  | some c => put3 t i a b c
  | none => put2 t i a b

/-- One iteration of `popt_LoadOptimize`, `popt_loadstore.c` 152-296. -/
def loadStep (t : Table) (i : Nat) : Res Step :=
  match get t i, get t (i + 1) with
  | some a, some b =>
    match loadRule a.ins b.ins ((get t (i + 2)).map (·.ins)) with
    | .next => .ok (t, i + 1, 0)
    | .rewrite (a', b', c') =>
      .ok (put2or3 t i a' b' c', if isSimpleLoad a.ins then i + 2 else i, 1)
    | .stuck => .hang
  | _, _ => .ub

/-- A store, `popt_loadstore.c` 326-329. -/
def isSimpleStore (i : OpType) : Bool := ((Op.ofByte i.op).bind loadOf).isSome

/-- One iteration of `popt_StoreOptimize`, `popt_loadstore.c` 314-419. -/
def storeStep (t : Table) (i : Nat) : Res Step :=
  match get t i, get t (i + 1) with
  | some a, some b =>
    match storeRule a.ins b.ins ((get t (i + 2)).map (·.ins)) with
    | .next => .ok (t, i + 1, 0)
    | .rewrite (a', b', c') =>
      .ok (put2or3 t i a' b' c', if isSimpleStore a.ins then i + 2 else i, 1)
    | .stuck => .hang
  | _, _ => .ub

/-! ### 32-bit constants -/

abbrev Long := BitVec 32

/-- `union uWord_u`, `popt_longconst.c` 59-64: `word[0]` is the low half on a little-endian
host. -/
def long (w0 w1 : Word) : Long := w1 ++ w0
/-- `word.word[0]`, `insn16/popt/popt_longconst.c` 59-64. -/
def word0 (v : Long) : Word := v.extractLsb' 0 16
/-- `word.word[1]`, `insn16/popt/popt_longconst.c` 59-64. -/
def word1 (v : Long) : Word := v.extractLsb' 16 16

/-- A constant that is pushed.  As in `insn16/popt/popt_longconst.c` 113-118. -/
def pushOf (w : Word) : OpType := ⟨Op.push.toByte, 0, w⟩

/-- Result of a 32-bit signed operation in the optimizer: overflow is undefined. -/
def signed32 (r : Int) : Res Long :=
  if -2147483648 ≤ r ∧ r < 2147483648 then .ok (BitVec.ofInt 32 r) else .ub

/-- What `popt_LongUnaryOptimize` does with two constants and a long operation.
`insn16/popt/popt_longconst.c` 83-781. -/
inductive LongAct where
  /-- nothing (`break`) -/
  | none
  /-- the constants become the two halves of `v`, the operation is deleted -/
  | const (v : Long)
  /-- all three are deleted -/
  | drop
  /-- the constants are deleted and the operation replaced -/
  | only (code : Byte)
  /-- `popt_DeletePCode(j1); popt_DeletePCode(i);` with the list changed in between -/
  | narrow
  /-- the operation and the second constant are deleted, the first constant is left -/
  | first
  /-- the first constant is deleted, the second replaced by a long operation, and the operation -/
  | two (c1 c2 : Byte)
  /-- the operation is replaced and the second constant set (shift) -/
  | shift (code : Byte) (w : Word)
  /-- the constants are deleted, the operation becomes a jump -/
  | jump
deriving DecidableEq

/-- Comparisons with a long constant, `popt_longconst.c` 436-626. -/
def longCmp (v : Long) (z : Byte) : LongAct :=
  if v = 0#32 then .first
  else if v = 1#32 then .two 0x44#8 z
  else if v = 0xffffffff#32 then .two 0x43#8 z
  else .none

/-- `-1` or `0` stored in `word.sData`, `popt_longconst.c` 332-431. -/
def longTruth (b : Bool) : LongAct := .const (if b then 0xffffffff#32 else 0#32)

/-- A conditional jump on a long constant, `popt_longconst.c` 630-727. -/
def longJump (b : Bool) : LongAct := if b then .jump else .drop

/-- Multiplication and division by a power of two, `popt_longconst.c` 272-307.  The power is taken
of `arg2` of the operation (`x`), not of the constant. -/
def longPower (v : Long) (x : Word) (code : Byte) : LongAct :=
  if v = 1#32 then .drop
  else if 1 ≤ powerOfTwo x.toNat then .shift code (BitVec.ofInt 16 (powerOfTwo x.toNat))
  else .none

/-- `switch (g_opPtr[i]->arg1)`, `popt_longconst.c` 166-731; `v` is the constant, `x` the unused
`arg2` of the operation.  Codes: `insn16/include/longops.h` 52-150. -/
def longUnary (code : Byte) (v : Long) (x : Word) : Res LongAct :=
  match code.toNat with
  | 0x60 => .ok .narrow                                                  -- oDCNV 170-176
  | 0x41 => do pure (.const (← signed32 (-v.toInt)))                     -- oDNEG 180-187
  | 0x42 =>                                                              -- oDABS 189-199
    if v.toInt < 0 then do pure (.const (← signed32 (-v.toInt))) else .ok (.const v)
  | 0x43 => .ok (.const (v + 1#32))                                      -- oDINC 201-208
  | 0x44 => .ok (.const (v - 1#32))                                      -- oDDEC 210-217
  | 0x45 => .ok (.const (~~~v))                                          -- oDNOT 219-226
  | 0x46 =>                                                              -- oDADD 230-249
    .ok (if v = 0#32 then .drop else if v = 1#32 then .only 0x43#8
      else if v = 0xffffffff#32 then .only 0x44#8 else .none)
  | 0x47 =>                                                              -- oDSUB 251-270
    .ok (if v = 0#32 then .drop else if v = 1#32 then .only 0x44#8
      else if v = 0xffffffff#32 then .only 0x43#8 else .none)
  | 0x48 | 0x61 => .ok (longPower v x 0x4b#8)                            -- oDMUL, oDUMUL 272-307
  | 0x49 => .ok (longPower v x 0x4d#8)                                   -- oDDIV
  | 0x62 => .ok (longPower v x 0x4c#8)                                   -- oDUDIV
  | 0x4b | 0x4c | 0x4d | 0x4e => .ok (if v = 0#32 then .drop else .none) -- 309-319
  | 0x4f => .ok (if v = 0xffffffff#32 then .drop else .none)             -- oDAND 321-328
  | 0x50 => .ok (longTruth (v = 0#32))                                   -- oDEQUZ 332-347
  | 0x51 => .ok (longTruth (v ≠ 0#32))                                   -- oDNEQZ 349-364
  | 0x52 => .ok (longTruth (v.toInt < 0))                                -- oDLTZ 366-381
  | 0x53 => .ok (longTruth (v.toInt ≥ 0))                                -- oDGTEZ 383-398
  | 0x54 => .ok (longTruth (v.toInt > 0))                                -- oDGTZ 400-415
  | 0x55 => .ok (longTruth (v.toInt ≤ 0))                                -- oDLTEZ 417-432
  | 0x56 => .ok (longCmp v 0x50#8)                                       -- oDEQU 436-466
  | 0x57 => .ok (longCmp v 0x51#8)                                       -- oDNEQ
  | 0x58 => .ok (longCmp v 0x52#8)                                       -- oDLT
  | 0x59 => .ok (longCmp v 0x53#8)                                       -- oDGTE
  | 0x5a => .ok (longCmp v 0x54#8)                                       -- oDGT
  | 0x5b => .ok (longCmp v 0x55#8)                                       -- oDLTE 596-626
  | 0xc0 => .ok (longJump (v = 0#32))                                    -- oDJEQUZ 630-643
  | 0xc1 => .ok (longJump (v ≠ 0#32))                                    -- oDJNEQZ
  | 0xc2 => .ok (longJump (v.toInt < 0))                                 -- oDJLTZ
  | 0xc3 => .ok (longJump (v.toInt ≥ 0))                                 -- oDJGTEZ
  | 0xc4 => .ok (longJump (v.toInt > 0))                                 -- oDJGTZ
  | 0xc5 => .ok (longJump (v.toInt ≤ 0))                                 -- oDJLTEZ 711-727
  | _ => .ok .none                                                       -- 729-730

/-- The operation is a long one.  `insn16/popt/popt_longconst.c` 83-90. -/
def isLong (i : OpType) : Bool := i.op == Op.longop8.toByte

/-- Increment after decrement, `popt_longconst.c` 754-779; `i ≥ 1`.  (The opposite order compares
the opcode instead of the argument and never applies.) -/
def longBack (t : Table) (i : Nat) : Res Step :=
  match get t i, get t (i - 1) with
  | some x, some y =>
    if isLong y.ins && x.ins.arg1 = 0x43#8 && y.ins.arg1 = 0x44#8 then
      .ok (put2 t (i - 1) nop nop, i + 1, 1)
    else .ok (t, i + 1, 0)
  | _, _ => .ub

/-- The end of the iteration when the constants may still be there, `popt_longconst.c` 734-779:
`popt_OptimizePush(g_opPtr[j0])` with `j0 = -1` reads outside the array. -/
def longTail (t : Table) (i n : Nat) : Res Step :=
  if i < 2 then .ub
  else
    let t := optAt (optAt t (i - 1)) (i - 2)
    match get t i with
    | none => .ok (t, i + 1, n)
    | some x =>
      if isLong x.ins then do
        let (t, i, k) ← longBack t i
        pure (t, i, n + k)
      else .ok (t, i + 1, n)

/-- What is done with the constants at `i - 2`, `i - 1` and the operation at `i`.
`insn16/popt/popt_longconst.c` 83-781. -/
def longApply (t : Table) (i : Nat) (x : OpType) (v : Long) (act : LongAct) : Res Step :=
  let c0 := pushOf (word0 v)
  let c1 := pushOf (word1 v)
  match act with
  | .none => longTail (put3 t (i - 2) c0 c1 x) i 0
  | .const v' => .ok (put3 t (i - 2) (pushOf (word0 v')) (pushOf (word1 v')) nop, i, 1)
  | .drop => .ok (put3 t (i - 2) nop nop nop, i, 1)
  | .only code => longTail (put3 t (i - 2) nop nop { x with arg1 := code }) i 1
  | .narrow =>
    let t := put3 t (i - 2) c0 nop x
    match (vis t)[i]? with
    | some p => .ok (putAt t p nop, i, 1)
    | none => .ub
  | .first => .ok (put3 t (i - 2) c0 nop nop, i, 1)
  | .two d1 d2 =>
    longTail (put3 t (i - 2) nop ⟨Op.longop8.toByte, d1, 0⟩ { x with arg1 := d2 }) i 1
  | .shift code w => longTail (put3 t (i - 2) c0 (pushOf w) { x with arg1 := code }) i 1
  | .jump => .ok (put3 t (i - 2) nop nop { x with op := Op.jmp.toByte, arg1 := 0 }, i + 1, 1)

/-- One iteration of `popt_LongUnaryOptimize`, `popt_longconst.c` 83-781, at the index `i ≥ 1`. -/
def longUnaryStep (t : Table) (i : Nat) : Res Step :=
  match get t (i - 1), get t i with
  | some y, some x =>
    if isLong x.ins then
      if isPush y.ins then
        let w := (expandPush y.ins).arg2
        if x.ins.arg1 = 0x5e#8 then                                          -- oCNVD 104-123
          let v : Long := BitVec.ofInt 32 w.toInt
          .ok (put2 t (i - 1) (optimizePush (pushOf (word0 v))) (optimizePush (pushOf (word1 v))),
            i + 1, 0)
        else if x.ins.arg1 = 0x5f#8 then                                     -- oUCNVD 127-146
          let v : Long := w.zeroExtend 32
          .ok (put2 t (i - 1) (optimizePush (pushOf (word0 v))) (optimizePush (pushOf (word1 v))),
            i + 1, 0)
        else if i < 2 then longTail t i 0
        else
          match get t (i - 2) with
          | some z =>
            if isPush z.ins then do                                          -- 150-732
              let v := long (expandPush z.ins).arg2 w
              let act ← longUnary x.ins.arg1 v x.ins.arg2
              longApply t i x.ins v act
            else longTail t i 0
          | none => .ub
      else longBack t i
    else .ok (t, i + 1, 0)
  | _, _ => .ub

/-- Arithmetic on two long constants, `popt_longconst.c` 842-942: `k` is the first operand.
(`case oUDIV`, 894, is the 16-bit opcode 0x38: not a long operation.) -/
def longFold (code : Byte) (k j : Long) : Res (Option Long) :=
  match code.toNat with
  | 0x46 => do pure (some (← signed32 (k.toInt + j.toInt)))                  -- oDADD 844-852
  | 0x47 => do pure (some (← signed32 (k.toInt - j.toInt)))                  -- oDSUB 854-862
  | 0x48 => do pure (some (← signed32 (k.toInt * j.toInt)))                  -- oDMUL 864-872
  | 0x61 => .ok (some (k * j))                                               -- oDUMUL 874-882
  | 0x49 =>                                                                  -- oDDIV 884-892
    if j = 0#32 then .ub else do pure (some (← signed32 (Int.tdiv k.toInt j.toInt)))
  | 0x38 =>                                                                  -- oUDIV 894-902
    if j = 0#32 then .ub else .ok (some (BitVec.ofNat 32 (k.toNat / j.toNat)))
  | 0x4a =>                                                                  -- oDMOD 904-912
    if j = 0#32 ∨ (k.toInt = -2147483648 ∧ j.toInt = -1) then .ub
    else do pure (some (← signed32 (Int.tmod k.toInt j.toInt)))
  | 0x63 =>                                                                  -- oDUMOD 914-922
    if j = 0#32 then .ub else .ok (some (BitVec.ofNat 32 (k.toNat % j.toNat)))
  | 0x4e => .ok (some (k ||| j))                                             -- oDOR 924-932
  | 0x4f => .ok (some (k &&& j))                                             -- oDAND 934-942
  | _ => .ok none

/-- Comparison of two long constants, `popt_longconst.c` 944-1123: `k` is the first operand. -/
def longCompare (code : Byte) (k j : Long) : Option Bool :=
  match code.toNat with
  | 0x56 => some (k = j)                                                     -- oDEQU 944-960
  | 0x57 => some (k ≠ j)                                                     -- oDNEQ
  | 0x58 => some (k.toInt < j.toInt)                                         -- oDLT
  | 0x64 => some (k.toNat < j.toNat)                                         -- oDULT
  | 0x59 => some (k.toInt ≥ j.toInt)                                         -- oDGTE
  | 0x65 => some (k.toNat ≥ j.toNat)                                         -- oDUGTE
  | 0x5a => some (k.toInt > j.toInt)                                         -- oDGT
  | 0x66 => some (k.toNat > j.toNat)                                         -- oDUGT
  | 0x5b => some (k.toInt ≤ j.toInt)                                         -- oDLTE 1088-1104
  | 0x67 => some (k.toNat ≤ j.toNat)                                         -- oDULTE 1106-1122
  | _ => none

/-- Shift of a long constant, `popt_longconst.c` 1172-1200. -/
def longShift (code : Byte) (k : Long) (n : Word) : Res (Option Long) :=
  match code.toNat with
  | 0x4b => if n.toNat < 32 then .ok (some (k <<< n.toNat)) else .ub         -- oDSLL 1174-1181
  | 0x4c => if n.toNat < 32 then .ok (some (k >>> n.toNat)) else .ub         -- oDSRL 1183-1190
  | 0x4d => if n.toNat < 32 then .ok (some (k.sshiftRight n.toNat)) else .ub -- oDSRA 1192-1199
  | _ => .ok none

/-- The instruction at index `i`, if it is a constant.  As in `insn16/popt/popt_longconst.c` 799-1246. -/
def pushAt (t : Table) (i : Nat) : Option Word :=
  match get t i with
  | some x => if isPush x.ins then some (expandPush x.ins).arg2 else none
  | none => none

/-- The part of the iteration about shifts, `popt_longconst.c` 1143-1219, and what follows
(1222-1245; the condition at 1224 can never hold); `x` is the long operation at `i`. -/
def longShiftStep (t : Table) (i : Nat) (x : OpType) : Res Step :=
  if i < 3 then .ok (t, i + 1, 0)
  else
    match pushAt t (i - 3), pushAt t (i - 2), pushAt t (i - 1) with
    | some k0, some k1, some j => do
      match ← longShift x.arg1 (long k0 k1) j with
      | some v =>
        let t := put2 (put2 t (i - 3) (pushOf (word0 v)) (pushOf (word1 v))) (i - 1) nop nop
        .ok (optAt (optAt (optAt t (i - 1)) (i - 2)) (i - 3), i + 1, 1)
      | none =>
        .ok (optAt (optAt (optAt (put3 t (i - 3) (pushOf k0) (pushOf k1) (pushOf j)) (i - 1))
          (i - 2)) (i - 3), i + 1, 0)
    | _, _, _ => .ok (t, i + 1, 0)

/-- One iteration of `popt_LongBinaryOptimize`, `popt_longconst.c` 799-1246, at the index
`i ≥ 1`. -/
def longBinaryStep (t : Table) (i : Nat) : Res Step :=
  match get t i with
  | none => .ub
  | some x =>
    if isLong x.ins then
      if i < 4 then longShiftStep t i x.ins
      else
        match pushAt t (i - 4), pushAt t (i - 3), pushAt t (i - 2), pushAt t (i - 1) with
        | some k0, some k1, some j0, some j1 => do
          match ← longFold x.ins.arg1 (long k0 k1) (long j0 j1) with
          | some v =>
            .ok (put2 (put3 t (i - 2) nop nop nop) (i - 4) (pushOf (word0 v)) (pushOf (word1 v)),
              i + 1, 1)
          | none =>
            match longCompare x.ins.arg1 (long k0 k1) (long j0 j1) with
            | some b =>
              .ok (put2 (put3 t (i - 2) nop nop (optimizePush (pushOf (truth b)))) (i - 4) nop nop,
                i, 1)
            | none =>
              let t := put2 (put2 t (i - 2) (pushOf j0) (pushOf j1)) (i - 4) (pushOf k0) (pushOf k1)
              let t := optAt (optAt (optAt (optAt t (i - 1)) (i - 2)) (i - 3)) (i - 4)
              longShiftStep t i x.ins
        | _, _, _, _ => longShiftStep t i x.ins
    else .ok (t, i + 1, 0)

/-! ### Strings -/

/-- `lbSTRCPY` ..., `include/pas_stringlib.h`: codes of string library calls that only read the
string below the top of the stack, `popt_strconst.c` 139-143, 163-164. -/
def readsString (w : Word) : Bool :=
  w == 0x0001#16 || w == 0x0003#16 || w == 0x0009#16 || w == 0x000b#16 || w == 0x000d#16
/-- The string operations looked for in `insn16/popt/popt_strconst.c` 112-171. -/
def copiesString (w : Word) : Bool := w == 0x0000#16 || w == 0x0002#16

/-- The loads of a string allocation, `popt_strconst.c` 134-137. -/
def isAllocLoad (i : OpType) : Bool :=
  match Op.ofByte i.op with
  | some .ld | some .lds | some .push | some .pushb => true
  | _ => false

/-- One iteration of `popt_StringConstOptimize`, `popt_strconst.c` 112-171. -/
def stringStep (t : Table) (i : Nat) : Res Step :=
  match get t i, get t (i + 1), get t (i + 2) with
  | some a, some b, some c =>
    if a.ins.op = Op.lac.toByte ∧ b.ins.op = Op.strlib.toByte ∧ b.ins.arg2 = 0x0009#16 then
      match get t (i + 3), get t (i + 4) with
      | some d, e =>
        if isAllocLoad c.ins ∧ d.ins.op = Op.strlib.toByte ∧ readsString d.ins.arg2 then
          .ok (adjust t (i + 1) (fun _ => nop), i + 1, 0)
        else
          match e with
          | some e =>
            if isAllocLoad c.ins ∧ (d.ins.op = Op.la.toByte ∨ d.ins.op = Op.las.toByte) ∧
                e.ins.op = Op.strlib.toByte ∧ copiesString e.ins.arg2 then
              .ok (adjust t (i + 1) (fun _ => nop), i + 1, 1)
            else .ok (t, i + 1, 0)
          | none => .ok (t, i + 1, 0)
      | none, _ => .ok (t, i + 1, 0)
    else .ok (t, i + 1, 0)
  | _, _, _ => .ub

/-! ### Passes -/

/-- `while (i + w < g_nOpPtrs)`: a loop over the listed instructions that looks at `w`
instructions after the one at `i` (before it for the long operations, `w = 0`).
`insn16/popt/popt_constants.c` 69, 634, `popt_loadstore.c` 70, 152, 314, `popt_branch.c` 63, `popt_longconst.c` 82, 798. -/
def loop (step : Table → Nat → Res Step) (w : Nat) : Nat → Table → Nat → Nat → Res (Table × Nat)
  | 0, _, _, _ => .hang
  | fuel + 1, t, i, n =>
    if i + w < count t then do
      let (t', i', k) ← step t i
      loop step w fuel t' i' (n + k)
    else .ok (t, n)

/-- The body of the inner loop, `popt_local.c` 107-114. -/
def round (fuel : Nat) (t : Table) : Res (Table × Nat) := do
  let (t, n1) ← loop unaryStep 1 fuel t 0 0
  let (t, n2) ← loop longUnaryStep 0 fuel t 1 0
  let (t, n3) ← loop binaryStep 2 fuel t 0 0
  let (t, n4) ← loop longBinaryStep 0 fuel t 1 0
  let (t, n5) ← loop branchStep 1 fuel t 0 0
  let (t, n6) ← loop stackStep 2 fuel t 0 0
  let (t, n7) ← loop loadStep 1 fuel t 0 0
  let (t, n8) ← loop storeStep 1 fuel t 0 0
  pure (t, n1 + n2 + n3 + n4 + n5 + n6 + n7 + n8)

/-- The body of the inner loop, `popt_strconst.c` 203-206. -/
def stringRound (fuel : Nat) (t : Table) : Res (Table × Nat) := loop stringStep 2 fuel t 0 0

/-- `do ... while (nchanges > 0)`, `popt_local.c` 103-116, `popt_strconst.c` 203-207. -/
def settle (body : Nat → Table → Res (Table × Nat)) : Nat → Table → Res Table
  | 0, _ => .hang
  | fuel + 1, t => do
    let (t', n) ← body fuel t
    if 0 < n then settle body fuel t' else .ok t'

/-- State of a pass: the window, the instructions not yet read and the offset of the next one,
what has been written, and the relocations (`g_nextRelocation` and those after it, those
written).  `insn16/popt/popt_peephole.c` 64-67 and 221-280. -/
structure Pass where
  table : Table
  input : List OpType
  inOff : Nat
  out : List OpType
  outOff : Nat
  inRel : List Reloc
  outRel : List Reloc
deriving DecidableEq

/-- `insn_GetOpCode`, `insn_getopcode.c` 64-127: after the oEND, or at the end of the data, every
further instruction is an oEND of size 1. -/
def endOp : OpType := ⟨Op.end_.toByte, 0, 0⟩

/-- Reads an instruction and notes its offset, `popt_peephole.c` 269-276. -/
def readOp (s : Pass) : OpR × Pass :=
  match s.input with
  | [] => (⟨endOp, s.inOff⟩, { s with inOff := s.inOff + 1 })
  | i :: r =>
    (⟨i, s.inOff⟩, { s with
      input := if i.op = Op.end_.toByte then [] else r
      inOff := s.inOff + addSize i })

/-- `popt_CheckRelocation`, `popt_peephole.c` 89-122, and the writing of the instruction.
`rl_offset -= offset - g_outSectionOffset` (unsigned) with `rl_offset = offset` is
`g_outSectionOffset`.  The report of relocations out of order is not modelled. -/
def emit (s : Pass) (x : OpR) : Pass :=
  let s := match s.inRel with
    | r :: rest =>
      if r.offset = x.off then
        { s with
          inRel := rest
          outRel := s.outRel ++ [{ r with offset := s.outOff }] }
      else s
    | [] => s
  { s with
    out := s.out ++ [x.ins]
    outOff := s.outOff + addSize x.ins }

/-- `popt_DiscardRelocation`, `popt_peephole.c` 126-156. -/
def discardRel (s : Pass) (x : OpR) : Pass :=
  match s.inRel with
  | r :: rest => if r.offset = x.off then { s with inRel := rest } else s
  | [] => s

/-- Fills the window up to `n` more instructions, `popt_peephole.c` 265-277, 333-345. -/
def fill : Nat → Pass → Pass
  | 0, s => s
  | n + 1, s =>
    let (x, s) := readOp s
    fill n { s with table := s.table ++ [x] }

/-- The leading instructions up to the first oLABEL, `popt_peephole.c` 243-261.  Every read but
the last consumes input. -/
def skipLead : Nat → Pass → Res Pass
  | 0, _ => .hang
  | fuel + 1, s =>
    let (x, s) := readOp s
    let s := emit s x
    if x.ins.op ≠ Op.label.toByte ∧ x.ins.op ≠ Op.end_.toByte then skipLead fuel s else .ok s

/-- `popt_SetupPeephole`, `popt_peephole.c` 221-280. -/
def setup (fuel : Nat) (prog : List OpType) (rels : List Reloc) : Res Pass := do
  let s ← skipLead fuel ⟨[], prog, 0, [], 0, rels, []⟩
  pure (fill WINDOW s)

/-- `popt_UpdatePeephole`, `popt_peephole.c` 285-348; `true`: the oEND has been written
(`g_endOut`). -/
def update (s : Pass) : Pass × Bool :=
  match s.table with
  | [] => (s, false)
  | x :: rest =>
    let s := if x.ins.op ≠ Op.nop.toByte then emit s x else discardRel s x
    let kept := rest.filter (fun y => y.ins.op ≠ Op.nop.toByte)
    (fill (WINDOW - kept.length) { s with table := kept }, x.ins.op = Op.end_.toByte)

/-- `while (!g_endOut)`, `popt_local.c` 97-121, `popt_strconst.c` 195-210. -/
def advance (body : Nat → Table → Res (Table × Nat)) : Nat → Pass → Res Pass
  | 0, _ => .hang
  | fuel + 1, s => do
    let t ← settle body fuel s.table
    let (s', done) := update { s with table := t }
    if done then .ok s' else advance body fuel s'

/-- A pass: the new program, its relocations, and whether relocations are left over
(`eEXTRARELOCS`).  `insn16/popt/popt_local.c` 67-143. -/
def pass (body : Nat → Table → Res (Table × Nat)) (fuel : Nat) (prog : List OpType)
    (rels : List Reloc) : Res (List OpType × List Reloc × Bool) := do
  let s ← setup fuel prog rels
  let s ← advance body fuel s
  pure (s.out, s.outRel, s.inRel ≠ [])

/-- `popt_StringOptimization`, `popt_strings.c` 61-90, then `popt_LocalOptimization`,
`popt_local.c` 64-143: the program and relocations handed to the finalization.  The reports of
left over relocations do not stop the optimizer. -/
def optimize (fuel : Nat) (prog : List OpType) (rels : List Reloc) :
    Res (List OpType × List Reloc × Bool) := do
  let (prog, rels, e1) ← pass stringRound fuel prog rels
  let (prog, rels, e2) ← pass round fuel prog rels
  pure (prog, rels, e1 || e2)

end Pas.Popt
