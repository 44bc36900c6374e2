import Verif.Model.Insn
import Verif.Model.VM

/-! The local optimizer: rewriting rules of `insn16/popt/popt_constants.c`, `popt_branch.c` and
`popt_loadstore.c`.  A rule looks at the consecutive (visible) instructions `i`, `i + 1`, ... of
the peephole and rewrites them in place; deleted instructions become NOP
(`popt_DeletePCode`, `popt_peephole.c` 304-310). -/
namespace Pas.Popt

/-- `(op, arg1, arg2) = (oNOP, 0, 0)`, `popt_DeletePCode`, `popt_peephole.c` 304-310. -/
def nop : OpType := ⟨Op.nop.toByte, 0, 0⟩

/-- `opPtr->op = o`: the arguments are kept.  As in `insn16/popt/popt_constants.c` 69-613. -/
def withOp (i : OpType) (o : Op) : OpType := { i with op := o.toByte }

/-- `popt_CheckPushConstant`, `popt_peephole.c` 512-519. -/
def isPush (i : OpType) : Bool :=
  match Op.ofByte i.op with
  | some .push | some .pushb | some .upushb => true
  | _ => false

/-- `popt_CheckLoadOperation`, `popt_peephole.c` 435-447. -/
def isLoad (i : OpType) : Bool :=
  match Op.ofByte i.op with
  | some .push | some .pushb | some .upushb | some .ld | some .ldb | some .uldb
  | some .lds | some .ldsb | some .uldsb | some .la | some .las | some .lac | some .lar => true
  | _ => false

/-- `popt_CheckStoreOperation`, `popt_peephole.c` 454-458. -/
def isStore (i : OpType) : Bool :=
  match Op.ofByte i.op with
  | some .st | some .stb | some .sts | some .stsb => true
  | _ => false

/-- `popt_CheckAddressOperation`, `popt_peephole.c` 466-471. -/
def isAddress (i : OpType) : Bool :=
  match Op.ofByte i.op with
  | some .la | some .lax | some .las | some .lasx | some .lac | some .lar => true
  | _ => false

/-- `popt_CheckBinaryOperator`, `popt_peephole.c` 479-491. -/
def isBinary (i : OpType) : Bool :=
  match Op.ofByte i.op with
  | some .add | some .sub | some .mul | some .div_ | some .mod_ | some .or_ | some .and_
  | some .equ | some .neq | some .lt | some .gte | some .gt | some .lte
  | some .umul | some .udiv | some .umod | some .ult | some .ugte | some .ugt | some .ulte => true
  | _ => false

/-- `popt_CheckTransitiveOperator`, `popt_peephole.c` 499-505. -/
def isTransitive (i : OpType) : Bool :=
  match Op.ofByte i.op with
  | some .add | some .mul | some .or_ | some .and_ | some .equ | some .neq | some .umul => true
  | _ => false

/-- `popt_ExpandPush`, `popt_util.c` 55-72. -/
def expandPush (i : OpType) : OpType :=
  if i.op = Op.pushb.toByte then ⟨Op.push.toByte, 0, signExtend8 i.arg1⟩
  else if i.op = Op.upushb.toByte then ⟨Op.push.toByte, 0, i.arg1.zeroExtend 16⟩
  else i

/-- `popt_OptimizePush`, `popt_util.c` 77-98. -/
def optimizePush (i : OpType) : OpType :=
  if i.op = Op.push.toByte then
    if -128 ≤ i.arg2.toInt ∧ i.arg2.toInt ≤ 127 then ⟨Op.pushb.toByte, i.arg2.setWidth 8, 0⟩
    else if i.arg2.toNat ≤ 255 then ⟨Op.upushb.toByte, i.arg2.setWidth 8, 0⟩
    else i
  else i

/-- The loop of `popt_PowerOfTwo`, `popt_util.c` 121-127; a 16-bit value that is not zero has at
most 15 trailing zeros, so 16 iterations are enough. -/
def powerOfTwoFrom : Nat → Nat → Nat → Int
  | 0, v, k => if v ≠ 1 then -1 else (k : Int)
  | n + 1, v, k => if v ≠ 0 ∧ v % 2 = 0 then powerOfTwoFrom n (v / 2) (k + 1)
      else if v ≠ 1 then -1 else (k : Int)

/-- `popt_PowerOfTwo`, `popt_util.c` 103-130 (only called with 16-bit values here). -/
def powerOfTwo (v : Nat) : Int := powerOfTwoFrom 16 v 0

/-- What one iteration of an optimization loop does with the instructions it looks at.
`insn16/popt/popt_constants.c` 69-613, 634-1381. -/
inductive Action (α : Type) where
  /-- nothing; go on with the next instruction -/
  | next
  /-- the instructions are replaced -/
  | rewrite (a : α)
  /-- nothing, and the loop does not advance: it never ends -/
  | stuck
deriving DecidableEq

/-- The constant −1.  As in `insn16/popt/popt_constants.c` 69-613. -/
def minus1 : Word := 0xffff#16

/-- The truth values written by the optimizer.  As in `insn16/popt/popt_constants.c` 69-613, 634-1381. -/
def truth (b : Bool) : Word := if b then minus1 else 0#16

/-- `switch` on a constant followed by an instruction, `popt_UnaryOptimize`,
`popt_constants.c` 79-544.  `c` is the (expanded) constant. -/
def unaryConst (a b : OpType) (c : Word) : Action (OpType × OpType) :=
  let const (v : Word) : Action (OpType × OpType) := .rewrite ({ a with arg2 := v }, nop)
  let only (o : Op) : Action (OpType × OpType) := .rewrite (nop, withOp b o)
  let drop : Action (OpType × OpType) := .rewrite (nop, nop)
  let cmp (o : Op) : Action (OpType × OpType) :=
    if c = 0#16 then only o
    else if c = 1#16 then .rewrite (⟨Op.dec.toByte, a.arg1, 0⟩, withOp b o)
    else if c = minus1 then .rewrite (⟨Op.inc.toByte, a.arg1, 0⟩, withOp b o)
    else .next
  let jump (t : Bool) : Action (OpType × OpType) := if t then only .jmp else drop
  match Op.ofByte b.op with
  | some .neg => const (-c)                                                         -- 83-87
  | some .abs_ => if c.toInt < 0 then const (-c) else const c                       -- 89-97
  | some .inc => const (c + 1#16)                                                   -- 99-103
  | some .dec => const (c - 1#16)                                                   -- 105-109
  | some .not_ => const (~~~c)                                                      -- 111-115
  | some .add =>                                                                    -- 119-141
    if c = 0#16 then drop else if c = 1#16 then only .inc
    else if c = minus1 then only .dec else .next
  | some .sub =>                                                                    -- 143-165
    if c = 0#16 then drop else if c = 1#16 then only .dec
    else if c = minus1 then only .inc else .next
  | some .mul | some .umul =>                                                       -- 167-206
    if c = 1#16 then drop
    else if 1 ≤ powerOfTwo c.toNat then
      .rewrite ({ a with arg2 := BitVec.ofInt 16 (powerOfTwo c.toNat) }, withOp b .sll)
    else .next
  | some .div_ =>
    if c = 1#16 then drop
    else if 1 ≤ powerOfTwo c.toNat then
      .rewrite ({ a with arg2 := BitVec.ofInt 16 (powerOfTwo c.toNat) }, withOp b .sra)
    else .next
  | some .udiv =>
    if c = 1#16 then drop
    else if 1 ≤ powerOfTwo c.toNat then
      .rewrite ({ a with arg2 := BitVec.ofInt 16 (powerOfTwo c.toNat) }, withOp b .srl)
    else .next
  | some .sll | some .srl | some .sra | some .or_ =>                                -- 208-221
    if c = 0#16 then drop else .next
  | some .and_ => if c = minus1 then drop else .next                                -- 223-233
  | some .equz => const (truth (c = 0#16))                                          -- 237-242
  | some .neqz => const (truth (c ≠ 0#16))                                          -- 244-256
  | some .ltz => const (truth (c.toInt < 0))                                        -- 258-270
  | some .gtez => const (truth (c.toInt ≥ 0))                                       -- 272-284
  -- `arg2` is unsigned here
  | some .gtz => const (truth (c.toNat > 0))                                        -- 286-292
  | some .ltez => const (truth (c.toNat ≤ 0))                                       -- 294-300
  | some .equ => cmp .equz                                                          -- 304-331
  | some .neq => cmp .neqz                                                          -- 333-358
  | some .lt => cmp .ltz                                                            -- 360-385
  | some .gte => cmp .gtez                                                          -- 387-412
  | some .gt => cmp .gtz                                                            -- 414-439
  | some .lte => cmp .ltez                                                          -- 441-466
  | some .jequz => jump (c = 0#16)                                                  -- 470-482
  | some .jneqz => jump (c ≠ 0#16)                                                  -- 484-496
  | some .jltz => jump (c.toInt < 0)                                                -- 498-510
  | some .jgtez => jump (c.toInt ≥ 0)                                               -- 512-524
  -- `arg2` is unsigned here
  | some .jgtz => jump (c.toNat > 0)                                                -- 526-538
  | some .jltez => jump (c.toNat ≤ 0)                                               -- 540-552
  | _ => .next

/-- One iteration of `popt_UnaryOptimize`, `popt_constants.c` 69-613, on the instructions `i` and
`i + 1`.  The constant has been expanded by `popt_ExpandPush`; the following `popt_OptimizePush`
is part of the loop. -/
def unaryRule (a b : OpType) : Action (OpType × OpType) :=
  if isPush a then unaryConst (expandPush a) b (expandPush a).arg2
  else match Op.ofByte a.op with
    | some .inds | some .incs =>                                                    -- 564-577
      if b.op = a.op then .rewrite ({ a with arg2 := a.arg2 + b.arg2 }, nop) else .next
    | some .inc => if b.op = Op.dec.toByte then .rewrite (nop, nop) else .next      -- 583-594
    | some .dec => if b.op = Op.inc.toByte then .rewrite (nop, nop) else .next      -- 595-606
    | _ => .next

/-- `uint16_t * uint16_t` is computed in `int`; signed overflow is undefined. -/
def mulOverflows (x y : Word) : Prop := 2147483648 ≤ x.toNat * y.toNat

instance (x y : Word) : Decidable (mulOverflows x y) := Nat.decLe _ _

/-- `switch` on two constants and an operator, `popt_BinaryOptimize`, `popt_constants.c` 656-807.
`x`, `y` are the (expanded) constants.  (The cases oSLL, oSRL, oSRA cannot be reached because
`popt_CheckBinaryOperator` excludes them.) -/
def foldConst (o : Option Op) (x y : Word) : Res (Option Word) :=
  match o with
  | some .add => .ok (some (x + y))                                                 -- 658-662
  | some .sub => .ok (some (x - y))                                                 -- 664-668
  | some .mul | some .umul => if mulOverflows x y then .ub else .ok (some (x * y))  -- 670-675
  | some .div_ =>                                                                   -- 677-682
    if y = 0#16 then .ub else .ok (some (BitVec.ofInt 16 (Int.tdiv x.toNat y.toInt)))
  | some .mod_ | some .umod =>                                                      -- 684-689
    if y = 0#16 then .ub else .ok (some (BitVec.ofNat 16 (x.toNat % y.toNat)))
  | some .or_ => .ok (some (x ||| y))                                               -- 710-714
  | some .and_ => .ok (some (x &&& y))                                              -- 716-720
  | some .equ => .ok (some (truth (x = y)))                                         -- 722-734
  | some .neq => .ok (some (truth (x ≠ y)))                                         -- 736-748
  | some .lt | some .ult => .ok (some (truth (x.toInt < y.toInt)))                  -- 750-763
  | some .gte | some .ugte => .ok (some (truth (x.toInt ≥ y.toInt)))                -- 765-778
  | some .gt | some .ugt => .ok (some (truth (x.toInt > y.toInt)))                  -- 780-793
  | some .lte | some .ulte => .ok (some (truth (x.toInt ≤ y.toInt)))                -- 795-808
  | _ => .ok none                                                                   -- 810-811

/-- Number of the case 2, 4, ..., 16384, `popt_constants.c` 884-897 (0 = no such case). -/
def mulShift (c : Word) : Nat :=
  if c = 2#16 then 1 else if c = 4#16 then 2 else if c = 8#16 then 3 else if c = 16#16 then 4
  else if c = 32#16 then 5 else if c = 64#16 then 6 else if c = 128#16 then 7
  else if c = 256#16 then 8 else if c = 512#16 then 9 else if c = 1024#16 then 10
  else if c = 2048#16 then 11 else if c = 4096#16 then 12 else if c = 8192#16 then 13
  else if c = 16384#16 then 14 else 0

/-- A constant, a load and an operator, `popt_constants.c` 838-1022.  `a` is the expanded
constant. -/
def constLoad (a b c : OpType) : Action (OpType × OpType × OpType) :=
  let k := a.arg2
  let zero (o : Op) : Action (OpType × OpType × OpType) :=
    if k = 0#16 then .rewrite (nop, b, withOp c o) else .next
  match Op.ofByte c.op with
  | some .add =>                                                                    -- 840-863
    if k = 0#16 then .rewrite (nop, b, nop)
    else if k = 1#16 then .rewrite (nop, b, withOp c .inc)
    else if k = minus1 then .rewrite (nop, b, withOp c .dec)
    else .next
  | some .sub => if k = 0#16 then .rewrite (nop, b, c) else .next                   -- 865-876
  | some .mul | some .umul =>                                                       -- 878-912
    if k = 1#16 then .rewrite (nop, b, nop)
    else if mulShift k = 0 then .next
    else .rewrite (b, ⟨Op.push.toByte, 0, BitVec.ofNat 16 (mulShift k)⟩, withOp c .sll)
  | some .or_ => if k = 0#16 then .rewrite (nop, b, nop) else .next                 -- 914-924
  | some .and_ => if k = minus1 then .rewrite (nop, b, nop) else .next              -- 926-936
  | some .equ => zero .equz                                                         -- 938-949
  | some .neq => zero .neqz                                                         -- 951-962
  | some .lt => zero .gtez                                                          -- 964-975
  | some .gte => zero .ltz                                                          -- 977-988
  | some .gt => zero .ltez                                                          -- 990-1001
  | some .lte => zero .gtz                                                          -- 1003-1014
  | _ => .next

/-- A load address instruction, a constant and an operator, `popt_constants.c` 1046-1077. -/
def addressConst (a b c : OpType) : Action (OpType × OpType × OpType) :=
  match Op.ofByte c.op with
  | some .add => .rewrite ({ a with arg2 := a.arg2 + b.arg2 }, nop, nop)
  | some .sub => .rewrite ({ a with arg2 := a.arg2 - b.arg2 }, nop, nop)
  | _ => .next

/-- Any instruction, a constant and an operator, `popt_constants.c` 1081-1259. -/
def otherConst (a b c : OpType) : Action (OpType × OpType × OpType) :=
  let k := b.arg2
  let drop : Action (OpType × OpType × OpType) := .rewrite (a, nop, nop)
  let only (o : Op) : Action (OpType × OpType × OpType) := .rewrite (a, nop, withOp c o)
  match Op.ofByte c.op with
  | some .add =>                                                                    -- 1092-1115
    if k = 1#16 then only .inc else if k = 0#16 then drop
    else if k = minus1 then only .dec else .next
  | some .sub =>                                                                    -- 1117-1140
    if k = 1#16 then only .dec else if k = 0#16 then drop
    else if k = minus1 then only .inc else .next
  | some .mul => if k = 1#16 then drop else if k = minus1 then only .neg else .next -- 1142-1175
  | some .umul => if k = 1#16 then drop else .next
  | some .div_ => if k = 1#16 then drop else .next                                  -- 1177-1202
  | some .udiv => if k = 1#16 then drop else if k = minus1 then only .neg else .next -- 1205-1226
  | some .or_ => if k = 0#16 then drop else .next                                   -- 1228-1239
  | some .and_ => if k = minus1 then drop else .next                                -- 1241-1252
  | _ => .next

/-- The instructions after a constant in the second form, `popt_constants.c` 828-834. -/
def isFrameLoad (i : OpType) : Bool :=
  match Op.ofByte i.op with
  | some .lds | some .ldsb | some .uldsb | some .las | some .lac | some .lar => true
  | _ => false

/-- One iteration of `popt_BinaryOptimize`, `popt_constants.c` 635-1380, on the instructions `i`,
`i + 1`, `i + 2`.  The folding of two constants can divide by zero in the optimizer itself. -/
def binaryRule (a b c : OpType) : Res (Action (OpType × OpType × OpType)) :=
  if isPush a && isPush b && isBinary c then do                                     -- 644-821
    match ← foldConst (Op.ofByte c.op) (expandPush a).arg2 (expandPush b).arg2 with
    | some v => .ok (.rewrite ({ expandPush a with arg2 := v }, nop, nop))
    | none => .ok .stuck
  else if isPush a && isFrameLoad b then                                            -- 827-1029
    .ok (constLoad (expandPush a) b c)
  else if isPush b && isBinary c then                                               -- 1037-1266
    if isAddress a then .ok (addressConst a (expandPush b) c)
    else .ok (otherConst a (expandPush b) c)
  else if isPush a && isLoad b && isBinary c then                                   -- 1275-1333
    if isTransitive c then .ok (.rewrite (b, expandPush a, c))
    else if c.op = Op.sub.toByte ∧ (expandPush a).arg2 = 0#16 then .ok (.rewrite (nop, b, nop))
    else .ok .next
  else if a.op = Op.neg.toByte then                                                 -- 1347-1373
    -- the second test is for oSUB in the place of the oNEG: never true
    if b.op = Op.add.toByte then .ok (.rewrite (nop, withOp b .sub, c)) else .ok .next
  else .ok .next

/-- The inverse comparison chosen for a following oNOT, and the jumps chosen for oJEQUZ and
oJNEQZ: `popt_branch.c` 120-550. -/
def comparison : Op → Option (Op × Op × Op)
  | .equ => some (.neq, .jneq, .jequ)
  | .neq => some (.equ, .jequ, .jneq)
  | .lt => some (.gte, .jgte, .jlt)
  | .gte => some (.lt, .jlt, .jgte)
  | .gt => some (.lte, .jlte, .jgt)
  | .lte => some (.gt, .jgt, .jlte)
  | .ult => some (.ugte, .jugte, .jult)
  | .ugte => some (.ult, .jult, .jugte)
  | .ugt => some (.ulte, .julte, .jugt)
  | .ulte => some (.ugt, .jugt, .julte)
  | .equz => some (.neqz, .jneqz, .jequz)
  | .neqz => some (.equz, .jequz, .jneqz)
  | .ltz => some (.gtez, .jgtez, .jltz)
  | .gtez => some (.ltz, .jltz, .jgtez)
  | .gtz => some (.ltez, .jltez, .jgtz)
  | .ltez => some (.gtz, .jgtz, .jltez)
  | _ => none

/-- One iteration of `popt_BranchOptimize`, `popt_branch.c` 63-556. -/
def branchRule (a b : OpType) : Action (OpType × OpType) :=
  match Op.ofByte a.op, Op.ofByte b.op with
  | some .not_, some .jequz => .rewrite (nop, withOp b .jneqz)                      -- 67-74
  | some .not_, some .jneqz => .rewrite (nop, withOp b .jequz)                      -- 76-80
  | some .neg, some .jltz => .rewrite (nop, withOp b .jgtz)                         -- 90-94
  | some .neg, some .jgtez => .rewrite (nop, withOp b .jltez)                       -- 96-100
  | some .neg, some .jgtz => .rewrite (nop, withOp b .jltz)                         -- 102-106
  | some .neg, some .jltez => .rewrite (nop, withOp b .jgtez)                       -- 108-112
  | some o, some .not_ =>
    match comparison o with
    | some (inv, _, _) => .rewrite (withOp a inv, nop)
    | none => .next
  | some o, some .jequz =>
    match comparison o with
    | some (_, j, _) => .rewrite (nop, withOp b j)
    | none => .next
  | some o, some .jneqz =>
    match comparison o with
    | some (_, _, j) => .rewrite (nop, withOp b j)
    | none => .next
  | _, _ => .next

/-- One iteration of `popt_StackOrderOptimize`, `popt_loadstore.c` 70-134, on the instructions
`i - 2`, `i - 1`, `i`.  `arg2` is unsigned, so the comparison with `-sINT_SIZE` is always false. -/
def stackOrderRule (a b c : OpType) : Action (OpType × OpType × OpType) :=
  match Op.ofByte c.op with
  | some .xchg => if isLoad b && isLoad a then .rewrite (b, a, nop) else .next      -- 80-91
  | some .inds =>                                                                   -- 98-128
    if c.arg2.toInt ≤ -2 ∧ (isLoad b = true ∨ b.op = Op.dup.toByte) then
      .rewrite (a, nop, { c with arg2 := c.arg2 + 2#16 })
    else if c.arg2.toInt ≤ -2 ∧ isStore b = true ∧ a.op = Op.dup.toByte then
      .rewrite (nop, b, { c with arg2 := c.arg2 + 2#16 })
    else .next
  | _ => .next

/-- Unindexed form of an indexed load, `popt_loadstore.c` 205-258. -/
def unindexed : Op → Option Op
  | .ldx => some .ld
  | .ldsx => some .lds
  | .ldxb => some .ldb
  | .ldsxb => some .ldsb
  | .uldxb => some .uldb
  | .uldsxb => some .uldsb
  | .lax => some .la
  | .lasx => some .las
  | _ => none

/-- Loads eliminated when repeated, `popt_loadstore.c` 160-165. -/
def isSimpleLoad (i : OpType) : Bool :=
  match Op.ofByte i.op with
  | some .ld | some .ldb | some .uldb | some .lds | some .ldsb | some .uldsb => true
  | _ => false

/-- One iteration of `popt_LoadOptimize`, `popt_loadstore.c` 150-302, on the instructions `i`,
`i + 1` and, if visible, `i + 2`. -/
def loadRule (a b : OpType) (c : Option OpType) : Action (OpType × OpType × Option OpType) :=
  if isSimpleLoad a then                                                            -- 160-177
    if b = a then .rewrite (a, ⟨Op.dup.toByte, 0, 0⟩, c) else .next
  else if isPush a then                                                             -- 181-296
    let v := (expandPush a).arg2
    match (Op.ofByte b.op).bind unindexed with
    | some o => .rewrite (nop, { withOp b o with arg2 := b.arg2 + v }, c)
    | none =>
      match c with
      | some c =>
        if isLoad b then
          if c.op = Op.ldxm.toByte then
            .rewrite (nop, b, some { withOp c .ldm with arg2 := c.arg2 + v })
          else if c.op = Op.ldsxm.toByte then
            .rewrite (nop, b, some { withOp c .ldsm with arg2 := c.arg2 + v })
          else .next
        else .next
      | none => .next
  else .next

/-- The load that reads what a store has written, `popt_loadstore.c` 331-336. -/
def loadOf : Op → Option Op
  | .st => some .ld
  | .stb => some .ldb
  | .sts => some .lds
  | .stsb => some .ldsb
  | _ => none

/-- One iteration of `popt_StoreOptimize`, `popt_loadstore.c` 318-420. -/
def storeRule (a b : OpType) (c : Option OpType) : Action (OpType × OpType × Option OpType) :=
  match (Op.ofByte a.op).bind loadOf with
  | some l =>                                                                       -- 331-350
    if a.arg1 = b.arg1 ∧ a.arg2 = b.arg2 ∧ b.op = l.toByte then
      .rewrite (⟨Op.dup.toByte, 0, 0⟩, { b with op := a.op }, c)
    else .next
  | none =>
    match c with
    | none => .next
    | some c =>
      if a.op = Op.push.toByte then                                                 -- 354-386
        if c.op = Op.stsx.toByte then
          .rewrite (nop, b, some { withOp c .sts with arg2 := c.arg2 + a.arg2 })
        else if c.op = Op.stsxb.toByte then
          .rewrite (nop, b, some { withOp c .stsb with arg2 := c.arg2 + a.arg2 })
        else .next
      else if isPush a then                                                         -- 388-416
        if c.op = Op.stsxb.toByte then
          .rewrite (nop, b, some { withOp c .stsb with arg2 := c.arg2 + (expandPush a).arg2 })
        else .next
      else .next

end Pas.Popt
