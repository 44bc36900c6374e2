import Verif.Model.Compile

/-! Constant expressions, `pascal/pas_constexpr.c` and `pascal/pas_constfunc.c`.

Modelled: integer, character, Boolean and set constants.  Not modelled (`none`): reals, strings,
scalars, the functions ODD, SIZEOF, ROUND, TRUNC and the functions of reals.  The expected type
(`findExprType`) matters for reals and strings only and is left out.  Tokens that `Tk` does not name
are `.other code`, where the code is `g_token`, or `0xc000 + g_tknSubType` for a standard
function.  The functions call each other and are given a number of nested calls they may use
(`none` when it does not suffice). -/
namespace Pas.Const
open Pas.Comp (Tk)

/-- `g_constantToken`: tINT_CONST, tCHAR_CONST, tBOOLEAN_CONST, tSET_CONST, or the initial 0.
`pascal/pas_constexpr.c` 190. -/
inductive KK where
  | none_ | int | char | bool | set
  deriving DecidableEq, Repr

/-- The tokens that have not been read, the number of errors, whether undefined behaviour has
occurred, and `g_constantToken`, `g_constantInt`, `g_constantSet` (`pas_constexpr.c` 181-187). -/
structure KS where
  toks : List Tk
  errs : Nat
  ub : Bool
  kind : KK
  int : BitVec 32
  set : List Word
  deriving DecidableEq, Repr

/-- `g_token`.  `pascal/pas_main.h` 74. -/
def KS.tok (s : KS) : Tk := s.toks.headD .period

/-- `getToken()`.  `pascal/pas_token.c` 827-1040. -/
def KS.next (s : KS) : KS := { s with toks := s.toks.tail }

/-- `error(...)`.  `pascal/pas_error.c` 178-195. -/
def KS.err (s : KS) : KS := { s with errs := s.errs + 1 }

/-- Undefined behaviour, if the condition holds.  For `pascal/pas_constexpr.c` 196-1049. -/
def KS.undef (s : KS) (b : Bool) : KS := { s with ub := s.ub || b }

/-- `if (g_token != t) error(...); else getToken();`.  As in `pascal/pas_constexpr.c` 867-1049. -/
def KS.expect (s : KS) (t : Tk) : KS := if s.tok = t then s.next else s.err

/-- The constants that are treated alike by `pas_ConstantFactor`, `pas_constexpr.c` 597-614. -/
def literal : Tk → Option (KK × BitVec 32)
  | .int n => some (.int, n)
  | .char n => some (.char, n)
  | .bool n => some (.bool, n)
  | _ => none

/-- A result of `int32_t` arithmetic: signed overflow is undefined. -/
def arith (i : Int) : BitVec 32 × Bool :=
  (BitVec.ofInt 32 i, decide (i < -2147483648 ∨ 2147483647 < i))

/-- `TRUE` is −1, `pas_constexpr.c` 92-93. -/
def pascalBoolean (b : Bool) : BitVec 32 := if b then 0xffffffff#32 else 0#32

/-- The words of two sets combined.  As in `pascal/pas_constexpr.c` 196-858. -/
def setWith (f : Word → Word → Word) (a b : List Word) : List Word := List.zipWith f a b

/-! ### Set constants -/

/-- `g_constantSet[wordIndex] |= bit` or `= bits`; a store outside the four words is undefined.
As in `pascal/pas_constexpr.c` 867-1049. -/
def putWord (s : KS) (i : Nat) (f : Word → Word) : KS :=
  match s.set[i]? with
  | some w => { s with set := s.set.set i (f w) }
  | none => s.undef true

/-- The loop of `pas_AddBitSetElements`, `pas_constexpr.c` 837-856.  A store beyond the four words is
undefined, so that the loop has at most five steps (`n`). -/
def bitLoop (tailMask : Word) (tailBits : Int) : Nat → Word → Int → Int → Nat → KS → KS
  | 0, _, _, _, _, s => s.undef true
  | n + 1, bitMask, bitsInWord, nBits, wordIndex, s =>
    if 0 < nBits then
      let s := putWord s wordIndex (fun _ => bitMask)
      let nBits := nBits - bitsInWord
      if 16 ≤ nBits then bitLoop tailMask tailBits n 0xffff#16 16 nBits (wordIndex + 1) s
      else if 0 < nBits then bitLoop tailMask tailBits n tailMask bitsInWord tailBits (wordIndex + 1) s
      else s
    else s

/-- `pas_AddBitSetElements`, `pas_constexpr.c` 798-858.  The elements are `uint16_t`. -/
def addBits (first last min : Word) (s : KS) : KS :=
  let firstBit := first - min
  let lastBit := last - min
  let leadMask : Word := 0xffff#16 <<< (firstBit.toNat % 16)
  let tailMask : Word := 0xffff#16 >>> (15 - lastBit.toNat % 16)
  let wordIndex := firstBit.toNat / 16
  if wordIndex = lastBit.toNat / 16 then putWord s wordIndex (fun _ => leadMask &&& tailMask)
  else
    bitLoop tailMask (lastBit.toNat % 16 + 1 : Nat) 5 leadMask (16 - (firstBit.toNat : Int))
      ((last.toNat : Int) - first.toNat + 1) wordIndex s

/-- `pas_GetConstantSubSet`, `pas_constexpr.c` 727-794. -/
def subSet (min : Word) (s : KS) : KS :=
  match literal s.tok with
  | none => s.err
  | some (k, n) =>
    let first : Word := n.setWidth 16
    let s := s.next
    if s.tok = .other 0x0b then
      let s := s.next
      match literal s.tok with
      | some (k', n') => if k' = k then (addBits first (n'.setWidth 16) min s).next else s.err
      | none => s.err
    else
      let bit := first - min
      putWord s (bit.toNat / 16) (fun w => w ||| 1#16 <<< (bit.toNat % 16))

/-- The further elements of a set, `pas_constexpr.c` 672-679. -/
def subSets (min : Word) : Nat → KS → Option KS
  | 0, _ => none
  | n + 1, s => if s.tok = .comma then subSets min n (subSet min s.next) else some s

/-- `case '['` of `pas_ConstantFactor`, `pas_constexpr.c` 641-688. -/
def setFactor (min : Word) (n : Nat) (s : KS) : Option KS := do
  let s := { s with set := [0#16, 0#16, 0#16, 0#16] }.next
  if s.tok = .other 0x5d then pure { s.next with kind := .set }
  else
    let s ← subSets min n (subSet min s)
    pure { s.expect (.other 0x5d) with kind := .set }

/-! ### Expressions -/

/-- Operators of `pas_ConstantTerm`, `pas_constexpr.c` 402-432, for the kind of the first factor. -/
def mulAllowed (op : Tk) (k : KK) : Bool :=
  match op with
  | .mul => k = .int ∨ k = .set
  | .mod_ | .div_ | .shl | .shr => k = .int
  | .and_ => k = .int ∨ k = .bool
  | _ => false

/-- The operations of `pas_ConstantTerm`, `pas_constexpr.c` 478-567: the new value of `factorInt`,
whether the behaviour is undefined, and whether an error is reported.  A product of sets is always
an error (line 488 tests for reals once more).  Shifts to the left are taken as gcc defines them. -/
def mulOp (op : Tk) (k : KK) (a b : BitVec 32) : BitVec 32 × Bool × Bool :=
  match op with
  | .mul => if k = .int then ((arith (a.toInt * b.toInt)).1, (arith (a.toInt * b.toInt)).2, false)
      else (a, false, true)
  | .div_ => if k ≠ .int then (a, false, true)
      else if b = 0 then (a, true, false)
      else ((arith (a.toInt.tdiv b.toInt)).1, (arith (a.toInt.tdiv b.toInt)).2, false)
  | .mod_ => if k ≠ .int then (a, false, true)
      else if b = 0 then (a, true, false)
      else ((arith (a.toInt.tmod b.toInt)).1, (arith (a.toInt.tdiv b.toInt)).2, false)
  | .and_ => if k = .int ∨ k = .bool then (a &&& b, false, false) else (a, false, true)
  | .shl => if k ≠ .int then (a, false, true)
      else if b.toInt < 0 ∨ 31 < b.toInt then (a, true, false)
      else (BitVec.ofInt 32 (a.toInt * 2 ^ b.toNat), false, false)
  | .shr => if k ≠ .int then (a, false, true)
      else if b.toInt < 0 ∨ 31 < b.toInt then (a, true, false)
      else (BitVec.ofInt 32 (a.toInt / 2 ^ b.toNat), false, false)
  | _ => (a, false, false)

/-- Operators of `pas_ConstantSimpleExpression`, `pas_constexpr.c` 258-277. -/
def addAllowed (op : Tk) (k : KK) : Bool :=
  match op with
  | .plus | .minus => k = .int ∨ k = .set
  | .or_ => k = .int ∨ k = .bool
  | .symdiff => k = .set
  | _ => false

/-- The operations of `pas_ConstantSimpleExpression`, `pas_constexpr.c` 324-377: the new value of
`termInt` and the state.  Note that an integer OR subtracts, and that the result of a set operation
is left in `g_constantSet` while `termSet` keeps the first operand. -/
def addOp (op : Tk) (k : KK) (termInt : BitVec 32) (termSet : List Word) (s : KS) :
    BitVec 32 × KS :=
  match k with
  | .int =>
    let r := if op = .plus then arith (termInt.toInt + s.int.toInt)
      else arith (termInt.toInt - s.int.toInt)
    (r.1, s.undef r.2)
  | .bool => (termInt ||| s.int, s)
  | .set =>
    (termInt, { s with
      set := if op = .plus then setWith (fun a b => b ||| a) termSet s.set
        else if op = .minus then setWith (fun a b => b &&& ~~~a) termSet s.set
        else setWith (fun a b => b ^^^ a) termSet s.set })
  | _ => (termInt, s.err)

/-- `isRelationalOperator`, `pas_constexpr.c` 64-67. -/
def isRel : Tk → Bool
  | .eq | .ne | .lt | .le | .gt | .ge => true
  | _ => false

/-- The operators after which `pas_ConstantExpression` reads a second operand,
`pas_constexpr.c` 874-875. -/
def relAllowed (op : Tk) (k : KK) : Bool :=
  (isRel op ∧ (k = .int ∨ k = .char ∨ k = .bool)) ∨
    ((op = .eq ∨ op = .ne ∨ op = .le ∨ op = .in_) ∧ k = .set)

/-- The comparison, `pas_constexpr.c` 938-1037: the result, or an error. -/
def relOp (op : Tk) (k : KK) (a b : BitVec 32) (sa sb : List Word) : Option (BitVec 32) :=
  match k with
  | .int | .char | .bool => match op with
    | .eq => some (pascalBoolean (a = b))
    | .ne => some (pascalBoolean (a ≠ b))
    | .lt => some (pascalBoolean (a.toInt < b.toInt))
    | .le => some (pascalBoolean (a.toInt ≤ b.toInt))
    | .gt => some (pascalBoolean (a.toInt > b.toInt))
    | .ge => some (pascalBoolean (a.toInt ≥ b.toInt))
    | _ => none
  | .set => match op with
    | .eq => some (pascalBoolean (sa = sb))
    | .ne => some (pascalBoolean (sa ≠ sb))
    | .le => some (pascalBoolean (setWith (· &&& ·) sa sb = sb))
    | _ => none
  | .none_ => none

/-- The standard functions that are modelled, `pas_constfunc.c` 82-253: what is done after the
argument. -/
def stdFunc (code : Nat) (s : KS) : KS :=
  if code = 0xc001 then                                             -- txABS, 90-109
    if s.kind = .int then
      if s.int.toInt < 0 then { s with int := (arith (-s.int.toInt)).1 }.undef (arith (-s.int.toInt)).2
      else s
    else s.err
  else if code = 0xc00e then                                        -- txSQR, 151-162
    if s.kind = .int then
      { s with int := (arith (s.int.toInt * s.int.toInt)).1 }.undef (arith (s.int.toInt * s.int.toInt)).2
    else s.err
  else if code = 0xc004 then                                        -- txCHR, 232-239
    if s.kind = .int then { s with kind := .char } else s.err
  else
    let s := if s.kind = .int ∨ s.kind = .char ∨ s.kind = .bool then s else s.err
    if code = 0xc00a then { s with kind := .int }                   -- txORD, 121-122
    else if code = 0xc00b then                                      -- txPRED, 135-136
      { s with int := (arith (s.int.toInt - 1)).1 }.undef (arith (s.int.toInt - 1)).2
    else                                                            -- txSUCC, 198-199
      { s with int := (arith (s.int.toInt + 1)).1 }.undef (arith (s.int.toInt + 1)).2

/-- The codes of these functions, `pas_tkndefs.h` 191-206. -/
def stdCodes : List Nat := [0xc001, 0xc00e, 0xc004, 0xc00a, 0xc00b, 0xc010]

mutual

/-- `pas_ConstantFactor`, `pas_constexpr.c` 573-723.  `min` is the smallest value of the type of a
set (0 when `typePtr` is NULL). -/
def constFactor : Nat → Word → KS → Option KS
  | 0, _, _ => none
  | n + 1, min, s =>
    match literal s.tok with
    | some (k, v) => some { s.next with kind := k, int := v }
    | none =>
      if s.tok = .other 0x5b then setFactor min n s
      else if s.tok = .not_ then do
        let s ← constFactor n min s.next
        let s := if s.kind ≠ .int ∧ s.kind ≠ .bool then s.err else s
        pure { s with int := ~~~s.int }
      else match stdCodes.find? (fun c => s.tok = .other c) with
        | some c => do                                              -- pas_constfunc.c 269-360
            let s ← constExpr n 0 (s.next.expect .lparen)
            pure ((stdFunc c s).expect .rparen)
        | none => match s.tok with
          | .other _ => none
          | _ => some s.err

/-- `pas_ConstantTerm`, `pas_constexpr.c` 388-569. -/
def constTerm : Nat → Word → KS → Option KS
  | 0, _, _ => none
  | n + 1, min, s => do
    let s ← constFactor n min s
    termLoop n min s.kind s.int s

/-- The loop of `pas_ConstantTerm`, `pas_constexpr.c` 400-568, with `factor` and `factorInt`. -/
def termLoop : Nat → Word → KK → BitVec 32 → KS → Option KS
  | 0, _, _, _, _ => none
  | n + 1, min, k, a, s =>
    if mulAllowed s.tok k then do
      let op := s.tok
      let s ← constFactor n min s.next
      let s := if s.kind ≠ k then s.err else s
      let r := mulOp op k a s.int
      let s := if r.2.2 then s.err else s
      termLoop n min k r.1 (s.undef r.2.1)
    else some { s with kind := k, int := a }

/-- `pas_ConstantSimpleExpression`, `pas_constexpr.c` 196-385.  After `error(eINVSIGNEDCONST)` the
variable `termInt` is used without a value. -/
def constSimple : Nat → Word → KS → Option KS
  | 0, _, _ => none
  | n + 1, min, s => do
    let sign := s.tok
    let signed := decide (sign = .plus ∨ sign = .minus)
    let s ← constTerm n min (if signed then s.next else s)
    if signed ∧ s.kind ≠ .int then simpleLoop n min s.kind s.int s.set (s.err.undef true)
    else if sign = .minus then
      simpleLoop n min s.kind (arith (-s.int.toInt)).1 s.set (s.undef (arith (-s.int.toInt)).2)
    else simpleLoop n min s.kind s.int s.set s

/-- The loop of `pas_ConstantSimpleExpression`, `pas_constexpr.c` 252-384, with `term`, `termInt` and
`termSet`. -/
def simpleLoop : Nat → Word → KK → BitVec 32 → List Word → KS → Option KS
  | 0, _, _, _, _, _ => none
  | n + 1, min, k, a, st, s =>
    if addAllowed s.tok k then do
      let op := s.tok
      let s ← constTerm n min s.next
      let s := if s.kind ≠ k then s.err else s
      let r := addOp op k a st s
      simpleLoop n min k r.1 st r.2
    else some { s with kind := k, int := a }

/-- `pas_ConstantExpression`, `pas_constexpr.c` 867-1049.  Note that the relational operator is not
skipped before the second operand is read. -/
def constExpr : Nat → Word → KS → Option KS
  | 0, _, _ => none
  | n + 1, min, s => do
    let s ← constSimple n min s
    if relAllowed s.tok s.kind then do
      let op := s.tok
      let k := s.kind
      let a := s.int
      let sa := s.set
      let s ← constSimple n min s
      let s := if s.kind ≠ k then s.err else s
      match relOp op k a s.int sa s.set with
      | some v => pure { s with kind := .bool, int := v }
      | none => pure { s.err with kind := .bool }
    else pure s

end

/-- `pas_DeclareConst`, `pas_block.c` 194-247, from the name of the constant: the kind and value that
are added to the symbol table. -/
def declareConst (n : Nat) (s : KS) : Option (Option (KK × BitVec 32) × KS) := do
  let s ← constExpr n 0 (s.next.expect .eq)
  match s.kind with
  | .int | .char | .bool => pure (some (s.kind, s.int), s)
  | _ => pure (none, s.err)

/-- The token of a named constant, `pas_token.c` 128-142. -/
def constToken : KK → BitVec 32 → Option Tk
  | .int, v => some (.int v)
  | .char, v => some (.char v)
  | .bool, v => some (.bool v)
  | _, _ => none

end Pas.Const
