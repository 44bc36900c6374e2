import Verif.Spec.PCode
import Verif.Spec.Memory

/-! Specification of peephole rewriting (properties C30-C33): what a short sequence of
instructions does, and when one sequence may replace another. -/
namespace Pas.Spec

/-- Effect of one instruction that does not transfer control; the program counter does not
matter. -/
def effect (lib : Lib) (i : OpType) (s : VM) : Res VM := do
  let (e, s') ← alone lib i s
  if e = eNOERROR then .ok { s' with pc := s.pc } else .ub

/-- Jumps: number of words removed and whether the jump is taken. -/
def branch (s : VM) : Op → Option (Nat × Bool)
  | .jmp => some (0, true)
  | .jequz => some (1, decide ((opnd s 0).toInt = 0))
  | .jneqz => some (1, decide ((opnd s 0).toInt ≠ 0))
  | .jltz => some (1, decide ((opnd s 0).toInt < 0))
  | .jgtez => some (1, decide ((opnd s 0).toInt ≥ 0))
  | .jgtz => some (1, decide ((opnd s 0).toInt > 0))
  | .jltez => some (1, decide ((opnd s 0).toInt ≤ 0))
  | .jequ => some (2, decide ((opnd s 1).toInt = (opnd s 0).toInt))
  | .jneq => some (2, decide ((opnd s 1).toInt ≠ (opnd s 0).toInt))
  | .jlt => some (2, decide ((opnd s 1).toInt < (opnd s 0).toInt))
  | .jgte => some (2, decide ((opnd s 1).toInt ≥ (opnd s 0).toInt))
  | .jgt => some (2, decide ((opnd s 1).toInt > (opnd s 0).toInt))
  | .jlte => some (2, decide ((opnd s 1).toInt ≤ (opnd s 0).toInt))
  | .jult => some (2, decide ((opnd s 1).toNat < (opnd s 0).toNat))
  | .jugte => some (2, decide ((opnd s 1).toNat ≥ (opnd s 0).toNat))
  | .jugt => some (2, decide ((opnd s 1).toNat > (opnd s 0).toNat))
  | .julte => some (2, decide ((opnd s 1).toNat ≤ (opnd s 0).toNat))
  | _ => none

/-- Run a sequence of instructions without labels, calls and returns: the label jumped to (`none`
if the end of the sequence is reached) and the state. -/
def execSeq (lib : Lib) : List OpType → VM → Res (Option Word × VM)
  | [], s => .ok (none, s)
  | i :: rest, s =>
    match Op.ofByte i.op with
    | none => .ub
    | some o =>
      match branch s o with
      | some (n, true) => .ok (some i.arg2, popN s n)
      | some (n, false) => execSeq lib rest (popN s n)
      | none =>
        if isPlain o then do
          let s' ← effect lib i s
          execSeq lib rest s'
        else .ub

/-- There are at least three words on the stack and room for four more. -/
def Roomy (s : VM) : Prop := 3 ≤ s.sp.toNat / 2 ∧ s.sp.toNat / 2 + 4 < s.words ∧ s.words ≤ 32768

/-- The same state, but for words above the top of the stack and at most two words above `base`
(the top of the stack when the sequence was entered). -/
structure SameLive (base : Nat) (s s' : VM) : Prop where
  regs : s' = { s with mem := s'.mem }
  live : ∀ i, i ≤ s.sp.toNat / 2 ∨ base + 2 < i → s'.mem i = s.mem i

/-- In the states of `P`, `after` can replace `before`: whenever `before` runs, `after` runs,
leaves the sequence the same way (jump to the same label, or fall through) and leaves the same
registers, the same stack and the same memory. -/
def Sound (lib : Lib) (P : VM → Prop) (before after : List OpType) : Prop :=
  ∀ s, Roomy s → P s → ∀ e s', execSeq lib before s = .ok (e, s') →
    ∃ s'', execSeq lib after s = .ok (e, s'') ∧ SameLive (s.sp.toNat / 2) s' s''

/-- The instruction pushes `v`, whatever is stored above the top of the stack, and also if
another word has been pushed before: a load of a variable in the live part of the memory. -/
def Fetches (lib : Lib) (i : OpType) (s : VM) (v : Word) : Prop :=
  ∀ t : VM, t = { s with mem := t.mem, sp := t.sp } → (t.sp = s.sp ∨ t.sp = s.sp + 2#16) →
    (∀ j, j ≤ s.sp.toNat / 2 → t.mem j = s.mem j) →
    effect lib i t = .ok { t with
      sp := t.sp + 2#16
      mem := updW t.mem (t.sp.toNat / 2 + 1) v }

/-- One-operand operators: a constant followed by one of them is a constant. -/
def oneOperand : Op → Bool
  | .neg | .abs_ | .inc | .dec | .not_ | .equz | .neqz | .ltz | .gtez | .gtz | .ltez => true
  | _ => false

/-- Two-operand operators that can be made cheaper when the second operand is a constant. -/
def twoOperand : Op → Bool
  | .add | .sub | .mul | .umul | .div_ | .udiv | .sll | .srl | .sra | .or_ | .and_
  | .equ | .neq | .lt | .gte | .gt | .lte => true
  | _ => false

/-- Jumps on the top of the stack. -/
def jumpOnTop : Op → Bool
  | .jequz | .jneqz | .jltz | .jgtez | .jgtz | .jltez => true
  | _ => false

/-- When a signed comparison of `x` with 1 or −1 can be made by decrementing or incrementing `x`:
no overflow. -/
def stepOk (x c : Word) : Prop :=
  (c = 1#16 → x ≠ 0x8000#16) ∧ (c = 0xffff#16 → x ≠ 0x7fff#16)

/-- When `x op c` with a constant `c` is rewritten correctly: a division needs `x ≥ 0` (unless
`c = 1`), signed comparisons need `stepOk`. -/
def SecondOk (o : Op) (c : Word) (s : VM) : Prop :=
  (o = .div_ → c ≠ 1#16 → 0 ≤ (opnd s 0).toInt) ∧
  (o = .lt ∨ o = .gte ∨ o = .gt ∨ o = .lte → stepOk (opnd s 0) c)

/-- When `x op y` of two constants is folded correctly: the optimizer uses an unsigned dividend
for `div`, computes `mod` unsigned and compares unsigned values as if they were signed. -/
def FoldOk (o : Op) (x y : Word) : Prop :=
  (o = .div_ → 0 ≤ x.toInt) ∧ (o = .mod_ → 0 ≤ x.toInt ∧ 0 ≤ y.toInt) ∧
  (o = .ult ∨ o = .ugte ∨ o = .ugt ∨ o = .ulte → (x.toInt < 0 ↔ y.toInt < 0))

/-- Ordering comparisons. -/
def isOrdering (o : Op) : Prop := o = .lt ∨ o = .gte ∨ o = .gt ∨ o = .lte

/-- The conditions under which `popt_BranchOptimize` is right: a complemented value that is tested
has to be a Boolean, a negated value must not be the smallest integer. -/
def BranchOk (o : Op) (j : Op) (x : Word) : Prop :=
  (o = .not_ → (j = .jequz ∨ j = .jneqz) → x = 0#16 ∨ x = 0xffff#16) ∧
  (o = .neg → x ≠ 0x8000#16)

/-- Following `d` static links from the frame `f` ends at frame `g` and only reads words in `Q`. -/
inductive LinkIn (s : VM) (Q : Nat → Prop) : Nat → Word → Word → Prop
  | here (f : Word) : LinkIn s Q 0 f f
  | out {d : Nat} {f g : Word} (inside : f.toNat / 2 < s.words) (q : Q (f.toNat / 2))
      (rest : LinkIn s Q d (s.mem (f.toNat / 2)) g) : LinkIn s Q (d + 1) f g

/-- Adding `k` to the frame offset `off` neither leaves the side of the frame on which `off` is
(parameters have negative offsets) nor overflows. -/
def SameSide (off k : Word) : Prop :=
  (0 ≤ off.toInt ↔ 0 ≤ (off + k).toInt)

/-- Adding the index `k` as an unsigned number to the frame offset. -/
def SameSideIx (off k : Word) : Prop :=
  (0 ≤ off.toInt + k.toNat ↔ 0 ≤ (off + k).toInt)

/-- The load `o` with the operands `x`, `w` reads a variable at or below the top of the stack (or
no memory at all) and finds it by static links at or below the top of the stack. -/
def LiveVar (s : VM) (o : Op) (x : Byte) (w : Word) : Prop :=
  match o with
  | .push | .pushb | .upushb | .la | .lac => True
  | .ld | .ldb | .uldb => (s.spb + w).toNat / 2 ≤ s.sp.toNat / 2
  | .lds | .ldsb | .uldsb => ∃ a f, FrameAddr s x.toNat w.toInt a ∧
      a.toNat / 2 ≤ s.sp.toNat / 2 ∧ LinkIn s (· ≤ s.sp.toNat / 2) x.toNat s.fp f
  | .las => ∃ f, LinkIn s (· ≤ s.sp.toNat / 2) x.toNat s.fp f
  | _ => False

/-- The store `o` with the operands `x`, `w` writes at address `a`, found by static links that are
below the top of the stack and not overwritten. -/
def StoreTarget (s : VM) (o : Op) (x : Byte) (w : Word) (a : Word) : Prop :=
  match o with
  | .st | .stb => a = s.spb + w
  | .sts | .stsb => FrameAddr s x.toNat w.toInt a ∧
      ∃ f, LinkIn s (fun j => j < s.sp.toNat / 2 ∧ j ≠ a.toNat / 2) x.toNat s.fp f
  | _ => False

/-- Byte stores. -/
def isByteStore (o : Op) : Bool := o = .stb || o = .stsb

/-- The `n` bytes at address `a` are at or below the top of the stack. -/
def BlockLive (s : VM) (a : Word) (n : Nat) : Prop :=
  ∀ j : Nat, 2 * j < n → (a + BitVec.ofNat 16 (2 * j)).toNat / 2 ≤ s.sp.toNat / 2

end Pas.Spec
