import Verif.Spec.Pascal
import Verif.Spec.Peephole

/-! Where the variables of the source program are in the memory of the machine. -/
namespace Pas.Src
open Pas.Spec

/-- The variables and procedures that can be used at a place of the program: the static nesting level
of the place, the variables, the procedures, and the byte address of each variable. -/
structure Env where
  level : Nat
  vars : Variable → Prop
  procs : Proc → Prop
  addr : Variable → Nat

/-- The byte at address `a` belongs to the variable `x`. -/
def Env.Owns (Γ : Env) (x : Variable) (a : Nat) : Prop :=
  Γ.addr x ≤ a ∧ a < Γ.addr x + x.ty.size

/-- A procedure that can be called at the level: it is declared at this level or further out, and level,
label and parameters fit the instructions. -/
def Proc.Ok (lev : Nat) (q : Proc) : Prop :=
  q.level ≤ lev ∧ q.level ≤ 254 ∧ q.label ≤ 65535 ∧ q.parms.length ≤ 16384

/-- The variables are declared at this level or further out, have offsets that fit the instructions,
are aligned and do not overlap. -/
structure Env.Ok (Γ : Env) : Prop where
  level : Γ.level ≤ 255
  outer : ∀ x, Γ.vars x → x.level ≤ Γ.level
  offset0 : ∀ x, Γ.vars x → x.level = 0 → 0 ≤ x.off ∧ x.off ≤ 65535
  offset : ∀ x, Γ.vars x → x.level ≠ 0 → -32768 ≤ x.off ∧ x.off ≤ 32767
  aligned : ∀ x, Γ.vars x → x.ty.size = 2 → Γ.addr x % 2 = 0
  disjoint : ∀ x y a, Γ.vars x → Γ.vars y → Γ.Owns x a → Γ.Owns y a → x = y
  procs : ∀ q, Γ.procs q → q.Ok Γ.level

/-- The words up to `b` that are not part of a variable. -/
def Env.Apart (Γ : Env) (b j : Nat) : Prop := j ≤ b ∧ ∀ y a, Γ.vars y → Γ.Owns y a → a / 2 ≠ j

/-- In the machine state `s` the variables are where they should be: those of the outermost level
behind the base of the stack, the others in the frame found by the static links.  Each frame records
its level.  Variables, links and levels are in the words up to `b`, and the links and levels are not
part of a variable. -/
structure Env.In (Γ : Env) (s : VM) (b : Nat) : Prop where
  inside : ∀ x, Γ.vars x → Γ.addr x / 2 ≤ b
  bound : b < s.words
  global : ∀ x, Γ.vars x → x.level = 0 → (Γ.addr x : Int) = ((s.spb.toNat : Int) + x.off) % 65536
  frame : ∀ x, Γ.vars x → x.level ≠ 0 → ∃ f,
    LinkIn s (Γ.Apart b) (Γ.level - x.level) s.fp f ∧
    (Γ.addr x : Int) = ((f.toNat : Int) + x.off + (if 0 ≤ x.off then 10 else 0)) % 65536
  levels : ∀ j, j ≤ Γ.level → ∃ f, LinkIn s (Γ.Apart b) j s.fp f ∧ Γ.Apart b (f.toNat / 2 + 4) ∧
    (s.mem (f.toNat / 2 + 4)).toNat % 256 = Γ.level - j
  lsp : s.lsp.toNat < 256

/-- The memory holds the values of the variables that have one. -/
def Env.Holds (Γ : Env) (m : Nat → Word) (σ : Store) : Prop :=
  ∀ x v, Γ.vars x → σ x = some v → Fits x.ty v ∧
    (x.ty.size = 2 → m (Γ.addr x / 2) = v.word) ∧
    (x.ty.size = 1 → byte m (Γ.addr x) = v.word.truncate 8)

/-- The code `c` is at position `k` of the program `p`. -/
def At (p : List OpType) (k : Nat) (c : List OpType) : Prop :=
  ∀ (j : Nat) i, c[j]? = some i → p[k + j]? = some i

/-- There is room for `n` words on top of the stack. -/
def RoomFor (s : VM) (n : Nat) : Prop := s.sp.toNat / 2 + n < s.words ∧ s.words ≤ 32768

/-- `t` is the state `s` with the word `v` pushed.  Of the memory only the `n` words above the top
of the stack have been used. -/
structure Pushed (s : VM) (n : Nat) (v : Word) (t : VM) : Prop where
  regs : t = { s with
    sp := s.sp + 2#16
    mem := t.mem }
  value : t.mem (s.sp.toNat / 2 + 1) = v
  kept : ∀ j, j ≤ s.sp.toNat / 2 ∨ s.sp.toNat / 2 + n < j → t.mem j = s.mem j

end Pas.Src
