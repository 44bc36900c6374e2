import Verif.Model.Debugger

/-! # What a user of the debugger relies on, said without the debugger's own loop -/

namespace Pas.Spec.Debugger
open Pas.Debugger

/-- From state `s` the machine executes one instruction after another, in the states `l`; all
but the last report no error, the last one reports `e` and leaves the state `s'`. -/
inductive Course (p : Prog) : VM → List VM → Nat → VM → Prop
  | one {s e s'} : execute p.lib p.code p.maxpc s = .ok (e, s') → Course p s [s] e s'
  | more {s s1 l e s'} : execute p.lib p.code p.maxpc s = .ok (eNOERROR, s1) →
      Course p s1 l e s' → Course p s (s :: l) e s'

/-- The machine gets from one state to the other by instructions and resets alone. -/
inductive Reach (p : Prog) : VM → VM → Prop
  | refl {s} : Reach p s s
  | insn {s e s1 s'} : execute p.lib p.code p.maxpc s = .ok (e, s1) → Reach p s1 s' → Reach p s s'
  | reset {s s1 s'} : Pas.reset p.entry s = .ok s1 → Reach p s1 s' → Reach p s s'

/-- A state in which execution is interrupted: outside of the code, or at a breakpoint. -/
def Halt (p : Prog) (breaks : List Word) (s : VM) : Prop := p.maxpc ≤ s.pc ∨ s.pc ∈ breaks

/-- What is reported when execution stops with code `e` in state `s`: the end of the program,
its error, or the number of the breakpoint (as listed). -/
def Reported (p : Prog) (breaks : List Word) (e : Nat) (s : VM) (m : List Msg) : Prop :=
  (e = eEXIT ∧ m = [.normal]) ∨
  (e ≠ eEXIT ∧ e ≠ eNOERROR ∧ m = [.error e]) ∨
  (e = eNOERROR ∧ p.maxpc ≤ s.pc ∧ m = []) ∨
  (e = eNOERROR ∧ s.pc < p.maxpc ∧ ∃ i, breaks[i]? = some s.pc ∧ m = [.breakpoint (i + 1)])

/-- The last `n` elements of a list. -/
def lastN {α} (n : Nat) (l : List α) : List α := l.drop (l.length - n)

/-- What is remembered of the state before an instruction: its address, the stack pointer, the
word there (0 if it is outside of the memory) and the word at the watchpoint (0 if none). -/
def seen (watch : Option Word) (s : VM) : Trace :=
  { pc := s.pc, sp := s.sp
    tos := if s.sp.toNat < 2 * s.words then s.mem (s.sp.toNat / 2) else 0#16
    wp := match watch with
      | some w => s.mem (w.toNat / 2)
      | none => 0#16 }

/-- The character `b` is the hexadecimal digit of value `d`, in either case. -/
def HexChar (b : Byte) (d : Nat) : Prop :=
  (d < 10 ∧ b.toNat = 48 + d) ∨ (10 ≤ d ∧ d < 16 ∧ (b.toNat = 55 + d ∨ b.toNat = 87 + d))

/-- The text `l` is the hexadecimal numeral with the digits `ds`. -/
def HexText : List Byte → List Nat → Prop
  | [], [] => True
  | b :: bs, d :: ds => HexChar b d ∧ HexText bs ds
  | _, _ => False

/-- The number with the digits `ds` in base `r`. -/
def number (r : Nat) (ds : List Nat) : Nat := ds.foldl (fun n d => r * n + d) 0

/-- The address range of an instruction lies in the code, or its address is outside. -/
def Whole (p : Prog) (a : Word) : Prop :=
  p.maxpc ≤ a ∨ ∃ op, p.code[a.toNat]? = some op ∧
    a.toNat + (1 + (if hasArg8 op then 1 else 0) + (if hasArg16 op then 2 else 0)) ≤ p.code.length

/-- What holds of the debugger between two commands. -/
structure Ready (p : Prog) (d : State) : Prop where
  noUntil : d.untilPoint = 0#16
  room : d.breaks.length ≤ 8
  distinct : d.breaks.Nodup
  inside : ∀ b ∈ d.breaks, b < p.maxpc
  ring : d.trace.length = 16
  index : d.traceIndex < 16
  count : d.nTracePoints ≤ 16

end Pas.Spec.Debugger
