import Verif.Lemmas.Debugger
import Verif.Props.Core

/-! # C75: the debugger

The debugger (`insn16/libexec/libexec_debug.c`) changes the machine only by executing its
instructions and resetting it; each execution command runs exactly the instructions it
should, up to the first breakpoint, error or end of the code; its trace is what happened. -/

namespace Pas
open Debugger Spec.Debugger

/-- The program of the examples: a call of a procedure that calls itself while the word 0 of
the stack is not zero. -/
def dbgProg : Prog where
  lib := ⟨fun s _ => .ok (eNOERROR, s), fun s _ => .ok (eNOERROR, s), fun s _ => .ok (eNOERROR, s),
    fun s _ => .ok (eNOERROR, s), fun s _ _ => .ok (eNOERROR, s), fun s _ => .ok (eNOERROR, s),
    fun s _ => .ok (eNOERROR, s)⟩
  code := [Op.pcal.toByte, 1, 0, 5, Op.end_.toByte,
    Op.ld.toByte, 0, 0, Op.jequz.toByte, 0, 22, Op.ld.toByte, 0, 0, Op.dec.toByte,
    Op.st.toByte, 0, 0, Op.pcal.toByte, 1, 0, 5, Op.ret.toByte]
  maxpc := 23#16
  entry := 0#16

/-- The machine at its start, with 2 in the word. -/
def dbgStart : State := { vm := sampleMem fun i => if i = 5 then 2#16 else 0#16 }

/-- The lines `BS 12`, `G`, `BC 1`, `N`. -/
def lineBS : List Byte := [66, 83, 32, 49, 50, 10, 0]
def lineG : List Byte := [71, 10, 0]
def lineBC : List Byte := [66, 67, 32, 49, 10, 0]
def lineN : List Byte := [78, 10, 0]

/-- The debugger starts ready: no breakpoints, an empty trace. -/
example : Ready dbgProg dbgStart :=
  ⟨rfl, by decide, by decide, (by intro b hb; cases hb), rfl, by decide, by decide⟩

/-- **C75** (every session): whatever is typed, between two commands there are at most eight
breakpoints, all different and in the code, and the trace is in order; and the machine is in
a state that instructions and resets alone lead to: looking at a program does not change it. -/
theorem C75_session (p : Prog) (fuel : Nat) (lines : List (List Byte)) (d d' : State)
    (hr : Ready p d) (h : session p fuel lines d = .ok (some d')) :
    Ready p d' ∧ Reach p d.vm d'.vm :=
  session_keeps hr h

/-- Non-vacuity: a session that sets a breakpoint, runs to it and takes it away. -/
example : ∃ d', session dbgProg 20 [lineBS, lineG, lineBC] dbgStart = .ok (some d') ∧
    d'.vm.pc = 18#16 ∧ d'.out = [.breakpoint 1] ∧ d'.breaks = [] := ⟨_, rfl, rfl, rfl, rfl⟩

/-- **C75** (violated: stepping over a call): `NEXT` at a call stops as soon as the address
behind the call is reached, even if that is in a deeper activation of a recursive procedure:
here the frame is not that of the procedure that was being stepped through, and no breakpoint
or error was met. -/
theorem C75_violation_next : ∃ d d', session dbgProg 20 [lineBS, lineG, lineBC] dbgStart =
      .ok (some d) ∧
    execCommand dbgProg 20 d .next 0 = .ok (some d') ∧ d'.out = d.out ∧
    d'.vm.pc = d.vm.pc + 4#16 ∧ d.vm.fp < d'.vm.fp := ⟨_, _, rfl, rfl, rfl, rfl, by decide +kernel⟩

/-- **C75** (go): `GO` executes instructions one after another, at least one, up to the first
that reports an error or the end of the program, or leads out of the code or to a breakpoint,
and not further; it says which; and the trace has grown by exactly the executed instructions. -/
theorem C75_go (p : Prog) (fuel : Nat) (d d' : State) (v : Nat) (hr : Ready p d)
    (h : execCommand p fuel d .go v = .ok (some d')) :
    ∃ l e m, Course p d.vm l e d'.vm ∧ (∀ t ∈ l.tail, ¬ Halt p d.breaks t) ∧
      (e ≠ eNOERROR ∨ Halt p d.breaks d'.vm) ∧
      Reported p d.breaks e d'.vm m ∧ d'.out = m ++ d.out ∧
      shown d' = lastN 16 (shown d ++ l.map (seen d.watch)) ∧
      d'.breaks = d.breaks ∧ d'.watch = d.watch := by
  obtain ⟨l, e, m, R⟩ := debugPCode_ran (by exact hr.toRing) (go_ok h)
  refine ⟨l, e, m, R.course, ?_, ?_, ?_, R.out, R.shown, R.breaks, R.watch⟩
  · intro t ht hh; exact R.quiet t ht (Or.inl hh)
  · have := R.halted rfl
    simp only [hr.noUntil, haltU_zero] at this
    exact this
  · have := R.told
    simp only [Told, Bool.false_eq_true, if_false, hr.noUntil] at this
    rcases this with h | ⟨_, h, _⟩
    · exact h
    · simp at h

/-- Non-vacuity: `GO` to a breakpoint, six instructions. -/
example : ∃ d d', session dbgProg 20 [lineBS] dbgStart = .ok (some d) ∧
    execCommand dbgProg 20 d .go 0 = .ok (some d') ∧ d'.vm.pc = 18#16 ∧
    (shown d').map Trace.pc = [0#16, 5#16, 8#16, 11#16, 14#16, 15#16] :=
  ⟨_, _, rfl, rfl, rfl, by decide +kernel⟩

/-- **C75** (go does arrive): if the machine by itself would execute these instructions up to
such a place, `GO` gets there (given the time), and the display that follows is the only thing
that may go wrong. -/
theorem C75_go_arrives (p : Prog) (fuel : Nat) (d : State) (v : Nat) (hr : Ready p d)
    (l : List VM) (e : Nat) (s' : VM) (hc : Course p d.vm l e s') (hl : l.length ≤ fuel)
    (hw : ∀ w, d.watch = some w → ∀ t ∈ l, w.toNat / 2 < t.words)
    (hq : ∀ t ∈ l.tail, ¬ Halt p d.breaks t) (hh : e ≠ eNOERROR ∨ Halt p d.breaks s') :
    ∃ d', d'.vm = s' ∧ execCommand p fuel d .go v = (do programStatus p d'; .ok (some d')) := by
  obtain ⟨d', h1, h2⟩ := debugPCode_of (fuel := fuel)
    (d := { d with lastCmd := .go, lastValue := v, stop := false }) hc rfl hl hw
    (fun h => by cases h) (by simp only [hr.noUntil, haltU_zero]; exact hq)
    (by simp only [hr.noUntil, haltU_zero]; exact fun _ => hh)
  refine ⟨d', h2, ?_⟩
  simp only [execCommand, h1, Res.ok_bind]

/-- **C75** (step): `STEP` executes exactly one instruction, even at a breakpoint, and records
it. -/
theorem C75_step (p : Prog) (fuel : Nat) (d d' : State) (v : Nat) (hr : Ready p d)
    (h : execCommand p fuel d .step v = .ok (some d')) :
    ∃ e, execute p.lib p.code p.maxpc d.vm = .ok (e, d'.vm) ∧
      d'.out = (if e = eNOERROR then [] else if e = eEXIT then [.normal] else [.error e]) ++ d.out ∧
      shown d' = lastN 16 (shown d ++ [seen d.watch d.vm]) ∧
      d'.breaks = d.breaks ∧ d'.watch = d.watch := by
  obtain ⟨l, e, m, R⟩ := debugPCode_ran (by exact hr.toRing) (step_ok h)
  have hl := R.single rfl
  subst hl
  refine ⟨e, ?_, ?_, R.shown, R.breaks, R.watch⟩
  · have hc := R.course
    cases hc with
    | one h => exact h
    | more _ h => cases h
  · have := R.told
    simp only [Told, if_true] at this
    rw [← this]; exact R.out

example : ∃ d', execCommand dbgProg 20 dbgStart .step 0 = .ok (some d') ∧ d'.vm.pc = 5#16 :=
  ⟨_, rfl, rfl⟩

/-- **C75** (next): `NEXT` is `STEP`, except at a call: then instructions are executed up to the
first that reports an error or the end, or leads out of the code, to a breakpoint or to the
address behind the call.  Missing for "the call has returned": the address may be reached in
another activation, `C75_violation_next`. -/
theorem C75_next_partial (p : Prog) (fuel : Nat) (d d' : State) (v : Nat) (hr : Ready p d)
    (h : execCommand p fuel d .next v = .ok (some d')) :
    ∃ op l e m, p.code[d.vm.pc.toNat]? = some op ∧ Course p d.vm l e d'.vm ∧
      (op ≠ Op.pcal.toByte → l = [d.vm]) ∧
      (op = Op.pcal.toByte →
        (∀ t ∈ l.tail, ¬ Halt p d.breaks t ∧ (t.pc = d.vm.pc + 4#16 → t.pc = 0#16)) ∧
        (e ≠ eNOERROR ∨ Halt p d.breaks d'.vm ∨ d'.vm.pc = d.vm.pc + 4#16) ∧
        (Reported p d.breaks e d'.vm m ∨
          (e = eNOERROR ∧ d'.vm.pc = d.vm.pc + 4#16 ∧ m = []))) ∧
      d'.out = m ++ d.out ∧
      shown d' = lastN 16 (shown d ++ l.map (seen d.watch)) ∧
      d'.breaks = d.breaks ∧ d'.watch = d.watch := by
  obtain ⟨op, d1, h0, h1, rfl⟩ := next_ok h
  have hop : p.code[d.vm.pc.toNat]? = some op := by
    unfold fetch at h0
    split at h0
    · rename_i heq; cases h0; exact heq
    · cases h0
  by_cases hc : op = Op.pcal.toByte
  · rw [if_pos hc] at h1
    obtain ⟨l, e, m, R⟩ := debugPCode_ran (by exact hr.toRing) h1
    refine ⟨op, l, e, m, hop, R.course, fun h => absurd hc h, fun _ => ⟨?_, ?_, ?_⟩, R.out, R.shown,
      R.breaks, R.watch⟩
    · intro t ht
      have := R.quiet t ht
      refine ⟨fun hh => this (Or.inl hh), fun he => ?_⟩
      refine Classical.byContradiction fun hn => this (Or.inr ⟨?_, he.symm⟩)
      rw [he] at hn
      rw [BitVec.lt_def]
      have : (d.vm.pc + 4#16).toNat ≠ 0 := fun h => hn (BitVec.eq_of_toNat_eq h)
      exact Nat.pos_of_ne_zero this
    · rcases R.halted rfl with h | h | ⟨_, h⟩
      · exact Or.inl h
      · exact Or.inr (Or.inl h)
      · exact Or.inr (Or.inr h.symm)
    · have := R.told
      simp only [Told, Bool.false_eq_true, if_false] at this
      rcases this with h | ⟨h1, _, h2, h3⟩
      · exact Or.inl h
      · exact Or.inr ⟨h1, h2.symm, h3⟩
  · rw [if_neg hc] at h1
    obtain ⟨l, e, m, R⟩ := debugPCode_ran (by exact hr.toRing) h1
    exact ⟨op, l, e, m, hop, R.course, fun _ => R.single rfl, fun h => absurd h hc, R.out, R.shown,
      R.breaks, R.watch⟩

/-- Non-vacuity: stepping over the first call executes the whole procedure. -/
example : ∃ d', execCommand dbgProg 40 dbgStart .next 0 = .ok (some d') ∧ d'.vm.pc = 4#16 ∧
    d'.vm.fp = dbgStart.vm.fp := ⟨_, rfl, rfl, rfl⟩

/-- **C75** (run): a program started with `RUN` and not interrupted by breakpoints ends under the
debugger in the state in which it ends without it: there is a number of instructions after
which the run loop stops, with an error or the end of the program, in that very state. -/
theorem C75_run (p : Prog) (fuel : Nat) (d d' : State) (v : Nat) (hr : Ready p d)
    (hb : d.breaks = []) (h : execCommand p fuel d .run v = .ok (some d')) :
    ∃ s0 k e, reset p.entry d.vm = .ok s0 ∧ e ≠ eNOERROR ∧
      runFor p.lib p.code p.maxpc k s0 = .ok (e, d'.vm) := by
  obtain ⟨s0, h0, h1⟩ := run_ok h
  obtain ⟨l, e, m, R⟩ := debugPCode_ran (by exact ring_init _ hr.toRing) h1
  have hc : Course p s0 l e d'.vm := R.course
  by_cases he : e = eNOERROR
  · subst he
    have := R.halted rfl
    rcases this with h | h
    · exact absurd rfl h
    · have h' : HaltU p d.breaks d.untilPoint d'.vm := h
      rw [hr.noUntil, haltU_zero, hb] at h'
      rcases h' with h' | h'
      · exact ⟨s0, _, eBADPC, h0, by decide, course_runFor_succ hc h'⟩
      · cases h'
  · exact ⟨s0, _, e, h0, he, course_runFor hc⟩

/-- **C75** (run, the other way): if the program by itself stops after at most `k` instructions,
then with `RUN` the debugger gets to the same state. -/
theorem C75_run_arrives (p : Prog) (fuel k : Nat) (d : State) (v e : Nat) (s0 s' : VM)
    (hr : Ready p d) (hb : d.breaks = []) (hw : d.watch = none)
    (h0 : reset p.entry d.vm = .ok s0) (he : e ≠ eNOERROR)
    (h : runFor p.lib p.code p.maxpc k s0 = .ok (e, s')) (hk : k ≤ fuel) :
    ∃ d', d'.vm = s' ∧ execCommand p fuel d .run v = (do programStatus p d'; .ok (some d')) := by
  obtain ⟨l, e', hc, hl, hq, hh⟩ := runFor_course h he
  obtain ⟨d', h1, h2⟩ := debugPCode_of (fuel := fuel)
    (d := initDebugger { d with lastCmd := .run, lastValue := v, vm := s0 }) hc rfl (by omega)
    (by intro w hx; have : d.watch = some w := hx; rw [hw] at this; cases this)
    (fun h => by cases h)
    (by
      show ∀ t ∈ l.tail, ¬ HaltU p d.breaks d.untilPoint t
      rw [hr.noUntil, hb]
      intro t ht; rw [haltU_zero]
      rintro (hx | hx)
      · exact hq t ht hx
      · cases hx)
    (by
      show _ → e' ≠ eNOERROR ∨ HaltU p d.breaks d.untilPoint s'
      rw [hr.noUntil, haltU_zero]
      intro _
      rcases hh with h | h
      · exact Or.inl h
      · exact Or.inr (Or.inl h))
  refine ⟨d', h2, ?_⟩
  simp only [execCommand, h0, Res.ok_bind, h1]

/-- Non-vacuity: a program of three instructions is run to its end. -/
def dbgShort : Prog := { dbgProg with
  code := [Op.pushb.toByte, 5, Op.neg.toByte, Op.end_.toByte], maxpc := 4#16 }

def dbgVM : VM := { sampleMem (fun _ => 0#16) with
  words := 100, strSize := 4#16, roSize := 0#16, stkSize := 100#16, hpSize := 64#16 }

example : ∃ d', execCommand dbgShort 9 { vm := dbgVM } .run 0 = .ok (some d') ∧
    d'.out = [.normal] := ⟨_, rfl, rfl⟩

/-- **C75** (reset): `RESET` resets the machine and empties the trace; the breakpoints stay. -/
theorem C75_reset (p : Prog) (fuel : Nat) (d d' : State) (v : Nat)
    (h : execCommand p fuel d .reset v = .ok (some d')) :
    reset p.entry d.vm = .ok d'.vm ∧ shown d' = [] ∧ d'.breaks = d.breaks ∧ d'.watch = d.watch ∧
      d'.out = d.out := by
  obtain ⟨s0, h0, rfl⟩ := reset_ok h
  exact ⟨h0, rfl, rfl, rfl, rfl⟩

example : ∃ d', execCommand dbgShort 9 { vm := dbgVM } .reset 0 = .ok (some d') := ⟨_, rfl⟩

/-- **C75** (the other commands): setting and clearing breakpoints and watchpoints, the displays,
help and an empty line at the start leave the machine and the trace as they are. -/
theorem C75_looking (p : Prog) (fuel : Nat) (d d' : State) (c : Cmd) (v : Nat)
    (hc : c ∈ [.none, .bs, .bc, .ws, .wc, .dp, .dt, .ds, .di, .db, .help])
    (h : execCommand p fuel d c v = .ok (some d')) : d'.vm = d.vm ∧ shown d' = shown d := by
  cases c <;> simp only [List.mem_cons, List.not_mem_nil, reduceCtorEq, or_false, or_self] at hc
  case none => cases h; exact ⟨rfl, rfl⟩
  case bs =>
    simp only [execCommand] at h
    split at h
    · cases h; exact ⟨rfl, rfl⟩
    · split at h
      · cases h; exact ⟨rfl, rfl⟩
      · obtain ⟨_, _, h⟩ := bind_ok h
        cases h
        unfold addBreakPoint
        dsimp only
        split
        · split <;> exact ⟨rfl, rfl⟩
        · exact ⟨rfl, rfl⟩
  case bc =>
    simp only [execCommand] at h
    obtain ⟨_, _, h⟩ := bind_ok h
    cases h
    split
    · unfold deleteBreakPoint
      split <;> exact ⟨rfl, rfl⟩
    · exact ⟨rfl, rfl⟩
  case ws =>
    simp only [execCommand] at h
    split at h
    · cases h; exact ⟨rfl, rfl⟩
    · split at h <;> cases h <;> exact ⟨rfl, rfl⟩
  case wc => cases h; exact ⟨rfl, rfl⟩
  case dp =>
    simp only [execCommand] at h
    rw [status_ok h]; exact ⟨rfl, rfl⟩
  case dt =>
    simp only [execCommand] at h
    obtain ⟨_, _, h⟩ := bind_ok h
    cases h; exact ⟨rfl, rfl⟩
  case ds =>
    simp only [execCommand] at h
    split at h
    · obtain ⟨_, _, h⟩ := bind_ok h
      cases h; exact ⟨rfl, rfl⟩
    · cases h; exact ⟨rfl, rfl⟩
  case di =>
    simp only [execCommand] at h
    split at h
    · cases h; exact ⟨rfl, rfl⟩
    · obtain ⟨_, _, h⟩ := bind_ok h
      cases h; exact ⟨rfl, rfl⟩
  case db =>
    simp only [execCommand] at h
    obtain ⟨_, _, h⟩ := bind_ok h
    cases h; exact ⟨rfl, rfl⟩
  case help => cases h; exact ⟨rfl, rfl⟩

/-- **C75** (setting a breakpoint): with fewer than eight breakpoints, an address in the code
becomes a breakpoint and all others stay what they were, with their numbers; otherwise the
command is refused, and says so. -/
theorem C75_set (p : Prog) (fuel : Nat) (d d' : State) (v : Nat)
    (h : execCommand p fuel d .bs v = .ok (some d')) :
    (d.breaks.length < 8 → v < p.maxpc.toNat →
      (∀ a, a ∈ d'.breaks ↔ a ∈ d.breaks ∨ a.toNat = v) ∧ d.breaks <+: d'.breaks ∧
        d'.out = d.out) ∧
    (8 ≤ d.breaks.length → d'.breaks = d.breaks ∧ d'.out = .tooManyBreaks :: d.out) ∧
    (d.breaks.length < 8 → p.maxpc.toNat ≤ v →
      d'.breaks = d.breaks ∧ d'.out = .invalidBreak :: d.out) := by
  simp only [execCommand] at h
  split at h
  · rename_i h8
    cases h
    refine ⟨fun h => (by omega), fun _ => ⟨rfl, rfl⟩, fun h => (by omega)⟩
  · rename_i h8
    split at h
    · rename_i hv
      cases h
      exact ⟨fun _ h => (by omega), fun h => (by omega), fun _ _ => ⟨rfl, rfl⟩⟩
    · rename_i hv
      obtain ⟨_, _, h⟩ := bind_ok h
      cases h
      refine ⟨fun _ hlt => ?_, fun h => (by omega), fun _ h => (by omega)⟩
      have hn : (BitVec.ofNat 16 v).toNat = v := by
        rw [BitVec.toNat_ofNat]; have := p.maxpc.isLt; omega
      have hiff : ∀ a : Word, a = BitVec.ofNat 16 v ↔ a.toNat = v := fun a =>
        ⟨fun h => by rw [h, hn], fun h => BitVec.eq_of_toNat_eq (by rw [h, hn])⟩
      unfold addBreakPoint
      dsimp only
      rw [if_pos (by omega)]
      split
      · rename_i hm
        refine ⟨fun a => ⟨Or.inl, ?_⟩, List.prefix_refl _, rfl⟩
        rintro (h | h)
        · exact h
        · rw [(hiff a).2 h]; exact hm
      · refine ⟨fun a => ?_, ⟨_, rfl⟩, rfl⟩
        simp only [List.mem_append, List.mem_singleton, hiff]

example : ∃ d', execCommand dbgProg 20 dbgStart .bs 18 = .ok (some d') ∧ d'.breaks = [18#16] :=
  ⟨_, rfl, rfl⟩

/-- **C75** (clearing a breakpoint): the breakpoint with the given number goes, and no other;
a number that is none is refused. -/
theorem C75_clear (p : Prog) (fuel : Nat) (d d' : State) (v : Nat) (hr : Ready p d)
    (h : execCommand p fuel d .bc v = .ok (some d')) :
    (∀ a, 1 ≤ v → d.breaks[v - 1]? = some a →
      d'.out = d.out ∧ ∀ b, b ∈ d'.breaks ↔ b ∈ d.breaks ∧ b ≠ a) ∧
    (v = 0 ∨ d.breaks.length < v → d'.breaks = d.breaks ∧ d'.out = .invalidNumber :: d.out) := by
  simp only [execCommand] at h
  obtain ⟨_, _, h⟩ := bind_ok h
  cases h
  constructor
  · intro a hv ha
    have hlen : v - 1 < d.breaks.length := by
      rw [List.getElem?_eq_some_iff] at ha; exact ha.1
    have hcond : 1 ≤ v ∧ v ≤ d.breaks.length := ⟨hv, by omega⟩
    rw [if_pos hcond]
    unfold deleteBreakPoint
    dsimp only
    rw [if_pos hcond]
    refine ⟨rfl, fun b => ?_⟩
    have hd := hr.distinct
    rw [List.getElem?_eq_some_iff] at ha
    obtain ⟨_, ha⟩ := ha
    rw [List.mem_eraseIdx_iff_getElem]
    constructor
    · rintro ⟨i, hi, hne, rfl⟩
      refine ⟨List.getElem_mem _, fun he => ?_⟩
      rw [← ha] at he
      exact hne ((List.getElem_inj hd).1 he)
    · rintro ⟨hm, hne⟩
      obtain ⟨i, hi, rfl⟩ := List.getElem_of_mem hm
      refine ⟨i, hi, fun he => ?_, rfl⟩
      subst he; exact hne ha
  · intro hv
    rw [if_neg (by omega)]
    exact ⟨rfl, rfl⟩

example : ∃ d d', session dbgProg 20 [lineBS] dbgStart = .ok (some d) ∧
    execCommand dbgProg 20 d .bc 1 = .ok (some d') ∧ d'.breaks = [] := ⟨_, _, rfl, rfl, rfl⟩

/-- **C75** (watchpoint): an address in the memory becomes the watchpoint if there is none, and
clearing takes it away; the breakpoints stay. -/
theorem C75_watchpoint (p : Prog) (fuel : Nat) (d : State) (v : Nat) (hw : d.watch = none)
    (hv : v < 2 * d.vm.words) (h16 : v < 65536) :
    (∃ d' w, execCommand p fuel d .ws v = .ok (some d') ∧ d'.watch = some w ∧ w.toNat = v ∧
      d'.breaks = d.breaks ∧ d'.out = d.out) ∧
    ∀ w, ∃ d', execCommand p fuel { d with watch := w } .wc 0 = .ok (some d') ∧ d'.watch = none ∧
      d'.breaks = d.breaks ∧ d'.out = d.out := by
  constructor
  · refine ⟨{ d with lastCmd := .ws, lastValue := v, watch := some (BitVec.ofNat 16 v) }, _, ?_, rfl,
      by rw [BitVec.toNat_ofNat]; omega, rfl, rfl⟩
    simp only [execCommand]
    rw [if_neg (by simp [hw]), if_neg (by show ¬ v ≥ stackSize d.vm; unfold stackSize; omega)]
  · intro w
    exact ⟨_, rfl, rfl, rfl, rfl⟩

example : ∃ d', execCommand dbgProg 9 dbgStart .ws 10 = .ok (some d') ∧ d'.watch = some 10#16 :=
  ⟨_, rfl, rfl⟩

/-- **C75** (numerals): a hexadecimal address typed after a command, in either case, with one to
seven digits, after white space and before anything that is no such digit, is the address the
command gets, as far as 16 bits go; this holds for `BS`, `WS`, `DS` and `DI`, with whatever
letters follow the two. -/
theorem C75_address (d : State) (c0 c1 s b : Byte) (w sp l r : List Byte) (ds : List Nat)
    (c : Cmd) (hcmd : (upper c0, upper c1, c) ∈ [((66 : Byte), (83 : Byte), Cmd.bs), (87, 83, .ws),
      (68, 83, .ds), (68, 73, .di)])
    (hw : ∀ x ∈ w, isSpace x = false) (hs : isSpace s = true) (hsp : ∀ x ∈ sp, isSpace x = true)
    (ht : HexText l ds) (hb : hexDigit b = none) (h1 : ds ≠ []) (h7 : ds.length ≤ 7) :
    parse d (c0 :: c1 :: (w ++ s :: sp ++ l ++ b :: r)) = .ok (c, number 16 ds % 65536) := by
  have hr : ∀ dflt, readHex (w ++ s :: sp ++ l ++ b :: r) dflt = .ok (number 16 ds) := by
    intro dflt
    rw [readHex_text hw hs hsp ht hb (Or.inr h1) h7, if_neg h1]
  simp only [List.mem_cons, Prod.mk.injEq, List.not_mem_nil, or_false] at hcmd
  unfold parse
  simp only [List.getD_cons_zero, List.getD_cons_succ, List.drop_succ_cons, List.drop_zero, hr,
    Res.ok_bind, BitVec.add_zero, BitVec.toNat_ofNat]
  rcases hcmd with ⟨h0, h1, rfl⟩ | ⟨h0, h1, rfl⟩ | ⟨h0, h1, rfl⟩ | ⟨h0, h1, rfl⟩ <;>
    rw [h0, h1] <;> simp

/-- Non-vacuity: `bs 1F`. -/
example : parse dbgStart [98, 115, 32, 49, 70, 10, 0] = .ok (.bs, 31) := by decide +kernel

/-- **C75** (no numeral): without an address the commands take the one of the next instruction, or
the stack pointer. -/
theorem C75_default (d : State) (c0 c1 s b : Byte) (w sp r : List Byte) (c : Cmd) (v : Word)
    (hcmd : (upper c0, upper c1, c, v) ∈ [((66 : Byte), (83 : Byte), Cmd.bs, d.vm.pc),
      (68, 83, .ds, d.vm.sp), (68, 73, .di, d.vm.pc)])
    (hw : ∀ x ∈ w, isSpace x = false) (hs : isSpace s = true) (hsp : ∀ x ∈ sp, isSpace x = true)
    (hb : hexDigit b = none) (hb' : isSpace b = false) :
    parse d (c0 :: c1 :: (w ++ s :: sp ++ b :: r)) = .ok (c, v.toNat) := by
  have hr : ∀ dflt, readHex (w ++ s :: sp ++ b :: r) dflt = .ok dflt := by
    intro dflt
    have := readHex_text (l := []) (ds := []) (r := r) (dflt := dflt) hw hs hsp trivial hb
      (Or.inl hb') (by simp)
    simpa using this
  simp only [List.mem_cons, Prod.mk.injEq, List.not_mem_nil, or_false] at hcmd
  unfold parse
  simp only [List.getD_cons_zero, List.getD_cons_succ, List.drop_succ_cons, List.drop_zero, hr,
    Res.ok_bind, BitVec.add_zero, BitVec.ofNat_toNat, BitVec.setWidth_eq]
  rcases hcmd with ⟨h0, h1, rfl, rfl⟩ | ⟨h0, h1, rfl, rfl⟩ | ⟨h0, h1, rfl, rfl⟩ <;>
    rw [h0, h1] <;> simp

example : parse dbgStart [68, 83, 10, 0] = .ok (.ds, 40) := by decide +kernel

/-- **C75** (numbers of breakpoints): the decimal number typed after `BC` is the number of the
breakpoint that is cleared (up to nine digits). -/
theorem C75_number (d : State) (c0 c1 s b : Byte) (w sp r : List Byte) (ds : List Nat)
    (hc0 : upper c0 = 66) (hc1 : upper c1 = 67)
    (hw : ∀ x ∈ w, isSpace x = false) (hs : isSpace s = true) (hsp : ∀ x ∈ sp, isSpace x = true)
    (hd : ∀ x ∈ ds, x < 10) (hb : ¬ (48 ≤ b.toNat ∧ b.toNat ≤ 57)) (h1 : ds ≠ [])
    (h9 : ds.length ≤ 9) :
    parse d (c0 :: c1 :: (w ++ s :: sp ++ ds.map (fun x => BitVec.ofNat 8 (48 + x)) ++ b :: r)) =
      .ok (.bc, number 10 ds) := by
  have hr := readDecimal_text (r := r) hw hs hsp hd hb h1 h9
  unfold parse
  simp only [List.getD_cons_zero, List.getD_cons_succ, List.drop_succ_cons, List.drop_zero, hr,
    Res.ok_bind]
  rw [hc0, hc1]
  simp

/-- Non-vacuity: `BC 12`. -/
example : parse dbgStart [66, 67, 32, 49, 50, 10, 0] = .ok (.bc, 12) := by decide +kernel

/-- **C75** (letters): the commands without operands, in either case. -/
theorem C75_letters (d : State) (c0 c1 : Byte) (r : List Byte) (c : Cmd)
    (h : (upper c0, upper c1, c) ∈ [((82 : Byte), (69 : Byte), Cmd.reset), (82, 85, .run),
        (87, 67, .wc), (68, 80, .dp), (68, 84, .dt), (68, 66, .db)] ∨
      (upper c0, c) ∈ [((83 : Byte), Cmd.step), (78, .next), (71, .go), (81, .quit), (72, .help),
        (63, .help)]) :
    parse d (c0 :: c1 :: r) = .ok (c, 0) := by
  unfold parse
  simp only [List.getD_cons_zero, List.getD_cons_succ]
  simp only [List.mem_cons, Prod.mk.injEq, List.not_mem_nil, or_false] at h
  rcases h with (⟨h0, h1, rfl⟩ | ⟨h0, h1, rfl⟩ | ⟨h0, h1, rfl⟩ | ⟨h0, h1, rfl⟩ | ⟨h0, h1, rfl⟩ |
    ⟨h0, h1, rfl⟩) | ⟨h0, rfl⟩ | ⟨h0, rfl⟩ | ⟨h0, rfl⟩ | ⟨h0, rfl⟩ | ⟨h0, rfl⟩ | ⟨h0, rfl⟩
  all_goals first | (rw [h0, h1]; simp) | (rw [h0]; simp)

example : (upper 103, Cmd.go) ∈ [((83 : Byte), Cmd.step), (78, .next), (71, .go)] := by decide

/-- **C75** (repeating): an empty line repeats the last command; after `DI` that is the display of
the instructions that follow. -/
theorem C75_repeat (d : State) (r : List Byte) :
    parse d (10 :: r) = .ok (d.lastCmd, d.lastValue) := by
  unfold parse
  simp only [List.getD_cons_zero, show upper 10 = 10 from by decide]
  simp

/-- **C75** (status): the display after a command reads only the code and the memory, if the
instruction at the program counter lies in the code, the heap in the memory, and there is no
watchpoint beyond. -/
theorem C75_status (p : Prog) (d : State) (h : Whole p d.vm.pc)
    (hh : d.vm.hpb.toNat + d.vm.hpSize.toNat ≤ 2 * d.vm.words)
    (hw : ∀ w, d.watch = some w → w.toNat / 2 < d.vm.words) : programStatus p d = .ok () := by
  obtain ⟨b, hb⟩ := printPCode_one h
  have hs : ∃ c, printStack d.vm d.vm.sp 2 = .ok c := by
    unfold printStack
    split
    · rename_i hv
      rw [if_pos]
      · exact ⟨_, rfl⟩
      · simp only [validAddress, stackSize, Bool.or_eq_true, Bool.and_eq_true,
          decide_eq_true_eq] at hv
        rcases hv with ⟨h1, h2⟩ | ⟨h1, h2⟩
        · have := of_decide_eq_true h1; omega
        · omega
    · exact ⟨_, rfl⟩
  obtain ⟨c, hc⟩ := hs
  simp only [programStatus, hb, hc, Res.ok_bind, printWatch]
  cases hx : d.watch with
  | none => rfl
  | some w =>
    dsimp only
    split
    · rw [if_pos (hw w hx)]
    · rfl

example : Whole dbgProg dbgStart.vm.pc := Or.inr ⟨_, rfl, by decide⟩

/-- **C75** (displaying breakpoints and the trace): reads only the code, if the instructions
there lie in the code. -/
theorem C75_display (p : Prog) (fuel : Nat) (d : State) (v : Nat)
    (hb : ∀ a ∈ d.breaks, Whole p a) (ht : ∀ t ∈ shown d, Whole p t.pc) :
    (∃ d', execCommand p fuel d .db v = .ok (some d')) ∧
      ∃ d', execCommand p fuel d .dt v = .ok (some d') := by
  have ht' : ∀ a ∈ (shown d).map Trace.pc, Whole p a := by
    intro a ha
    rw [List.mem_map] at ha
    obtain ⟨t, h, rfl⟩ := ha
    exact ht t h
  constructor
  · simp only [execCommand, printEach_ok hb, Res.ok_bind]; exact ⟨_, rfl⟩
  · have : shown { d with lastCmd := .dt, lastValue := v } = shown d := rfl
    simp only [execCommand, this, printEach_ok ht', Res.ok_bind]; exact ⟨_, rfl⟩

/-- **C75** (violated: displays read past the code): a breakpoint may be set at any address in
the code, and to display it the bytes of the instruction that seems to start there are read,
even those behind the last one. -/
theorem C75_violation_display :
    execCommand { dbgShort with code := [Op.end_.toByte, Op.push.toByte], maxpc := 2#16 } 9
      { vm := dbgVM } .bs 1 = .ub := rfl

/-- **C75** (violated: `NEXT` outside of the code): where `STEP` reports that the program counter
is bad, `NEXT` reads the byte there first. -/
theorem C75_violation_outside :
    (∃ d', execCommand dbgShort 9 { vm := { dbgVM with pc := 4#16 } } .step 0 = .ok (some d') ∧
      d'.out = [.error eBADPC]) ∧
    execCommand dbgShort 9 { vm := { dbgVM with pc := 4#16 } } .next 0 = .ub :=
  ⟨⟨_, rfl, rfl⟩, rfl⟩

/-- **C75** (violated: watchpoints): the help text offers `WS` to "[re]set" the watchpoint, but a
second one is refused and the first stays. -/
theorem C75_violation_watch (p : Prog) (fuel : Nat) (d : State) (w : Word) (v : Nat)
    (h : d.watch = some w) :
    ∃ d', execCommand p fuel d .ws v = .ok (some d') ∧ d'.watch = some w ∧
      d'.out = .tooManyWatches :: d.out := by
  refine ⟨{ d with lastCmd := .none, lastValue := v, out := .tooManyWatches :: d.out }, ?_, h, rfl⟩
  simp only [execCommand]
  rw [if_pos (by rw [h]; simp)]

/-- **C75** (violated: watchpoints are shown by the wrong test): a watchpoint in the part of the
memory above the stack is shown in the status after every command, because the number of the word
is tested and not its address. -/
theorem C75_violation_shown : ∃ d : State, d.watch = some 60#16 ∧
    validAddress d.vm 60#16 = false ∧ validAddress d.vm 30#16 = true :=
  ⟨{ vm := dbgVM, watch := some 60#16 }, rfl, by decide +kernel, by decide +kernel⟩

/-- **C75** (violated: addresses beyond 16 bits): `BS 10002` sets a breakpoint at address 2. -/
theorem C75_violation_address :
    parse dbgStart [66, 83, 32, 49, 48, 48, 48, 50, 10, 0] = .ok (.bs, 2) := by decide +kernel

/-- **C75** (violated: long lines): a line that fills the buffer without white space behind the
command is searched for it beyond its end. -/
theorem C75_violation_line (d : State) (n : Nat) :
    parse d (66 :: 83 :: (List.replicate n 65 ++ [0])) = .ub := by
  have h : ∀ n, skipWord (List.replicate n (65 : Byte) ++ [0]) = .ub := by
    intro n
    induction n with
    | zero => rfl
    | succ n ih => rw [List.replicate_succ, List.cons_append]; exact ih
  unfold parse
  simp only [List.getD_cons_zero, List.getD_cons_succ, List.drop_succ_cons, List.drop_zero, readHex,
    h n, show upper 66 = 66 from by decide, show upper 83 = 83 from by decide]
  rfl

/-- **C75** (violated: running off the end): a program whose program counter leaves the code
stops without the run-time error that it ends with when it is run without the debugger. -/
theorem C75_violation_silent :
    (∃ d', execCommand { dbgShort with maxpc := 3#16 } 9 { vm := dbgVM } .run 0 = .ok (some d') ∧
      d'.out = []) ∧
    ∃ s0 s', reset 0#16 dbgVM = .ok s0 ∧
      runFor dbgShort.lib dbgShort.code 3#16 9 s0 = .ok (eBADPC, s') :=
  ⟨⟨_, rfl, rfl⟩, _, _, rfl, rfl⟩

end Pas
