import Verif.Spec.Debugger

namespace Pas.Debugger
open Pas.Spec.Debugger

/-! ## The ring of the trace -/

theorem shown_length (d : State) : (shown d).length = d.nTracePoints := by simp [shown]

theorem shown_get {d : State} (hi : d.traceIndex < 16) (hn : d.nTracePoints ≤ 16) {i : Nat}
    (h : i < d.nTracePoints) :
    (shown d)[i]? = some (d.trace.getD ((d.traceIndex + 16 - d.nTracePoints + i) % 16) {}) := by
  simp only [shown, List.getElem?_map, List.getElem?_range h, Option.map_some]
  split
  · congr 2; omega
  · rfl

theorem shown_record {d : State} (hi : d.traceIndex < 16) (hn : d.nTracePoints ≤ 16)
    (hl : d.trace.length = 16) (t : Trace) :
    shown (record d t) = lastN 16 (shown d ++ [t]) := by
  have hi' : (record d t).traceIndex < 16 := by simp only [record]; split <;> omega
  have hn' : (record d t).nTracePoints ≤ 16 := by simp only [record]; split <;> omega
  apply List.ext_getElem?
  intro i
  unfold lastN
  rw [List.getElem?_drop]
  have hlen : (shown d ++ [t]).length = d.nTracePoints + 1 := by simp [shown_length]
  rw [hlen]
  by_cases hb : i < (record d t).nTracePoints
  · rw [shown_get hi' hn' hb]
    by_cases hlast : d.nTracePoints + 1 - 16 + i < d.nTracePoints
    · rw [List.getElem?_append_left (by rw [shown_length]; exact hlast), shown_get hi hn hlast]
      congr 1
      simp only [record] at hb ⊢
      rw [List.getD_eq_getElem?_getD, List.getD_eq_getElem?_getD, List.getElem?_set]
      have h1 : (d.traceIndex + 16 - d.nTracePoints + (d.nTracePoints + 1 - 16 + i)) % 16 =
          ((if d.traceIndex + 1 ≥ 16 then 0 else d.traceIndex + 1) + 16 -
            (if d.nTracePoints < 16 then d.nTracePoints + 1 else d.nTracePoints) + i) % 16 := by
        split <;> split <;> omega
      rw [← h1, if_neg]
      omega
    · have he : d.nTracePoints + 1 - 16 + i = d.nTracePoints := by
        simp only [record] at hb; split at hb <;> omega
      rw [List.getElem?_append_right (by rw [shown_length]; omega), shown_length, he]
      simp only [Nat.sub_self, List.getElem?_cons_zero]
      congr 1
      simp only [record] at hb ⊢
      rw [List.getD_eq_getElem?_getD, List.getElem?_set, if_pos, if_pos (by omega)]
      · rfl
      · split at hb <;> split <;> omega
  · rw [List.getElem?_eq_none (by rw [shown_length]; omega), List.getElem?_eq_none]
    rw [hlen]
    simp only [record] at hb
    split at hb <;> omega

theorem lastN_lastN {α} (n : Nat) (a b : List α) : lastN n (lastN n a ++ b) = lastN n (a ++ b) := by
  unfold lastN
  by_cases h : a.length ≤ n
  · rw [show a.length - n = 0 by omega]; rfl
  · have hd : a.drop (a.length - n) ++ b = (a ++ b).drop (a.length - n) := by
      rw [List.drop_append_of_le_length (by omega)]
    rw [hd, List.drop_drop]
    congr 1
    simp only [List.length_drop, List.length_append]
    omega

/-! ## One instruction -/

/-- `entryOf` records what the specification says. -/
theorem entryOf_seen {d : State} {t : Trace} (h : entryOf d = .ok t) : t = seen d.watch d.vm := by
  unfold entryOf at h
  unfold seen
  cases hw : d.watch with
  | none => rw [hw] at h; simp only [Res.ok_bind, Res.ok.injEq] at h; rw [← h]; rfl
  | some w =>
    rw [hw] at h; dsimp only at h
    split at h
    · simp only [Res.ok_bind, Res.ok.injEq] at h; rw [← h]; rfl
    · exact absurd h (by intro hh; cases hh)

theorem entryOf_ok (d : State) (hw : ∀ w, d.watch = some w → w.toNat / 2 < d.vm.words) :
    entryOf d = .ok (seen d.watch d.vm) := by
  unfold entryOf seen
  cases h : d.watch with
  | none => rfl
  | some w => dsimp only; rw [if_pos (hw w h)]; rfl

/-- Interrupted, or at the temporary breakpoint `u`. -/
def HaltU (p : Prog) (breaks : List Word) (u : Word) (s : VM) : Prop :=
  Halt p breaks s ∨ (0#16 < u ∧ u = s.pc)

theorem checkBreakPoint_mem {d : State} (h : d.vm.pc ∈ d.breaks) :
    ∃ i, d.breaks[i]? = some d.vm.pc ∧
      checkBreakPoint d = { d with stop := true, out := .breakpoint (i + 1) :: d.out } := by
  unfold checkBreakPoint
  cases hf : d.breaks.findIdx? (· = d.vm.pc) with
  | none => simp only [List.findIdx?_eq_none_iff] at hf; simpa using hf _ h
  | some i =>
    refine ⟨i, ?_, rfl⟩
    rw [List.findIdx?_eq_some_iff_getElem] at hf
    obtain ⟨h1, h2, _⟩ := hf
    rw [List.getElem?_eq_getElem h1]
    simpa using h2

theorem checkBreakPoint_not {d : State} (h : d.vm.pc ∉ d.breaks) : checkBreakPoint d = d := by
  unfold checkBreakPoint
  have : d.breaks.findIdx? (· = d.vm.pc) = none := by
    rw [List.findIdx?_eq_none_iff]
    intro x hx
    simp only [decide_eq_false_iff_not]
    intro he; exact h (he ▸ hx)
  rw [this]

/-- What is said and done after an instruction. -/
theorem afterInsn_spec (p : Prog) (d : State) (e : Nat) : ∃ b m,
    afterInsn p d e = { d with stop := b, out := m ++ d.out } ∧
    (b = false ↔ d.stop = false ∧ e = eNOERROR ∧ ¬ HaltU p d.breaks d.untilPoint d.vm) ∧
    (b = false → m = []) ∧
    (b = true → d.stop = false →
      Reported p d.breaks e d.vm m ∨
        (e = eNOERROR ∧ 0#16 < d.untilPoint ∧ d.untilPoint = d.vm.pc ∧ m = [])) ∧
    (d.stop = true →
      m = if e = eNOERROR then [] else if e = eEXIT then [.normal] else [.error e]) := by
  by_cases he : e = eNOERROR
  · subst he
    by_cases hs : d.stop = true
    · refine ⟨true, [], ?_, by simp [hs], by simp, by simp [hs], by simp⟩
      simp only [afterInsn, ne_eq, not_true_eq_false, if_false, hs, if_true, List.nil_append]
      cases d; simp_all
    · have hs' : d.stop = false := by simpa using hs
      by_cases h1 : p.maxpc ≤ d.vm.pc
      · refine ⟨true, [], ?_, by simp [HaltU, Halt, h1], by simp, ?_, by simp [hs']⟩
        · simp [afterInsn, hs', h1]
        · intro _ _; left; right; right; left; exact ⟨rfl, h1, rfl⟩
      · by_cases h2 : 0#16 < d.untilPoint ∧ d.untilPoint = d.vm.pc
        · refine ⟨true, [], ?_, ⟨fun h => (by cases h), fun h => absurd (Or.inr h2) h.2.2⟩, by simp,
            ?_, by simp [hs']⟩
          · simp only [afterInsn, ne_eq, not_true_eq_false, if_false, hs', h1, if_pos h2,
              List.nil_append]
            rfl
          · intro _ _; right; exact ⟨rfl, h2.1, h2.2, rfl⟩
        · by_cases h3 : d.vm.pc ∈ d.breaks
          · obtain ⟨i, hi, hc⟩ := checkBreakPoint_mem h3
            refine ⟨true, [.breakpoint (i + 1)], ?_, by simp [HaltU, Halt, h3], by simp, ?_,
              by simp [hs']⟩
            · simp only [afterInsn, ne_eq, not_true_eq_false, if_false, hs', h1, if_neg h2, hc]
              rfl
            · intro _ _; left; right; right; right
              exact ⟨rfl, by simpa using h1, i, hi, rfl⟩
          · refine ⟨false, [], ?_, ?_, by simp, by simp, by simp [hs']⟩
            · simp only [afterInsn, ne_eq, not_true_eq_false, if_false, hs', h1, if_neg h2,
                checkBreakPoint_not h3]
              cases d; simp_all
            · simp only [HaltU, Halt, hs', h1, h3, h2, true_iff]
              simp
  · refine ⟨true, [if e = eEXIT then .normal else .error e], ?_, by simp [he], by simp, ?_, ?_⟩
    · simp [afterInsn, he]
    · intro _ _; left
      by_cases hx : e = eEXIT
      · left; exact ⟨hx, by simp [hx]⟩
      · right; left; exact ⟨hx, he, by simp [hx]⟩
    · intro _; simp only [he, if_false]; split <;> rfl

/-- The ring of the trace is in order. -/
def Ring (d : State) : Prop := d.trace.length = 16 ∧ d.traceIndex < 16 ∧ d.nTracePoints ≤ 16

theorem Ring.record {d : State} (h : Ring d) (t : Trace) : Ring (record d t) := by
  obtain ⟨a, b, c⟩ := h
  refine ⟨by simp [Debugger.record, a], ?_, ?_⟩
  · simp only [Debugger.record]; split <;> omega
  · simp only [Debugger.record]; split <;> omega

theorem oneInsn_ok {p : Prog} {d d1 : State} (h : oneInsn p d = .ok d1) :
    ∃ e s1, execute p.lib p.code p.maxpc d.vm = .ok (e, s1) ∧
      d1 = afterInsn p { record d (seen d.watch d.vm) with vm := s1 } e := by
  unfold oneInsn at h
  cases ht : entryOf d with
  | ub => rw [ht] at h; cases h
  | hang => rw [ht] at h; cases h
  | ok t =>
    rw [ht, entryOf_seen ht] at h
    simp only [Res.ok_bind] at h
    have hv : (record d (seen d.watch d.vm)).vm = d.vm := rfl
    rw [hv] at h
    cases hx : execute p.lib p.code p.maxpc d.vm with
    | ub => rw [hx] at h; cases h
    | hang => rw [hx] at h; cases h
    | ok r =>
      rw [hx] at h
      obtain ⟨e, s1⟩ := r
      simp only [Res.ok_bind, Res.ok.injEq] at h
      exact ⟨e, s1, rfl, h.symm⟩

theorem oneInsn_of {p : Prog} {d : State} {e : Nat} {s1 : VM}
    (hw : ∀ w, d.watch = some w → w.toNat / 2 < d.vm.words)
    (h : execute p.lib p.code p.maxpc d.vm = .ok (e, s1)) :
    oneInsn p d = .ok (afterInsn p { record d (seen d.watch d.vm) with vm := s1 } e) := by
  unfold oneInsn
  rw [entryOf_ok d hw]
  simp only [Res.ok_bind]
  have hv : (record d (seen d.watch d.vm)).vm = d.vm := rfl
  rw [hv, h]
  rfl

/-- What the execution of a command says when it ends. -/
def Told (p : Prog) (d : State) (e : Nat) (s : VM) (m : List Msg) : Prop :=
  if d.stop then m = if e = eNOERROR then [] else if e = eEXIT then [.normal] else [.error e]
  else Reported p d.breaks e s m ∨
    (e = eNOERROR ∧ 0#16 < d.untilPoint ∧ d.untilPoint = s.pc ∧ m = [])

/-- The result of `pdbg_DebugPCode`. -/
structure Ran (p : Prog) (fuel : Nat) (d d' : State) (l : List VM) (e : Nat) (m : List Msg) : Prop where
  course : Course p d.vm l e d'.vm
  bound : l.length ≤ fuel
  single : d.stop = true → l = [d.vm]
  quiet : ∀ t ∈ l.tail, ¬ HaltU p d.breaks d.untilPoint t
  halted : d.stop = false → e ≠ eNOERROR ∨ HaltU p d.breaks d.untilPoint d'.vm
  told : Told p d e d'.vm m
  out : d'.out = m ++ d.out
  stop : d'.stop = true
  breaks : d'.breaks = d.breaks
  watch : d'.watch = d.watch
  untilPoint : d'.untilPoint = d.untilPoint
  lastCmd : d'.lastCmd = d.lastCmd
  lastValue : d'.lastValue = d.lastValue
  ring : Ring d'
  shown : shown d' = lastN 16 (shown d ++ l.map (seen d.watch))

theorem debugPCode_ran {p : Prog} : ∀ {fuel : Nat} {d d' : State}, Ring d →
    debugPCode p fuel d = .ok d' → ∃ l e m, Ran p fuel d d' l e m
  | 0, _, _, _, h => by cases h
  | fuel + 1, d, d', hr, h => by
    rw [debugPCode] at h
    cases h1 : oneInsn p d with
    | ub => rw [h1] at h; cases h
    | hang => rw [h1] at h; cases h
    | ok d1 =>
      rw [h1] at h
      simp only [Res.ok_bind] at h
      obtain ⟨e, s1, hx, hd1⟩ := oneInsn_ok h1
      obtain ⟨b, m, ha, hb, hbm, hrep, hsm⟩ :=
        afterInsn_spec p { record d (seen d.watch d.vm) with vm := s1 } e
      rw [ha] at hd1
      have hring : Ring d1 := by rw [hd1]; exact hr.record _
      have hshown : shown d1 = lastN 16 (shown d ++ [seen d.watch d.vm]) := by
        have := shown_record hr.2.1 hr.2.2 hr.1 (seen d.watch d.vm)
        rw [← this, hd1]; rfl
      have f1 : d1.vm = s1 := by rw [hd1]
      have f2 : d1.breaks = d.breaks := by rw [hd1]; rfl
      have f3 : d1.watch = d.watch := by rw [hd1]; rfl
      have f4 : d1.untilPoint = d.untilPoint := by rw [hd1]; rfl
      have f5 : d1.lastCmd = d.lastCmd := by rw [hd1]; rfl
      have f6 : d1.lastValue = d.lastValue := by rw [hd1]; rfl
      have f7 : d1.out = m ++ d.out := by rw [hd1]; rfl
      have f8 : d1.stop = b := by rw [hd1]
      have hb' : b = false ↔ d.stop = false ∧ e = eNOERROR ∧
          ¬ HaltU p d.breaks d.untilPoint s1 := hb
      have hrep' : b = true → d.stop = false → Reported p d.breaks e s1 m ∨
          (e = eNOERROR ∧ 0#16 < d.untilPoint ∧ d.untilPoint = s1.pc ∧ m = []) := hrep
      have hsm' : d.stop = true →
          m = if e = eNOERROR then [] else if e = eEXIT then [.normal] else [.error e] := hsm
      by_cases hst : d1.stop = true
      · rw [if_pos hst] at h
        cases h
        have hbt : b = true := by rw [← f8]; exact hst
        refine ⟨[d.vm], e, m, ⟨by rw [f1]; exact .one hx, by simp, fun _ => rfl, by simp, ?_, ?_, f7,
          hst, f2, f3, f4, f5, f6, hring, by rw [hshown]; rfl⟩⟩
        · intro hs
          by_cases he : e = eNOERROR
          · right
            rw [f1]
            refine Classical.byContradiction fun hn => ?_
            have := hb'.2 ⟨hs, he, hn⟩
            rw [hbt] at this; cases this
          · left; exact he
        · unfold Told
          split
          · rename_i hs; exact hsm' hs
          · rename_i hs; rw [f1]; exact hrep' hbt (by simpa using hs)
      · rw [if_neg hst] at h
        have hbf : b = false := by rw [← f8]; simpa using hst
        obtain ⟨hs, he, hh⟩ := hb'.1 hbf
        obtain ⟨l, e', m', R⟩ := debugPCode_ran hring h
        have hm : m = [] := hbm hbf
        have hs1 : d1.stop = false := by rw [f8]; exact hbf
        refine ⟨d.vm :: l, e', m', ⟨?_, by have := R.bound; simp; omega, ?_, ?_, ?_, ?_, ?_, R.stop,
          R.breaks.trans f2, R.watch.trans f3, R.untilPoint.trans f4, R.lastCmd.trans f5,
          R.lastValue.trans f6, R.ring, ?_⟩⟩
        · refine .more (by rw [hx, he]) ?_
          have := R.course; rw [f1] at this; exact this
        · intro hc; rw [hs] at hc; cases hc
        · simp only [List.tail_cons]
          intro t ht
          have hq := R.quiet
          rw [f2, f4] at hq
          have hc := R.course
          rw [f1] at hc
          cases hc with
          | one _ => simp only [List.mem_singleton] at ht; rw [ht]; exact hh
          | more _ _ =>
            rcases List.mem_cons.1 ht with ht | ht
            · rw [ht]; exact hh
            · exact hq t ht
        · intro _
          have := R.halted hs1; rw [f2, f4] at this; exact this
        · have := R.told
          unfold Told at this ⊢
          rw [hs1, f2, f4] at this
          rw [hs]; exact this
        · rw [R.out, f7, hm]; rfl
        · rw [R.shown, hshown, f3, lastN_lastN]
          simp

/-- Execution that ends is carried out by the debugger, given enough time. -/
theorem debugPCode_of {p : Prog} {s : VM} {l : List VM} {e : Nat} {s' : VM}
    (hc : Course p s l e s') : ∀ {fuel : Nat} {d : State}, d.vm = s → l.length ≤ fuel →
    (∀ w, d.watch = some w → ∀ t ∈ l, w.toNat / 2 < t.words) →
    (d.stop = true → l.length = 1) → (∀ t ∈ l.tail, ¬ HaltU p d.breaks d.untilPoint t) →
    (d.stop = false → e ≠ eNOERROR ∨ HaltU p d.breaks d.untilPoint s') →
    ∃ d', debugPCode p fuel d = .ok d' ∧ d'.vm = s' := by
  induction hc with
  | @one s e s' hx =>
    intro fuel d hv hl hw _ _ hh
    cases fuel with
    | zero => simp at hl
    | succ fuel =>
      subst hv
      rw [debugPCode, oneInsn_of (fun w h => hw w h _ (by simp)) hx]
      simp only [Res.ok_bind]
      obtain ⟨b, m, ha, hb, -, -, -⟩ :=
        afterInsn_spec p { record d (seen d.watch d.vm) with vm := s' } e
      rw [ha]
      have hb' : b = false ↔ d.stop = false ∧ e = eNOERROR ∧
          ¬ HaltU p d.breaks d.untilPoint s' := hb
      have : b = true := by
        cases b with
        | true => rfl
        | false =>
          obtain ⟨h1, h2, h3⟩ := hb'.1 rfl
          rcases hh h1 with h | h
          · exact absurd h2 h
          · exact absurd h h3
      refine ⟨_, by rw [if_pos this], rfl⟩
  | @more s s1 l e s' hx hc ih =>
    intro fuel d hv hl hw hs hq hh
    cases fuel with
    | zero => simp at hl
    | succ fuel =>
      subst hv
      have hs0 : d.stop = false := by
        cases h : d.stop with
        | false => rfl
        | true => have := hs h; cases hc <;> simp at this
      rw [debugPCode, oneInsn_of (fun w h => hw w h _ (by simp)) hx]
      simp only [Res.ok_bind]
      obtain ⟨b, m, ha, hb, -, -, -⟩ :=
        afterInsn_spec p { record d (seen d.watch d.vm) with vm := s1 } eNOERROR
      rw [ha]
      have hb' : b = false ↔ d.stop = false ∧ eNOERROR = eNOERROR ∧
          ¬ HaltU p d.breaks d.untilPoint s1 := hb
      have hmem : s1 ∈ l := by cases hc <;> simp
      have hbf : b = false := hb'.2 ⟨hs0, rfl, hq s1 hmem⟩
      rw [if_neg (by simp [hbf])]
      refine ih rfl (by simp at hl; omega) ?_ (by simp [hbf]) ?_ ?_
      · intro w h t ht; exact hw w h t (by simp [ht])
      · intro t ht; exact hq t (List.mem_of_mem_tail ht)
      · intro _; exact hh hs0

/-! ## Commands -/

theorem bind_ok {α β : Type} {x : Res α} {f : α → Res β} {b : β} (h : (x >>= f) = .ok b) :
    ∃ a, x = .ok a ∧ f a = .ok b := by
  cases x with
  | ok a => exact ⟨a, rfl, h⟩
  | ub => cases h
  | hang => cases h

theorem status_ok {p : Prog} {d d' : State}
    (h : (do programStatus p d; .ok (some d)) = Res.ok (some d')) : d' = d := by
  obtain ⟨_, _, h⟩ := bind_ok h
  cases h; rfl

theorem go_ok {p : Prog} {fuel : Nat} {d d' : State} {v : Nat}
    (h : execCommand p fuel d .go v = .ok (some d')) :
    debugPCode p fuel { d with lastCmd := .go, lastValue := v, stop := false } = .ok d' := by
  simp only [execCommand] at h
  obtain ⟨d1, h1, h2⟩ := bind_ok h
  rw [h1, status_ok h2]

theorem step_ok {p : Prog} {fuel : Nat} {d d' : State} {v : Nat}
    (h : execCommand p fuel d .step v = .ok (some d')) :
    debugPCode p fuel { d with lastCmd := .step, lastValue := v, stop := true } = .ok d' := by
  simp only [execCommand] at h
  obtain ⟨d1, h1, h2⟩ := bind_ok h
  rw [h1, status_ok h2]

theorem run_ok {p : Prog} {fuel : Nat} {d d' : State} {v : Nat}
    (h : execCommand p fuel d .run v = .ok (some d')) :
    ∃ s0, reset p.entry d.vm = .ok s0 ∧
      debugPCode p fuel (initDebugger { d with lastCmd := .run, lastValue := v, vm := s0 }) =
        .ok d' := by
  simp only [execCommand] at h
  obtain ⟨s0, h0, h⟩ := bind_ok h
  obtain ⟨d1, h1, h2⟩ := bind_ok h
  rw [status_ok h2]
  exact ⟨s0, h0, h1⟩

theorem reset_ok {p : Prog} {fuel : Nat} {d d' : State} {v : Nat}
    (h : execCommand p fuel d .reset v = .ok (some d')) :
    ∃ s0, reset p.entry d.vm = .ok s0 ∧
      d' = initDebugger { d with lastValue := v, vm := s0 } := by
  simp only [execCommand] at h
  obtain ⟨s0, h0, h⟩ := bind_ok h
  obtain ⟨_, _, h2⟩ := bind_ok h
  cases h2
  exact ⟨s0, h0, rfl⟩

theorem next_ok {p : Prog} {fuel : Nat} {d d' : State} {v : Nat}
    (h : execCommand p fuel d .next v = .ok (some d')) :
    ∃ op d1, fetch p.code d.vm.pc.toNat = .ok op ∧
      debugPCode p fuel (if op = Op.pcal.toByte then
        { d with lastCmd := .next, lastValue := v, stop := false, untilPoint := d.vm.pc + 4#16 }
        else { d with lastCmd := .next, lastValue := v, stop := true }) = .ok d1 ∧
      d' = { d1 with untilPoint := 0#16 } := by
  simp only [execCommand] at h
  obtain ⟨op, h0, h⟩ := bind_ok h
  obtain ⟨d1, h1, h2⟩ := bind_ok h
  exact ⟨op, d1, h0, h1, status_ok h2⟩

theorem reach_course {p : Prog} {s : VM} {l : List VM} {e : Nat} {s' : VM}
    (h : Course p s l e s') : Reach p s s' := by
  induction h with
  | one h => exact .insn h .refl
  | more h _ ih => exact .insn h ih

theorem Reach.trans {p : Prog} {a b c : VM} (h : Reach p a b) (h' : Reach p b c) : Reach p a c := by
  induction h with
  | refl => exact h'
  | insn h _ ih => exact .insn h (ih h')
  | reset h _ ih => exact .reset h (ih h')

theorem _root_.Pas.Spec.Debugger.Ready.toRing {p : Prog} {d : State} (h : Ready p d) : Ring d := ⟨h.ring, h.index, h.count⟩

theorem ready_of {p : Prog} {d d' : State} (h : Ready p d) (hb : d'.breaks = d.breaks)
    (hu : d'.untilPoint = 0#16) (hr : Ring d') : Ready p d' :=
  ⟨hu, by rw [hb]; exact h.room, by rw [hb]; exact h.distinct, by rw [hb]; exact h.inside,
   hr.1, hr.2.1, hr.2.2⟩

theorem ring_init (d : State) (h : Ring d) : Ring (initDebugger d) :=
  ⟨h.1, by simp [initDebugger], by simp [initDebugger]⟩

/-- The debugger's commands, apart from the machine: what they leave of the state. -/
theorem execCommand_keeps {p : Prog} {fuel : Nat} {d d' : State} {c : Cmd} {v : Nat}
    (hr : Ready p d) (h : execCommand p fuel d c v = .ok (some d')) :
    Ready p d' ∧ Reach p d.vm d'.vm := by
  cases c with
  | none => simp only [execCommand, Res.ok.injEq, Option.some.injEq] at h; subst h
            exact ⟨ready_of hr rfl hr.noUntil hr.toRing, .refl⟩
  | reset =>
    obtain ⟨s0, h0, rfl⟩ := reset_ok h
    exact ⟨ready_of hr rfl hr.noUntil (ring_init _ hr.toRing), .reset h0 .refl⟩
  | run =>
    obtain ⟨s0, h0, h1⟩ := run_ok h
    obtain ⟨l, e, m, R⟩ := debugPCode_ran (by exact ring_init _ hr.toRing) h1
    exact ⟨ready_of hr R.breaks (R.untilPoint.trans hr.noUntil) R.ring,
      .reset h0 (reach_course R.course)⟩
  | step =>
    obtain ⟨l, e, m, R⟩ := debugPCode_ran (by exact hr.toRing) (step_ok h)
    exact ⟨ready_of hr R.breaks (R.untilPoint.trans hr.noUntil) R.ring, reach_course R.course⟩
  | go =>
    obtain ⟨l, e, m, R⟩ := debugPCode_ran (by exact hr.toRing) (go_ok h)
    exact ⟨ready_of hr R.breaks (R.untilPoint.trans hr.noUntil) R.ring, reach_course R.course⟩
  | next =>
    obtain ⟨op, d1, h0, h1, rfl⟩ := next_ok h
    obtain ⟨l, e, m, R⟩ := debugPCode_ran (by split <;> exact hr.toRing) h1
    refine ⟨ready_of hr (R.breaks.trans (by split <;> rfl)) rfl R.ring, ?_⟩
    have := reach_course R.course
    split at this <;> exact this
  | bs =>
    simp only [execCommand] at h
    split at h
    · cases h; exact ⟨ready_of hr rfl hr.noUntil hr.toRing, .refl⟩
    · split at h
      · cases h; exact ⟨ready_of hr rfl hr.noUntil hr.toRing, .refl⟩
      · rename_i h1 h2
        obtain ⟨_, _, h⟩ := bind_ok h
        cases h
        unfold addBreakPoint
        dsimp only
        split
        · split
          · exact ⟨ready_of hr rfl hr.noUntil hr.toRing, .refl⟩
          · rename_i h3 h4
            refine ⟨⟨hr.noUntil, by simp; omega, ?_, ?_, hr.ring, hr.index, hr.count⟩, .refl⟩
            · rw [List.nodup_append]
              refine ⟨hr.distinct, by simp, ?_⟩
              intro a ha b hb
              simp only [List.mem_singleton] at hb
              subst hb
              intro he; subst he; exact h4 ha
            · intro b hb
              simp only [List.mem_append, List.mem_singleton] at hb
              rcases hb with hb | hb
              · exact hr.inside b hb
              · subst hb
                rw [BitVec.lt_def, BitVec.toNat_ofNat]
                have := p.maxpc.isLt
                omega
        · exact ⟨ready_of hr rfl hr.noUntil hr.toRing, .refl⟩
  | bc =>
    simp only [execCommand] at h
    obtain ⟨_, _, h⟩ := bind_ok h
    cases h
    split
    · rename_i hv
      unfold deleteBreakPoint
      dsimp only
      rw [if_pos hv]
      · refine ⟨⟨hr.noUntil, ?_, ?_, ?_, hr.ring, hr.index, hr.count⟩, .refl⟩
        · have := hr.room
          simp only [List.length_eraseIdx]
          split <;> omega
        · exact hr.distinct.sublist (List.eraseIdx_sublist _ _)
        · intro b hb
          exact hr.inside b ((List.eraseIdx_sublist _ _).subset hb)
    · exact ⟨ready_of hr rfl hr.noUntil hr.toRing, .refl⟩
  | ws =>
    simp only [execCommand] at h
    split at h
    · cases h; exact ⟨ready_of hr rfl hr.noUntil hr.toRing, .refl⟩
    · split at h
      · cases h; exact ⟨ready_of hr rfl hr.noUntil hr.toRing, .refl⟩
      · cases h; exact ⟨ready_of hr rfl hr.noUntil hr.toRing, .refl⟩
  | wc => simp only [execCommand, Res.ok.injEq, Option.some.injEq] at h; subst h
          exact ⟨ready_of hr rfl hr.noUntil hr.toRing, .refl⟩
  | dp =>
    simp only [execCommand] at h
    rw [status_ok h]; exact ⟨ready_of hr rfl hr.noUntil hr.toRing, .refl⟩
  | dt =>
    simp only [execCommand] at h
    obtain ⟨_, _, h⟩ := bind_ok h
    cases h; exact ⟨ready_of hr rfl hr.noUntil hr.toRing, .refl⟩
  | ds =>
    simp only [execCommand] at h
    split at h
    · obtain ⟨_, _, h⟩ := bind_ok h
      cases h; exact ⟨ready_of hr rfl hr.noUntil hr.toRing, .refl⟩
    · cases h; exact ⟨ready_of hr rfl hr.noUntil hr.toRing, .refl⟩
  | di =>
    simp only [execCommand] at h
    split at h
    · cases h; exact ⟨ready_of hr rfl hr.noUntil hr.toRing, .refl⟩
    · obtain ⟨_, _, h⟩ := bind_ok h
      cases h; exact ⟨ready_of hr rfl hr.noUntil hr.toRing, .refl⟩
  | db =>
    simp only [execCommand] at h
    obtain ⟨_, _, h⟩ := bind_ok h
    cases h; exact ⟨ready_of hr rfl hr.noUntil hr.toRing, .refl⟩
  | quit => simp only [execCommand] at h; cases h
  | help => simp only [execCommand, Res.ok.injEq, Option.some.injEq] at h; subst h
            exact ⟨ready_of hr rfl hr.noUntil hr.toRing, .refl⟩

theorem session_keeps {p : Prog} {fuel : Nat} : ∀ {ls : List (List Byte)} {d d' : State},
    Ready p d → session p fuel ls d = .ok (some d') → Ready p d' ∧ Reach p d.vm d'.vm
  | [], d, d', hr, h => by cases h; exact ⟨hr, .refl⟩
  | l :: ls, d, d', hr, h => by
    simp only [session] at h
    obtain ⟨⟨c, v⟩, _, h⟩ := bind_ok h
    dsimp only at h
    obtain ⟨o, h1, h⟩ := bind_ok h
    cases o with
    | none => cases h
    | some d1 =>
      have hk := execCommand_keeps hr h1
      have hk' := session_keeps hk.1 h
      exact ⟨hk'.1, Reach.trans hk.2 hk'.2⟩

theorem haltU_zero {p : Prog} {bs : List Word} {s : VM} : HaltU p bs 0#16 s ↔ Halt p bs s := by
  unfold HaltU
  constructor
  · rintro (h | ⟨h, _⟩)
    · exact h
    · simp at h
  · exact Or.inl

/-! ## Without the debugger -/

theorem execute_outside {p : Prog} {s : VM} (h : p.maxpc ≤ s.pc) :
    execute p.lib p.code p.maxpc s = .ok (eBADPC, s) := by
  unfold execute; rw [if_pos h]

theorem runFor_course {p : Prog} : ∀ {k : Nat} {s s' : VM} {e : Nat},
    runFor p.lib p.code p.maxpc k s = .ok (e, s') → e ≠ eNOERROR →
    ∃ l e', Course p s l e' s' ∧ l.length ≤ k ∧ (∀ t ∈ l.tail, ¬ p.maxpc ≤ t.pc) ∧
      (e' ≠ eNOERROR ∨ p.maxpc ≤ s'.pc)
  | 0, _, _, _, h, he => by cases h; exact absurd rfl he
  | k + 1, s, s', e, h, he => by
    rw [runFor] at h
    obtain ⟨⟨e1, s1⟩, hx, h⟩ := bind_ok h
    dsimp only at h
    by_cases h1 : e1 = eNOERROR
    · rw [if_neg (by simp [h1])] at h
      by_cases hp : p.maxpc ≤ s1.pc
      · cases k with
        | zero => cases h; exact absurd rfl he
        | succ k =>
          rw [runFor, execute_outside hp] at h
          simp only [Res.ok_bind] at h
          rw [if_pos (by decide)] at h
          cases h
          exact ⟨[s], e1, .one hx, by simp, by simp, Or.inr hp⟩
      · obtain ⟨l, e', hc, hl, hq, hh⟩ := runFor_course h he
        refine ⟨s :: l, e', .more (by rw [hx, h1]) hc, by simp; omega, ?_, hh⟩
        simp only [List.tail_cons]
        intro t ht
        cases hc with
        | one _ => simp only [List.mem_singleton] at ht; rw [ht]; exact hp
        | more _ _ =>
          rcases List.mem_cons.1 ht with ht | ht
          · rw [ht]; exact hp
          · exact hq t ht
    · rw [if_pos h1] at h
      cases h
      exact ⟨[s], e, .one hx, by simp, by simp, Or.inl he⟩

theorem course_runFor {p : Prog} {s : VM} {l : List VM} {e : Nat} {s' : VM}
    (h : Course p s l e s') : runFor p.lib p.code p.maxpc l.length s = .ok (e, s') := by
  induction h with
  | @one s e s' h =>
    simp only [List.length_cons, List.length_nil, runFor, h, Res.ok_bind]
    split
    · rfl
    · rename_i he; simp only [ne_eq, Decidable.not_not] at he; rw [he]
  | more h _ ih =>
    simp only [List.length_cons, runFor, h, Res.ok_bind]
    rw [if_neg (by simp)]
    exact ih

theorem course_runFor_succ {p : Prog} {s : VM} {l : List VM} {s' : VM}
    (h : Course p s l eNOERROR s') (hp : p.maxpc ≤ s'.pc) :
    runFor p.lib p.code p.maxpc (l.length + 1) s = .ok (eBADPC, s') := by
  generalize he : eNOERROR = e at h
  induction h with
  | @one s e s' h =>
    subst he
    simp only [List.length_cons, List.length_nil, runFor, h, Res.ok_bind]
    rw [if_neg (by simp), execute_outside hp]
    rfl
  | more h _ ih =>
    simp only [List.length_cons]
    rw [runFor, h]
    simp only [Res.ok_bind]
    rw [if_neg (by simp)]
    exact ih hp he

/-! ## Displays -/

theorem printPCode_one {p : Prog} {a : Word} (h : Whole p a) : ∃ b, printPCode p 1 a = .ok b := by
  simp only [printPCode]
  split
  · rename_i hl
    rcases h with h | ⟨op, ho, h⟩
    · exact absurd hl (by simpa using h)
    · have hf : ∀ i, i < p.code.length → ∃ x, fetch p.code i = .ok x := by
        intro i hi
        unfold fetch
        rw [List.getElem?_eq_getElem hi]
        exact ⟨_, rfl⟩
      have h0 : fetch p.code a.toNat = .ok op := by unfold fetch; rw [ho]
      rw [h0]
      simp only [Res.ok_bind]
      by_cases h8 : hasArg8 op <;> by_cases h16 : hasArg16 op <;>
        simp only [h8, h16, if_true, if_false, Bool.false_eq_true] at h ⊢
      · obtain ⟨x, hx⟩ := hf (a.toNat + 1) (by omega)
        obtain ⟨y, hy⟩ := hf (a.toNat + 1 + 1) (by omega)
        obtain ⟨z, hz⟩ := hf (a.toNat + 1 + 1 + 1) (by omega)
        simp only [hx, hy, hz, Res.ok_bind]; exact ⟨_, rfl⟩
      · obtain ⟨x, hx⟩ := hf (a.toNat + 1) (by omega)
        simp only [hx, Res.ok_bind]; exact ⟨_, rfl⟩
      · obtain ⟨x, hx⟩ := hf (a.toNat + 1) (by omega)
        obtain ⟨y, hy⟩ := hf (a.toNat + 1 + 1) (by omega)
        simp only [hx, hy, Res.ok_bind]; exact ⟨_, rfl⟩
      · exact ⟨_, rfl⟩
  · exact ⟨a, rfl⟩

theorem printEach_ok {p : Prog} : ∀ {l : List Word}, (∀ a ∈ l, Whole p a) → printEach p l = .ok ()
  | [], _ => rfl
  | a :: l, h => by
    obtain ⟨b, hb⟩ := printPCode_one (h a (by simp))
    simp only [printEach, hb, Res.ok_bind]
    exact printEach_ok fun x hx => h x (by simp [hx])

/-! ## Command lines -/

theorem skipWord_word : ∀ {w : List Byte} {b : Byte} {r : List Byte}, (∀ x ∈ w, isSpace x = false) →
    isSpace b = true → skipWord (w ++ b :: r) = .ok (b :: r)
  | [], b, r, _, hb => by simp [skipWord, hb]
  | x :: w, b, r, hw, hb => by
    simp only [List.cons_append, skipWord, hw x (by simp), Bool.false_eq_true, if_false]
    exact skipWord_word (fun y hy => hw y (by simp [hy])) hb

theorem skipSpace_space : ∀ {w : List Byte} {b : Byte} {r : List Byte}, (∀ x ∈ w, isSpace x = true) →
    isSpace b = false → skipSpace (w ++ b :: r) = .ok (b :: r)
  | [], b, r, _, hb => by simp [skipSpace, hb]
  | x :: w, b, r, hw, hb => by
    simp only [List.cons_append, skipSpace, hw x (by simp), if_true]
    exact skipSpace_space (fun y hy => hw y (by simp [hy])) hb

theorem hexDigit_char {b : Byte} {d : Nat} (h : HexChar b d) : hexDigit b = some d := by
  unfold HexChar at h
  unfold hexDigit
  simp only [BitVec.le_def]
  have h48 : (48 : Byte).toNat = 48 := rfl
  have h57 : (57 : Byte).toNat = 57 := rfl
  have h65 : (65 : Byte).toNat = 65 := rfl
  have h70 : (70 : Byte).toNat = 70 := rfl
  have h97 : (97 : Byte).toNat = 97 := rfl
  have h102 : (102 : Byte).toNat = 102 := rfl
  rw [h48, h57, h65, h70, h97, h102]
  split
  · congr 1; omega
  · split
    · congr 1; omega
    · split
      · congr 1; omega
      · omega

theorem hexChar_notSpace {b : Byte} {d : Nat} (h : HexChar b d) : isSpace b = false := by
  have hb : 48 ≤ b.toNat := by unfold HexChar at h; omega
  unfold isSpace
  have h1 : (b == 32) = false := by
    rw [beq_eq_false_iff_ne]; intro he; subst he; revert hb; decide
  have h2 : decide (b ≤ 13) = false := by
    rw [decide_eq_false_iff_not, BitVec.le_def, show (13 : Byte).toNat = 13 from rfl]; omega
  rw [h1, h2]; simp

theorem hexLoop_text : ∀ {l : List Byte} {ds : List Nat} {n : Nat} {found : Bool} {b : Byte}
    {r : List Byte} {dflt : Nat}, HexText l ds → hexDigit b = none →
    (n + 1) * 16 ^ ds.length ≤ 2 ^ 31 →
    hexLoop (l ++ b :: r) found n dflt =
      .ok (if found || !ds.isEmpty then ds.foldl (fun n d => 16 * n + d) n else dflt)
  | [], [], n, found, b, r, dflt, _, hb, _ => by
    simp only [List.nil_append, hexLoop, hb]
    cases found <;> rfl
  | [], _ :: _, _, _, _, _, _, h, _, _ => by cases h
  | _ :: _, [], _, _, _, _, _, h, _, _ => by cases h
  | c :: l, d :: ds, n, found, b, r, dflt, h, hb, hn => by
    obtain ⟨hc, ht⟩ := h
    have hd : d < 16 := by unfold HexChar at hc; omega
    have hp : 1 ≤ 16 ^ ds.length := Nat.one_le_pow _ _ (by omega)
    have h1 : (16 * n + d + 1) * 16 ^ ds.length ≤ 2 ^ 31 := by
      refine Nat.le_trans (Nat.mul_le_mul_right _ (show 16 * n + d + 1 ≤ (n + 1) * 16 by omega)) ?_
      rw [Nat.mul_assoc, Nat.mul_comm 16, ← Nat.pow_succ]
      exact hn
    have h2 : 16 * n + d < 2 ^ 31 := by
      have := Nat.le_mul_of_pos_right (16 * n + d + 1) hp
      omega
    simp only [List.cons_append, hexLoop, hexDigit_char hc, if_pos h2]
    rw [hexLoop_text ht hb h1]
    simp

theorem readHex_text {w sp l : List Byte} {ds : List Nat} {b s : Byte} {r : List Byte} {dflt : Nat}
    (hw : ∀ x ∈ w, isSpace x = false) (hs : isSpace s = true) (hsp : ∀ x ∈ sp, isSpace x = true)
    (ht : HexText l ds) (hb : hexDigit b = none) (hb' : isSpace b = false ∨ ds ≠ [])
    (hl : ds.length ≤ 7) :
    readHex (w ++ s :: sp ++ l ++ b :: r) dflt = .ok (if ds = [] then dflt else number 16 ds) := by
  unfold readHex
  have e1 : w ++ s :: sp ++ l ++ b :: r = w ++ s :: (sp ++ (l ++ b :: r)) := by simp
  rw [e1, skipWord_word hw hs]
  simp only [Res.ok_bind]
  have hbound : (0 + 1) * 16 ^ ds.length ≤ 2 ^ 31 := by
    have := Nat.pow_le_pow_right (show 0 < 16 by omega) hl
    have h7 : (16 : Nat) ^ 7 ≤ 2 ^ 31 := by decide
    omega
  have hsp' : ∀ x ∈ s :: sp, isSpace x = true := by
    intro x hx
    rcases List.mem_cons.1 hx with h | h
    · rw [h]; exact hs
    · exact hsp x h
  cases ds with
  | nil =>
    cases l with
    | cons _ _ => cases ht
    | nil =>
      have hb1 : isSpace b = false := hb'.resolve_right (fun h => h rfl)
      have := skipSpace_space (r := r) hsp' hb1
      simp only [List.cons_append, List.nil_append] at this ⊢
      rw [this]
      simp only [Res.ok_bind]
      have := hexLoop_text (n := 0) (found := false) (r := r) (dflt := dflt) ht hb hbound
      simp only [List.nil_append] at this
      rw [this]; rfl
  | cons d ds =>
    cases l with
    | nil => cases ht
    | cons c l =>
      have := skipSpace_space (r := l ++ b :: r) hsp' (hexChar_notSpace ht.1)
      simp only [List.cons_append] at this ⊢
      rw [this]
      simp only [Res.ok_bind]
      have := hexLoop_text (n := 0) (found := false) (r := r) (dflt := dflt) ht hb hbound
      simp only [List.cons_append] at this
      rw [this]; rfl

theorem decimalLoop_text : ∀ {ds : List Nat} {n : Nat} {b : Byte} {r : List Byte},
    (∀ x ∈ ds, x < 10) → ¬ (48 ≤ b.toNat ∧ b.toNat ≤ 57) → (n + 1) * 10 ^ ds.length ≤ 2 ^ 31 →
    decimalLoop (ds.map (fun x => BitVec.ofNat 8 (48 + x)) ++ b :: r) n =
      .ok (ds.foldl (fun n d => 10 * n + d) n)
  | [], n, b, r, _, hb, _ => by
    simp only [List.map_nil, List.nil_append, decimalLoop, BitVec.le_def,
      show (48 : Byte).toNat = 48 from rfl, show (57 : Byte).toNat = 57 from rfl]
    rw [if_neg hb]; rfl
  | d :: ds, n, b, r, hd, hb, hn => by
    have hd0 : d < 10 := hd d (by simp)
    have hp : 1 ≤ 10 ^ ds.length := Nat.one_le_pow _ _ (by omega)
    have h1 : (10 * n + d + 1) * 10 ^ ds.length ≤ 2 ^ 31 := by
      refine Nat.le_trans (Nat.mul_le_mul_right _ (show 10 * n + d + 1 ≤ (n + 1) * 10 by omega)) ?_
      rw [Nat.mul_assoc, Nat.mul_comm 10, ← Nat.pow_succ]
      exact hn
    have h2 : 10 * n + d < 2 ^ 31 := by
      have := Nat.le_mul_of_pos_right (10 * n + d + 1) hp
      omega
    have hc : (BitVec.ofNat 8 (48 + d)).toNat = 48 + d := by rw [BitVec.toNat_ofNat]; omega
    simp only [List.map_cons, List.cons_append, decimalLoop, BitVec.le_def, hc,
      show (48 : Byte).toNat = 48 from rfl, show (57 : Byte).toNat = 57 from rfl]
    rw [if_pos (by omega), show 48 + d - 48 = d by omega, if_pos h2]
    rw [decimalLoop_text (fun x hx => hd x (by simp [hx])) hb h1]
    rfl

theorem readDecimal_text {w sp : List Byte} {ds : List Nat} {b s : Byte} {r : List Byte}
    (hw : ∀ x ∈ w, isSpace x = false) (hs : isSpace s = true) (hsp : ∀ x ∈ sp, isSpace x = true)
    (hd : ∀ x ∈ ds, x < 10) (hb : ¬ (48 ≤ b.toNat ∧ b.toNat ≤ 57)) (h1 : ds ≠ [])
    (h9 : ds.length ≤ 9) :
    readDecimal (w ++ s :: sp ++ ds.map (fun x => BitVec.ofNat 8 (48 + x)) ++ b :: r) =
      .ok (number 10 ds) := by
  unfold readDecimal
  have e1 : w ++ s :: sp ++ ds.map (fun x => BitVec.ofNat 8 (48 + x)) ++ b :: r =
      w ++ s :: (sp ++ (ds.map (fun x => BitVec.ofNat 8 (48 + x)) ++ b :: r)) := by simp
  rw [e1, skipWord_word hw hs]
  simp only [Res.ok_bind]
  have hbound : (0 + 1) * 10 ^ ds.length ≤ 2 ^ 31 := by
    have := Nat.pow_le_pow_right (show 0 < 10 by omega) h9
    have h7 : (10 : Nat) ^ 9 ≤ 2 ^ 31 := by decide
    omega
  have hsp' : ∀ x ∈ s :: sp, isSpace x = true := by
    intro x hx
    rcases List.mem_cons.1 hx with h | h
    · rw [h]; exact hs
    · exact hsp x h
  have hnum := decimalLoop_text (n := 0) (r := r) hd hb hbound
  cases ds with
  | nil => exact absurd rfl h1
  | cons d ds =>
    have hns : isSpace (BitVec.ofNat 8 (48 + d)) = false :=
      hexChar_notSpace (d := d) (Or.inl ⟨hd d (by simp), by
        rw [BitVec.toNat_ofNat]; have := hd d (by simp); omega⟩)
    have := skipSpace_space (r := ds.map (fun x => BitVec.ofNat 8 (48 + x)) ++ b :: r) hsp' hns
    simp only [List.cons_append, List.map_cons] at this ⊢
    rw [this]
    simp only [Res.ok_bind]
    exact hnum

end Pas.Debugger
