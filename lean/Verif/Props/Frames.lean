import Verif.Props.Memory
import Verif.Spec.Frames
import Verif.Lemmas.Keep

/-! Properties C06 and C07: procedure calls and static links. -/
namespace Pas
open Spec

/-- The state after a successful call. -/
theorem procedureCall_eq (s : VM) (n : Byte) (f : Word) (hn : n ≠ 0)
    (hf : findFrame s (n.toNat - 1) searchFuel s.fp = .ok (some f))
    (h1 : s.top + 5 < s.words) (h2 : s.top + 5 < 32768) :
    procedureCall s n = .ok (eNOERROR, { s with
      sp := s.sp + 10#16
      fp := s.sp + 2#16
      lsp := n.zeroExtend 16
      mem := updW (updW (updW (updW (updW s.mem (s.top + 1) f) (s.top + 2) s.fp) (s.top + 3)
        (s.pc + 4#16)) (s.top + 4) s.csp) (s.top + 5)
        ((s.lsp <<< 8) ||| n.zeroExtend 16) }) := by
  have ht : ({ s with sp := s.sp + 2#16 } : VM).top = s.top + 1 := VM.add2_div _ (by
    show s.top + 1 < 32768; omega)
  have e : s.sp + 2#16 + 8#16 = s.sp + 10#16 := by bv_omega
  unfold procedureCall
  rw [if_neg hn, hf]
  simp only [Res.ok_bind, ht, e]
  rw [VM.wr_eq _ _ (by show s.top + 1 < s.words; omega)]
  simp only [Res.ok_bind]
  rw [VM.wr_eq _ _ (by show s.top + 1 + 1 < s.words; omega)]
  simp only [Res.ok_bind]
  rw [VM.wr_eq _ _ (by show s.top + 1 + 2 < s.words; omega)]
  simp only [Res.ok_bind]
  rw [VM.wr_eq _ _ (by show s.top + 1 + 3 < s.words; omega)]
  simp only [Res.ok_bind]
  rw [VM.wr_eq _ _ (by show s.top + 1 + 4 < s.words; omega)]
  rfl

theorem ret_eq (s : VM) (h1 : 5 ≤ s.top) (h2 : s.top < s.words) :
    pexec8 s (some .ret) = .ok (eNOERROR, { s with
      sp := s.sp - 10#16
      lsp := s.mem s.top >>> 8
      csp := s.mem (s.top - 1)
      pc := s.mem (s.top - 2)
      fp := s.mem (s.top - 3) }) := by
  have hp : ∀ (t : VM) (k : Nat), t.words = s.words → t.mem = s.mem → t.top = s.top - k →
      t.pop = .ok (s.mem (s.top - k), { t with sp := t.sp - 2#16 }) := by
    intro t k hw hm ht
    rw [VM.pop_eq t (by rw [ht, hw]; omega), ht, hm]
  have h1' : 5 ≤ s.sp.toNat / 2 := h1
  rw [pexec8, VM.pop_eq s h2]
  simp only [Res.ok_bind]
  rw [hp _ 1 (by rfl) (by rfl) (by simp only [VM.top]; bv_omega)]
  simp only [Res.ok_bind]
  rw [hp _ 2 (by rfl) (by rfl) (by simp only [VM.top]; bv_omega)]
  simp only [Res.ok_bind]
  rw [hp _ 3 (by rfl) (by rfl) (by simp only [VM.top]; bv_omega)]
  simp only [Res.ok_bind, VM.discard]
  have : s.sp - 2#16 - 2#16 - 2#16 - 2#16 - BitVec.ofNat 16 (2 * 1) = s.sp - 10#16 := by
    show s.sp - 2#16 - 2#16 - 2#16 - 2#16 - 2#16 = _
    bv_omega
  rw [this]

theorem levelWord_shift (l : Word) (n : Byte) (hl : l.toNat < 256) :
    ((l <<< 8) ||| n.zeroExtend 16) >>> 8 = l := by
  ext i hi
  have hn : ∀ j, 8 ≤ j → l.getLsbD j = false := by
    intro j hj
    apply Nat.testBit_lt_two_pow
    exact Nat.lt_of_lt_of_le hl (Nat.pow_le_pow_right (n := 2) (i := 8) (by decide) hj)
  by_cases h : i < 8
  · have h1 : 8 + i < 16 := by omega
    simp [h1]
  · have := hn i (by omega)
    simp [BitVec.getLsbD_eq_getElem hi] at this
    have h1 : ¬ 8 + i < 16 := by omega
    simp [h1, this]

/-- **C06**: call followed by return.  `s2` is any state the callee may leave behind: same
header words, stack pointer on top of the header, control at a RET.  Registers, stack
pointer, return address and everything at or below the caller's top of stack are as before
the call.  (The static level register always holds a byte, see `C06_level_byte`.) -/
theorem C06_call_return (lib : Lib) (code : List Byte) (maxpc : Word) (s s1 s2 : VM)
    (n : Byte) (t : Word)
    (hcall : Insn code maxpc s .pcal n t)
    (hroom : s.sp.toNat / 2 + 5 < s.words ∧ s.sp.toNat / 2 + 5 < 32768)
    (hlev : s.lsp.toNat < 256)
    (hs1 : execute lib code maxpc s = .ok (eNOERROR, s1))
    (hret : Next code maxpc s2 .ret)
    (hsp : s2.sp = s1.sp) (hwords : s2.words = s1.words)
    (hhead : ∀ k < 5, s2.mem (s1.fp.toNat / 2 + k) = s1.mem (s1.fp.toNat / 2 + k)) :
    s1.pc = t ∧ (∀ i, i ≤ s.sp.toNat / 2 → s1.mem i = s.mem i) ∧
    ∃ s3, execute lib code maxpc s2 = .ok (eNOERROR, s3) ∧
      s3.pc = s.pc + 4#16 ∧ s3.fp = s.fp ∧ s3.sp = s.sp ∧ s3.csp = s.csp ∧ s3.lsp = s.lsp ∧
      s3.mem = s2.mem := by
  obtain ⟨hr1, hr2⟩ := hroom
  change s.top + 5 < s.words at hr1
  change s.top + 5 < 32768 at hr2
  rw [insn_32 hcall (by decide) (by decide), pexec32] at hs1
  -- the call must have found a frame
  have hpc : ∃ s0, procedureCall s n = .ok (eNOERROR, s0) ∧ s1 = { s0 with pc := t } := by
    cases h : procedureCall s n with
    | ub => rw [h] at hs1; simp at hs1
    | hang => rw [h] at hs1; simp at hs1
    | ok p =>
      obtain ⟨e, s0⟩ := p
      rw [h] at hs1
      simp only [Res.ok_bind, Res.ok.injEq, Prod.mk.injEq] at hs1
      exact ⟨s0, by rw [hs1.1], hs1.2.symm⟩
  obtain ⟨s0, h0, rfl⟩ := hpc
  have hn : n ≠ 0 := by
    intro h; rw [procedureCall, if_pos h] at h0; simp [eNOERROR, eNESTINGLEVEL] at h0
  have hff : ∃ f, findFrame s (n.toNat - 1) searchFuel s.fp = .ok (some f) := by
    cases h : findFrame s (n.toNat - 1) searchFuel s.fp with
    | ub => rw [procedureCall, if_neg hn, h] at h0; simp at h0
    | hang => rw [procedureCall, if_neg hn, h] at h0; simp at h0
    | ok o =>
      cases o with
      | none => rw [procedureCall, if_neg hn, h] at h0; simp [eNOERROR, eNESTINGLEVEL] at h0
      | some f => exact ⟨f, rfl⟩
  obtain ⟨f, hf⟩ := hff
  rw [procedureCall_eq s n f hn hf hr1 hr2] at h0
  simp only [Res.ok.injEq, Prod.mk.injEq, true_and] at h0
  subst h0
  refine ⟨rfl, ?_, ?_⟩
  · intro i hi
    change i ≤ s.top at hi
    show updW _ _ _ i = _
    rw [updW_other _ _ (by omega), updW_other _ _ (by omega), updW_other _ _ (by omega),
      updW_other _ _ (by omega), updW_other _ _ (by omega)]
  · have hfp : (s.sp + 2#16).toNat / 2 = s.top + 1 := VM.add2_div _ (by
      show s.top + 1 < 32768; omega)
    have htop2 : s2.top = s.top + 5 := by
      simp only [VM.top, hsp]
      simp only [VM.top] at hr2
      bv_omega
    simp only [hfp] at hhead
    have h4 := hhead 4 (by decide)
    have h3 := hhead 3 (by decide)
    have h2 := hhead 2 (by decide)
    have h1 := hhead 1 (by decide)
    rw [execute_8 (at_of_next hret) (by decide) (by decide), ret_eq s2 (by omega) (by
      rw [htop2, hwords]; exact hr1)]
    refine ⟨_, rfl, ?_, ?_, ?_, ?_, ?_, rfl⟩
    · show s2.mem (s2.top - 2) = _
      have : s2.top - 2 = s.top + 1 + 2 := by omega
      rw [this, h2]
      rw [updW_other _ _ (by omega), updW_other _ _ (by omega)]
      exact updW_same _ _ _
    · show s2.mem (s2.top - 3) = _
      have : s2.top - 3 = s.top + 1 + 1 := by omega
      rw [this, h1]
      rw [updW_other _ _ (by omega), updW_other _ _ (by omega), updW_other _ _ (by omega)]
      exact updW_same _ _ _
    · show s2.sp - 10#16 = s.sp
      rw [hsp]
      show s.sp + 10#16 - 10#16 = s.sp
      bv_omega
    · show s2.mem (s2.top - 1) = _
      have : s2.top - 1 = s.top + 1 + 3 := by omega
      rw [this, h3]
      rw [updW_other _ _ (by omega)]
      exact updW_same _ _ _
    · show s2.mem s2.top >>> 8 = _
      have : s2.top = s.top + 1 + 4 := by omega
      rw [this, h4]
      rw [updW_same]
      exact levelWord_shift _ _ hlev

/-- Non-vacuity of C06: a call from level 0 with the callee at address 4. -/
example : let code : List Byte := [Op.pcal.toByte, 1, 0, 4, Op.ret.toByte]
    let s := sampleMem (fun _ => 0#16)
    ∃ s1, Insn code 5#16 s .pcal 1 4#16 ∧
      execute ⟨fun _ _ => .ub, fun _ _ => .ub, fun _ _ => .ub, fun _ _ => .ub, fun _ _ _ => .ub,
        fun _ _ => .ub, fun _ _ => .ub⟩ code 5#16 s = .ok (eNOERROR, s1) ∧
      Next code 5#16 s1 .ret :=
  ⟨_, ⟨⟨by decide, rfl⟩, fun _ => rfl, fun _ => ⟨0, 4, rfl, rfl, by decide⟩⟩, rfl,
    ⟨by decide, rfl⟩⟩

/-- Live activations (innermost first) as they are laid out in memory: frames at increasing
addresses, each header holding the static link to its enclosing activation, the dynamic link
to the caller and the level. -/
inductive Stack (s : VM) : List Act → Prop
  | base (a : Word) (hl : (s.mem (a.toNat / 2 + 4)).toNat % 256 = 0)
      (hw : a.toNat / 2 + 4 < s.words) : Stack s [.main a]
  | frame {b : Act} {rest : List Act} (hs : Stack s (b :: rest)) (n : Nat) (a : Word) (e : Act)
      (he : e ∈ b :: rest) (hb : b.addr.toNat / 2 + 5 ≤ a.toNat / 2)
      (hw : a.toNat / 2 + 4 < s.words)
      (hst : s.mem (a.toNat / 2) = e.addr) (hdy : s.mem (a.toNat / 2 + 1) = b.addr)
      (hl : (s.mem (a.toNat / 2 + 4)).toNat % 256 = n) (hn : n = e.level + 1) (hn2 : n < 256) :
      Stack s (.proc n a e :: b :: rest)

/-- Every activation on the stack is represented, and its enclosing one is on the stack. -/
theorem Stack.mem_info {s : VM} {stk : List Act} (h : Stack s stk) :
    ∀ x ∈ stk, x.addr.toNat / 2 + 4 < s.words ∧
      (s.mem (x.addr.toNat / 2 + 4)).toNat % 256 = x.level ∧ x.level < 256 ∧
      (∀ n a e, x = .proc n a e →
        s.mem (a.toNat / 2) = e.addr ∧ n = e.level + 1 ∧ e ∈ stk) := by
  induction h with
  | base a hl hw =>
    intro x hx
    rw [List.mem_singleton] at hx
    subst hx
    exact ⟨hw, hl, by show 0 < 256; decide, by intro n a e h; cases h⟩
  | frame hs n a e he hb hw hst hdy hl hn hn2 ih =>
    intro x hx
    rcases List.mem_cons.1 hx with rfl | hx
    · refine ⟨hw, hl, hn2, ?_⟩
      intro n' a' e' h
      cases h
      exact ⟨hst, hn, List.mem_cons_of_mem _ he⟩
    · obtain ⟨h1, h2, h3, h4⟩ := ih x hx
      refine ⟨h1, h2, h3, ?_⟩
      intro n' a' e' h
      obtain ⟨h5, h6, h7⟩ := h4 n' a' e' h
      exact ⟨h5, h6, List.mem_cons_of_mem _ h7⟩

/-- The frame search of the call instruction finds the lexical ancestor. -/
theorem findFrame_eq {s : VM} {stk : List Act} (h : Stack s stk) (l : Nat) :
    ∀ (x : Act), x ∈ stk → ∀ fuel, x.level < fuel →
      findFrame s l fuel x.addr = .ok ((x.ancestor l).map Act.addr) := by
  intro x
  induction x with
  | main a =>
    intro hx fuel hf
    obtain ⟨h1, h2, h3, h4⟩ := h.mem_info _ hx
    obtain ⟨fuel, rfl⟩ : ∃ k, fuel = k + 1 := ⟨fuel - 1, by omega⟩
    simp only [Act.addr, Act.level] at h1 h2
    simp only [findFrame, Act.addr]
    rw [VM.rd_eq _ h1]
    simp only [Res.ok_bind, h2, and_true, Act.ancestor]
    by_cases hl : l = 0
    · simp [hl, Act.addr]
    · simp [hl]
  | proc n a e ih =>
    intro hx fuel hf
    obtain ⟨h1, h2, h3, h4⟩ := h.mem_info _ hx
    obtain ⟨h5, h6, h7⟩ := h4 _ _ _ rfl
    obtain ⟨fuel, rfl⟩ : ∃ k, fuel = k + 1 := ⟨fuel - 1, by omega⟩
    simp only [Act.addr, Act.level] at h1 h2 hf
    simp only [findFrame, Act.addr]
    rw [VM.rd_eq _ h1]
    have hne : n ≠ 0 := by omega
    simp only [Res.ok_bind, h2, hne, and_false, if_false, Act.ancestor]
    by_cases hl : l = n
    · simp [hl, Act.addr]
    · simp only [hl, if_false]
      rw [VM.rd_eq _ (by omega)]
      simp only [Res.ok_bind]
      rw [h5]
      exact ih h7 fuel (by omega)

/-- Frames survive any change that keeps their header words. -/
theorem Stack.congr {s s' : VM} {stk : List Act} (h : Stack s stk)
    (hm : SameHeaders s.mem s'.mem stk) (hw : s'.words = s.words) : Stack s' stk := by
  induction h with
  | base a hl hw' =>
    have := hm (.main a) (by simp) 4 (by decide)
    exact .base a (by rw [← hl]; exact congrArg (fun w : Word => w.toNat % 256) this)
      (by rw [hw]; exact hw')
  | frame hs n a e he hb hw' hst hdy hl hn hn2 ih =>
    have hm0 := hm (.proc n a e) (by simp)
    simp only [Act.addr] at hm0
    refine .frame (ih fun x hx => hm x (List.mem_cons_of_mem _ hx)) n a e he hb
      (by rw [hw]; exact hw') ?_ ?_ ?_ hn hn2
    · have := hm0 0 (by decide); rw [Nat.add_zero] at this; rw [this]; exact hst
    · rw [hm0 1 (by decide)]; exact hdy
    · rw [hm0 4 (by decide)]; exact hl

/-- All frames lie below the header of the innermost one. -/
theorem Stack.addr_le {s : VM} {c : Act} {rest : List Act} (h : Stack s (c :: rest)) :
    ∀ x ∈ c :: rest, x.addr.toNat / 2 ≤ c.addr.toNat / 2 := by
  generalize hstk : c :: rest = stk at h
  induction h generalizing c rest with
  | base a hl hw' =>
    intro x hx
    cases hstk
    rw [List.mem_singleton] at hx; subst hx; exact Nat.le_refl _
  | @frame b rest' hs n a e he hb hw' hst hdy hl hn hn2 ih =>
    intro x hx
    cases hstk
    rcases List.mem_cons.1 hx with rfl | hx
    · exact Nat.le_refl _
    · have h2 := ih rfl x hx
      have h3 : (Act.proc n a e).addr = a := rfl
      rw [h3]
      omega

/-- All histories of calls and returns.  Between them the program may do anything that does
not overwrite the headers of live frames and keeps the stack pointer above the current one. -/
inductive Run (lib : Lib) (code : List Byte) (maxpc : Word) : VM → List Act → Prop
  | init (s : VM) (h : Fresh s) : Run lib code maxpc s [.main s.fp]
  | body {s s' : VM} {c : Act} {rest : List Act} (h : Run lib code maxpc s (c :: rest))
      (hfp : s'.fp = s.fp) (hw : s'.words = s.words)
      (hsp : s'.fp.toNat / 2 + 4 ≤ s'.sp.toNat / 2)
      (hm : SameHeaders s.mem s'.mem (c :: rest)) : Run lib code maxpc s' (c :: rest)
  | call {s s' : VM} {c new : Act} {rest : List Act} {n : Byte} {t : Word}
      (h : Run lib code maxpc s (c :: rest)) (hi : Insn code maxpc s .pcal n t)
      (hroom : s.sp.toNat / 2 + 5 < s.words ∧ s.sp.toNat / 2 + 5 < 32768)
      (hx : execute lib code maxpc s = .ok (eNOERROR, s'))
      (hc : callee n.toNat (s.sp + 2#16) c = some new) : Run lib code maxpc s' (new :: c :: rest)
  | ret {s s' : VM} {c b : Act} {rest : List Act} (h : Run lib code maxpc s (c :: b :: rest))
      (hi : Next code maxpc s .ret) (hsp : s.sp.toNat / 2 = s.fp.toNat / 2 + 4)
      (hx : execute lib code maxpc s = .ok (eNOERROR, s')) : Run lib code maxpc s' (b :: rest)

/-- The invariant of all histories. -/
structure Good (s : VM) (stk : List Act) : Prop where
  stack : Stack s stk
  cur : ∃ c rest, stk = c :: rest ∧ s.fp = c.addr
  sp : s.fp.toNat / 2 + 4 ≤ s.top

theorem ancestor_mem {s : VM} {stk : List Act} (h : Stack s stk) (l : Nat) :
    ∀ x ∈ stk, ∀ y, x.ancestor l = some y → y ∈ stk ∧ y.level = l := by
  intro x
  induction x with
  | main a =>
    intro hx y hy
    simp only [Act.ancestor] at hy
    split at hy
    · cases hy; exact ⟨hx, by simp_all [Act.level]⟩
    · cases hy
  | proc n a e ih =>
    intro hx y hy
    simp only [Act.ancestor] at hy
    split at hy
    · cases hy; exact ⟨hx, by simp_all [Act.level]⟩
    · exact ih ((h.mem_info _ hx).2.2.2 _ _ _ rfl).2.2 y hy

/-- Effect of PCAL in a good state. -/
theorem call_effect (lib : Lib) (code : List Byte) (maxpc : Word) {s : VM} {c : Act}
    {rest : List Act} {n : Byte} {t : Word} (hg : Good s (c :: rest))
    (hi : Insn code maxpc s .pcal n t)
    (hr1 : s.top + 5 < s.words) (hr2 : s.top + 5 < 32768) :
    match callee n.toNat (s.sp + 2#16) c with
    | some new => ∃ s', execute lib code maxpc s = .ok (eNOERROR, s') ∧ s'.pc = t ∧
        Good s' (new :: c :: rest)
    | none => execute lib code maxpc s = .ok (eNESTINGLEVEL, { s with pc := t }) := by
  have hfp : s.fp = c.addr := by
    obtain ⟨c', r', h, h'⟩ := hg.cur; cases h; exact h'
  have hcl : c.level < 256 := (hg.stack.mem_info c (by simp)).2.2.1
  have hff := findFrame_eq hg.stack (n.toNat - 1) c (by simp) searchFuel (by
    simp only [searchFuel]; omega)
  rw [← hfp] at hff
  rw [insn_32 hi (by decide) (by decide), pexec32]
  simp only [callee]
  by_cases hn : n.toNat = 0
  · have hn' : n = 0 := BitVec.eq_of_toNat_eq (by rw [hn]; rfl)
    rw [if_pos hn]
    simp only
    rw [procedureCall, if_pos hn']
    rfl
  · have hn' : ¬ n = 0 := by rintro rfl; exact hn rfl
    rw [if_neg hn]
    cases ha : c.ancestor (n.toNat - 1) with
    | none =>
      rw [ha] at hff
      simp only [Option.map_none] at hff ⊢
      rw [procedureCall, if_neg hn', hff]
      rfl
    | some e =>
      rw [ha] at hff
      simp only [Option.map_some] at hff ⊢
      rw [procedureCall_eq s n e.addr hn' hff hr1 hr2]
      refine ⟨_, rfl, rfl, ?_, ⟨_, _, rfl, rfl⟩, ?_⟩
      · have hta : (s.sp + 2#16).toNat / 2 = s.top + 1 := VM.add2_div _ (by
          show s.top + 1 < 32768; omega)
        obtain ⟨hem, hel⟩ := ancestor_mem hg.stack _ c (by simp) e ha
        have hsp := hg.sp
        rw [hfp] at hsp
        have hle := hg.stack.addr_le
        refine .frame ?_ n.toNat (s.sp + 2#16) e hem ?_ ?_ ?_ ?_ ?_ ?_ n.isLt
        · refine hg.stack.congr ?_ rfl
          intro x hx k hk
          have := hle x hx
          show updW _ _ _ _ = _
          rw [updW_other _ _ (by omega), updW_other _ _ (by omega), updW_other _ _ (by omega),
            updW_other _ _ (by omega), updW_other _ _ (by omega)]
        · rw [hta]; omega
        · rw [hta]; exact hr1
        · rw [hta]
          show updW _ _ _ _ = _
          rw [updW_other _ _ (by omega), updW_other _ _ (by omega), updW_other _ _ (by omega),
            updW_other _ _ (by omega)]
          exact updW_same _ _ _
        · rw [hta]
          show updW _ _ _ _ = _
          rw [updW_other _ _ (by omega), updW_other _ _ (by omega), updW_other _ _ (by omega)]
          rw [updW_same]; exact hfp
        · rw [hta]
          show (updW _ _ _ (s.top + 5)).toNat % 256 = _
          rw [updW_same]
          have : ((s.lsp <<< 8 ||| n.zeroExtend 16).truncate 8 : Byte) = n := by
            ext i hi
            simp [hi]
          have h2 := congrArg BitVec.toNat this
          rw [BitVec.toNat_setWidth] at h2
          exact h2
        · rw [hel]; omega
      · show (s.sp + 2#16).toNat / 2 + 4 ≤ (s.sp + 10#16).toNat / 2
        simp only [VM.top] at hr2
        bv_omega

/-- Effect of RET in a good state. -/
theorem ret_effect (lib : Lib) (code : List Byte) (maxpc : Word) {s : VM} {c b : Act}
    {rest : List Act} (hg : Good s (c :: b :: rest)) (hi : Next code maxpc s .ret)
    (hsp : s.sp.toNat / 2 = s.fp.toNat / 2 + 4) :
    ∃ s', execute lib code maxpc s = .ok (eNOERROR, s') ∧ Good s' (b :: rest) := by
  obtain ⟨hst, hcur, hsp'⟩ := hg
  have hfp : s.fp = c.addr := by
    obtain ⟨c', r', h, h'⟩ := hcur; cases h; exact h'
  cases hst with
  | frame hs n a e he hb hw' hst hdy hl hn hn2 =>
    change s.fp = a at hfp
    change s.top = _ at hsp
    rw [hfp] at hsp
    rw [execute_8 (at_of_next hi) (by decide) (by decide), ret_eq s (by omega) (by omega)]
    refine ⟨_, rfl, hs.congr (fun _ _ _ _ => rfl) rfl, ⟨_, _, rfl, ?_⟩, ?_⟩
    · show s.mem (s.top - 3) = b.addr
      rw [← hdy]; congr 1; omega
    · show (s.mem (s.top - 3)).toNat / 2 + 4 ≤ (s.sp - 10#16).toNat / 2
      have : s.mem (s.top - 3) = b.addr := by rw [← hdy]; congr 1; omega
      rw [this]
      have : (s.sp - 10#16).toNat / 2 = s.top - 5 := by
        have : 5 ≤ s.sp.toNat / 2 := by change 5 ≤ s.top; omega
        simp only [VM.top]; bv_omega
      omega

theorem run_good {lib : Lib} {code : List Byte} {maxpc : Word} {s : VM} {stk : List Act}
    (h : Run lib code maxpc s stk) : Good s stk := by
  induction h with
  | init s h =>
    exact ⟨.base _ (by rw [h.level]; rfl) h.inMem, ⟨_, _, rfl, rfl⟩, h.below⟩
  | body h hfp hw hsp hm ih =>
    refine ⟨ih.stack.congr hm hw, ?_, hsp⟩
    obtain ⟨c', r', h1, h2⟩ := ih.cur
    exact ⟨c', r', h1, by rw [hfp]; exact h2⟩
  | call h hi hroom hx hc ih =>
    have := call_effect lib code maxpc ih hi hroom.1 hroom.2
    rw [hc] at this
    obtain ⟨s'', h1, _, h2⟩ := this
    rw [h1] at hx
    cases hx
    exact h2
  | ret h hi hsp hx ih =>
    obtain ⟨s'', h1, h2⟩ := ret_effect lib code maxpc ih hi hsp
    rw [h1] at hx
    cases hx
    exact h2

theorem link_of_stack {s : VM} {stk : List Act} (h : Stack s stk) :
    ∀ x ∈ stk, ∀ d ≤ x.level, ∃ g, x.out d = some g ∧ g ∈ stk ∧ g.level + d = x.level ∧
      Link s d x.addr g.addr := by
  intro x
  induction x with
  | main a =>
    intro hx d hd
    have : d = 0 := by simpa [Act.level] using hd
    subst this
    exact ⟨_, rfl, hx, rfl, .here _⟩
  | proc n a e ih =>
    intro hx d hd
    obtain ⟨h1, h2, h3, h4⟩ := h.mem_info _ hx
    obtain ⟨h5, h6, h7⟩ := h4 _ _ _ rfl
    cases d with
    | zero => exact ⟨_, rfl, hx, rfl, .here _⟩
    | succ d =>
      simp only [Act.level] at hd
      obtain ⟨g, g1, g2, g3, g4⟩ := ih h7 d (by omega)
      refine ⟨g, g1, g2, by show g.level + (d + 1) = n; omega, ?_⟩
      simp only [Act.addr] at h1 ⊢
      exact .out (by omega) (by rw [h5]; exact g4)

/-- **C07** (access): in every state of every history, following `d` static links from the
current frame reaches the activation `d` lexical levels out, whose level is `d` less. -/
theorem C07_static_links (lib : Lib) (code : List Byte) (maxpc : Word) (s : VM) (c : Act)
    (rest : List Act) (h : Run lib code maxpc s (c :: rest)) (d : Nat) (hd : d ≤ c.level) :
    s.fp = c.addr ∧ ∃ g, c.out d = some g ∧ g ∈ c :: rest ∧ g.level = c.level - d ∧
      Link s d s.fp g.addr := by
  have hg := run_good h
  have hfp : s.fp = c.addr := by
    obtain ⟨c', r', h, h'⟩ := hg.cur; cases h; exact h'
  obtain ⟨g, g1, g2, g3, g4⟩ := link_of_stack hg.stack c (by simp) d hd
  exact ⟨hfp, g, g1, g2, by omega, by rw [hfp]; exact g4⟩

/-- **C07** (call): in every state of every history a call of a routine of level `n` succeeds
exactly if an activation of level `n - 1` is visible; its static link then is that activation
(it is the `encl` of the new activation), otherwise the nesting-level error is reported and
memory, stack and frame registers are unchanged. -/
theorem C07_call (lib : Lib) (code : List Byte) (maxpc : Word) (s : VM) (c : Act)
    (rest : List Act) (n : Byte) (t : Word) (h : Run lib code maxpc s (c :: rest))
    (hi : Insn code maxpc s .pcal n t)
    (hroom : s.sp.toNat / 2 + 5 < s.words ∧ s.sp.toNat / 2 + 5 < 32768) :
    match callee n.toNat (s.sp + 2#16) c with
    | some new => ∃ s', execute lib code maxpc s = .ok (eNOERROR, s') ∧ s'.pc = t ∧
        Run lib code maxpc s' (new :: c :: rest) ∧
        ∃ e, c.ancestor (n.toNat - 1) = some e ∧ e.level + 1 = n.toNat ∧
          s'.mem (s'.fp.toNat / 2) = e.addr
    | none => execute lib code maxpc s = .ok (eNESTINGLEVEL, { s with pc := t }) := by
  have hg := run_good h
  have := call_effect lib code maxpc hg hi hroom.1 hroom.2
  cases hc : callee n.toNat (s.sp + 2#16) c with
  | none => rw [hc] at this; exact this
  | some new =>
    rw [hc] at this
    obtain ⟨s', h1, h2, h3⟩ := this
    refine ⟨s', h1, h2, .call h hi hroom h1 hc, ?_⟩
    simp only [callee] at hc
    split at hc
    · cases hc
    · cases ha : c.ancestor (n.toNat - 1) with
      | none => rw [ha] at hc; cases hc
      | some e =>
        rw [ha] at hc
        cases hc
        obtain ⟨_, hel⟩ := ancestor_mem hg.stack _ c (by simp) e ha
        refine ⟨e, rfl, by omega, ?_⟩
        have hfp : s'.fp = s.sp + 2#16 := by
          obtain ⟨c', r', h, h'⟩ := h3.cur; cases h; exact h'
        rw [hfp]
        exact ((h3.stack.mem_info (.proc n.toNat (s.sp + 2#16) e) (by simp)).2.2.2 _ _ _ rfl).1

/-- **C07** (return): RET from the innermost activation always succeeds and makes the caller
current again. -/
theorem C07_return (lib : Lib) (code : List Byte) (maxpc : Word) (s : VM) (c b : Act)
    (rest : List Act) (h : Run lib code maxpc s (c :: b :: rest)) (hi : Next code maxpc s .ret)
    (hsp : s.sp.toNat / 2 = s.fp.toNat / 2 + 4) :
    ∃ s', execute lib code maxpc s = .ok (eNOERROR, s') ∧ Run lib code maxpc s' (b :: rest) ∧
      s'.fp = b.addr := by
  obtain ⟨s', h1, h2⟩ := ret_effect lib code maxpc (run_good h) hi hsp
  refine ⟨s', h1, .ret h hi hsp h1, ?_⟩
  obtain ⟨c', r', h, h'⟩ := h2.cur; cases h; exact h'

/-- Non-vacuity: a history with a call of level 1 and inside it a call of level 2. -/
example : ∃ s, Run ⟨fun _ _ => .ub, fun _ _ => .ub, fun _ _ => .ub, fun _ _ => .ub,
    fun _ _ _ => .ub, fun _ _ => .ub, fun _ _ => .ub⟩
    [Op.pcal.toByte, 1, 0, 4, Op.pcal.toByte, 2, 0, 8] 8#16 s
    [.proc 2 52#16 (.proc 1 42#16 (.main 0#16)), .proc 1 42#16 (.main 0#16), .main 0#16] :=
  ⟨_, .call (n := 2) (t := 8#16) (.call (n := 1) (t := 4#16)
    (.init (sampleMem (fun _ => 0#16)) ⟨rfl, by decide, by decide⟩)
    ⟨⟨by decide, rfl⟩, fun _ => rfl, fun _ => ⟨0, 4, rfl, rfl, by decide⟩⟩
    ⟨by decide, by decide⟩ rfl rfl)
    ⟨⟨by decide, rfl⟩, fun _ => rfl, fun _ => ⟨0, 8, rfl, rfl, by decide⟩⟩
    ⟨by decide, by decide⟩ rfl rfl⟩

/-- **C06** (level register): however long a program runs, the static level register stays a
byte, so the level word that a call stores can always be unpacked again by the return.
`lib.Keeps` says the library routines leave the register alone. -/
theorem C06_level_byte (lib : Lib) (hl : lib.Keeps) (code : List Byte) (maxpc : Word) (k : Nat)
    (s s' : VM) (e : Nat) (h0 : s.lsp.toNat < 256)
    (h : runFor lib code maxpc k s = .ok (e, s')) : s'.lsp.toNat < 256 :=
  ((runFor_keep hl code maxpc k s).ok h).lsp h0

/-- **C53**: however long a program runs, the size of the memory and the registers that
describe its regions (string stack, constants, Pascal stack, heap) never change. -/
theorem C53_memory_map (lib : Lib) (hl : lib.Keeps) (code : List Byte) (maxpc : Word) (k : Nat)
    (s s' : VM) (e : Nat) (h : runFor lib code maxpc k s = .ok (e, s')) :
    s'.words = s.words ∧ s'.spb = s.spb ∧ s'.hpb = s.hpb ∧ s'.rop = s.rop ∧
      s'.strSize = s.strSize ∧ s'.roSize = s.roSize ∧ s'.stkSize = s.stkSize ∧
      s'.hpSize = s.hpSize :=
  have h := (runFor_keep hl code maxpc k s).ok h
  ⟨h.words, h.spb, h.hpb, h.rop, h.strSize, h.roSize, h.stkSize, h.hpSize⟩

/-- Non-vacuity: a library that keeps the registers, and a run of two instructions. -/
example : (⟨fun s _ => .ok (eNOERROR, s), fun s _ => .ok (eNOERROR, s), fun s _ => .ok (eNOERROR, s),
    fun s _ => .ok (eNOERROR, s), fun s _ _ => .ok (eNOERROR, s), fun s _ => .ok (eNOERROR, s),
    fun s _ => .ok (eNOERROR, s)⟩ : Lib).Keeps :=
  ⟨fun s _ => Keep.refl s, fun s _ => Keep.refl s, fun s _ => Keep.refl s, fun s _ => Keep.refl s,
   fun s _ => Keep.refl s, fun s _ => Keep.refl s, fun s _ _ => Keep.refl s⟩

example (lib : Lib) : ∃ s', runFor lib [Op.pushb.toByte, 5, Op.neg.toByte] 3#16 2
    (sampleMem (fun _ => 0#16)) = .ok (eNOERROR, s') := ⟨_, rfl⟩

end Pas
