import Verif.Lemmas.CompOut
import Verif.Lemmas.FilesReadExec

/-! The code of READ and READLN reads. -/
namespace Pas.Src
open Pas.Spec Pas.Comp
open Pas.Str (byte_updW)

theorem split_line {a b c d : List Byte} (h : a ++ 10#8 :: b = c ++ 10#8 :: d) (ha : 10#8 ∉ a)
    (hc : 10#8 ∉ c) : a = c ∧ b = d := by
  induction a generalizing c with
  | nil =>
    cases c with
    | nil => exact ⟨rfl, by simpa using h⟩
    | cons x c =>
      simp only [List.nil_append, List.cons_append, List.cons.injEq] at h
      exact absurd (by rw [h.1]; exact List.mem_cons_self) hc
  | cons y a ih =>
    cases c with
    | nil =>
      simp only [List.nil_append, List.cons_append, List.cons.injEq] at h
      exact absurd (by rw [← h.1]; exact List.mem_cons_self) ha
    | cons x c =>
      simp only [List.cons_append, List.cons.injEq] at h
      obtain ⟨e1, e2⟩ := ih h.2 (fun h => ha (List.mem_cons_of_mem _ h)) (fun h => hc (List.mem_cons_of_mem _ h))
      exact ⟨by rw [h.1, e1], e2⟩

/-- Something has been read from the standard input; the rest is as before but for variables. -/
structure Rd (Γ : Env) (s t : VM) : Prop where
  keeps : Γ.Keeps true s t
  sp : t.sp = s.sp
  number : t.io.table 1 = s.io.table 1
  files : t.io.files = s.io.files

theorem Rd.top {Γ : Env} {s t : VM} (h : Rd Γ s t) : t.top = s.top := by rw [VM.top, h.sp]; rfl
theorem Rd.refl (Γ : Env) (s : VM) : Rd Γ s s := ⟨.refl _ _ _, rfl, rfl, rfl⟩
theorem Rd.trans {Γ : Env} {s t u : VM} (h : Rd Γ s t) (h' : Rd Γ t u) : Rd Γ s u :=
  ⟨h.keeps.trans h'.keeps (Nat.le_of_eq h.top.symm), by rw [h'.sp, h.sp], by rw [h'.number, h.number],
    by rw [h'.files, h.files]⟩
theorem Rd.free {Γ : Env} {s t : VM} {n : Nat} (h : Rd Γ s t) (hf : Free s n) : Free t n := by
  unfold Free; rw [h.top, h.keeps.words]; exact hf
theorem Rd.output {Γ : Env} {lib : Lib} {ro : List Byte} {b : Nat} {s t : VM} {text : List Byte}
    (h : Rd Γ s t) (ho : Γ.Output lib ro s b text) (hb : b ≤ s.top) : Γ.Output lib ro t b text := by
  refine h.keeps.output_of ho hb ?_ ?_
  · obtain ⟨h1, h2⟩ := ho.stream
    refine ⟨h1, ?_⟩
    unfold fileText at h2 ⊢
    have e : t.io.table (1#16).toNat = s.io.table (1#16).toNat := h.number
    rw [h.files, e]; exact h2
  · have := ho.text
    unfold fileText at this ⊢
    rw [h.files]; exact this

/-- The address of a variable. -/
theorem las_runs {lib : Lib} {Γ : Env} (hΓ : Γ.Ok) {s : VM} {b : Nat} (hi : Γ.In s b) (hf : Free s 1)
    {x : Variable} (hx : Γ.vars x) :
    ∃ a : Word, a.toNat = Γ.addr x ∧ Runs lib [ref Γ.level .las x] s (psh s a) := by
  obtain ⟨hr0, hr1⟩ := ref_addr hΓ hi hx
  unfold ref
  by_cases h0 : x.level = 0
  · refine ⟨_, hr0 h0, ?_⟩
    rw [if_pos h0]
    refine .one (o := .la) rfl rfl ?_
    rw [load_effect (o := .la) rfl rfl hf]
    show (do let v ← Res.ok (s.spb + (ins .la 0 x.off).arg2); Res.ok (psh s v)) = _
    rw [Res.ok_bind]
    show Res.ok (psh s (s.spb + BitVec.ofInt 16 x.off)) = Res.ok _
    rfl
  · obtain ⟨a, ha, hb⟩ := hr1 h0
    refine ⟨a, ha, ?_⟩
    rw [if_neg h0]
    refine .one (o := .las) rfl rfl ?_
    rw [load_effect (o := .las) rfl rfl hf]
    show (getBaseAddress s (BitVec.ofInt 8 ((Γ.level : Int) - x.level))
      (signExtend16 (BitVec.ofInt 16 x.off)) >>= fun v => Res.ok (psh s v)) = _
    rw [hb]
    rfl

/-- The number of the standard input. -/
theorem ld0_runs {lib : Lib} {Γ : Env} {s : VM} {b : Nat} {i : Inp} (hi : Γ.In s b)
    (ho : Γ.Input lib s b i) (hf : Free s 1) : Runs lib [ins .ld 0 0] s (psh s 0#16) := by
  refine .one (ins_op .ld 0 0) rfl ?_
  rw [load_effect (ins_op .ld 0 0) rfl hf]
  have e : (s.spb + BitVec.ofInt 16 0).toNat = s.spb.toNat := by
    rw [show BitVec.ofInt 16 0 = 0#16 from rfl]
    bv_omega
  have h1 : loadV s .ld (ins .ld 0 0).arg1 (ins .ld 0 0).arg2 = .ok 0#16 := by
    show s.getStack (s.spb + BitVec.ofInt 16 0) = _
    have hb := hi.bound
    have := ho.inside
    rw [VM.getStack, VM.rd_eq _ (by rw [e]; omega), e, ho.number]
  rw [h1]
  rfl

/-- An instruction that has read, and what was pushed before for it. -/
theorem rd_of {Γ : Env} {s u s' : VM} {k pos : Nat} {e : Bool}
    (h : DidRead { u with pc := 0 } s' k 0#16 .stdin pos e) (hsp : u.sp - BitVec.ofNat 16 (2 * k) = s.sp)
    (hr : u = { s with
      sp := u.sp
      mem := u.mem })
    (hk : ∀ a, a / 2 ≤ s.top → (∀ y, Γ.vars y → ¬ Γ.Owns y a) → byte s'.mem a = byte s.mem a) :
    Rd Γ s { s' with pc := s.pc } := by
  have hio : u.io = s.io := by have := congrArg VM.io hr; exact this
  have e2 : s'.sp = s.sp := h.sp.trans hsp
  have hn : ∀ i, i ≠ 0 → s'.io.table i = s.io.table i := fun i hi => by
    rw [h.numbers i hi]; show u.io.table i = _; rw [hio]
  have hf : s'.io.files = s.io.files := by
    rw [h.files]; show u.io.files = _; rw [hio]
  refine ⟨⟨?_, (fun h => by cases h), fun f _ => by rw [hf], fun i h0 _ => hn i h0, hk⟩, e2, hn 1 (by decide), hf⟩
  have e := congrArg (fun z : VM => ({ z with pc := s.pc } : VM)) h.regs
  have e3 := congrArg (fun z : VM => ({ z with
    pc := s.pc
    sp := s'.sp
    mem := s'.mem
    io := s'.io } : VM)) hr
  exact e.trans e3

theorem input_comes {Γ : Env} {lib : Lib} {s : VM} {b : Nat} {i : Inp} (ho : Γ.Input lib s b i) :
    ∃ pos, OpenIn s 0#16 .stdin pos ∧
      ∀ skip next, 10#8 ∉ skip → i.rest = (if i.begun then skip ++ [10#8] else []) ++ next →
        (fileText s .stdin).drop pos = next := by
  obtain ⟨pos, h1, h2⟩ := ho.stream
  refine ⟨pos, h1, fun skip next hs he => ?_⟩
  cases hb : i.begun with
  | false =>
    rw [hb] at h2 he
    simp only [Bool.false_eq_true, if_false, List.nil_append] at h2 he
    rw [← h2, he]
  | true =>
    rw [hb] at h2 he
    simp only [if_true] at h2 he
    obtain ⟨tail, g1, g2⟩ := h2
    rw [he, List.append_assoc] at g2
    exact (split_line g2 hs g1).2.symm

theorem drop_line {l line more : List Byte} {pos : Nat} (h : l.drop pos = line ++ 10#8 :: more) :
    l.drop (pos + (line.length + 1)) = more := by
  rw [← List.drop_drop, h, List.drop_append, List.drop_eq_nil_of_le (by omega)]
  simp

/-- The code that reads into one variable. -/
theorem read1_runs {lib : Lib} {Γ : Env} (hΓ : Γ.Ok) {σ : Store} {b : Nat} {x : Variable} (hx : Γ.vars x)
    (hty : x.ty = .num .integer ∨ x.ty = .char) {i i' : Inp} {v : Val} (hv : Reads1 x.ty i v i')
    {s : VM} (hi : Γ.In s b) (hh : Γ.Holds s.mem σ) (ho : Γ.Input lib s b i) (hb : b < s.top)
    (h0 : s.mem s.top = 0#16) (hf : Free s 2) :
    ∃ t, Runs lib (codeV Γ.level x) s t ∧ Rd Γ s t ∧ Γ.Holds t.mem (σ.set x v) ∧ Γ.Input lib t b i' := by
  have hp1 := psh_pushed (s := s) (Nat.le_refl 1) (s.mem s.top)
  have f1 : Free (psh s (s.mem s.top)) 1 := hp1.free hf
  have t1 := psh_top (v := s.mem s.top) (hf.mono (show 1 ≤ 2 by omega))
  have r1 := dup_runs (lib := lib) (s := s) (hf.mono (by omega))
  have s1 := hp1.same (b := b) (by omega)
  generalize hu1 : psh s (s.mem s.top) = u1 at *
  obtain ⟨a, ha, r2⟩ := las_runs (lib := lib) hΓ (s1.in_ hi) f1 hx
  have hp2 := psh_pushed (s := u1) (Nat.le_refl 1) a
  have t2 := psh_top (v := a) f1
  generalize hu2 : psh u1 a = u2 at *
  have k1 : ∀ j, j ≤ s.top → u1.mem j = s.mem j := fun j hj => hp1.kept j (.inl hj)
  have k2 : ∀ j, j ≤ u1.top → u2.mem j = u1.mem j := fun j hj => hp2.kept j (.inl hj)
  have hall : ∀ j, j ≤ s.top → u2.mem j = s.mem j := fun j hj => by
    rw [k2 j (by omega), k1 j hj]
  have o0 : opnd u2 0 = a := by
    show u2.mem (u2.top - 0) = _
    rw [Nat.sub_zero, t2]; exact hp2.value
  have o1 : opnd u2 1 = 0#16 := by
    show u2.mem (u2.top - 1) = _
    rw [t2, Nat.add_sub_cancel, k2 _ (Nat.le_refl _), t1, ← h0]; exact hp1.value
  have hregs : u2 = { s with
      sp := u2.sp
      mem := u2.mem } :=
    (regs_set hp2.regs u2.sp u2.mem).trans (regs_set hp1.regs u2.sp u2.mem)
  have hwords : u2.words = s.words := by have := congrArg VM.words hregs; exact this
  have hio : u2.io = s.io := by have := congrArg VM.io hregs; exact this
  have hsp : u2.sp - BitVec.ofNat 16 (2 * 2) = s.sp := by
    rw [hp2.sp, hp1.sp]; bv_omega
  have hroom : Room { u2 with pc := 0 } 2 := ⟨by show 2 ≤ u2.top + 1; omega, by
    show u2.top < u2.words
    rw [hwords]; have := hf.1; omega⟩
  have hin := hi.inside x hx
  have hbd := hi.bound
  obtain ⟨fpu, host, hlib⟩ := ho.lib
  obtain ⟨pos, g1, g2⟩ := input_comes ho
  have g1' : OpenIn { u2 with pc := 0 } (opnd { u2 with pc := 0 } 1) .stdin pos := by
    show OpenIn { u2 with pc := 0 } (opnd u2 1) .stdin pos
    rw [o1]
    refine ⟨g1.number, ?_, ?_⟩
    · show (u2.io.table 0).openMode = _
      rw [hio]; exact g1.mode
    · show ∃ t, (u2.io.table 0).stream = _ ∧ _
      rw [hio]; exact g1.isOpen
  have hh2 : Γ.Holds u2.mem σ := (hp2.same (b := b) (by omega)).holds (s1.in_ hi) (s1.holds hi hh)
  have low : ∀ a, a / 2 ≤ s.top → byte u2.mem a = byte s.mem a := fun a ha => by
    unfold byte; rw [hall _ ha]
  have fin : ∀ {s' : VM} {line more : List Byte}, DidRead { u2 with pc := 0 } s' 2 0#16 .stdin
        (pos + (line.length + 1)) true → (fileText s .stdin).drop pos = line ++ 10#8 :: more →
      (∀ a, ¬ Γ.Owns x a → byte s'.mem a = byte u2.mem a) → ∀ tail, 10#8 ∉ tail →
      i' = ⟨true, tail ++ 10#8 :: more⟩ →
      Rd Γ s { s' with pc := s.pc } ∧ Γ.Input lib { s' with pc := s.pc } b i' := by
    intro s' line more hd hl hk tail ht hi'
    have hrd : Rd Γ s { s' with pc := s.pc } := rd_of hd hsp hregs fun a ha hn => by
      rw [hk a (hn x hx), low a ha]
    refine ⟨hrd, hrd.keeps.input_of ho (by omega) ?_ ?_⟩
    · refine ⟨_, ⟨hd.stream.1, hd.stream.2, hd.stream.3⟩, ?_⟩
      have : fileText { s' with pc := s.pc } .stdin = fileText s .stdin := by
        unfold fileText
        show (s'.io.files .stdin).getD [] = _
        rw [show s'.io.files = s.io.files from hrd.files]
      rw [hi']
      simp only [if_true]
      exact ⟨tail, ht, by rw [this, drop_line hl]⟩
    · rw [hi']
      have := congrArg FileEntry.eoln hd.entry
      exact this
  have hcomes : ∀ line more, (fileText s .stdin).drop pos = line ++ 10#8 :: more → 10#8 ∉ line → 0#8 ∉ line →
      LineComes { u2 with pc := 0 } .stdin pos line more := by
    intro line more h1 h2 h3
    refine ⟨?_, h2, h3⟩
    unfold fileText at h1 ⊢
    show ((u2.io.files .stdin).getD []).drop pos = _
    rw [hio]; exact h1
  have code : ∀ {c : Int} {t : VM}, Runs lib [ins .sysio 0 c] u2 t →
      (if x.ty = .char then 0x15 else 0x14) = c → Runs lib (codeV Γ.level x) s t := by
    intro c t hr hc
    unfold codeV
    rw [hc]
    exact r1.append (r2.append hr)
  generalize hT : x.ty = T at hv
  cases hv with
  | @int begun skip blanks num tail more n hskip hskip' hbl hnum hlo hhi htail hnl hnul hlen =>
    have hl := g2 skip _ hskip' rfl
    have hii := insn_alone (i := ins .sysio 0 0x14) (o := .sysio) rfl u2
    have hs2 : x.ty.size = 2 := by rw [hT]; rfl
    have hal := hΓ.aligned x hx hs2
    obtain ⟨s', e1, e2, e3, e4⟩ := read_integer_did lib fpu host hlib _ _ { u2 with pc := 0 } hroom hii
      (by show (opnd u2 0).toNat % 2 = 0; rw [o0, ha]; exact hal)
      (by show (opnd u2 0).toNat / 2 < u2.words; rw [o0, ha, hwords]; omega)
      .stdin pos g1' (blanks ++ num ++ tail) more (hcomes _ _ hl hnl hnul) hlen n
      ⟨blanks, num, tail, rfl, hbl, hnum, fun c hc => htail c hc⟩ hlo hhi
    have ha2 : (opnd { u2 with pc := 0 } 0).toNat = Γ.addr x := by
      show (opnd u2 0).toNat = _
      rw [o0, ha]
    rw [ha2] at e3 e4
    rw [show opnd { u2 with pc := 0 } 1 = 0#16 from o1] at e2
    have hk : ∀ a, ¬ Γ.Owns x a → byte s'.mem a = byte u2.mem a := by
      intro a hna
      unfold byte
      rw [e4 (a / 2)]
      intro he
      exact hna ⟨by omega, by omega⟩
    obtain ⟨f1, f2⟩ := fin e2 hl hk tail (fun h => hnl (List.mem_append_right _ h)) rfl
    refine ⟨{ s' with pc := s.pc }, code (c := 0x14) (.one (ins_op .sysio 0 0x14) rfl ?_) (by rw [hT]; rfl),
      ?_, ?_, ?_⟩
    · rw [effect, alone, e1]
      have : u2.pc = s.pc := by have := congrArg VM.pc hregs; exact this
      show Res.ok { s' with pc := u2.pc } = _
      rw [this]
    · exact f1
    · refine hΓ.holds_set' hx hh2 hk ?_ (fun _ => e3) (fun h => by omega)
      rw [hT]; exact ⟨rfl, by simp only; omega⟩
    · exact f2
  | @char c tail more hnl hnul hlen =>
    have hl : (fileText s .stdin).drop pos = (c :: tail) ++ 10#8 :: more := g2 [] _ (by simp) rfl
    have hii := insn_alone (i := ins .sysio 0 0x15) (o := .sysio) rfl u2
    have hs1 : x.ty.size = 1 := by rw [hT]; rfl
    obtain ⟨s', e1, e2, e3, e4⟩ := read_char_did lib fpu host hlib _ _ { u2 with pc := 0 } hroom hii
      (by show (opnd u2 0).toNat < 2 * u2.words; rw [o0, ha, hwords]; omega)
      .stdin pos g1' c tail more (hcomes _ _ hl hnl hnul) hlen
    have ha2 : (opnd { u2 with pc := 0 } 0).toNat = Γ.addr x := by
      show (opnd u2 0).toNat = _
      rw [o0, ha]
    rw [ha2] at e3 e4
    rw [show opnd { u2 with pc := 0 } 1 = 0#16 from o1] at e2
    have hk : ∀ a, ¬ Γ.Owns x a → byte s'.mem a = byte u2.mem a := by
      intro a hna
      refine e4 a (fun he => hna ⟨by omega, by omega⟩)
    obtain ⟨f1, f2⟩ := fin e2 hl hk tail (fun h => hnl (List.mem_cons_of_mem _ h)) rfl
    refine ⟨{ s' with pc := s.pc }, code (c := 0x15) (.one (ins_op .sysio 0 0x15) rfl ?_) (by rw [hT]; rfl),
      ?_, ?_, ?_⟩
    · rw [effect, alone, e1]
      have : u2.pc = s.pc := by have := congrArg VM.pc hregs; exact this
      show Res.ok { s' with pc := u2.pc } = _
      rw [this]
    · exact f1
    · refine hΓ.holds_set' hx hh2 hk (by rw [hT]; trivial) (fun h => by omega) (fun _ => ?_)
      show byte s'.mem _ = _
      rw [e3]
      apply BitVec.eq_of_toNat_eq
      have := c.isLt
      simp [Val.word]
    · exact f2

/-- The code that reads into several variables. -/
theorem readVars_runs {lib : Lib} {Γ : Env} (hΓ : Γ.Ok) {b : Nat} {ro : List Byte} :
    ∀ {xs : List Variable} {σ τ : State}, ReadVars xs σ τ →
    (∀ y ∈ xs, Γ.vars y ∧ (y.ty = .num .integer ∨ y.ty = .char)) →
    ∀ {s : VM}, Γ.In s b → Γ.Has lib ro s b σ → b < s.top → s.mem s.top = 0#16 → (xs ≠ [] → Free s 2) →
    ∃ t, Runs lib (codeVs Γ.level xs) s t ∧ Rd Γ s t ∧ Γ.Has lib ro t b τ := by
  intro xs σ τ h
  induction h with
  | nil => intro _ s hi hh hb h0 hf; exact ⟨s, .nil _, .refl _ _, hh⟩
  | @cons x xs σ i v i' τ h1 h2 h3 ih =>
    intro hok s hi hh hb h0 hf
    obtain ⟨hx, hty⟩ := hok x (by simp)
    obtain ⟨t, r1, d1, q1, q2⟩ := read1_runs (lib := lib) hΓ hx hty h2 hi hh.holds (hh.input i h1) hb h0
      (hf (List.cons_ne_nil _ _))
    obtain ⟨u, r2, d2, q3⟩ := ih (fun y hy => hok y (List.mem_cons_of_mem _ hy)) (s := t)
      (d1.keeps.in_ hi (by omega))
      ⟨q1, fun text ht => d1.output (hh.output text ht) (by omega), fun j hj => by cases hj; exact q2⟩
      (by rw [d1.top]; exact hb)
      (by rw [d1.top, d1.keeps.above hi hΓ (Nat.le_refl _) hb]; exact h0)
      (fun _ => d1.free (hf (List.cons_ne_nil _ _)))
    exact ⟨u, r1.append r2, d1.trans d2, q3⟩

/-- READLN: the instruction. -/
theorem readln_runs {lib : Lib} {Γ : Env} {b : Nat} {ro : List Byte} {σ τ : State} (h : NextLine σ τ) {s : VM}
    (hi : Γ.In s b) (hh : Γ.Has lib ro s b σ) (hb : b < s.top) (h0 : s.mem s.top = 0#16)
    (ht : s.top < s.words) :
    ∃ t, Runs lib [ins .sysio 0 0x11] s { t with sp := s.sp - 2#16 } ∧ Rd Γ s t ∧
      t.mem = s.mem ∧ Γ.Has lib ro t b τ := by
  obtain ⟨e1, e2⟩ := h
  rename_i begun line more
  have ho := hh.input _ e1
  obtain ⟨fpu, host, hlib⟩ := ho.lib
  obtain ⟨pos, g1, g2⟩ := ho.stream
  have hii := insn_alone (i := ins .sysio 0 0x11) (o := .sysio) rfl s
  have o0 : opnd { s with pc := 0 } 0 = 0#16 := by
    show s.mem (s.top - 0) = _
    rw [Nat.sub_zero, h0]
  have g1' : OpenIn { s with pc := 0 } (opnd { s with pc := 0 } 0) .stdin pos := by
    rw [o0]; exact ⟨g1.number, g1.mode, g1.isOpen⟩
  have heo : (s.io.table 0).eoln = begun := ho.eoln
  obtain ⟨s', x1, x2, x3⟩ := readln_did lib fpu host hlib _ _ { s with pc := 0 }
    ⟨by show 1 ≤ s.top + 1; omega, ht⟩ hii .stdin pos g1' line more (by
      rw [o0]
      intro he
      have he : (s.io.table 0).eoln = false := he
      rw [heo] at he
      subst he
      exact ⟨by have : line ++ 10#8 :: more = _ := g2; rw [this]; rfl, e2⟩)
  rw [o0] at x3
  have hio : s'.io.files = s.io.files := x3.files
  have hsp : s'.sp = s.sp - 2#16 := x3.sp
  have hrd : Rd Γ s { s' with
      pc := s.pc
      sp := s.sp } := by
    refine ⟨⟨?_, (fun h => by cases h), fun f _ => ?_, fun i h0 _ => x3.numbers i h0, fun a _ _ => ?_⟩, rfl,
      x3.numbers 1 (by decide), hio⟩
    · have := congrArg (fun z : VM => ({ z with
        pc := s.pc
        sp := s.sp } : VM)) x3.regs
      exact this
    · show s'.io.files f = _
      rw [hio]
    · show byte s'.mem a = _
      rw [x2]
  refine ⟨_, .one (ins_op .sysio 0 0x11) rfl ?_, hrd, x2, ?_, ?_, ?_⟩
  · rw [effect, alone, x1]
    show Res.ok { s' with pc := s.pc } = _
    rw [← hsp]
  · show Γ.Holds s'.mem σ.store
    rw [x2]; exact hh.holds
  · intro text ht
    exact hrd.output (hh.output text ht) (by omega)
  · intro j hj
    have hj : some (⟨false, more⟩ : Inp) = some j := hj
    cases hj
    refine hrd.keeps.input_of ho (by omega) ⟨_, ⟨x3.stream.1, x3.stream.2, x3.stream.3⟩, ?_⟩ ?_
    · have e : fileText { s' with
          pc := s.pc
          sp := s.sp } .stdin = fileText s .stdin := by
        unfold fileText
        show (s'.io.files .stdin).getD [] = _
        rw [hio]
      rw [e]
      show more = (fileText s .stdin).drop (if (s.io.table 0).eoln then pos else pos + (line.length + 1))
      rw [heo]
      cases begun with
      | true =>
        obtain ⟨tail, w1, w2⟩ := g2
        exact (split_line w2 e2 w1).2
      | false =>
        have w : line ++ 10#8 :: more = (fileText s .stdin).drop pos := g2
        exact (drop_line w.symm).symm
    · exact congrArg FileEntry.eoln x3.entry

theorem Env.Has.setSp {Γ : Env} {lib : Lib} {ro : List Byte} {t : VM} {b : Nat} {σ : State}
    (h : Γ.Has lib ro t b σ) (x : Word) : Γ.Has lib ro { t with sp := x } b σ := by
  refine ⟨h.holds, fun text ht => ?_, fun i hi => ?_⟩
  · obtain ⟨h1, h2, h3, h4, h5, h6, h7, h8, h9, h10⟩ := h.output text ht
    exact ⟨h1, ⟨h2.1, h2.2⟩, h3, h4, h5, h6, h7, h8, h9, h10⟩
  · obtain ⟨h1, ⟨pos, h2, h3⟩, h4, h5, h6, h7, h8⟩ := h.input i hi
    exact ⟨h1, ⟨pos, ⟨h2.1, h2.2, h2.3⟩, h3⟩, h4, h5, h6, h7, h8⟩

/-- The code of READ and READLN. -/
theorem read_runs {lib : Lib} {Γ : Env} (hΓ : Γ.Ok) {b : Nat} {ro : List Byte} {xs : List Variable}
    {σ τ υ : State} {ln : Bool} (h : ReadVars xs σ τ) (h' : if ln then NextLine τ υ else υ = τ)
    (hin : ∃ i, σ.inp = some i)
    (hok : ∀ y ∈ xs, Γ.vars y ∧ (y.ty = .num .integer ∨ y.ty = .char)) {s : VM} (hi : Γ.In s b)
    (hh : Γ.Has lib ro s b σ) (hb : b ≤ s.top) (hf : Free s 1) (hf' : xs ≠ [] → Free s 3) :
    ∃ t, Runs lib (ins .ld 0 0 :: (codeVs Γ.level xs ++
      [if ln then ins .sysio 0 0x11 else ins .inds 0 (-2)])) s t ∧ Γ.Keeps true s t ∧ t.sp = s.sp ∧
      Γ.Has lib ro t b υ := by
  obtain ⟨i, hin⟩ := hin
  have t1 := psh_top (v := 0#16) hf
  have hp := psh_pushed (s := s) (Nat.le_refl 1) 0#16
  have hsame := hp.same hb
  have r1 := ld0_runs hi (hh.input i hin) hf
  have hv : (psh s 0#16).mem (psh s 0#16).top = 0#16 := by rw [t1]; exact hp.value
  have hin1 : Γ.In (psh s 0#16) b := hsame.in_ hi
  obtain ⟨u, r2, d, q⟩ := readVars_runs (lib := lib) (ro := ro) hΓ h hok hin1
    ((hp.keeps Γ false).has hh hb (hsame.holds hi hh.holds)) (by omega) hv
    (fun hne => hp.free (hf' hne))
  have hk : Γ.Keeps true s u := (hp.keeps Γ true).trans d.keeps (by omega)
  have hu : u.sp - 2#16 = s.sp := by
    rw [d.sp]
    show s.sp + 2#16 - 2#16 = s.sp
    bv_omega
  cases ln with
  | true =>
    have hv' : u.mem u.top = 0#16 := by
      rw [d.top, d.keeps.above hin1 hΓ (Nat.le_refl _) (by omega)]; exact hv
    obtain ⟨t, r3, d3, m3, q3⟩ := readln_runs h' (d.keeps.in_ hin1 (by omega)) q (by rw [d.top]; omega) hv'
      (by rw [d.top, t1, d.keeps.words]; exact hf.1)
    refine ⟨_, r1.append (r2.append r3), ?_, hu, q3.setSp _⟩
    exact (hk.trans d3.keeps (by rw [d.top]; omega)).setSp _
  | false =>
    have h' : υ = τ := h'
    subst h'
    refine ⟨_, r1.append (r2.append (inds_runs u (-2))), hk.setSp _, ?_, q.setSp _⟩
    show u.sp + BitVec.ofInt 16 (-2) = s.sp
    rw [← hu, show BitVec.ofInt 16 (-2) = 65534#16 from rfl]; bv_omega

end Pas.Src
