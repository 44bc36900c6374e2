import Verif.Lemmas.CompExec
import Verif.Lemmas.FilesWrite

/-! The code of the items of WRITE writes them. -/
namespace Pas.Src
open Pas.Spec Pas.Comp

theorem overwritten_end {old bs new : List Byte} (h : Overwritten old old.length bs new) :
    new = old ++ bs := by
  apply List.ext_getElem?
  intro i
  rcases Nat.lt_or_ge i old.length with h1 | h1
  · rw [h.before i h1 h1, List.getElem?_append_left h1]
  · rw [List.getElem?_append_right h1]
    rcases Nat.lt_or_ge (i - old.length) bs.length with h2 | h2
    · have := h.inside _ h2
      rw [show old.length + (i - old.length) = i by omega] at this
      rw [this, List.getElem?_eq_getElem h2]
    · rw [h.after i (by omega), List.getElem?_eq_none h1, List.getElem?_eq_none h2]

theorem writeCall_pc {s : VM} {sub n : Word} {k : Nat} {P : List Byte → Prop} (hc : WriteCall s sub k n P)
    (x : Word) : WriteCall { s with pc := x } sub k n P := by
  cases hc <;> constructor

/-- `out` has been appended to the standard output, and `k` words have been popped. -/
structure Wr (s t : VM) (k : Nat) (text out : List Byte) : Prop where
  regs : t = { s with
    sp := s.sp - BitVec.ofNat 16 (2 * k)
    io := t.io }
  stream : OpenOut t 1#16 .stdout (text ++ out).length
  text : fileText t .stdout = text ++ out
  files : ∀ f, f ≠ .stdout → t.io.files f = s.io.files f
  numbers : ∀ i, i ≠ 1 → t.io.table i = s.io.table i

theorem Wr.of_wrote {s s' : VM} {k : Nat} {text out : List Byte}
    (hw : Wrote { s with pc := 0 } s' k 1#16 .stdout text.length out) (ht : fileText s .stdout = text) :
    Wr s { s' with pc := s.pc } k text out := by
  have h1 : fileText s' .stdout = text ++ out := by
    have := hw.text
    rw [show fileText { s with pc := 0 } .stdout = text from ht] at this
    exact overwritten_end this
  refine ⟨?_, ?_, h1, hw.files, hw.numbers⟩
  · have e := congrArg (fun z : VM => ({ z with pc := s.pc } : VM)) hw.regs
    have e2 : s'.sp = s.sp - BitVec.ofNat 16 (2 * k) := hw.sp
    refine Eq.trans e ?_
    dsimp only
    rw [e2]
  · rw [List.length_append]
    exact ⟨hw.stream.1, hw.stream.2⟩

/-- An instruction that writes. -/
theorem wr_runs {lib : Lib} {fpu : FloatOps.Fpu} {host : SysIo.Host} (hlib : lib.sysIo = SysIo.sysIo fpu host)
    {s : VM} {c : Int} {sub n : Word} {k : Nat} {P : List Byte → Prop} (hsub : BitVec.ofInt 16 c = sub)
    (hc : WriteCall s sub k n P) (hn : n = 1#16) (hr : Room s k) {text : List Byte} (ho : OpenOut s 1#16 .stdout text.length)
    (ht : fileText s .stdout = text) :
    ∃ t out, Runs lib [ins .sysio 0 c] s t ∧ P out ∧ Wr s t k text out := by
  have hi := insn_alone (i := ins .sysio 0 c) (o := .sysio) rfl s
  have e : (ins .sysio 0 c).arg2 = sub := hsub
  have e1 : (ins .sysio 0 c).arg1 = 0 := rfl
  rw [e, e1] at hi
  have hc' := writeCall_pc hc 0
  rw [hn] at hc'
  obtain ⟨s', out, h1, h2, h3⟩ := write_wrote lib fpu host hlib _ _ { s with pc := 0 } sub 1#16 k P hc' hr
    hi .stdout text.length ⟨ho.1, ho.2⟩
  refine ⟨_, out, .one (ins_op .sysio 0 c) rfl ?_, h2, .of_wrote h3 ht⟩
  rw [effect, alone, h1]
  rfl

/-- The instruction that writes a string. -/
theorem wr_string_runs {lib : Lib} {fpu : FloatOps.Fpu} {host : SysIo.Host}
    (hlib : lib.sysIo = SysIo.sysIo fpu host) {s : VM} (hr : Room s 5)
    (hm : (opnd s 2).toNat + (opnd s 3).toNat ≤ 2 * s.words) (ha : ¬ Temp (opnd s 1))
    (hn : opnd s 4 = 1#16) {text : List Byte} (ho : OpenOut s 1#16 .stdout text.length)
    (ht : fileText s .stdout = text) :
    ∃ t out, Runs lib [ins .sysio 0 0x20] s t ∧
      Justified ((opnd s 0).toNat / 256) (Spec.text s.mem (opnd s 2).toNat (opnd s 3).toNat) out ∧
      Wr s t 5 text out := by
  have hi := insn_alone (i := ins .sysio 0 0x20) (o := .sysio) rfl s
  have e : (ins .sysio 0 0x20).arg2 = 0x20#16 := rfl
  have e1 : (ins .sysio 0 0x20).arg1 = 0 := rfl
  rw [e, e1] at hi
  have ho' : OpenOut { s with pc := 0 } (opnd s 4) .stdout text.length := by
    rw [hn]; exact ⟨ho.1, ho.2⟩
  obtain ⟨s', out, h1, h2, h3⟩ := write_string_wrote lib fpu host hlib _ _ { s with pc := 0 } hr
    hi hm ha .stdout text.length ho'
  rw [show opnd { s with pc := 0 } 4 = 1#16 from hn] at h3
  refine ⟨_, out, .one (ins_op .sysio 0 0x20) rfl ?_, h2, .of_wrote h3 ht⟩
  rw [effect, alone, h1]
  rfl

/-- `out` has been appended to the standard output; otherwise only the memory above the stack differs. -/
structure Wrt (s t : VM) (text out : List Byte) : Prop where
  regs : t = { s with
    mem := t.mem
    io := t.io }
  mem : ∀ j, j ≤ s.top → t.mem j = s.mem j
  stream : OpenOut t 1#16 .stdout (text ++ out).length
  text : fileText t .stdout = text ++ out
  files : ∀ f, f ≠ .stdout → t.io.files f = s.io.files f
  numbers : ∀ i, i ≠ 1 → t.io.table i = s.io.table i

theorem Wrt.sp {s t : VM} {text out : List Byte} (h : Wrt s t text out) : t.sp = s.sp := by rw [h.regs]
theorem Wrt.top {s t : VM} {text out : List Byte} (h : Wrt s t text out) : t.top = s.top := by
  rw [VM.top, h.sp]; rfl
theorem Wrt.words {s t : VM} {text out : List Byte} (h : Wrt s t text out) : t.words = s.words := by
  rw [h.regs]
theorem Wrt.free {s t : VM} {text out : List Byte} {n : Nat} (h : Wrt s t text out) (hf : Free s n) :
    Free t n := by
  unfold Free; rw [h.top, h.words]; exact hf
theorem Wrt.same {s t : VM} {text out : List Byte} (h : Wrt s t text out) {b : Nat} (hb : b ≤ s.top) :
    Same b s t :=
  ⟨h.words, by rw [h.regs], by rw [h.regs], fun j hj => h.mem j (Nat.le_trans hj hb),
    by rw [h.regs]⟩
theorem Wrt.keeps {s t : VM} {text out : List Byte} (h : Wrt s t text out) (Γ : Env) :
    Γ.Keeps true s t := by
  refine ⟨?_, (fun h => by cases h), h.files, fun i _ => h.numbers i, fun a ha _ => ?_⟩
  · have e := h.regs
    have hsp := h.sp
    refine e.trans ?_
    rw [hsp]
  · unfold byte; rw [h.mem _ ha]
theorem Wrt.output {Γ : Env} {lib : Lib} {ro : List Byte} {b : Nat} {s t : VM} {text out : List Byte}
    (h : Wrt s t text out) (ho : Γ.Output lib ro s b text) (hb : b ≤ s.top) :
    Γ.Output lib ro t b (text ++ out) :=
  (h.keeps Γ).output_of ho hb h.stream h.text
theorem Wrt.input {Γ : Env} {lib : Lib} {b : Nat} {s t : VM} {text out : List Byte} {i : Inp}
    (h : Wrt s t text out) (ho : Γ.Input lib s b i) (hb : b ≤ s.top) : Γ.Input lib t b i :=
  (h.keeps Γ).input_same ho hb (h.numbers 0 (by decide)) (h.files .stdin (by decide))
theorem Wrt.trans {s t u : VM} {text o1 o2 : List Byte} (h : Wrt s t text o1) (h' : Wrt t u (text ++ o1) o2) :
    Wrt s u text (o1 ++ o2) := by
  refine ⟨?_, fun j hj => ?_, ?_, ?_, fun f hf => ?_, fun i hi => ?_⟩
  · have := congrArg (fun z : VM => ({ z with
      mem := u.mem
      io := u.io } : VM)) h.regs
    exact h'.regs.trans this
  · rw [h'.mem j (by rw [h.top]; exact hj), h.mem j hj]
  · rw [← List.append_assoc]; exact h'.stream
  · rw [← List.append_assoc]; exact h'.text
  · rw [h'.files f hf, h.files f hf]
  · rw [h'.numbers i hi, h.numbers i hi]

/-- The code for a field width. -/
theorem width_runs {lib : Lib} {Γ : Env} (hΓ : Γ.Ok) {σ : Store} {b : Nat} {w : Option (E .expr)}
    (hok : ∀ u ∈ w, u.Ok Γ.vars (.a (.num .shortInteger)) (.num .shortInteger)) {k : Nat}
    (hw : Width σ w k) {s : VM} (hi : Γ.In s b) (hh : Γ.Holds s.mem σ) (hb : b ≤ s.top)
    {m : Nat} (hm : match w with | none => m = 1 | some w => m = max w.toks.length 2)
    (hf : Free s m) :
    ∃ t n v, Runs lib (codeW Γ.level w) s t ∧ Pushed s n v t ∧ v.toNat / 256 = k := by
  cases w with
  | none =>
    have hw : k = 0 := hw
    have hm : m = 1 := hm
    subst hw hm
    exact ⟨_, 1, _, push_runs hf 0, psh_pushed (by omega) _, rfl⟩
  | some w =>
    obtain ⟨hw, hk⟩ := hw
    have hm : m = max w.toks.length 2 := hm
    subst hm
    have ho := hok w rfl
    obtain ⟨t, h1, h2, h3, h4⟩ := runs lib hΓ w _ _ _ s ho.2 hw ho.1 hi hh hb (hf.mono (by omega))
    have hf2 : Free s 2 := hf.mono (by omega)
    have hft : Free t 1 := h2.free hf2
    have hp := psh_pushed (s := t) (n := 1) (by omega) (BitVec.ofInt 16 8)
    obtain ⟨r1, r2, r3, r4, r5⟩ := h2.rep2 hp hf2 (BitVec.ofInt 16 (k * 256))
    refine ⟨_, _, _, h1.append ((push_runs hft 8).append
      (bin_runs (o := .sll) (r := BitVec.ofInt 16 (k * 256)) rfl ?_ ?_ ?_ 0 0)), r5, ?_⟩
    · omega
    · rw [r4, r1]; exact hf2.1
    · rw [r2, r3]
      show (if shiftOk (BitVec.ofInt 16 8) then Res.ok (BitVec.ofInt 16 ((Val.num IntTy.shortInteger k).word.toInt * 2 ^ (BitVec.ofInt 16 8).toNat)) else .ub) = _
      rw [if_pos (by decide)]
      have e : (Val.num IntTy.shortInteger k).word.toInt = k := by
        show (BitVec.ofInt 16 (k : Int)).toInt = k
        rw [BitVec.toInt_ofInt]; exact Int.bmod_eq_of_le (by omega) (by omega)
      rw [e]
      rfl
    · rw [BitVec.toNat_ofInt]; omega

theorem decimal_int {l : List Byte} {n : Nat} (h : Decimal l n) : DecimalInt l n := .inl ⟨n, rfl, h⟩

/-- Values of three words that were pushed on top of each other. -/
theorem three {s u0 u1 u2 : VM} {n0 n1 n2 : Nat} {v0 v1 v2 : Word} (h0 : Pushed s n0 v0 u0)
    (h1 : Pushed u0 n1 v1 u1) (h2 : Pushed u1 n2 v2 u2) (hf : Free s 3) :
    u2.top = s.top + 3 ∧ opnd u2 0 = v2 ∧ opnd u2 1 = v1 ∧ opnd u2 2 = v0 ∧
    u2.sp - BitVec.ofNat 16 6 = s.sp ∧ (∀ j, j ≤ s.top → u2.mem j = s.mem j) ∧
    u2 = { s with
      sp := u2.sp
      mem := u2.mem } := by
  have t0 := h0.top (hf.mono (by omega))
  have f0 : Free u0 2 := h0.free hf
  have t1 := h1.top (f0.mono (by omega))
  have f1 : Free u1 1 := h1.free f0
  have t2 := h2.top f1
  have e : u2.top = s.top + 3 := by omega
  have k2 : ∀ j, j ≤ u1.top → u2.mem j = u1.mem j := fun j hj => h2.kept j (.inl hj)
  have k1 : ∀ j, j ≤ u0.top → u1.mem j = u0.mem j := fun j hj => h1.kept j (.inl hj)
  have k0 : ∀ j, j ≤ s.top → u0.mem j = s.mem j := fun j hj => h0.kept j (.inl hj)
  refine ⟨e, ?_, ?_, ?_, ?_, ?_, ?_⟩
  · show u2.mem (u2.top - 0) = _
    rw [Nat.sub_zero, t2]; exact h2.value
  · show u2.mem (u2.top - 1) = _
    rw [t2, Nat.add_sub_cancel, k2 _ (Nat.le_refl _), t1]; exact h1.value
  · show u2.mem (u2.top - 2) = _
    rw [t2, show u1.top + 1 - 2 = u0.top by omega, k2 _ (by omega), k1 _ (Nat.le_refl _), t0]
    exact h0.value
  · rw [h2.sp, h1.sp, h0.sp]; bv_omega
  · intro j hj
    rw [k2 j (by omega), k1 j (by omega), k0 j hj]
  · have e1 := (regs_set h2.regs u2.sp u2.mem).trans
      ((regs_set h1.regs u2.sp u2.mem).trans (regs_set h0.regs u2.sp u2.mem))
    exact e1

/-- After the instruction that writes, with what was pushed before removed. -/
theorem Wr.wrt {s u t : VM} {k : Nat} {text out : List Byte} (h : Wr u t k text out)
    (hsp : u.sp - BitVec.ofNat 16 (2 * k) = s.sp) (hm : ∀ j, j ≤ s.top → u.mem j = s.mem j)
    (hr : u = { s with
      sp := u.sp
      mem := u.mem }) : Wrt s t text out := by
  have hio : u.io = s.io := by have := congrArg VM.io hr; exact this
  have hmem : t.mem = u.mem := by have := congrArg VM.mem h.regs; exact this
  refine ⟨?_, fun j hj => ?_, h.stream, h.text, fun f hf => ?_, fun i hi => ?_⟩
  · have e := congrArg (fun z : VM => ({ z with
      sp := s.sp
      mem := u.mem
      io := t.io } : VM)) hr
    have e2 := h.regs
    rw [hsp] at e2
    refine e2.trans ?_
    rw [hmem]
    exact e
  · rw [hmem]; exact hm j hj
  · rw [h.files f hf, hio]
  · rw [h.numbers i hi, hio]

/-- The operation writes the value. -/
theorem value_call {v : Val} {k : Nat} {s : VM} (hr : v.Ranged) (hb : v.ty ≠ .bool) (h0 : (opnd s 0).toNat / 256 = k)
    (h1 : opnd s 1 = v.word) :
    ∃ sub P, BitVec.ofInt 16 (wrOp v.ty) = sub ∧ WriteCall s sub 3 (opnd s 2) P ∧
      ∀ out, P out → v.Text k out := by
  cases v with
  | num t i =>
    have hr : wrap t i = i := hr
    have hv : opnd s 1 = BitVec.ofInt 16 i := h1
    cases ht : t.signed with
    | true =>
      refine ⟨0x1b#16, _, ?_, .integer, ?_⟩
      · cases t <;> first | rfl | cases ht
      · rintro out ⟨l, h2, h3⟩
        refine ⟨l, ?_, h0 ▸ h3⟩
        rw [hv, BitVec.toInt_ofInt] at h2
        rw [wrap_signed ht] at hr
        rw [show ((2 ^ 16 : Nat) : Nat) = 65536 from rfl, hr] at h2
        exact h2
    | false =>
      refine ⟨0x1c#16, _, ?_, .word, ?_⟩
      · cases t <;> first | rfl | cases ht
      · rintro out ⟨l, h2, h3⟩
        refine ⟨l, ?_, h0 ▸ h3⟩
        rw [hv, BitVec.toNat_ofInt] at h2
        rw [wrap_unsigned ht] at hr
        have := decimal_int h2
        have e : ((i % ((2 ^ 16 : Nat) : Int)).toNat : Int) = i := by omega
        rw [e] at this
        exact this
  | bool c => exact absurd rfl hb
  | char c =>
    refine ⟨0x1f#16, _, rfl, .character, ?_⟩
    rintro out ⟨d, h2, h3⟩
    have hv : opnd s 1 = c.setWidth 16 := h1
    have : d = c := by
      apply BitVec.eq_of_toNat_eq
      rw [h2, hv, BitVec.toNat_setWidth]
      have := c.isLt
      omega
    subst this
    exact h0 ▸ h3

theorem text_unique {v : Val} {k : Nat} {o o' : List Byte} (h : v.Text k o) (h' : v.Text k o') : o = o' := by
  have J : ∀ {w l out out'}, Justified w l out → Justified w l out' → out = out' := by
    rintro w l _ _ ⟨k, rfl, h⟩ ⟨k', rfl, h'⟩
    rw [← h] at h'
    simp at h'
    rw [h']
  cases v with
  | num t i =>
    obtain ⟨l, h1, h2⟩ := h
    obtain ⟨l', h1', h2'⟩ := h'
    rw [SysIo.decimalInt_unique h1 h1'] at h2
    exact J h2 h2'
  | bool c => cases h
  | char c => exact J h h'

theorem inds_runs {lib : Lib} (s : VM) (a : Int) :
    Runs lib [ins .inds 0 a] s { s with sp := s.sp + BitVec.ofInt 16 a } := by
  refine .one (ins_op .inds 0 a) rfl (effect_of_execSeq (ins_op .inds 0 a) rfl ?_)
  rw [indsI (ins_op .inds 0 a) lib []]; rfl

theorem ld_runs {lib : Lib} {Γ : Env} {ro : List Byte} {s : VM} {b : Nat} {text : List Byte} (hi : Γ.In s b)
    (ho : Γ.Output lib ro s b text) (hf : Free s 1) : Runs lib [ins .ld 0 2] s (psh s 1#16) := by
  refine .one (ins_op .ld 0 2) rfl ?_
  rw [load_effect (ins_op .ld 0 2) rfl hf]
  have e : (s.spb + BitVec.ofInt 16 2).toNat = s.spb.toNat + 2 := by
    have := ho.inside.1
    rw [show BitVec.ofInt 16 2 = 2#16 from rfl]
    bv_omega
  have h1 : loadV s .ld (ins .ld 0 2).arg1 (ins .ld 0 2).arg2 = .ok 1#16 := by
    show s.getStack (s.spb + BitVec.ofInt 16 2) = _
    have hb := hi.bound
    have := ho.inside.2
    rw [VM.getStack, VM.rd_eq _ (by rw [e]; omega), e, ho.number]
  rw [h1]
  rfl

theorem lac_runs {lib : Lib} {s : VM} (hf : Free s 1) (r : Nat) :
    Runs lib [ins .lac 0 ((r % 65536 : Nat) : Int)] s (psh s (BitVec.ofNat 16 r + s.rop)) := by
  refine .one (ins_op .lac 0 _) rfl ?_
  rw [load_effect (ins_op .lac 0 _) rfl hf]
  have e : (ins .lac 0 ((r % 65536 : Nat) : Int)).arg2 = BitVec.ofNat 16 r := by
    show BitVec.ofInt 16 ((r % 65536 : Nat) : Int) = _
    apply BitVec.eq_of_toNat_eq
    rw [BitVec.toNat_ofInt, BitVec.toNat_ofNat]
    omega
  have h1 : loadV s .lac (ins .lac 0 ((r % 65536 : Nat) : Int)).arg1 (ins .lac 0 ((r % 65536 : Nat) : Int)).arg2 =
      .ok (BitVec.ofNat 16 r + s.rop) := by
    show Res.ok ((ins .lac 0 ((r % 65536 : Nat) : Int)).arg2 + s.rop) = _
    rw [e]
  rw [h1]
  rfl

/-- The code of a value writes it. -/
theorem val_runs {lib : Lib} {Γ : Env} (hΓ : Γ.Ok) {σ : Store} {b : Nat} {ro : List Byte} {e : E .expr}
    {w : Option (E .expr)} (hok : (Item.val e w).Ok Γ.vars) {s : VM} {text out : List Byte} (hi : Γ.In s b)
    (hh : Γ.Holds s.mem σ) (ho : Γ.Output lib ro s b text) (hb : b ≤ s.top) (hv : s.mem s.top = 1#16)
    (hf : Free s (Item.val e w).need) (r : Nat) (ht : (Item.val e w).Text σ out) :
    ∃ t, Runs lib (codeI Γ.level r (.val e w)) s t ∧ Wrt s t text out := by
  obtain ⟨⟨ty, he, hty⟩, hw⟩ := hok
  obtain ⟨v, k, h1, h2, h3⟩ := ht
  have hneed : 3 ≤ (Item.val e w).need ∧ 1 + e.toks.length ≤ (Item.val e w).need ∧
      ∃ m, (match w with | none => m = 1 | some w => m = max w.toks.length 2) ∧
        1 + 1 + m ≤ (Item.val e w).need := by
    cases w
    · simp only [Item.need]
      exact ⟨by omega, by omega, 1, rfl, by omega⟩
    · simp only [Item.need]
      exact ⟨by omega, by omega, _, rfl, by omega⟩
  obtain ⟨hn1, hn2, m, hm, hn3⟩ := hneed
  have hp0 := psh_pushed (s := s) (n := 1) (by omega) (s.mem s.top)
  have f0 : ∀ m, m + 1 ≤ (Item.val e w).need → Free (psh s (s.mem s.top)) m := fun m hm =>
    hp0.free (hf.mono hm)
  have s0 := hp0.same hb
  have t0 := hp0.top (hf.mono (by omega))
  obtain ⟨u1, r1, p1, q1, q2⟩ := runs lib hΓ e _ _ _ _ he.2 h1 he.1 (s0.in_ hi) (s0.holds hi hh)
    (by omega) (f0 _ (by omega))
  have s1 := p1.same (b := b) (by omega)
  have t1 := p1.top (f0 _ (by omega))
  obtain ⟨u2, n2, v2, r2, p2, q3⟩ := width_runs (lib := lib) hΓ hw h2 (s1.in_ (s0.in_ hi))
    (s1.holds (s0.in_ hi) (s0.holds hi hh)) (by omega) (m := m) (by cases w <;> exact hm)
    (p1.free (f0 _ (by omega)))
  obtain ⟨a1, a2, a3, a4, a5, a6, a7⟩ := three hp0 p1 p2 (hf.mono hn1)
  obtain ⟨fpu, host, hlib⟩ := ho.lib
  subst q2
  obtain ⟨sub, P, c1, c2, c3⟩ := value_call (s := u2) (k := k) q1 hty (by rw [a2]; exact q3) a3
  have hio : u2.io = s.io := by have := congrArg VM.io a7; exact this
  obtain ⟨t, o', r3, hP, hwr⟩ := wr_runs (text := text) hlib c1 c2 (by rw [a4, hv])
    ⟨by show 3 ≤ u2.top + 1; omega, by
      show u2.top < u2.words
      rw [a7]
      show u2.top < s.words
      have := hf.1; omega⟩
    ⟨ho.stream.1, by unfold fileText; rw [hio]; exact ho.stream.2⟩
    (by unfold fileText; rw [hio]; exact ho.text)
  have : o' = out := text_unique (c3 _ hP) h3
  subst this
  refine ⟨t, ?_, hwr.wrt a5 a6 a7⟩
  have hd := dup_runs (lib := lib) (s := s) (hf.mono (by omega))
  have := hd.append (r1.append (r2.append r3))
  simp only [codeI, he.2, Option.getD]
  exact this

/-- The code of a string constant writes it. -/
theorem str_runs {lib : Lib} {Γ : Env} {σ : Store} {b : Nat} {ro : List Byte} {c : List Byte}
    (hok : (Item.str c).Ok Γ.vars) {s : VM} {text out : List Byte} (hi : Γ.In s b)
    (ho : Γ.Output lib ro s b text) (hb : b ≤ s.top) (hv : s.mem s.top = 1#16)
    (hf : Free s (Item.str c).need) {q : List Byte} {pad : Byte} (hq : q ++ roString pad c <+: ro)
    (ht : (Item.str c).Text σ out) :
    ∃ t, Runs lib (codeI Γ.level q.length (.str c)) s t ∧ Wrt s t text out := by
  have ht : out = c := ht
  subst ht
  have hf : Free s 5 := hf
  have f1 : Free (psh s (s.mem s.top)) 4 := (psh_pushed (Nat.le_refl 1) _).free hf
  have t1 := psh_top (v := s.mem s.top) (hf.mono (show 1 ≤ 5 by omega))
  have hp1 := psh_pushed (s := s) (Nat.le_refl 1) (s.mem s.top)
  generalize hu1 : psh s (s.mem s.top) = u1 at *
  have hp2 := psh_pushed (s := u1) (Nat.le_refl 1) (BitVec.ofInt 16 (out.length : Int))
  have f2 : Free (psh u1 (BitVec.ofInt 16 (out.length : Int))) 3 := hp2.free f1
  have t2 := psh_top (v := BitVec.ofInt 16 (out.length : Int)) (f1.mono (show 1 ≤ 4 by omega))
  generalize hu2 : psh u1 (BitVec.ofInt 16 (out.length : Int)) = u2 at *
  have hp3 := psh_pushed (s := u2) (Nat.le_refl 1) (BitVec.ofNat 16 q.length + u2.rop)
  have f3 : Free (psh u2 (BitVec.ofNat 16 q.length + u2.rop)) 2 := hp3.free f2
  have t3 := psh_top (v := BitVec.ofNat 16 q.length + u2.rop) (f2.mono (show 1 ≤ 3 by omega))
  have r3 := lac_runs (lib := lib) (f2.mono (show 1 ≤ 3 by omega)) q.length
  generalize hu3 : psh u2 (BitVec.ofNat 16 q.length + u2.rop) = u3 at *
  have hp4 := psh_pushed (s := u3) (Nat.le_refl 1) (BitVec.ofInt 16 (out.length : Int))
  have f4 : Free (psh u3 (BitVec.ofInt 16 (out.length : Int))) 1 := hp4.free f3
  have t4 := psh_top (v := BitVec.ofInt 16 (out.length : Int)) (f3.mono (show 1 ≤ 2 by omega))
  generalize hu4 : psh u3 (BitVec.ofInt 16 (out.length : Int)) = u4 at *
  have hp5 := psh_pushed (s := u4) (Nat.le_refl 1) (BitVec.ofInt 16 0)
  have t5 := psh_top (v := BitVec.ofInt 16 0) f4
  generalize hu5 : psh u4 (BitVec.ofInt 16 0) = u5 at *
  have k1 : ∀ j, j ≤ s.top → u1.mem j = s.mem j := fun j hj => hp1.kept j (.inl hj)
  have k2 : ∀ j, j ≤ u1.top → u2.mem j = u1.mem j := fun j hj => hp2.kept j (.inl hj)
  have k3 : ∀ j, j ≤ u2.top → u3.mem j = u2.mem j := fun j hj => hp3.kept j (.inl hj)
  have k4 : ∀ j, j ≤ u3.top → u4.mem j = u3.mem j := fun j hj => hp4.kept j (.inl hj)
  have k5 : ∀ j, j ≤ u4.top → u5.mem j = u4.mem j := fun j hj => hp5.kept j (.inl hj)
  have hall : ∀ j, j ≤ s.top → u5.mem j = s.mem j := fun j hj => by
    rw [k5 j (by omega), k4 j (by omega), k3 j (by omega), k2 j (by omega), k1 j hj]
  have o0 : opnd u5 0 = 0#16 := by
    show u5.mem (u5.top - 0) = _
    rw [Nat.sub_zero, t5]; exact hp5.value
  have o1 : opnd u5 1 = BitVec.ofInt 16 (out.length : Int) := by
    show u5.mem (u5.top - 1) = _
    rw [t5, Nat.add_sub_cancel, k5 _ (Nat.le_refl _), t4]; exact hp4.value
  have o2 : opnd u5 2 = BitVec.ofNat 16 q.length + u2.rop := by
    show u5.mem (u5.top - 2) = _
    rw [t5, show u4.top + 1 - 2 = u3.top by omega, k5 _ (by omega), k4 _ (by omega), t3]; exact hp3.value
  have o3 : opnd u5 3 = BitVec.ofInt 16 (out.length : Int) := by
    show u5.mem (u5.top - 3) = _
    rw [t5, show u4.top + 1 - 3 = u2.top by omega, k5 _ (by omega), k4 _ (by omega), k3 _ (by omega), t2]
    exact hp2.value
  have o4 : opnd u5 4 = 1#16 := by
    show u5.mem (u5.top - 4) = _
    rw [t5, show u4.top + 1 - 4 = u1.top by omega, k5 _ (by omega), k4 _ (by omega), k3 _ (by omega),
      k2 _ (by omega), t1, ← hv]
    exact hp1.value
  have hregs : u5 = { s with
      sp := u5.sp
      mem := u5.mem } := by
    have e1 := (regs_set hp5.regs u5.sp u5.mem).trans ((regs_set hp4.regs u5.sp u5.mem).trans
      ((regs_set hp3.regs u5.sp u5.mem).trans ((regs_set hp2.regs u5.sp u5.mem).trans
      (regs_set hp1.regs u5.sp u5.mem))))
    exact e1
  have hrop : u2.rop = s.rop := by
    have e1 := (regs_set hp2.regs u2.sp u2.mem).trans (regs_set hp1.regs u2.sp u2.mem)
    have := congrArg VM.rop e1
    exact this
  have hwords : u5.words = s.words := by have := congrArg VM.words hregs; exact this
  have hio : u5.io = s.io := by have := congrArg VM.io hregs; exact this
  obtain ⟨fpu, host, hlib⟩ := ho.lib
  obtain ⟨g1, g2⟩ := ho.fits
  have hlen : q.length + out.length + 1 ≤ ro.length := by
    have := hq.length_le
    simp only [roString, List.length_append, List.length_cons, List.length_nil] at this
    omega
  have hbnd := hi.bound
  have hn : (BitVec.ofInt 16 (out.length : Int)).toNat = out.length := by
    have := hok.1
    rw [BitVec.toNat_ofInt]; omega
  have ha : (BitVec.ofNat 16 q.length + u2.rop).toNat = s.rop.toNat + q.length := by
    rw [hrop, BitVec.toNat_add, BitVec.toNat_ofNat]; omega
  have htext : Spec.text u5.mem (s.rop.toNat + q.length) out.length = out := by
    apply List.ext_getElem
    · exact Str.text_length _ _ _
    · intro j h1 h2
      rw [Str.text_getElem]
      have hj : q.length + j < ro.length := by omega
      have h3 := ho.consts (q.length + j) hj
      have h4 : byte u5.mem (s.rop.toNat + q.length + j) = byte s.mem (s.rop.toNat + q.length + j) := by
        unfold byte
        rw [hall _ (by show _ ≤ s.top; omega)]
      rw [h4, Nat.add_assoc, h3]
      obtain ⟨z, hz⟩ := hq
      subst hz
      rw [List.getElem_append_left (by simp [roString]; omega), List.getElem_append_right (by omega)]
      simp only [roString, Nat.add_sub_cancel_left]
      rw [List.getElem_append_left (by simp; omega), List.getElem_append_left h2]
  have r1 := dup_runs (lib := lib) (s := s) (hf.mono (by omega))
  rw [hu1] at r1
  have r2 := push_runs (lib := lib) (f1.mono (show 1 ≤ 4 by omega)) (out.length : Int)
  rw [hu2] at r2
  have r4 := push_runs (lib := lib) (f3.mono (show 1 ≤ 2 by omega)) (out.length : Int)
  rw [hu4] at r4
  have r5 := push_runs (lib := lib) f4 0
  rw [hu5] at r5
  obtain ⟨t, o', r6, hj, hwr⟩ := wr_string_runs (s := u5) (text := text) hlib
    ⟨by show 5 ≤ u5.top + 1; omega, by show u5.top < u5.words; have := hf.1; omega⟩
    (by rw [o2, o3, ha, hn, hwords]; omega)
    (by rw [o1]; unfold Temp; rw [hn]; have := hok.1; omega) o4
    ⟨ho.stream.1, by unfold fileText; rw [hio]; exact ho.stream.2⟩
    (by unfold fileText; rw [hio]; exact ho.text)
  have : o' = out := by
    rw [o0, o2, o3, ha, hn, htext] at hj
    obtain ⟨z, e1, e2⟩ := hj
    rw [e1] at e2
    simp at e2
    rw [e1, e2]; rfl
  subst this
  refine ⟨t, ?_, hwr.wrt ?_ hall hregs⟩
  · exact r1.append (r2.append (r3.append (r4.append (r5.append r6))))
  · rw [hp5.sp, hp4.sp, hp3.sp, hp2.sp, hp1.sp]; bv_omega

/-- The code of the items writes them. -/
theorem items_runs {lib : Lib} {Γ : Env} (hΓ : Γ.Ok) {σ : Store} {b : Nat} {ro : List Byte} {pad : Byte} :
    ∀ {is : List Item} {out : List Byte}, Texts σ is out → (∀ j ∈ is, j.Ok Γ.vars) →
    ∀ {s : VM} {text q : List Byte}, Γ.In s b → Γ.Holds s.mem σ → Γ.Output lib ro s b text → b ≤ s.top →
    s.mem s.top = 1#16 → Free s (itemsNeed is) → q ++ itemsRo pad is <+: ro →
    ∃ t, Runs lib (codeIs Γ.level pad q.length is) s t ∧ Wrt s t text out := by
  intro is out h
  induction h with
  | nil =>
    intro _ s text q hi hh ho hb hv hf hq
    refine ⟨s, .nil _, rfl, fun _ _ => rfl, ?_, ?_, fun _ _ => rfl, fun _ _ => rfl⟩
    · rw [List.append_nil]; exact ho.stream
    · rw [List.append_nil]; exact ho.text
  | @cons i is a c hi1 hrest ih =>
    intro hok s text q hi hh ho hb hv hf hq
    have hneed : itemsNeed (i :: is) = max i.need (itemsNeed is) := rfl
    rw [hneed] at hf
    have hq1 : q ++ i.ro pad <+: ro := by
      have : q ++ (i.ro pad ++ itemsRo pad is) <+: ro := hq
      rw [← List.append_assoc] at this
      exact (List.prefix_append _ _).trans this
    have hq2 : (q ++ i.ro pad) ++ itemsRo pad is <+: ro := by
      rw [List.append_assoc]; exact hq
    have first : ∃ t, Runs lib (codeI Γ.level q.length i) s t ∧ Wrt s t text a := by
      cases i with
      | val e w => exact val_runs hΓ (hok _ (by simp)) hi hh ho hb hv (hf.mono (by omega)) _ hi1
      | str c => exact str_runs (hok _ (by simp)) hi ho hb hv (hf.mono (by omega)) hq1 hi1
    obtain ⟨t, r1, w1⟩ := first
    have hsame := w1.same hb
    obtain ⟨u, r2, w2⟩ := ih (fun j hj => hok j (List.mem_cons_of_mem _ hj)) (s := t) (text := text ++ a)
      (q := q ++ i.ro pad) (hsame.in_ hi) (hsame.holds hi hh) (w1.output ho hb) (by rw [w1.top]; exact hb)
      (by rw [w1.top, w1.mem _ (Nat.le_refl _)]; exact hv) (w1.free (hf.mono (by omega))) hq2
    refine ⟨u, ?_, w1.trans w2⟩
    have := r1.append r2
    rw [List.length_append] at this
    exact this

theorem Pushed.keeps {s t : VM} {n : Nat} {v : Word} (h : Pushed s n v t) (Γ : Env) (wr : Bool) :
    Γ.Keeps wr s t := by
  refine keeps_of_regs h.regs (fun a ha _ => ?_) wr
  unfold byte; rw [h.kept _ (.inl ha)]

/-- The file number that was pushed is popped, and perhaps something more is written. -/
theorem Wrt.pop {s u t : VM} {v : Word} {text a c : List Byte} (hf : Free s 1) (h : Wrt (psh s v) u text a)
    (h' : Wr u t 1 (text ++ a) c) : Wrt s t text (a ++ c) := by
  have t1 := psh_top (v := v) hf
  refine ⟨?_, fun j hj => ?_, ?_, ?_, fun f hf => ?_, fun i hi => ?_⟩
  · have e : u.sp - BitVec.ofNat 16 (2 * 1) = s.sp := by
      rw [h.sp]
      show s.sp + 2#16 - 2#16 = s.sp
      bv_omega
    have e1 := h'.regs
    rw [e] at e1
    have e2 := congrArg (fun z : VM => ({ z with
      sp := s.sp
      io := t.io } : VM)) h.regs
    have e3 := e1.trans e2
    have e4 : t.mem = u.mem := by have := congrArg VM.mem e1; exact this
    rw [e4]
    exact e3
  · have e4 : t.mem = u.mem := by have := congrArg VM.mem h'.regs; exact this
    rw [e4, h.mem j (by omega)]
    exact updW_other _ _ (by omega)
  · rw [← List.append_assoc]; exact h'.stream
  · rw [← List.append_assoc]; exact h'.text
  · rw [h'.files f hf, h.files f hf]; rfl
  · rw [h'.numbers i hi, h.numbers i hi]; rfl

theorem Wr.quiet {u : VM} {text : List Byte} {x : Word} (h1 : OpenOut u 1#16 .stdout text.length)
    (h2 : fileText u .stdout = text) (hx : u.sp - BitVec.ofNat 16 (2 * 1) = x) : Wr u { u with sp := x } 1 text [] := by
  subst hx
  refine ⟨rfl, ?_, ?_, fun _ _ => rfl, fun _ _ => rfl⟩
  · rw [List.append_nil]; exact ⟨h1.1, h1.2⟩
  · rw [List.append_nil]; exact h2

/-- The code of WRITE and WRITELN writes the items and, for WRITELN, ends the line. -/
theorem write_runs {lib : Lib} {Γ : Env} (hΓ : Γ.Ok) {σ : Store} {b : Nat} {ro : List Byte} {pad : Byte}
    {is : List Item} {out : List Byte} (hx : Texts σ is out) (hok : ∀ j ∈ is, j.Ok Γ.vars)
    {s : VM} {text q : List Byte} (hi : Γ.In s b) (hh : Γ.Holds s.mem σ) (ho : Γ.Output lib ro s b text)
    (hb : b ≤ s.top) (hf : Free s (1 + itemsNeed is)) (hq : q ++ itemsRo pad is <+: ro) (ln : Bool) :
    ∃ t, Runs lib (ins .ld 0 2 :: (codeIs Γ.level pad q.length is ++
      [if ln then ins .sysio 0 0x18 else ins .inds 0 (-2)])) s t ∧
      Wrt s t text (out ++ if ln then [10#8] else []) := by
  have hf1 : Free s 1 := hf.mono (by omega)
  have t1 := psh_top (v := 1#16) hf1
  have hp := psh_pushed (s := s) (Nat.le_refl 1) 1#16
  have hsame := hp.same hb
  have r1 := ld_runs hi ho hf1
  have ho1 : Γ.Output lib ro (psh s 1#16) b text :=
    (hp.keeps Γ false).output_of ho hb ⟨ho.stream.1, ho.stream.2⟩ ho.text
  obtain ⟨u, r2, w1⟩ := items_runs hΓ hx hok (hsame.in_ hi) (hsame.holds hi hh) ho1 (by omega)
    (by rw [t1]; exact hp.value) (hp.free (hf.mono (by omega))) hq
  cases ln with
  | true =>
    obtain ⟨fpu, host, hlib⟩ := ho.lib
    have hw : u.words = s.words := by rw [w1.words]; rfl
    have hv : opnd u 0 = 1#16 := by
      show u.mem (u.top - 0) = _
      rw [Nat.sub_zero, w1.top, w1.mem _ (Nat.le_refl _), t1]; exact hp.value
    obtain ⟨t, o', r3, h2, h3⟩ := wr_runs (c := 0x18) hlib rfl (.newline (s := u)) hv
      ⟨by show 1 ≤ u.top + 1; omega, by show u.top < u.words; rw [w1.top, t1, hw]; exact hf1.1⟩ w1.stream w1.text
    subst h2
    exact ⟨t, r1.append (r2.append r3), w1.pop hf1 h3⟩
  | false =>
    refine ⟨_, r1.append (r2.append (inds_runs u (-2))), w1.pop hf1 (.quiet w1.stream w1.text ?_)⟩
    rw [show BitVec.ofInt 16 (-2) = 65534#16 from rfl]; bv_omega

end Pas.Src
