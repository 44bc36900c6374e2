import Verif.Lemmas.CompExpr
import Verif.Lemmas.LoadStore

/-! What the code of expressions does. -/
namespace Pas.Src
open Pas.Spec Pas.Comp

/-- Straight-line code takes `s` to `t`. -/
inductive Runs (lib : Lib) : List OpType → VM → VM → Prop
  | nil (s : VM) : Runs lib [] s s
  | cons {i : OpType} {o : Op} {c : List OpType} {s s' t : VM} : i.op = o.toByte →
      isPlain o = true → effect lib i s = .ok s' → Runs lib c s' t → Runs lib (i :: c) s t

theorem Runs.append {lib : Lib} {c c' : List OpType} {s t u : VM} (h : Runs lib c s t)
    (h' : Runs lib c' t u) : Runs lib (c ++ c') s u := by
  induction h with
  | nil _ => exact h'
  | cons ho hp he _ ih => exact .cons ho hp he (ih h')

theorem Runs.one {lib : Lib} {i : OpType} {o : Op} {s t : VM} (ho : i.op = o.toByte)
    (hp : isPlain o = true) (he : effect lib i s = .ok t) : Runs lib [i] s t :=
  .cons ho hp he (.nil _)

theorem _root_.Pas.Spec.PSteps.append {lib : Lib} {addr : Nat → Word} {p : List OpType} {a b c : Nat × VM}
    (h : PSteps lib addr p a b) (h' : PSteps lib addr p b c) : PSteps lib addr p a c := by
  induction h with
  | refl _ => exact h'
  | step hs _ ih => exact .step hs (ih h')

theorem At.left {p : List OpType} {k : Nat} {c c' : List OpType} (h : At p k (c ++ c')) :
    At p k c := by
  intro j i hi
  refine h j i ?_
  have hj : j < c.length := by
    rw [List.getElem?_eq_some_iff] at hi; exact hi.1
  rw [List.getElem?_append_left hj]; exact hi

theorem At.right {p : List OpType} {k : Nat} {c c' : List OpType} (h : At p k (c ++ c')) :
    At p (k + c.length) c' := by
  intro j i hi
  have := h (c.length + j) i (by
    rw [List.getElem?_append_right (by omega), Nat.add_sub_cancel_left]; exact hi)
  rw [Nat.add_assoc]; exact this

theorem At.head {p : List OpType} {k : Nat} {i : OpType} {c : List OpType} (h : At p k (i :: c)) :
    p[k]? = some i := h 0 i rfl

theorem At.tail {p : List OpType} {k : Nat} {i : OpType} {c : List OpType} (h : At p k (i :: c)) :
    At p (k + 1) c := At.right (c := [i]) h

theorem effect_ok {lib : Lib} {i : OpType} {s t : VM} (h : effect lib i s = .ok t) :
    ∃ s', alone lib i s = .ok (eNOERROR, s') ∧ t = { s' with pc := s.pc } := by
  unfold effect at h
  cases ha : alone lib i s with
  | ok r =>
    obtain ⟨e, s'⟩ := r
    rw [ha] at h
    simp only [Res.ok_bind] at h
    split at h
    · next he => cases h; subst he; exact ⟨s', rfl, rfl⟩
    · cases h
  | ub => rw [ha] at h; cases h
  | hang => rw [ha] at h; cases h

/-- Straight-line code in a program. -/
theorem Runs.steps {lib : Lib} {addr : Nat → Word} {p : List OpType} {c : List OpType} {s t : VM}
    (h : Runs lib c s t) : ∀ {k : Nat}, At p k c →
    PSteps lib addr p (k, s) (k + c.length, t) := by
  induction h with
  | nil s => intro k _; exact .refl _
  | @cons i o c s s' t ho hp he _ ih =>
    intro k hat
    obtain ⟨s1, h1, rfl⟩ := effect_ok he
    refine .step (.plain hat.head ho.symm hp h1) ?_
    have := ih hat.tail
    rw [List.length_cons, Nat.add_comm c.length 1, ← Nat.add_assoc]
    exact this

theorem effect_of_execSeq {lib : Lib} {i : OpType} {o : Op} {s t : VM} (ho : i.op = o.toByte)
    (hp : isPlain o = true) (h : execSeq lib [i] s = .ok (none, t)) : effect lib i s = .ok t := by
  rw [execSeq_plain ho hp] at h
  cases he : effect lib i s with
  | ok s' => rw [he] at h; simp only [Res.ok_bind, execSeq] at h; cases h; rfl
  | ub => rw [he] at h; cases h
  | hang => rw [he] at h; cases h

theorem ins_op (o : Op) (a b : Int) : (ins o a b).op = o.toByte := rfl

theorem un_runs {lib : Lib} {o : Op} {f : Word → Word} {s : VM} (hf : unF o = some f)
    (h1 : 1 ≤ s.top) (h2 : s.top < s.words) (a b : Int) :
    Runs lib [ins o a b] s (rep1 s (f (s.mem s.top))) := by
  have hp : isPlain o = true := by cases o <;> first | rfl | cases hf
  refine .one (ins_op o a b) hp (effect_of_execSeq (ins_op o a b) hp ?_)
  exact unI (ins_op o a b) hf lib [] s h1 h2

theorem bin_runs {lib : Lib} {o : Op} {f : Word → Word → Res Word} {s : VM} {r : Word}
    (hf : binF o = some f) (h1 : 1 ≤ s.top) (h2 : s.top < s.words)
    (hr : f (s.mem (s.top - 1)) (s.mem s.top) = .ok r) (a b : Int) :
    Runs lib [ins o a b] s (rep2 s r) := by
  have hp : isPlain o = true := by cases o <;> first | rfl | cases hf
  refine .one (ins_op o a b) hp (effect_of_execSeq (ins_op o a b) hp ?_)
  rw [binI (ins_op o a b) hf lib [] s h1 h2, hr]
  rfl

theorem push_runs {lib : Lib} {s : VM} (h : Free s 1) (b : Int) :
    Runs lib [ins .push 0 b] s (psh s (BitVec.ofInt 16 b)) := by
  refine .one (ins_op .push 0 b) rfl ?_
  rw [load_effect (ins_op .push 0 b) rfl h]
  rfl

theorem regs_set {s t : VM} {x : Word} (h : t = { s with
      sp := x
      mem := t.mem }) (y : Word) (m : Nat → Word) :
    ({ t with
      sp := y
      mem := m } : VM) = { s with
      sp := y
      mem := m } := by
  have := congrArg (fun z : VM => ({ z with
    sp := y
    mem := m } : VM)) h
  exact this

theorem Pushed.sp {s t : VM} {n : Nat} {v : Word} (h : Pushed s n v t) : t.sp = s.sp + 2#16 := by
  rw [h.regs]

theorem Pushed.top {s t : VM} {n : Nat} {v : Word} (h : Pushed s n v t) (hf : Free s 1) :
    t.top = s.top + 1 := by
  have : t.sp = s.sp + 2#16 := by rw [h.regs]
  have e := psh_top (v := v) hf
  simp only [VM.top, psh] at e ⊢
  rw [this]; exact e

theorem Pushed.words {s t : VM} {n : Nat} {v : Word} (h : Pushed s n v t) : t.words = s.words := by
  rw [h.regs]

theorem Pushed.free {s t : VM} {n m : Nat} {v : Word} (h : Pushed s n v t) (hf : Free s (m + 1)) :
    Free t m := by
  refine ⟨?_, ?_⟩
  · rw [h.top (hf.mono (by omega)), h.words]; have := hf.1; omega
  · rw [h.words]; exact hf.2

theorem psh_pushed {s : VM} {n : Nat} (hn : 1 ≤ n) (v : Word) : Pushed s n v (psh s v) where
  regs := rfl
  value := updW_same _ _ _
  kept := by
    intro j hj
    exact updW_other _ _ (by show j ≠ s.sp.toNat / 2 + 1; omega)

theorem Pushed.mono {s t : VM} {n m : Nat} {v : Word} (h : Pushed s n v t) (hm : n ≤ m) :
    Pushed s m v t := ⟨h.regs, h.value, fun j hj => h.kept j (by omega)⟩

theorem Pushed.rep1 {s t : VM} {n : Nat} {v : Word} (h : Pushed s n v t) (hn : 1 ≤ n)
    (hf : Free s 1) (r : Word) : Pushed s n r (rep1 t r) where
  regs := by
    have e := regs_set h.regs t.sp (updW t.mem t.top r)
    refine Eq.trans (show Pas.rep1 t r = _ from e) ?_
    rw [h.sp]
    rfl
  value := by
    show updW t.mem t.top r (s.top + 1) = r
    rw [h.top hf, updW_same]
  kept := by
    intro j hj
    show updW t.mem t.top r j = _
    rw [h.top hf, updW_other _ _ (by show j ≠ s.sp.toNat / 2 + 1; omega)]
    exact h.kept j hj

theorem Pushed.rep2 {s t u : VM} {n m : Nat} {v w : Word} (h : Pushed s n v t)
    (h' : Pushed t m w u) (hf : Free s 2) (r : Word) :
    u.top = s.top + 2 ∧ u.mem (u.top - 1) = v ∧ u.mem u.top = w ∧ u.words = s.words ∧
    Pushed s (n + m + 1) r (rep2 u r) := by
  have e1 := h.top (hf.mono (by omega))
  have ht : Free t 1 := h.free hf
  have e2 := h'.top ht
  have e3 : u.top = s.top + 2 := by omega
  refine ⟨e3, ?_, ?_, ?_, ?_⟩
  · rw [e2, Nat.add_sub_cancel]
    rw [h'.kept t.top (.inl (Nat.le_refl _)), e1]
    exact h.value
  · rw [e2]; exact h'.value
  · rw [h'.words, h.words]
  · refine ⟨?_, ?_, ?_⟩
    · have e4 : u.sp - 2#16 = s.sp + 2#16 := by rw [h'.sp, h.sp]; bv_omega
      have e5 := (regs_set h'.regs (s.sp + 2#16) (updW u.mem (u.top - 1) r)).trans
        (regs_set h.regs (s.sp + 2#16) (updW u.mem (u.top - 1) r))
      refine Eq.trans ?_ e5
      rw [Pas.rep2, e4]
    · show updW u.mem (u.top - 1) r (s.top + 1) = r
      rw [e3, show s.top + 2 - 1 = s.top + 1 from rfl, updW_same]
    · intro j hj
      have hj : j ≤ s.top ∨ s.top + (n + m + 1) < j := hj
      show updW u.mem (u.top - 1) r j = _
      rw [e3, updW_other _ _ (by omega)]
      rw [h'.kept j (by show j ≤ t.top ∨ t.top + m < j; omega)]
      exact h.kept j (by show j ≤ s.top ∨ s.top + n < j; omega)

/-! ### The variables stay where they are -/

/-- Registers and memory that matter for the variables. -/
structure Same (b : Nat) (s t : VM) : Prop where
  words : t.words = s.words
  spb : t.spb = s.spb
  fp : t.fp = s.fp
  mem : ∀ j, j ≤ b → t.mem j = s.mem j
  lsp : t.lsp = s.lsp

theorem Pushed.same {s t : VM} {n b : Nat} {v : Word} (h : Pushed s n v t) (hb : b ≤ s.top) :
    Same b s t := by
  refine ⟨by rw [h.regs], by rw [h.regs], by rw [h.regs], ?_, by rw [h.regs]⟩
  intro j hj
  exact h.kept j (.inl (Nat.le_trans hj hb))

theorem linkIn_congr {s t : VM} {Q : Nat → Prop} (hw : t.words = s.words)
    (hm : ∀ j, Q j → t.mem j = s.mem j) {d : Nat} {f g : Word} (h : LinkIn s Q d f g) :
    LinkIn t Q d f g := by
  induction h with
  | here f => exact .here f
  | out inside q _ ih =>
    refine .out (by rw [hw]; exact inside) q ?_
    rw [hm _ q]; exact ih

theorem linkIn_link {s : VM} {Q : Nat → Prop} {d : Nat} {f g : Word} (h : LinkIn s Q d f g) :
    Link s d f g := by
  induction h with
  | here f => exact .here f
  | out inside _ _ ih => exact .out inside ih

/-- The links of `Env.In` may also be followed if variables change. -/
theorem Env.In.congr {Γ : Env} {s t : VM} {b : Nat} (h : Γ.In s b) (hw : t.words = s.words)
    (hspb : t.spb = s.spb) (hfp : t.fp = s.fp) (hlsp : t.lsp = s.lsp)
    (hm : ∀ j, j ≤ b → (∀ y a, Γ.vars y → Γ.Owns y a → a / 2 ≠ j) → t.mem j = s.mem j) :
    Γ.In t b := by
  refine ⟨h.inside, by rw [hw]; exact h.bound, ?_, ?_, ?_, by rw [hlsp]; exact h.lsp⟩
  · rw [hspb]; exact h.global
  · intro x hx hl
    obtain ⟨f, h1, h2⟩ := h.frame x hx hl
    exact ⟨f, by rw [hfp]; exact linkIn_congr hw (fun j hj => hm j hj.1 hj.2) h1, h2⟩
  · intro j hj
    obtain ⟨f, h1, h2, h3⟩ := h.levels j hj
    refine ⟨f, by rw [hfp]; exact linkIn_congr hw (fun j hj => hm j hj.1 hj.2) h1, h2, ?_⟩
    rw [hm _ h2.1 h2.2]; exact h3

theorem Same.in_ {Γ : Env} {s t : VM} {b : Nat} (h : Same b s t) (hi : Γ.In s b) : Γ.In t b :=
  hi.congr h.words h.spb h.fp h.lsp (fun j hj _ => h.mem j hj)

theorem Same.holds {Γ : Env} {s t : VM} {b : Nat} {σ : Store} (h : Same b s t) (hi : Γ.In s b)
    (hh : Γ.Holds s.mem σ) : Γ.Holds t.mem σ := by
  intro x v hx hv
  obtain ⟨h1, h2, h3⟩ := hh x v hx hv
  have e := h.mem _ (hi.inside x hx)
  refine ⟨h1, ?_, ?_⟩
  · intro hs; rw [e]; exact h2 hs
  · intro hs
    rw [byte, e]; exact h3 hs

theorem Env.Ok.usable {Γ : Env} (h : Γ.Ok) {x : Variable} (hx : Γ.vars x) : Usable Γ.level x :=
  ⟨h.level, h.outer x hx, h.offset0 x hx, h.offset x hx⟩

theorem byteSize_cases (t : Ty) : t.size = 1 ∨ t.size = 2 := by
  cases t with
  | num t => cases t <;> first | exact .inl rfl | exact .inr rfl
  | _ => first | exact .inl rfl | exact .inr rfl

/-- Short values are what their low byte is, sign or zero extended. -/
theorem short_signed {i : Int} (h : -128 ≤ i ∧ i ≤ 127) :
    signExtend8 ((BitVec.ofInt 16 i).truncate 8) = BitVec.ofInt 16 i := by
  have e : (BitVec.ofInt 16 i).truncate 8 = BitVec.ofInt 8 i := by
    apply BitVec.eq_of_toNat_eq
    simp only [BitVec.truncate, BitVec.toNat_setWidth, BitVec.toNat_ofInt]
    omega
  apply BitVec.eq_of_toInt_eq
  rw [e, signExtend8, BitVec.toInt_signExtend_of_le (by omega), BitVec.toInt_ofInt, BitVec.toInt_ofInt]
  rw [Int.bmod_eq_of_le (by omega) (by omega), Int.bmod_eq_of_le (by omega) (by omega)]

theorem short_unsigned {i : Int} (h : 0 ≤ i ∧ i ≤ 255) :
    ((BitVec.ofInt 16 i).truncate 8).zeroExtend 16 = BitVec.ofInt 16 i := by
  apply BitVec.eq_of_toNat_eq
  simp only [BitVec.truncate, BitVec.zeroExtend, BitVec.toNat_setWidth, BitVec.toNat_ofInt]
  omega

theorem char_unsigned (c : Byte) : ((c.zeroExtend 16).truncate 8 : Byte) = c := by
  apply BitVec.eq_of_toNat_eq
  simp only [BitVec.truncate, BitVec.zeroExtend, BitVec.toNat_setWidth]
  have := c.isLt
  omega

theorem fits_ranged {t : Ty} {v : Val} (h : Fits t v) : v.Ranged ∧ v.ty = t := by
  cases t with
  | num t =>
    cases v with
    | num t' i =>
      obtain ⟨rfl, h⟩ := h
      refine ⟨?_, rfl⟩
      cases t <;> simp only at h
      · exact Int.bmod_eq_of_le (by omega) (by omega)
      · show i % 65536 = i; omega
      · exact Int.bmod_eq_of_le (by omega) (by omega)
      · show i % 65536 = i; omega
    | _ => cases h
  | bool => cases v <;> first | exact ⟨trivial, rfl⟩ | cases h
  | char => cases v <;> first | exact ⟨trivial, rfl⟩ | cases h

/-- The address operand of a reference to a variable: what the instruction computes. -/
theorem ref_addr {Γ : Env} (hΓ : Γ.Ok) {s : VM} {b : Nat} (hi : Γ.In s b) {x : Variable}
    (hx : Γ.vars x) :
    (x.level = 0 → (s.spb + BitVec.ofInt 16 x.off).toNat = Γ.addr x) ∧
    (x.level ≠ 0 → ∃ a : Word, a.toNat = Γ.addr x ∧
      getBaseAddress s (BitVec.ofInt 8 ((Γ.level : Int) - x.level))
        (signExtend16 (BitVec.ofInt 16 x.off)) = .ok a) := by
  constructor
  · intro h0
    have h1 := hi.global x hx h0
    have h2 := ofInt_add_toNat s.spb x.off
    omega
  · intro h0
    obtain ⟨f, h1, h2⟩ := hi.frame x hx h0
    have ho := hΓ.offset x hx h0
    have hl := hΓ.outer x hx
    have hl' := hΓ.level
    have e1 : (BitVec.ofInt 8 ((Γ.level : Int) - x.level)).toNat = Γ.level - x.level := by
      rw [BitVec.toNat_ofInt]; omega
    have e2 : signExtend16 (BitVec.ofInt 16 x.off) = x.off := by
      rw [signExtend16, BitVec.toInt_ofInt]
      exact Int.bmod_eq_of_le (by omega) (by omega)
    refine ⟨BitVec.ofNat 16 (Γ.addr x), ?_, ?_⟩
    · simp; omega
    · rw [e2]
      apply getBase_of
      rw [e1]
      refine ⟨f, linkIn_link h1, ?_⟩
      rw [← h2]
      simp; omega

/-- Loading a variable pushes its value. -/
theorem load_runs {lib : Lib} {Γ : Env} (hΓ : Γ.Ok) {s : VM} {b : Nat} {σ : Store} (hi : Γ.In s b)
    (hh : Γ.Holds s.mem σ) (hf : Free s 1) {x : Variable} (hx : Γ.vars x) {v : Val}
    (hv : σ x = some v) :
    Runs lib [ref Γ.level (ldO x.ty) x] s (psh s v.word) := by
  obtain ⟨hr0, hr1⟩ := ref_addr hΓ hi hx
  obtain ⟨h1, h2, h3⟩ := hh x v hx hv
  have hin := hi.inside x hx
  have hb := hi.bound
  have word : ∀ a : Word, a.toNat = Γ.addr x → x.ty.size = 2 →
      s.getStack a = .ok v.word := by
    intro a ha hs
    rw [VM.getStack, VM.rd_eq _ (by rw [ha]; omega), ha, h2 hs]
  have byt : ∀ a : Word, a.toNat = Γ.addr x → x.ty.size = 1 →
      s.rdB a.toNat = .ok (v.word.truncate 8) := by
    intro a ha hs
    rw [VM.rdB, if_pos (by omega), byteAt_eq, ha, h3 hs]
  have key : ∀ (o o' : Op), ldO x.ty = o → level0 o = some o' → isLoadOp o = true →
      isLoadOp o' = true →
      (x.level = 0 → loadV s o' 0 (BitVec.ofInt 16 x.off) = .ok v.word) →
      (x.level ≠ 0 → loadV s o (BitVec.ofInt 8 ((Γ.level : Int) - x.level))
        (BitVec.ofInt 16 x.off) = .ok v.word) →
      hasArg8 o.toByte = true → hasArg16 o.toByte = true →
      hasArg8 o'.toByte = false → hasArg16 o'.toByte = true →
      Runs lib [ref Γ.level (ldO x.ty) x] s (psh s v.word) := by
    intro o o' ho hl hlo hlo' hk0 hk1 a1 a2 a3 a4
    rw [ho]
    unfold ref
    by_cases h0 : x.level = 0
    · rw [if_pos h0, hl]
      refine .one (o := o') rfl (isLoadOp_plain hlo') ?_
      rw [load_effect (o := o') rfl hlo' hf]
      simp only [ins, Option.getD, a3, a4, if_true, Bool.false_eq_true, if_false]
      rw [hk0 h0]
      rfl
    · rw [if_neg h0]
      refine .one (o := o) rfl (isLoadOp_plain hlo) ?_
      rw [load_effect (o := o) rfl hlo hf]
      simp only [ins, a1, a2, if_true]
      rw [hk1 h0]
      rfl
  have word' : x.ty.size = 2 → ldO x.ty = .lds →
      Runs lib [ref Γ.level (ldO x.ty) x] s (psh s v.word) := by
    intro hs hl
    refine key _ _ hl rfl rfl rfl ?_ ?_ rfl rfl rfl rfl
    · intro h0; exact word _ (hr0 h0) hs
    · intro h0
      obtain ⟨a, ha, hb⟩ := hr1 h0
      rw [loadV, hb]
      exact word a ha hs
  have signed' : x.ty.size = 1 → ldO x.ty = .ldsb →
      signExtend8 (v.word.truncate 8) = v.word →
      Runs lib [ref Γ.level (ldO x.ty) x] s (psh s v.word) := by
    intro hs hl he
    refine key _ _ hl rfl rfl rfl ?_ ?_ rfl rfl rfl rfl
    · intro h0
      rw [loadV, byt _ (hr0 h0) hs, Res.ok_bind, he]
    · intro h0
      obtain ⟨a, ha, hb⟩ := hr1 h0
      rw [loadV, hb, Res.ok_bind, byt _ ha hs, Res.ok_bind, he]
  have unsigned' : x.ty.size = 1 → ldO x.ty = .uldsb →
      (v.word.truncate 8 : Byte).zeroExtend 16 = v.word →
      Runs lib [ref Γ.level (ldO x.ty) x] s (psh s v.word) := by
    intro hs hl he
    refine key _ _ hl rfl rfl rfl ?_ ?_ rfl rfl rfl rfl
    · intro h0
      rw [loadV, byt _ (hr0 h0) hs, Res.ok_bind, he]
    · intro h0
      obtain ⟨a, ha, hb⟩ := hr1 h0
      rw [loadV, hb, Res.ok_bind, byt _ ha hs, Res.ok_bind, he]
  generalize x.ty = ty at *
  cases ty with
  | num t =>
    clear hv
    cases v with
    | num t' i =>
      obtain ⟨rfl, hi⟩ := h1
      cases t with
      | integer => exact word' rfl rfl
      | word => exact word' rfl rfl
      | shortInteger => exact signed' rfl rfl (short_signed hi)
      | shortWord => exact unsigned' rfl rfl (short_unsigned hi)
    | _ => cases h1
  | bool => exact word' rfl rfl
  | char =>
    clear hv
    cases v with
    | char c => exact unsigned' rfl rfl (by rw [Val.word, char_unsigned])
    | _ => cases h1

/-- What the load of a variable reads. -/
theorem load_value {Γ : Env} (hΓ : Γ.Ok) {s : VM} {b : Nat} {σ : Store} (hi : Γ.In s b)
    (hh : Γ.Holds s.mem σ) {x : Variable} (hx : Γ.vars x) {v : Val} (hv : σ x = some v) :
    (x.level = 0 → loadV s ((level0 (ldO x.ty)).getD .nop) 0 (BitVec.ofInt 16 x.off) = .ok v.word) ∧
    (x.level ≠ 0 → loadV s (ldO x.ty) (BitVec.ofInt 8 ((Γ.level : Int) - x.level))
      (BitVec.ofInt 16 x.off) = .ok v.word) := by
  obtain ⟨hr0, hr1⟩ := ref_addr hΓ hi hx
  obtain ⟨h1, h2, h3⟩ := hh x v hx hv
  have hin := hi.inside x hx
  have hb := hi.bound
  have word : ∀ a : Word, a.toNat = Γ.addr x → x.ty.size = 2 →
      s.getStack a = .ok v.word := by
    intro a ha hs
    rw [VM.getStack, VM.rd_eq _ (by rw [ha]; omega), ha, h2 hs]
  have byt : ∀ a : Word, a.toNat = Γ.addr x → x.ty.size = 1 →
      s.rdB a.toNat = .ok (v.word.truncate 8) := by
    intro a ha hs
    rw [VM.rdB, if_pos (by omega), byteAt_eq, ha, h3 hs]
  have word' : x.ty.size = 2 → ldO x.ty = .lds →
      (x.level = 0 → loadV s ((level0 (ldO x.ty)).getD .nop) 0 (BitVec.ofInt 16 x.off) = .ok v.word) ∧
      (x.level ≠ 0 → loadV s (ldO x.ty) (BitVec.ofInt 8 ((Γ.level : Int) - x.level))
        (BitVec.ofInt 16 x.off) = .ok v.word) := by
    intro hs hl
    rw [hl]
    refine ⟨fun h0 => word _ (hr0 h0) hs, fun h0 => ?_⟩
    obtain ⟨a, ha, hb⟩ := hr1 h0
    rw [loadV, hb]
    exact word a ha hs
  have signed' : x.ty.size = 1 → ldO x.ty = .ldsb → signExtend8 (v.word.truncate 8) = v.word →
      (x.level = 0 → loadV s ((level0 (ldO x.ty)).getD .nop) 0 (BitVec.ofInt 16 x.off) = .ok v.word) ∧
      (x.level ≠ 0 → loadV s (ldO x.ty) (BitVec.ofInt 8 ((Γ.level : Int) - x.level))
        (BitVec.ofInt 16 x.off) = .ok v.word) := by
    intro hs hl he
    rw [hl]
    refine ⟨fun h0 => ?_, fun h0 => ?_⟩
    · show loadV s .ldb _ _ = _
      rw [loadV, byt _ (hr0 h0) hs, Res.ok_bind, he]
    · obtain ⟨a, ha, hb⟩ := hr1 h0
      rw [loadV, hb, Res.ok_bind, byt _ ha hs, Res.ok_bind, he]
  have unsigned' : x.ty.size = 1 → ldO x.ty = .uldsb → (v.word.truncate 8 : Byte).zeroExtend 16 = v.word →
      (x.level = 0 → loadV s ((level0 (ldO x.ty)).getD .nop) 0 (BitVec.ofInt 16 x.off) = .ok v.word) ∧
      (x.level ≠ 0 → loadV s (ldO x.ty) (BitVec.ofInt 8 ((Γ.level : Int) - x.level))
        (BitVec.ofInt 16 x.off) = .ok v.word) := by
    intro hs hl he
    rw [hl]
    refine ⟨fun h0 => ?_, fun h0 => ?_⟩
    · show loadV s .uldb _ _ = _
      rw [loadV, byt _ (hr0 h0) hs, Res.ok_bind, he]
    · obtain ⟨a, ha, hb⟩ := hr1 h0
      rw [loadV, hb, Res.ok_bind, byt _ ha hs, Res.ok_bind, he]
  generalize x.ty = ty at *
  cases ty with
  | num t =>
    clear hv
    cases v with
    | num t' i =>
      obtain ⟨rfl, hi⟩ := h1
      cases t with
      | integer => exact word' rfl rfl
      | word => exact word' rfl rfl
      | shortInteger => exact signed' rfl rfl (short_signed hi)
      | shortWord => exact unsigned' rfl rfl (short_unsigned hi)
    | _ => cases h1
  | bool => exact word' rfl rfl
  | char =>
    clear hv
    cases v with
    | char c => exact unsigned' rfl rfl (by rw [Val.word, char_unsigned])
    | _ => cases h1

/-! ### Elements of arrays -/

/-- The offset of the element in the array. -/
def Arr.rel (a : Arr) (i : Nat) : Int := ((i : Int) - a.lo) * a.ty.size

theorem Arr.elem_off (a : Arr) (i : Nat) : (a.elem i).off = a.off + a.rel i := rfl

theorem Arr.rel_nonneg {a : Arr} {i : Nat} (h : a.lo ≤ i) : 0 ≤ a.rel i :=
  Int.mul_nonneg (by omega) (by omega)

theorem pick_some {a : Arr} {w : Val} {k : Nat} (h : a.pick w = some k) :
    ∃ t, w = .num t k ∧ a.lo ≤ k ∧ k ≤ a.hi := by
  cases w with
  | num t i =>
    simp only [Arr.pick] at h
    split at h
    · next hb =>
      cases h
      exact ⟨t, by congr 1; omega, by omega, by omega⟩
    · cases h
  | _ => cases h

/-- A constant is pushed and an operation executed. -/
theorem pushOp_runs {lib : Lib} {s t : VM} {n : Nat} {w r : Word} {o : Op}
    {f : Word → Word → Res Word} (hp : Pushed s n w t) (hf : Free s 2) (hF : binF o = some f) (c : Int)
    (hr : f w (BitVec.ofInt 16 c) = .ok r) :
    ∃ u, Runs lib [ins .push 0 c, ins o 0 0] t u ∧ Pushed s (max n 2) r u := by
  obtain ⟨u1, u2, u3, u4, u5⟩ := hp.rep2 (psh_pushed (s := t) (Nat.le_refl 1) (BitVec.ofInt 16 c))
    hf r
  refine ⟨_, (push_runs (hp.free hf) c).append (bin_runs hF (by omega) ?_ ?_ 0 0), u5.regs, u5.value, ?_⟩
  · rw [u4, u1]; have := hf.1; omega
  · rw [u2, u3]; exact hr
  · intro j hj
    have hj : j ≤ s.top ∨ s.top + max n 2 < j := hj
    have e1 := hp.top (hf.mono (by omega))
    show updW (updW t.mem (t.top + 1) _) ((psh t _).top - 1) r j = _
    rw [u1, e1, updW_other _ _ (by omega), updW_other _ _ (by omega)]
    exact hp.kept j (by show j ≤ s.top ∨ s.top + n < j; omega)

/-- From the index to the offset. -/
theorem idx_runs {lib : Lib} {a : Arr} {k : Nat} (ha : a.Ok) (h1 : a.lo ≤ k) (h2 : k ≤ a.hi) {s t : VM} {n : Nat}
    (hp : Pushed s n (BitVec.ofInt 16 k) t) (hf : Free s 2) :
    ∃ u, Runs lib (idxI a) t u ∧ Pushed s (max n 2) (BitVec.ofInt 16 (a.rel k)) u := by
  have hk : ∀ z : Int, 0 ≤ z → z ≤ 32767 → (BitVec.ofInt 16 z).toInt = z := by
    intro z h1 h2
    rw [BitVec.toInt_ofInt]
    exact Int.bmod_eq_of_le (by omega) (by omega)
  have hb := ha.1
  have hb2 := ha.2
  have sub : ∃ u, Runs lib (if a.lo = 0 then [] else [ins .push 0 a.lo, ins .sub 0 0]) t u ∧
      Pushed s (max n 2) (BitVec.ofInt 16 ((k : Int) - a.lo)) u := by
    by_cases e : a.lo = 0
    · rw [if_pos e]
      refine ⟨t, .nil _, ?_⟩
      rw [e, show (k : Int) - ((0 : Nat) : Int) = k by omega]
      exact hp.mono (by omega)
    · rw [if_neg e]
      refine pushOp_runs hp hf (o := .sub) rfl _ ?_
      rw [hk _ (by omega) (by omega), hk _ (by omega) (by omega)]
  obtain ⟨u, r1, p1⟩ := sub
  have hs := size_cases a.ty
  unfold idxI
  by_cases e : a.ty.size = 1
  · rw [if_pos e]
    refine ⟨u, r1.append (.nil _), ?_⟩
    rw [Arr.rel, e, show ((k : Int) - a.lo) * ((1 : Nat) : Int) = (k : Int) - a.lo by omega]
    exact p1.mono (by omega)
  · rw [if_neg e]
    obtain ⟨w, r2, p2⟩ := pushOp_runs (lib := lib) p1 hf (o := .mul) rfl a.ty.size (by
      rw [hk ((k : Int) - a.lo) (by omega) (by omega), hk a.ty.size (by omega) (by omega)])
    exact ⟨w, r1.append r2, p2.mono (by omega)⟩

theorem element_add (a : Arr) (k : Nat) :
    BitVec.ofInt 16 a.off + BitVec.ofInt 16 (a.rel k) = BitVec.ofInt 16 (a.elem k).off := by
  rw [Arr.elem_off, BitVec.ofInt_add]

/-- The load of an element replaces its offset by its value. -/
theorem loadx_runs {lib : Lib} {Γ : Env} (hΓ : Γ.Ok) {s : VM} {b : Nat} {σ : Store} (hi : Γ.In s b)
    (hh : Γ.Holds s.mem σ) (ht : s.top < s.words) {a : Arr} {k : Nat} (hk : a.lo ≤ k)
    (hx : Γ.vars (a.elem k)) {v : Val} (hv : σ (a.elem k) = some v)
    (hoff : s.mem s.top = BitVec.ofInt 16 (a.rel k)) :
    Runs lib [ref Γ.level (ldxO a.ty) a.base] s (rep1 s v.word) := by
  obtain ⟨l0, l1⟩ := load_value hΓ hi hh hx hv
  have hnn := Arr.rel_nonneg hk
  have key : ∀ (o o' p p' : Op), ldxO a.ty = o → ldO a.ty = p → level0 o = some o' →
      level0 p = some p' → Popt.unindexed o = some p → Popt.unindexed o' = some p' →
      isPlain o = true → isPlain o' = true →
      (p' = .ld ∨ p' = .ldb ∨ p' = .uldb) →
      hasArg8 o.toByte = true → hasArg16 o.toByte = true →
      hasArg8 o'.toByte = false → hasArg16 o'.toByte = true →
      Runs lib [ref Γ.level (ldxO a.ty) a.base] s (rep1 s v.word) := by
    intro o o' p p' ho hp hl hl' hu hu' q q' hn a1 a2 a3 a4
    rw [show ldO (a.elem k).ty = p from hp] at l0 l1
    rw [hl'] at l0
    rw [ho]
    unfold ref
    by_cases h0 : a.level = 0
    · rw [if_pos (show a.base.level = 0 from h0), hl]
      refine .one (o := o') rfl q' ?_
      show effect lib (ins o' 0 a.base.off) s = _
      rw [(indexed_effect (lib := lib) (i := ins o' 0 a.base.off) (o := o') (s := s) rfl hu' ht
        (fun h => by rcases hn with rfl | rfl | rfl <;> rcases h with h | h | h | h <;> cases h)).2, hoff]
      simp only [ins, a3, a4, if_true, Bool.false_eq_true, if_false]
      rw [show a.base.off = a.off from rfl, element_add]
      have := l0 h0
      simp only [Option.getD] at this
      rw [this]
      rfl
    · rw [if_neg (show ¬ a.base.level = 0 from h0)]
      refine .one (o := o) rfl q ?_
      have hof := hΓ.offset _ hx h0
      rw [Arr.elem_off] at hof
      rw [(indexed_effect (lib := lib) (i := ins o ((Γ.level : Int) - a.base.level) a.base.off) (o := o)
        (s := s) rfl hu ht (fun _ => ?_)).2, hoff]
      · simp only [ins, a1, a2, if_true]
        rw [show a.base.off = a.off from rfl, element_add]
        have := l1 h0
        rw [show ((Γ.level : Int) - a.base.level) = (Γ.level : Int) - (a.elem k).level from rfl, this]
        rfl
      · simp only [ins, a2, if_true]
        rw [hoff, show a.base.off = (a.off : Int) from rfl]
        unfold SameSideIx
        rw [element_add, Arr.elem_off, BitVec.toInt_ofInt, BitVec.toInt_ofInt]
        rw [Int.bmod_eq_of_le (by omega) (by omega), Int.bmod_eq_of_le (by omega) (by omega)]
        omega
  generalize a.ty = ty at key
  cases ty with
  | num t =>
    cases t <;> exact key _ _ _ _ rfl rfl rfl rfl rfl rfl rfl rfl (by simp) rfl rfl rfl rfl
  | _ => exact key _ _ _ _ rfl rfl rfl rfl rfl rfl rfl rfl (by simp) rfl rfl rfl rfl

theorem dup_runs {lib : Lib} {s : VM} (hf : Free s 1) :
    Runs lib [ins .dup 0 0] s (psh s (s.mem s.top)) := by
  refine .one (ins_op .dup 0 0) rfl (effect_of_execSeq (ins_op .dup 0 0) rfl ?_)
  rw [dupI (ins_op .dup 0 0) lib [] hf]; rfl

theorem odd_word (a : Int) :
    pasBool (decide ((BitVec.ofInt 16 a &&& 1#16).toInt ≠ 0)) = (Val.bool (a % 2 = 1)).word := by
  have key : ∀ w : Word, (w &&& 1#16).toNat = w.toNat % 2 := by
    intro w; rw [BitVec.toNat_and]; exact Nat.and_two_pow_sub_one_eq_mod _ 1
  have h := key (BitVec.ofInt 16 a)
  rw [BitVec.toNat_ofInt] at h
  have h2 : (BitVec.ofInt 16 a &&& 1#16).toInt ≠ 0 ↔ a % 2 = 1 := by
    rw [BitVec.toInt_eq_toNat_cond, h]
    have : ((a % ((2 ^ 16 : Nat) : Int)).toNat % 2 : Nat) = (a % 2).toNat := by omega
    rw [this]
    split <;> omega
  by_cases ha : a % 2 = 1
  · have := h2.mpr ha
    simp only [decide_eq_true this, Val.word]
    simp [ha, pasBool]
  · have : ¬ (BitVec.ofInt 16 a &&& 1#16).toInt ≠ 0 := fun h => ha (h2.mp h)
    simp only [decide_eq_false this, Val.word]
    simp [ha, pasBool]

/-- The code of a standard function. -/
theorem call_runs {lib : Lib} {f : Fn} {w v : Val} {ty : Ty} (ht : f.type w.ty = some ty)
    (hw : w.Ranged) (hv : f.val w = some v) {s t : VM} {n : Nat} (hn : 1 ≤ n)
    (hp : Pushed s n w.word t) (hf : Free s (n + 3)) :
    ∃ u, Runs lib (callI f w.ty) t u ∧ Pushed s (n + 3) v.word u ∧ v.Ranged ∧ v.ty = ty := by
  have hfree : Free s 1 := hf.mono (by omega)
  have htop := hp.top hfree
  have hval : t.mem t.top = w.word := by rw [htop]; exact hp.value
  have hin : t.top < t.words := by rw [hp.words, htop]; exact hfree.1
  have hfree2 : Free s 2 := hf.mono (by omega)
  have hft : Free t 1 := hp.free hfree2
  have un : ∀ (o : Op) (F : Word → Word), unF o = some F → F w.word = v.word →
      ∃ u, Runs lib [ins o 0 0] t u ∧ Pushed s (n + 3) v.word u := by
    intro o F hF hFv
    refine ⟨_, un_runs hF (by omega) hin 0 0, ?_⟩
    rw [hval, hFv]
    exact (hp.mono (by omega)).rep1 (by omega) hfree _
  have same : v.word = w.word → ∃ u, Runs lib [] t u ∧ Pushed s (n + 3) v.word u := by
    intro h
    rw [h]
    exact ⟨t, .nil _, hp.mono (by omega)⟩
  cases f with
  | abs =>
    cases w with
    | num i a =>
      cases i <;> cases ht
      cases hv
      have hr : Int.bmod a 65536 = a := hw
      obtain ⟨u, h1, h2⟩ := un .abs_ _ rfl (by
        show (if (BitVec.ofInt 16 a).toInt < 0 then BitVec.ofInt 16 (-(BitVec.ofInt 16 a).toInt)
          else BitVec.ofInt 16 a) = _
        simp only [Val.word, ofInt_wrap]
        have e : (BitVec.ofInt 16 a).toInt = a := by rw [BitVec.toInt_ofInt]; exact hr
        rw [e]
        split
        · congr 1; omega
        · congr 1; omega)
      exact ⟨u, h1, h2, wrap_wrap _ _, rfl⟩
    | _ => cases ht
  | sqr =>
    cases w with
    | num i a =>
      cases ht
      have hm : mulVal .mul (.num i a) (.num i a) = some v := by
        have hw : wrap i a = a := hw
        simp only [mulVal, hw]
        exact hv
      obtain ⟨f', hf', hr, g, e⟩ := mul_value (op := .mul) (ty := .num i) rfl hw hw hm
      obtain ⟨u1, u2, u3, u4, u5⟩ := hp.rep2 (psh_pushed (s := t) (Nat.le_refl 1) (t.mem t.top))
        hfree2 v.word
      refine ⟨_, (dup_runs hft).append (bin_runs (f := f') (r := v.word) hf' (by omega) ?_ ?_ 0 0),
        u5.mono (by omega), g, e⟩
      · rw [u4, u1]; have := hfree2.1; omega
      · rw [u2, u3, hval]; exact hr
    | _ => cases ht
  | pred =>
    cases ht
    cases w with
    | num i a =>
      cases hv
      obtain ⟨u, h1, h2⟩ := un .dec _ rfl (by
        show BitVec.ofInt 16 a - 1#16 = BitVec.ofInt 16 (wrap i (a - 1))
        rw [ofInt_wrap]
        rw [show a - 1 = a + (-1) by omega, BitVec.ofInt_add, BitVec.sub_eq_add_neg]; rfl)
      exact ⟨u, h1, h2, wrap_wrap _ _, rfl⟩
    | bool b => cases hv
    | char c =>
      simp only [Fn.val] at hv
      split at hv
      · cases hv
      · next hc =>
        cases hv
        obtain ⟨u, h1, h2⟩ := un .dec _ rfl (by
          have key : ∀ c : Byte, c ≠ 0#8 → c.zeroExtend 16 - 1#16 = (c - 1#8).zeroExtend 16 := by
            decide +kernel
          exact key c hc)
        exact ⟨u, h1, h2, trivial, rfl⟩
  | succ =>
    cases ht
    cases w with
    | num i a =>
      cases hv
      obtain ⟨u, h1, h2⟩ := un .inc _ rfl (by
        show BitVec.ofInt 16 a + 1#16 = BitVec.ofInt 16 (wrap i (a + 1))
        rw [ofInt_wrap]
        rw [BitVec.ofInt_add]; rfl)
      exact ⟨u, h1, h2, wrap_wrap _ _, rfl⟩
    | bool b => cases hv
    | char c =>
      simp only [Fn.val] at hv
      split at hv
      · cases hv
      · next hc =>
        cases hv
        obtain ⟨u, h1, h2⟩ := un .inc _ rfl (by
          have key : ∀ c : Byte, c ≠ 255#8 → c.zeroExtend 16 + 1#16 = (c + 1#8).zeroExtend 16 := by
            decide +kernel
          exact key c hc)
        exact ⟨u, h1, h2, trivial, rfl⟩
  | ord =>
    cases ht
    cases w with
    | num i a =>
      cases hv
      obtain ⟨u, h1, h2⟩ := same (by show BitVec.ofInt 16 (wrap .integer a) = _; rw [ofInt_wrap]; rfl)
      exact ⟨u, h1, h2, wrap_wrap _ _, rfl⟩
    | bool b =>
      cases b with
      | false =>
        cases hv
        obtain ⟨u, h1, h2⟩ := same rfl
        exact ⟨u, h1, h2, rfl, rfl⟩
      | true => cases hv
    | char c =>
      cases hv
      obtain ⟨u, h1, h2⟩ := same (by simp [Val.word])
      refine ⟨u, h1, h2, ?_, rfl⟩
      have := c.isLt
      show wrap .integer (c.toNat : Int) = c.toNat
      rw [wrap_signed rfl]
      exact Int.bmod_eq_of_le (by omega) (by omega)
  | odd =>
    cases w with
    | num i a =>
      cases ht
      cases hv
      obtain ⟨u1, u2, u3, u4, u5⟩ := hp.rep2 (psh_pushed (s := t) (Nat.le_refl 1) 1#16)
        hfree2 (BitVec.ofInt 16 a &&& 1#16)
      have r1 := bin_runs (lib := lib) (o := .and_) (s := psh t 1#16)
        (r := BitVec.ofInt 16 a &&& 1#16) rfl (by omega)
        (by rw [u4, u1]; have := hfree2.1; omega) (by rw [u2, u3]; rfl) 0 0
      have r2 := un_runs (lib := lib) (o := .neqz) (s := rep2 (psh t 1#16) (BitVec.ofInt 16 a &&& 1#16))
        rfl (by rw [u5.top hfree]; omega) (by rw [u5.top hfree, u5.words]; exact hfree.1) 0 0
      refine ⟨_, (push_runs hft 1).append (r1.append r2), ?_, trivial, rfl⟩
      have hv := u5.value
      rw [u5.top hfree, show s.top + 1 = s.sp.toNat / 2 + 1 from rfl, hv, odd_word]
      exact (u5.mono (by omega)).rep1 (by omega) hfree _
    | _ => cases ht
  | chr =>
    cases w with
    | num i a =>
      cases i <;> cases ht
      simp only [Fn.val] at hv
      split at hv
      · next ha =>
        cases hv
        obtain ⟨u, h1, h2⟩ := same (by
          apply BitVec.eq_of_toNat_eq
          simp only [Val.word, BitVec.zeroExtend, BitVec.toNat_setWidth, BitVec.toNat_ofInt]
          omega)
        exact ⟨u, h1, h2, trivial, rfl⟩
      · cases hv
    | _ => cases ht

theorem toks_pos {l : Lvl} (e : E l) : 1 ≤ e.toks.length := by
  induction e with
  | factor f ih => exact ih
  | simple f ih => exact ih
  | term sign t ih =>
    cases sign with
    | none => exact ih
    | some _ => simp [E.toks]
  | _ => simp [E.toks] <;> omega

theorem lit_ranged {x : Expect} {n : Nat} {t : IntTy} (h : litType x n = some t) :
    wrap t n = n := by
  unfold litType at h
  split at h
  · cases h; rw [wrap_signed rfl]; exact Int.bmod_eq_of_le (by omega) (by omega)
  · split at h
    · split at h
      · cases h; show (n : Int) % 65536 = n; omega
      · cases h
    · split at h
      · cases h; rw [wrap_signed rfl]; exact Int.bmod_eq_of_le (by omega) (by omega)
      · cases h

/-- The code of an expression pushes its value. -/
theorem runs (lib : Lib) {Γ : Env} (hΓ : Γ.Ok) {σ : Store} {b : Nat} {l : Lvl} (e : E l) :
    ∀ (x : Expect) (ty : Ty) (v : Val) (s : VM), e.typeOf x = some ty → e.eval σ x = some v →
    (∀ y ∈ e.vars, Γ.vars y) → Γ.In s b → Γ.Holds s.mem σ → b ≤ s.top → Free s e.toks.length →
    ∃ t, Runs lib (code Γ.level x e) s t ∧ Pushed s e.toks.length v.word t ∧ v.Ranged ∧
      v.ty = ty := by
  induction e with
  | int k =>
    intro x ty v s ht he hv hi hh hb hf
    simp only [E.typeOf, Option.map_eq_some_iff] at ht
    obtain ⟨t, ht, rfl⟩ := ht
    simp only [E.eval, ht, Option.map_some] at he
    cases he
    refine ⟨_, push_runs hf k, psh_pushed (Nat.le_refl _) _, ?_, rfl⟩
    exact lit_ranged ht
  | bool c =>
    intro x ty v s ht he hv hi hh hb hf
    cases ht; cases he
    refine ⟨_, push_runs hf _, ?_, trivial, rfl⟩
    have : (Val.bool c).word = BitVec.ofInt 16 (if c then -1 else 0) := by cases c <;> rfl
    rw [this]
    exact psh_pushed (Nat.le_refl _) _
  | char c =>
    intro x ty v s ht he hv hi hh hb hf
    simp only [E.typeOf] at ht
    split at ht
    · cases ht; cases he
      refine ⟨_, push_runs hf _, ?_, trivial, rfl⟩
      have : (Val.char c).word = BitVec.ofInt 16 c.toNat := by
        simp [Val.word]
      rw [this]
      exact psh_pushed (Nat.le_refl _) _
    · cases ht
  | var y =>
    intro x ty v s ht he hv hi hh hb hf
    cases ht
    have hy := hv y (by simp [E.vars])
    obtain ⟨h1, h2⟩ := fits_ranged (hh y v hy he).1
    exact ⟨_, load_runs hΓ hi hh hf hy he, psh_pushed (Nat.le_refl _) _, h1, h2⟩
  | not tilde f ih =>
    intro x ty v s ht he hv hi hh hb hf
    have hty : f.typeOf x = some ty := by
      simp only [E.typeOf] at ht
      split at ht
      · next h => cases ht; exact h
      · next h => cases ht; exact h
      · cases ht
    simp only [E.eval] at he
    cases hw : f.eval σ x with
    | none => rw [hw] at he; cases he
    | some w =>
      have hl : (E.not tilde f).toks.length = f.toks.length + 1 := by simp [E.toks]
      rw [hl] at hf ⊢
      obtain ⟨t, h1, h2, h3, h4⟩ := ih x ty w s hty hw hv hi hh hb (hf.mono (by omega))
      have hfree : Free s 1 := hf.mono (by omega)
      have := h2.top hfree
      have hval : t.mem t.top = w.word := by rw [this]; exact h2.value
      have hn : ~~~w.word = v.word ∧ v.Ranged ∧ v.ty = w.ty := by
        apply not_value
        rw [hw] at he
        cases w <;> exact he
      refine ⟨_, h1.append (un_runs (o := .not_) rfl (by omega) ?_ 0 0), ?_, hn.2.1,
        hn.2.2.trans h4⟩
      · rw [h2.words]; have := hfree.1; omega
      · rw [hval, hn.1]
        exact (h2.mono (by omega)).rep1 (by omega) hfree _
  | paren e ih =>
    intro x ty v s ht he hv hi hh hb hf
    have hl : (E.paren e).toks.length = e.toks.length + 2 := by simp [E.toks]
    rw [hl] at hf ⊢
    obtain ⟨t, h1, h2, h3⟩ := ih .any ty v s ht he hv hi hh hb (hf.mono (by omega))
    exact ⟨t, h1, h2.mono (by omega), h3⟩
  | call f e ih =>
    intro x ty v s ht he hv hi hh hb hf
    simp only [E.typeOf, Option.bind_eq_bind, Option.bind_eq_some_iff] at ht
    obtain ⟨a, ha, hty⟩ := ht
    simp only [E.eval, Option.bind_eq_bind, Option.bind_eq_some_iff] at he
    obtain ⟨w, hw, hval⟩ := he
    have hl : (E.call f e).toks.length = e.toks.length + 3 := by simp [E.toks]
    rw [hl] at hf ⊢
    obtain ⟨t, h1, h2, h3, h4⟩ := ih f.expect a w s ha hw hv hi hh hb (hf.mono (by omega))
    subst h4
    obtain ⟨u, g1, g2, g3, g4⟩ := call_runs (lib := lib) hty h3 hval (toks_pos e) h2 hf
    exact ⟨u, by simp only [code, ha]; exact h1.append g1, g2, g3, g4⟩
  | index a e ih =>
    intro x ty v s ht he hv hi hh hb hf
    simp only [E.typeOf] at ht
    split at ht
    · next hok =>
      cases ht
      simp only [E.eval, Option.bind_eq_bind, Option.bind_eq_some_iff] at he
      obtain ⟨w, hw, k, hk, hval⟩ := he
      obtain ⟨ti, rfl, hk1, hk2⟩ := pick_some hk
      have hl : (E.index a e).toks.length = e.toks.length + 3 := by simp [E.toks]
      rw [hl] at hf ⊢
      have p1 := toks_pos e
      obtain ⟨t, h1, h2, h3, h4⟩ := ih _ _ _ s hok.2 hw (fun v h => hv v (by simp [E.vars, h])) hi hh hb
        (hf.mono (by omega))
      have hf2 : Free s 2 := hf.mono (by omega)
      have hf1 : Free s 1 := hf.mono (by omega)
      obtain ⟨u, g1, g2⟩ := idx_runs (lib := lib) hok.1 hk1 hk2 h2 hf2
      have hs := g2.same hb
      have hx : Γ.vars (a.elem k) := hv _ (by simp [E.vars, Arr.elem_mem hk1 hk2])
      have g3 := loadx_runs (lib := lib) hΓ (hs.in_ hi) (hs.holds hi hh)
        (by rw [g2.top hf1, g2.words]; exact hf1.1) hk1 hx hval
        (by rw [g2.top hf1]; exact g2.value)
      obtain ⟨q1, q2⟩ := fits_ranged (hh _ v hx hval).1
      refine ⟨_, (h1.append g1).append g3, ?_, q1, q2⟩
      exact (g2.mono (by omega)).rep1 (by omega) hf1 _
    · cases ht
  | factor f ih => exact ih
  | mul t op f iht ihf =>
    intro x ty v s ht he hv hi hh hb hf
    simp only [E.typeOf, Option.bind_eq_bind, Option.bind_eq_some_iff] at ht
    obtain ⟨a, ha, c, hc, hty⟩ := ht
    simp only [E.eval, Option.bind_eq_bind, Option.bind_eq_some_iff] at he
    obtain ⟨va, hva, vc, hvc, hval⟩ := he
    have hl : (E.mul t op f).toks.length = t.toks.length + f.toks.length + 1 := by
      simp [E.toks]; omega
    rw [hl] at hf ⊢
    have p1 := toks_pos t
    have p2 := toks_pos f
    obtain ⟨s1, r1, q1, g1, e1⟩ := iht x a va s ha hva (fun v h => hv v (by simp [E.vars, h])) hi hh hb
      (hf.mono (by omega))
    have hs := q1.same hb
    obtain ⟨s2, r2, q2, g2, e2⟩ := ihf (x.second op) c vc s1 hc hvc
      (fun v h => hv v (by simp [E.vars, h])) (hs.in_ hi) (hs.holds hi hh)
      (by rw [q1.top (hf.mono (by omega))]; omega) (q1.free (hf.mono (by omega)))
    obtain ⟨f', hf', hr, g, e⟩ := mul_value (ty := ty) (by rw [e1, e2]; exact hty) g1 g2 hval
    obtain ⟨u1, u2, u3, u4, u5⟩ := q1.rep2 q2 (hf.mono (by omega)) v.word
    have hmul : ty = a := (mul_after hty ⟨[], [], 0, 0, 0, 0, 0, []⟩ [] []).2.2
    subst hmul
    refine ⟨_, (r1.append r2).append (bin_runs (f := f') (r := v.word) ?_ (by omega) ?_ ?_ 0 0),
      u5, g, e⟩
    · rw [ha]; exact hf'
    · rw [u4, u1]; have := hf.1; omega
    · rw [u2, u3]; exact hr
  | term sign t ih =>
    intro x ty v s ht he hv hi hh hb hf
    cases sign with
    | none => exact ih x ty v s ht he hv hi hh hb hf
    | some sg =>
      have ht' : t.typeOf x = some ty := by
        simp only [E.typeOf] at ht
        split at ht
        · next h => cases ht; exact h
        · cases ht
      have hl : (E.term (some sg) t).toks.length = t.toks.length + 1 := by simp [E.toks]
      rw [hl] at hf ⊢
      cases sg with
      | plus =>
        obtain ⟨t, h1, h2, h3⟩ := ih x ty v s ht' he hv hi hh hb (hf.mono (by omega))
        exact ⟨t, h1, h2.mono (by omega), h3⟩
      | minus =>
        simp only [E.eval] at he
        split at he
        · next u i hw =>
          cases he
          obtain ⟨t, h1, h2, h3, h4⟩ := ih x ty (.num u i) s ht' hw hv hi hh hb (hf.mono (by omega))
          have hfree : Free s 1 := hf.mono (by omega)
          have := h2.top hfree
          have hval : t.mem t.top = (Val.num u i).word := by rw [this]; exact h2.value
          refine ⟨_, h1.append (un_runs (o := .neg) rfl (by omega) ?_ 0 0), ?_, wrap_wrap _ _, h4⟩
          · rw [h2.words]; have := hfree.1; omega
          · rw [hval]
            have : (Val.num u (wrap u (-i))).word = BitVec.ofInt 16 (-((Val.num u i).word).toInt) := by
              simp only [Val.word, ofInt_wrap, BitVec.ofInt_neg, BitVec.ofInt_toInt]
            rw [this]
            exact (h2.mono (by omega)).rep1 (by omega) hfree _
        · cases he
  | add a op t iha iht =>
    intro x ty v s ht he hv hi hh hb hf
    simp only [E.typeOf, Option.bind_eq_bind, Option.bind_eq_some_iff] at ht
    obtain ⟨ta, ha, c, hc, hty⟩ := ht
    simp only [E.eval, Option.bind_eq_bind, Option.bind_eq_some_iff] at he
    obtain ⟨va, hva, vc, hvc, hval⟩ := he
    have hl : (E.add a op t).toks.length = a.toks.length + t.toks.length + 1 := by
      simp [E.toks]; omega
    rw [hl] at hf ⊢
    have p1 := toks_pos a
    have p2 := toks_pos t
    obtain ⟨s1, r1, q1, g1, e1⟩ := iha x ta va s ha hva (fun v h => hv v (by simp [E.vars, h])) hi hh hb
      (hf.mono (by omega))
    have hs := q1.same hb
    rw [e1] at hvc
    obtain ⟨s2, r2, q2, g2, e2⟩ := iht (x.later ta) c vc s1 hc hvc
      (fun v h => hv v (by simp [E.vars, h])) (hs.in_ hi) (hs.holds hi hh)
      (by rw [q1.top (hf.mono (by omega))]; omega) (q1.free (hf.mono (by omega)))
    obtain ⟨f', hf', hr, g, e⟩ := add_value (ty := ty) (by rw [e1, e2]; exact hty) hval
    obtain ⟨u1, u2, u3, u4, u5⟩ := q1.rep2 q2 (hf.mono (by omega)) v.word
    have hcode : code Γ.level x (.add a op t) = code Γ.level x a ++ code Γ.level (x.later ta) t ++
        [ins (addO op) 0 0] := by simp only [code, ha, Option.getD]
    rw [hcode]
    refine ⟨_, (r1.append r2).append (bin_runs (f := f') (r := v.word) hf' (by omega) ?_ ?_ 0 0),
      u5, g, e⟩
    · rw [u4, u1]; have := hf.1; omega
    · rw [u2, u3]; exact hr
  | simple a ih =>
    intro x ty v s ht he hv hi hh hb hf
    simp only [E.typeOf, Option.bind_eq_bind, Option.bind_eq_some_iff] at ht
    obtain ⟨t, ha, hty⟩ := ht
    obtain ⟨_, rfl⟩ := typeCheck_after hty ⟨[], [], 0, 0, 0, 0, 0, []⟩
    exact ih x ty v s ha he hv hi hh hb hf
  | rel a op t iha iht =>
    intro x ty v s ht he hv hi hh hb hf
    simp only [E.typeOf, Option.bind_eq_bind, Option.bind_eq_some_iff] at ht
    obtain ⟨ta, ha, tb, hc, ty', hty, hx⟩ := ht
    obtain ⟨_, rfl⟩ := typeCheck_after hx ⟨[], [], 0, 0, 0, 0, 0, []⟩
    simp only [E.eval, Option.bind_eq_bind, Option.bind_eq_some_iff] at he
    obtain ⟨va, hva, vc, hvc, hval⟩ := he
    have hl : (E.rel a op t).toks.length = a.toks.length + t.toks.length + 1 := by
      simp [E.toks]; omega
    rw [hl] at hf ⊢
    have p1 := toks_pos a
    have p2 := toks_pos t
    obtain ⟨s1, r1, q1, g1, e1⟩ := iha x ta va s ha hva (fun v h => hv v (by simp [E.vars, h])) hi hh hb
      (hf.mono (by omega))
    have hs := q1.same hb
    obtain ⟨s2, r2, q2, g2, e2⟩ := iht x tb vc s1 hc hvc
      (fun v h => hv v (by simp [E.vars, h])) (hs.in_ hi) (hs.holds hi hh)
      (by rw [q1.top (hf.mono (by omega))]; omega) (q1.free (hf.mono (by omega)))
    obtain ⟨f', hf', hr, g, e⟩ := rel_value (ty := ty) (by rw [e1, e2]; exact hty) hval
    obtain ⟨u1, u2, u3, u4, u5⟩ := q1.rep2 q2 (hf.mono (by omega)) v.word
    have hcode : code Γ.level x (.rel a op t) = code Γ.level x a ++ code Γ.level x t ++
        [ins (relO op va.ty vc.ty) 0 0] := by simp only [code, ha, hc, Option.getD, e1, e2]
    rw [hcode]
    refine ⟨_, (r1.append r2).append (bin_runs (f := f') (r := v.word) hf' (by omega) ?_ ?_ 0 0),
      u5, g, e⟩
    · rw [u4, u1]; have := hf.1; omega
    · rw [u2, u3]; exact hr

end Pas.Src
