import Verif.Spec.LongConst
import Verif.Lemmas.Long
import Verif.Lemmas.Peephole

/-! Short sequences with operations on longs. -/
namespace Pas
open Spec Popt LongOps

/-- Replace the long on top. -/
def repL (s : VM) (v : BitVec 32) : VM :=
  { s with mem := updW (updW s.mem s.top (v.extractLsb' 16 16)) (s.top - 1) (v.extractLsb' 0 16) }

/-- Push a long. -/
def pshL (s : VM) (v : BitVec 32) : VM := psh (psh s (v.extractLsb' 0 16)) (v.extractLsb' 16 16)

/-- Remove `n` words and push `w`. -/
def popPush (s : VM) (n : Nat) (w : Word) : VM :=
  { s with sp := s.sp - BitVec.ofNat 16 (2 * n) + 2#16, mem := updW s.mem (s.top + 1 - n) w }

def LUnI (lib : Lib) (i : OpType) (f : BitVec 32 → Res (BitVec 32)) : Prop :=
  ∀ rest s, 1 ≤ s.top → s.top < s.words →
    execSeq lib (i :: rest) s = (do let r ← f (Spec.long s 0); execSeq lib rest (repL s r))

def LBinI (lib : Lib) (i : OpType) (f : BitVec 32 → BitVec 32 → Res (BitVec 32)) : Prop :=
  ∀ rest s, 3 ≤ s.top → s.top < s.words →
    execSeq lib (i :: rest) s =
      (do let r ← f (Spec.long s 2) (Spec.long s 0); execSeq lib rest (repL (popN s 2) r))

def LShiftI (lib : Lib) (i : OpType) (f : BitVec 32 → Nat → BitVec 32) : Prop :=
  ∀ rest s, 2 ≤ s.top → s.top < s.words →
    execSeq lib (i :: rest) s =
      if (s.mem s.top).toNat < 32 then
        execSeq lib rest (repL (popN s 1) (f (Spec.long s 1) (s.mem s.top).toNat))
      else .ub

variable {lib : Lib} (hlib : lib.longOps8 = longOps8)
include hlib

theorem long_exec {i : OpType} (ho : i.op = Op.longop8.toByte) (rest : List OpType) (s : VM) :
    execSeq lib (i :: rest) s = (do
      let (e, s') ← longOps8 { s with pc := 2#16 } i.arg1
      if e = eNOERROR then execSeq lib rest { s' with pc := s.pc } else .ub) := by
  rw [execSeq_plain ho rfl, effect_16 ho rfl rfl, pexec16, hlib]
  show ((longOps8 { s with pc := 0 + 2#16 } i.arg1 >>= _) >>= _) = _
  rw [show (0 : Word) + 2#16 = 2#16 from rfl]
  cases longOps8 { s with pc := 2#16 } i.arg1 with
  | ub => rfl
  | hang => rfl
  | ok r =>
    obtain ⟨e, s'⟩ := r
    simp only [Res.ok_bind]
    split <;> rfl

theorem lunI {i : OpType} {f : BitVec 32 → Res (BitVec 32)} (ho : i.op = Op.longop8.toByte)
    (hf : ∀ s, longOps8 s i.arg1 = unop32 s f) : LUnI lib i f := by
  intro rest s h1 h2
  rw [long_exec hlib ho, hf, unop32, getTos32_eq _ 0 (by exact h1) (by exact h2)]
  simp only [Res.ok_bind]
  show _ = (do let r ← f (s.mem (s.top - 0) ++ s.mem (s.top - (0 + 1))); _)
  show ((f (s.mem (s.top - 0) ++ s.mem (s.top - (0 + 1))) >>= _) >>= _) = _
  cases f (s.mem (s.top - 0) ++ s.mem (s.top - (0 + 1))) with
  | ub => rfl
  | hang => rfl
  | ok r =>
    simp only [Res.ok_bind]
    rw [putTos32_eq _ _ 0 (by exact h1) (by exact h2)]
    rfl

omit hlib in
theorem popN_top {s : VM} {n : Nat} (h : n ≤ s.top) : (popN s n).top = s.top - n := by
  have h' : n ≤ s.sp.toNat / 2 := h
  have := s.sp.isLt
  show (s.sp - BitVec.ofNat 16 (2 * n)).toNat / 2 = s.sp.toNat / 2 - n
  rw [BitVec.toNat_sub, BitVec.toNat_ofNat]
  omega

omit hlib in
theorem sub22 (w : Word) : w - 2#16 - 2#16 = w - BitVec.ofNat 16 (2 * 2) := by bv_omega

theorem lbinI {i : OpType} {f : BitVec 32 → BitVec 32 → Res (BitVec 32)} (ho : i.op = Op.longop8.toByte)
    (hf : ∀ s, longOps8 s i.arg1 = binop32 s f) : LBinI lib i f := by
  intro rest s h1 h2
  rw [long_exec hlib ho, hf, binop32, pop32_eq _ (by show 1 ≤ s.top; omega) (by exact h2)]
  simp only [Res.ok_bind]
  have ht : ({ s with pc := 2#16, sp := s.sp - 2#16 - 2#16 } : VM).top = s.top - 2 :=
    sub4_top s (by omega)
  rw [getTos32_eq _ 0 (by rw [ht]; omega) (by rw [ht]; show _ < s.words; omega)]
  simp only [Res.ok_bind, ht]
  show ((f (s.mem (s.top - 2 - 0) ++ s.mem (s.top - 2 - (0 + 1))) (s.mem s.top ++ s.mem (s.top - 1)) >>= _) >>= _) =
    (do let r ← f (s.mem (s.top - 2) ++ s.mem (s.top - (2 + 1))) (s.mem s.top ++ s.mem (s.top - 1)); _)
  rw [show s.top - 2 - 0 = s.top - 2 by omega, show s.top - 2 - (0 + 1) = s.top - (2 + 1) by omega]
  cases f (s.mem (s.top - 2) ++ s.mem (s.top - (2 + 1))) (s.mem s.top ++ s.mem (s.top - 1)) with
  | ub => rfl
  | hang => rfl
  | ok r =>
    simp only [Res.ok_bind]
    rw [putTos32_eq _ _ 0 (by rw [ht]; omega) (by rw [ht]; show _ < s.words; omega)]
    simp only [Res.ok_bind, Res.pure_eq, if_true, ht]
    congr 1
    unfold repL
    rw [popN_top (by omega)]
    unfold popN
    rw [← sub22]
    rfl

theorem lshiftI {i : OpType} {f : BitVec 32 → Nat → BitVec 32} (ho : i.op = Op.longop8.toByte)
    (hf : ∀ s, longOps8 s i.arg1 = shift32 s f) : LShiftI lib i f := by
  intro rest s h1 h2
  rw [long_exec hlib ho, hf, shift32, VM.pop_eq _ (by exact h2)]
  simp only [Res.ok_bind]
  have ht : ({ s with pc := 2#16, sp := s.sp - 2#16 } : VM).top = s.top - 1 :=
    VM.sub2_div _ (by show 1 ≤ s.top; omega)
  rw [getTos32_eq _ 0 (by rw [ht]; omega) (by rw [ht]; show _ < s.words; omega)]
  simp only [Res.ok_bind, ht]
  show ((if (s.mem s.top).toNat < 32 then _ else Res.ub) >>= _) = _
  split
  · rw [putTos32_eq _ _ 0 (by rw [ht]; omega) (by rw [ht]; show _ < s.words; omega)]
    simp only [Res.ok_bind, Res.pure_eq, if_true, ht]
    congr 1
    unfold repL
    rw [popN_top (by omega)]
    rfl
  · rfl

omit hlib in
theorem push_pop {s : VM} {n : Nat} {w : Word} (h : n ≤ s.top) (hn : 1 ≤ n) (h2 : s.top < s.words) :
    ({ s with pc := 2#16, sp := s.sp - BitVec.ofNat 16 (2 * n) } : VM).push w =
      .ok { popPush s n w with pc := 2#16 } := by
  have ht : ({ s with pc := 2#16, sp := s.sp - BitVec.ofNat 16 (2 * n) + 2#16 } : VM).top = s.top + 1 - n := by
    have h' : n ≤ s.sp.toNat / 2 := h
    have := s.sp.isLt
    show (s.sp - BitVec.ofNat 16 (2 * n) + 2#16).toNat / 2 = s.sp.toNat / 2 + 1 - n
    rw [BitVec.toNat_add, BitVec.toNat_sub, BitVec.toNat_ofNat, BitVec.toNat_ofNat]
    omega
  unfold VM.push
  simp only
  rw [ht, VM.wr_eq _ _ (by show _ < s.words; omega)]
  rfl

theorem lcmpzI {i : OpType} {f : BitVec 32 → Bool} (ho : i.op = Op.longop8.toByte)
    (hf : ∀ s, longOps8 s i.arg1 = cmpz32 s f) {rest : List OpType} {s : VM} (h1 : 2 ≤ s.top)
    (h2 : s.top < s.words) :
    execSeq lib (i :: rest) s = execSeq lib rest (popPush s 2 (pasBool (f (Spec.long s 0)))) := by
  rw [long_exec hlib ho, hf, cmpz32, pop32_eq _ (by show 1 ≤ s.top; omega) (by exact h2)]
  simp only [Res.ok_bind]
  have := push_pop (s := s) (n := 2) (w := pasBool (f (Spec.long s 0))) h1 (by omega) h2
  rw [← sub22] at this
  show ((VM.push { s with pc := 2#16, sp := s.sp - 2#16 - 2#16 } (pasBool (f (Spec.long s 0))) >>= _) >>= _) = _
  rw [this]
  rfl

theorem lcmpI {i : OpType} {f : BitVec 32 → BitVec 32 → Bool} (ho : i.op = Op.longop8.toByte)
    (hf : ∀ s, longOps8 s i.arg1 = cmp32 s f) {rest : List OpType} {s : VM} (h1 : 4 ≤ s.top)
    (h2 : s.top < s.words) :
    execSeq lib (i :: rest) s =
      execSeq lib rest (popPush s 4 (pasBool (f (Spec.long s 0) (Spec.long s 2)))) := by
  rw [long_exec hlib ho, hf, cmp32, pop32_eq _ (by show 1 ≤ s.top; omega) (by exact h2)]
  simp only [Res.ok_bind]
  have ht : ({ s with pc := 2#16, sp := s.sp - 2#16 - 2#16 } : VM).top = s.top - 2 :=
    sub4_top s (by omega)
  rw [pop32_eq _ (by rw [ht]; omega) (by rw [ht]; show _ < s.words; omega)]
  simp only [Res.ok_bind, ht]
  have := push_pop (s := s) (n := 4) (w := pasBool (f (Spec.long s 0) (Spec.long s 2))) h1 (by omega) h2
  rw [show s.sp - BitVec.ofNat 16 (2 * 4) = s.sp - 2#16 - 2#16 - 2#16 - 2#16 by bv_omega] at this
  show ((VM.push { s with pc := 2#16, sp := s.sp - 2#16 - 2#16 - 2#16 - 2#16 }
    (pasBool (f (s.mem s.top ++ s.mem (s.top - 1)) (s.mem (s.top - 2) ++ s.mem (s.top - 2 - 1)))) >>= _) >>= _) = _
  rw [show s.top - 2 - 1 = s.top - (2 + 1) by omega]
  rw [show (VM.push { s with pc := 2#16, sp := s.sp - 2#16 - 2#16 - 2#16 - 2#16 }
    (pasBool (f (s.mem s.top ++ s.mem (s.top - 1)) (s.mem (s.top - 2) ++ s.mem (s.top - (2 + 1)))))) = _ from this]
  rfl

/-! Pushed longs. -/

omit hlib in
theorem pshL_top {s : VM} {v : BitVec 32} (h : Free s 2) : (pshL s v).top = s.top + 2 := by
  unfold pshL
  rw [psh_top (psh_free h), psh_top (h.mono (by omega))]

omit hlib in
theorem pshL_free {s : VM} {v : BitVec 32} {n : Nat} (h : Free s (n + 2)) : Free (pshL s v) n :=
  psh_free (psh_free h)

omit hlib in
theorem pshL_mem {s : VM} {v : BitVec 32} (h : Free s 2) {j : Nat} (hj : j ≤ s.top) :
    (pshL s v).mem j = s.mem j := by
  unfold pshL
  rw [psh_mem (by rw [psh_top (h.mono (by omega))]; omega), psh_mem hj]

omit hlib in
theorem pshL_long {s : VM} {v : BitVec 32} (h : Free s 2) : Spec.long (pshL s v) 0 = v := by
  have e : (pshL s v).mem ((pshL s v).top - 1) = v.extractLsb' 0 16 := by
    rw [pshL_top h]
    unfold pshL
    rw [show s.top + 2 - 1 = (psh s (v.extractLsb' 0 16)).top by rw [psh_top (h.mono (by omega))]; omega,
      psh_mem (Nat.le_refl _), psh_mem_top (h.mono (by omega))]
  have e2 : (pshL s v).mem (pshL s v).top = v.extractLsb' 16 16 := psh_mem_top (psh_free h)
  show ((pshL s v).mem ((pshL s v).top - 0) ++ (pshL s v).mem ((pshL s v).top - (0 + 1)) : BitVec 32) = v
  rw [Nat.sub_zero, Nat.zero_add, e, e2, split_long]

omit hlib in
theorem pshL_long2 {s : VM} {v : BitVec 32} (h : Free s 2) (h1 : 1 ≤ s.top) :
    Spec.long (pshL s v) 2 = Spec.long s 0 := by
  show ((pshL s v).mem ((pshL s v).top - 2) ++ (pshL s v).mem ((pshL s v).top - (2 + 1)) : BitVec 32) =
    (s.mem (s.top - 0) ++ s.mem (s.top - (0 + 1)) : BitVec 32)
  rw [pshL_top h, pshL_mem h (by omega), pshL_mem h (by omega)]
  congr 2

omit hlib in
theorem repL_pshL {s : VM} {v w : BitVec 32} (h : Free s 2) : repL (pshL s v) w = pshL s w := by
  have e : (pshL s v).top = s.top + 2 := pshL_top h
  have p : ∀ x, (psh s x).top = s.top + 1 := fun x => psh_top (h.mono (by omega))
  unfold repL
  rw [e]
  unfold pshL psh
  simp only
  congr 1
  funext i
  have p' : ∀ x, ({ s with sp := s.sp + 2#16, mem := updW s.mem (s.top + 1) x } : VM).top = s.top + 1 := p
  rw [p', p']
  simp only [updW]
  repeat' split
  all_goals first | rfl | omega

omit hlib in
/-- Two constants push a long. -/
theorem push2 {a b : OpType} {x y : Word} (ha : PushI a x) (hb : PushI b y) {rest : List OpType}
    {s : VM} (h : Free s 2) :
    execSeq lib (a :: b :: rest) s = execSeq lib rest (pshL s (y ++ x)) := by
  rw [ha lib _ _ (h.mono (by omega)), hb lib _ _ (psh_free h)]
  unfold pshL
  rw [lo_append, hi_append]

omit hlib in
theorem sameLong_refl {n : Nat} (s : VM) : SameLong n s s := ⟨rfl, fun _ _ => rfl⟩

omit hlib in
/-- The long below pushed words is replaced: `t` is `s` with `n` more words. -/
theorem live_rep {s t : VM} {n : Nat} {w : BitVec 32} (hr : t = { s with sp := t.sp, mem := t.mem })
    (hsp : (popN t n).sp = s.sp) (hm : ∀ i, i ≤ s.top ∨ s.top + n < i → t.mem i = s.mem i) :
    repL s w = { repL (popN t n) w with mem := (repL s w).mem } ∧
      ∀ i, i ≤ s.top ∨ s.top + n < i → (repL s w).mem i = (repL (popN t n) w).mem i := by
  have e : popN t n = { s with mem := t.mem } := by
    rw [show popN t n = { t with sp := (popN t n).sp } from rfl, hsp, hr]
  rw [e]
  refine ⟨rfl, fun i hi => ?_⟩
  show updW (updW s.mem s.top _) (s.top - 1) _ i = updW (updW t.mem s.top _) (s.top - 1) _ i
  simp only [updW, hm i hi]

omit hlib in
theorem pshL_above {s : VM} {v : BitVec 32} (h : Free s 2) {i : Nat} (hi : i ≤ s.top ∨ s.top + 2 < i) :
    (pshL s v).mem i = s.mem i := by
  show updW (updW s.mem (s.top + 1) _) ((psh s _).top + 1) _ i = _
  rw [psh_top (h.mono (by omega)), updW_other _ _ (by omega), updW_other _ _ (by omega)]

omit hlib in
theorem pshL_sp {s : VM} {v : BitVec 32} : (popN (pshL s v) 2).sp = s.sp := by
  show s.sp + 2#16 + 2#16 - BitVec.ofNat 16 (2 * 2) = s.sp
  bv_omega

omit hlib in
theorem live_repL {s : VM} {v w : BitVec 32} (h : Free s 2) :
    SameLong s.top (repL (popN (pshL s v) 2) w) (repL s w) := by
  obtain ⟨h1, h2⟩ := live_rep (s := s) (t := pshL s v) (n := 2) (w := w) rfl pshL_sp
    (fun i hi => pshL_above h hi)
  refine ⟨h1, fun i hi => h2 i ?_⟩
  have : (repL (popN (pshL s v) 2) w).sp.toNat / 2 = s.top := by
    show (popN (pshL s v) 2).sp.toNat / 2 = _
    rw [pshL_sp]; rfl
  omega

omit hlib in
theorem repL_self {s : VM} : repL s (Spec.long s 0) = s := by
  unfold repL
  have : (s.mem (s.top - 0) ++ s.mem (s.top - (0 + 1)) : BitVec 32) = Spec.long s 0 := rfl
  rw [← this, lo_append, hi_append]
  rw [Nat.sub_zero, Nat.zero_add, updW_id]
  by_cases h : s.top = s.top - 1
  · rw [updW_id]
  · rw [updW_id]

/-! Families of rewrites. -/

variable {P : VM → Prop} {a b x a' b' x' : OpType}

omit hlib in
/-- Constants written in another way. -/
theorem lfam_same {u w : Word} (ha : PushI a u) (hb : PushI b w) (ha' : PushI a' u) (hb' : PushI b' w) :
    SoundLong lib P [a, b, x] [a', b', x] := by
  intro s hr _ e s' h
  have h2 := hr.free.mono (m := 2) (by omega)
  rw [push2 ha hb h2] at h
  rw [push2 ha' hb' h2]
  exact ⟨s', h, sameLong_refl _⟩

omit hlib in
/-- One-operand operation on a constant. -/
theorem lfam_const {u w : Word} {f : BitVec 32 → Res (BitVec 32)} {r : BitVec 32} (ha : PushI a u)
    (hb : PushI b w) (hx : LUnI lib x f) (hf : f (w ++ u) = .ok r)
    (ha' : PushI a' (r.extractLsb' 0 16)) (hb' : PushI b' (r.extractLsb' 16 16)) :
    SoundLong lib P [a, b, x] [a', b', nop] := by
  intro s hr _ e s' h
  have h2 := hr.free.mono (m := 2) (by omega)
  rw [push2 ha hb h2, hx _ _ (by rw [pshL_top h2]; omega) (pshL_free (n := 0) h2).lt, pshL_long h2, hf,
    Res.ok_bind, repL_pshL h2] at h
  rw [push2 ha' hb' h2, nopI, split_long]
  exact ⟨s', h, sameLong_refl _⟩

omit hlib in
/-- A constant second operand that changes nothing. -/
theorem lfam_drop {u w : Word} {g : BitVec 32 → BitVec 32 → Res (BitVec 32)} (ha : PushI a u)
    (hb : PushI b w) (hx : LBinI lib x g) (hg : ∀ v r, g v (w ++ u) = .ok r → r = v) :
    SoundLong lib P [a, b, x] [nop, nop, nop] := by
  intro s hr _ e s' h
  have h2 := hr.free.mono (m := 2) (by omega)
  have ht := hr.top
  rw [push2 ha hb h2, hx _ _ (by rw [pshL_top h2]; omega) (pshL_free (n := 0) h2).lt, pshL_long h2,
    pshL_long2 h2 (by omega)] at h
  cases hv : g (Spec.long s 0) (w ++ u) with
  | ub => rw [hv] at h; cases h
  | hang => rw [hv] at h; cases h
  | ok r =>
    rw [hv, Res.ok_bind, hg _ _ hv] at h
    cases h
    rw [nopI, nopI, nopI]
    refine ⟨s, rfl, ?_⟩
    have := live_repL (v := w ++ u) (w := Spec.long s 0) h2
    rwa [repL_self] at this

omit hlib in
/-- A constant second operand: the operation becomes a one-operand operation. -/
theorem lfam_only {u w : Word} {g : BitVec 32 → BitVec 32 → Res (BitVec 32)}
    {f : BitVec 32 → Res (BitVec 32)} (ha : PushI a u)
    (hb : PushI b w) (hx : LBinI lib x g) (hx' : LUnI lib x' f)
    (hg : ∀ v r, g v (w ++ u) = .ok r → f v = .ok r) :
    SoundLong lib P [a, b, x] [nop, nop, x'] := by
  intro s hr _ e s' h
  have h2 := hr.free.mono (m := 2) (by omega)
  have ht := hr.top
  rw [push2 ha hb h2, hx _ _ (by rw [pshL_top h2]; omega) (pshL_free (n := 0) h2).lt, pshL_long h2,
    pshL_long2 h2 (by omega)] at h
  cases hv : g (Spec.long s 0) (w ++ u) with
  | ub => rw [hv] at h; cases h
  | hang => rw [hv] at h; cases h
  | ok r =>
    rw [hv, Res.ok_bind] at h
    cases h
    rw [nopI, nopI, hx' _ _ (by omega) hr.free.lt, hg _ _ hv, Res.ok_bind]
    exact ⟨_, rfl, live_repL h2⟩

omit hlib in
theorem popPush_top {s : VM} {n : Nat} {w : Word} (h : n ≤ s.top) (hn : 1 ≤ n) :
    (popPush s n w).sp.toNat / 2 = s.top + 1 - n := by
  have h' : n ≤ s.sp.toNat / 2 := h
  have := s.sp.isLt
  show (s.sp - BitVec.ofNat 16 (2 * n) + 2#16).toNat / 2 = s.sp.toNat / 2 + 1 - n
  rw [BitVec.toNat_add, BitVec.toNat_sub, BitVec.toNat_ofNat, BitVec.toNat_ofNat]
  omega

/-- A comparison with a constant: a one-operand operation and a comparison with zero. -/
theorem lfam_two {u w : Word} {g : BitVec 32 → BitVec 32 → Bool} {f : BitVec 32 → Res (BitVec 32)}
    {k : BitVec 32 → BitVec 32} {z : BitVec 32 → Bool} (ha : PushI a u) (hb : PushI b w)
    (hx : x.op = Op.longop8.toByte) (hxg : ∀ s, longOps8 s x.arg1 = cmp32 s g) (hb' : LUnI lib b' f)
    (hf : ∀ v, f v = .ok (k v))
    (hx' : x'.op = Op.longop8.toByte) (hxz : ∀ s, longOps8 s x'.arg1 = cmpz32 s z)
    (hg : ∀ v, g (w ++ u) v = z (k v)) : SoundLong lib P [a, b, x] [nop, b', x'] := by
  intro s hr _ e s' h
  have h2 := hr.free.mono (m := 2) (by omega)
  have ht := hr.top
  have hl := hr.free.lt
  rw [push2 ha hb h2, lcmpI hlib hx hxg (by rw [pshL_top h2]; omega) (pshL_free (n := 0) h2).lt, pshL_long h2,
    pshL_long2 h2 (by omega), hg] at h
  cases h
  have hlong : Spec.long (repL s (k (Spec.long s 0))) 0 = k (Spec.long s 0) := by
    show (updW (updW s.mem s.top _) (s.top - 1) _ (s.top - 0) ++
      updW (updW s.mem s.top _) (s.top - 1) _ (s.top - (0 + 1)) : BitVec 32) = _
    rw [Nat.sub_zero, Nat.zero_add, updW_same, updW_other _ _ (by omega), updW_same, split_long]
  rw [nopI, hb' _ _ (by omega) hl, hf, Res.ok_bind,
    lcmpzI hlib hx' hxz (by show 2 ≤ s.top; omega) (by exact hl), hlong]
  refine ⟨_, rfl, ?_, ?_⟩
  · show ({ s with sp := s.sp - BitVec.ofNat 16 (2 * 2) + 2#16, mem := _ } : VM) =
      { s with sp := s.sp + 2#16 + 2#16 - BitVec.ofNat 16 (2 * 4) + 2#16, mem := _ }
    rw [show s.sp + 2#16 + 2#16 - BitVec.ofNat 16 (2 * 4) + 2#16 = s.sp - BitVec.ofNat 16 (2 * 2) + 2#16 by bv_omega]
    rfl
  · intro i hi
    rw [popPush_top (by rw [pshL_top h2]; omega) (by omega), pshL_top h2] at hi
    have hi : i ≤ s.top - 1 ∨ s.top + 4 < i := by
      rcases hi with hi | hi
      · exact .inl (by omega)
      · exact .inr hi
    show updW (updW (updW s.mem s.top _) (s.top - 1) _) (s.top + 1 - 2) _ i =
      updW (pshL s _).mem ((pshL s _).top + 1 - 4) _ i
    rw [pshL_top h2, show s.top + 1 - 2 = s.top - 1 by omega, show s.top + 2 + 1 - 4 = s.top - 1 by omega]
    by_cases he : i = s.top - 1
    · rw [he, updW_same, updW_same]
    · rw [updW_other _ _ he, updW_other _ _ he, updW_other _ _ he, updW_other _ _ (by omega),
        pshL_above h2 (by omega)]

variable {c d c' d' : OpType}

omit hlib in
/-- Two constants and a two-operand operation. -/
theorem lfam_fold {u w m n : Word} {g : BitVec 32 → BitVec 32 → Res (BitVec 32)} {r : BitVec 32}
    (ha : PushI a u) (hb : PushI b w) (hc : PushI c m) (hd : PushI d n) (hx : LBinI lib x g)
    (hg : ∀ r', g (w ++ u) (n ++ m) = .ok r' → r' = r)
    (ha' : PushI a' (r.extractLsb' 0 16)) (hb' : PushI b' (r.extractLsb' 16 16)) :
    SoundLong lib P [a, b, c, d, x] [a', b', nop, nop, nop] := by
  intro s hr _ e s' h
  have h4 := hr.free
  have h2 := hr.free.mono (m := 2) (by omega)
  have ht := hr.top
  have f2 : Free (pshL s (w ++ u)) 2 := pshL_free h4
  rw [push2 ha hb h2, push2 hc hd f2, hx _ _ (by rw [pshL_top f2, pshL_top h2]; omega)
    (pshL_free (n := 0) f2).lt, pshL_long f2, pshL_long2 f2 (by rw [pshL_top h2]; omega), pshL_long h2] at h
  cases hv : g (w ++ u) (n ++ m) with
  | ub => rw [hv] at h; cases h
  | hang => rw [hv] at h; cases h
  | ok r' =>
    rw [hv, Res.ok_bind, hg _ hv] at h
    cases h
    rw [push2 ha' hb' h2, nopI, nopI, nopI, split_long]
    obtain ⟨h1, h3⟩ := live_rep (s := pshL s (w ++ u)) (t := pshL (pshL s (w ++ u)) (n ++ m)) (n := 2) (w := r) rfl pshL_sp
      (fun i hi => pshL_above f2 hi)
    rw [repL_pshL h2, pshL_top h2] at *
    refine ⟨_, rfl, h1, fun i hi => h3 i ?_⟩
    have : (repL (popN (pshL (pshL s (w ++ u)) (n ++ m)) 2) r).sp.toNat / 2 = s.top + 2 := by
      show (popN (pshL (pshL s (w ++ u)) (n ++ m)) 2).sp.toNat / 2 = _
      rw [pshL_sp]
      exact pshL_top h2
    have ht' : s.sp.toNat / 2 = s.top := rfl
    omega

/-- Two constants that are compared. -/
theorem lfam_compare {u w m n r : Word} {g : BitVec 32 → BitVec 32 → Bool}
    (ha : PushI a u) (hb : PushI b w) (hc : PushI c m) (hd : PushI d n)
    (hx : x.op = Op.longop8.toByte) (hxg : ∀ s, longOps8 s x.arg1 = cmp32 s g)
    (hg : pasBool (g (n ++ m) (w ++ u)) = r) (hx' : PushI x' r) :
    SoundLong lib P [a, b, c, d, x] [nop, nop, nop, nop, x'] := by
  intro s hr _ e s' h
  have h4 := hr.free
  have h2 := hr.free.mono (m := 2) (by omega)
  have ht := hr.top
  have f2 : Free (pshL s (w ++ u)) 2 := pshL_free h4
  have tt : (pshL (pshL s (w ++ u)) (n ++ m)).top = s.top + 4 := by rw [pshL_top f2, pshL_top h2]
  rw [push2 ha hb h2, push2 hc hd f2, lcmpI hlib hx hxg (by rw [tt]; omega)
    (pshL_free (n := 0) f2).lt, pshL_long f2, pshL_long2 f2 (by rw [pshL_top h2]; omega), pshL_long h2, hg] at h
  cases h
  rw [nopI, nopI, nopI, nopI, hx' lib _ _ (h4.mono (by omega))]
  refine ⟨_, rfl, ?_, ?_⟩
  · show ({ s with sp := s.sp + 2#16, mem := _ } : VM) =
      { s with sp := s.sp + 2#16 + 2#16 + 2#16 + 2#16 - BitVec.ofNat 16 (2 * 4) + 2#16, mem := _ }
    rw [show s.sp + 2#16 + 2#16 + 2#16 + 2#16 - BitVec.ofNat 16 (2 * 4) + 2#16 = s.sp + 2#16 by bv_omega]
    rfl
  · intro i hi
    rw [popPush_top (by rw [tt]; omega) (by omega), tt] at hi
    have hi : i ≤ s.top + 1 ∨ s.top + 4 < i := by
      rcases hi with hi | hi
      · exact .inl (by omega)
      · exact .inr hi
    show updW s.mem (s.top + 1) r i =
      updW (pshL (pshL s (w ++ u)) (n ++ m)).mem ((pshL (pshL s (w ++ u)) (n ++ m)).top + 1 - 4) _ i
    rw [tt, show s.top + 4 + 1 - 4 = s.top + 1 by omega]
    by_cases he : i = s.top + 1
    · rw [he, updW_same, updW_same]
    · rw [updW_other _ _ he, updW_other _ _ he, pshL_above f2 (by rw [pshL_top h2]; omega), pshL_above h2 (by omega)]

omit hlib in
theorem psh_long {t : VM} {m : Word} (h : Free t 1) : Spec.long (psh t m) 1 = Spec.long t 0 := by
  show ((psh t m).mem ((psh t m).top - 1) ++ (psh t m).mem ((psh t m).top - (1 + 1)) : BitVec 32) =
    (t.mem (t.top - 0) ++ t.mem (t.top - (0 + 1)) : BitVec 32)
  rw [psh_top h, psh_mem (by omega), psh_mem (by omega), show t.top + 1 - 1 = t.top - 0 by omega,
    show t.top + 1 - (1 + 1) = t.top - (0 + 1) by omega]

omit hlib in
/-- A constant that is shifted by a constant. -/
theorem lfam_shift {u w m : Word} {g : BitVec 32 → Nat → BitVec 32} {r : BitVec 32}
    (ha : PushI a u) (hb : PushI b w) (hc : PushI c m) (hx : LShiftI lib x g)
    (hg : g (w ++ u) m.toNat = r)
    (ha' : PushI a' (r.extractLsb' 0 16)) (hb' : PushI b' (r.extractLsb' 16 16)) :
    SoundLong lib P [a, b, c, x] [a', b', nop, nop] := by
  intro s hr _ e s' h
  have h3 := hr.free.mono (m := 3) (by omega)
  have h2 := hr.free.mono (m := 2) (by omega)
  have ht := hr.top
  have f1 : Free (pshL s (w ++ u)) 1 := pshL_free h3
  have m1 : (psh (pshL s (w ++ u)) m).mem (psh (pshL s (w ++ u)) m).top = m := psh_mem_top f1
  have l1 : Spec.long (psh (pshL s (w ++ u)) m) 1 = w ++ u := by
    rw [psh_long f1, pshL_long h2]
  rw [push2 ha hb h2, hc lib _ _ f1, hx _ _ (by rw [psh_top f1, pshL_top h2]; omega)
    (psh_free (n := 0) f1).lt, m1, l1, hg] at h
  split at h
  · cases h
    rw [push2 ha' hb' h2, nopI, nopI, split_long]
    have sp1 : (popN (psh (pshL s (w ++ u)) m) 1).sp = (pshL s (w ++ u)).sp := by
      show (pshL s (w ++ u)).sp + 2#16 - BitVec.ofNat 16 (2 * 1) = _
      bv_omega
    obtain ⟨h1, h5⟩ := live_rep (s := pshL s (w ++ u)) (t := psh (pshL s (w ++ u)) m) (n := 1) (w := r) rfl sp1
      (fun i hi => updW_other _ _ (by omega))
    rw [repL_pshL h2, pshL_top h2] at *
    refine ⟨_, rfl, h1, fun i hi => h5 i ?_⟩
    have : (repL (popN (psh (pshL s (w ++ u)) m) 1) r).sp.toNat / 2 = s.top + 2 := by
      show (popN (psh (pshL s (w ++ u)) m) 1).sp.toNat / 2 = _
      rw [sp1]
      exact pshL_top h2
    have ht' : s.sp.toNat / 2 = s.top := rfl
    omega
  · cases h

/-- A constant that is converted. -/
theorem lfam_widen {u : Word} {g : Word → BitVec 32} (ha : PushI a u)
    (hx : x.op = Op.longop8.toByte)
    (hxg : ∀ s, longOps8 s x.arg1 = (do
      let (w, s) ← s.pop
      let s ← push32 s (g w)
      pure (eNOERROR, s)))
    (ha' : PushI a' ((g u).extractLsb' 0 16)) (hb' : PushI b' ((g u).extractLsb' 16 16)) :
    SoundLong lib P [a, x] [a', b'] := by
  intro s hr _ e s' h
  have h2 := hr.free.mono (m := 2) (by omega)
  have h1 := hr.free.mono (m := 1) (by omega)
  have hw : s.top + 2 < s.words := h2.1
  have hw' : s.words ≤ 32768 := h2.2
  have hm : (psh s u).mem ((psh s u).top) = u := psh_mem_top h1
  rw [ha lib _ _ h1, long_exec hlib hx, hxg, VM.pop_eq _ (by exact (psh_free (v := u) (n := 0) h1).lt)] at h
  have hm' : ({ psh s u with pc := 2#16 } : VM).mem ({ psh s u with pc := 2#16 } : VM).top = u := hm
  simp only [Res.ok_bind, hm'] at h
  have ht : ({ psh s u with pc := 2#16, sp := (psh s u).sp - 2#16 } : VM).top = s.top := by
    show ((s.sp + 2#16) - 2#16).toNat / 2 = s.sp.toNat / 2
    rw [BitVec.add_sub_cancel]
  rw [push32_eq _ _ (by rw [ht]; exact hw) (by rw [ht]; omega), ht] at h
  have h : Res.ok ((none : Option Word), ({ s with
      sp := s.sp + 2#16 - 2#16 + 2#16 + 2#16
      mem := updW (updW (updW s.mem (s.top + 1) u) (s.top + 1)
        ((g ((psh s u).mem (psh s u).top)).extractLsb' 0 16)) (s.top + 2)
        ((g ((psh s u).mem (psh s u).top)).extractLsb' 16 16) } : VM)) = .ok (e, s') := h
  rw [hm, BitVec.add_sub_cancel, updW_updW] at h
  rw [push2 ha' hb' h2, split_long]
  refine ⟨s', ?_, sameLong_refl _⟩
  rw [← h]
  show Res.ok ((none : Option Word), ({ s with
    sp := s.sp + 2#16 + 2#16
    mem := updW (updW s.mem (s.top + 1) _) ((psh s _).top + 1) _ } : VM)) = _
  rw [psh_top h1]

end Pas
