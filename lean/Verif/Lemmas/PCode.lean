import Verif.Spec.PCode
import Verif.Lemmas.Labels
import Verif.Props.Core
import Verif.Props.Encoding

/-! Helper lemmas relating labelled programs to machine code. -/
namespace Pas
open Spec

theorem addrOf_succ_real {p : List OpType} {k : Nat} {i : OpType} (h : p[k]? = some i)
    (hm : isMark i = false) : addrOf p (k + 1) = addrOf p k + byteSize i := by
  rw [addrOf, addrOf, List.take_add_one, h]
  simp [realOps, hm, List.filter_append, List.map_append, List.sum_append]

theorem addrOf_succ_mark {p : List OpType} {k : Nat} {i : OpType} (h : p[k]? = some i)
    (hm : isMark i = true) : addrOf p (k + 1) = addrOf p k := by
  rw [addrOf, addrOf, List.take_add_one, h]
  simp [realOps, hm, List.filter_append]

theorem realOps_append (a b : List OpType) : realOps (a ++ b) = realOps a ++ realOps b := by
  simp [realOps]

/-- The number of instructions before position `k`. -/
def rank (p : List OpType) (k : Nat) : Nat := (realOps (p.take k)).length

theorem realOps_rank {p : List OpType} {k : Nat} {i : OpType} (h : p[k]? = some i)
    (hm : isMark i = false) : (realOps p)[rank p k]? = some i := by
  have hk := (List.getElem?_eq_some_iff.mp h).1
  have e : p = p.take k ++ i :: p.drop (k + 1) := by
    have := split_at hk
    rw [(List.getElem?_eq_some_iff.mp h).2] at this
    exact this
  have : realOps p = realOps (p.take k) ++ i :: realOps (p.drop (k + 1)) := by
    conv => lhs; rw [e]
    rw [realOps_append, realOps_real _ hm]
  rw [this, rank, List.getElem?_append_right (Nat.le_refl _), Nat.sub_self]
  rfl

theorem take_rank (p : List OpType) (k : Nat) :
    (realOps p).take (rank p k) = realOps (p.take k) := by
  conv => lhs; rw [← List.take_append_drop k p]
  rw [realOps_append, rank]
  conv => lhs; rw [List.take_append_drop k p]
  rw [List.take_left']
  rfl

theorem startOf_rank (p : List OpType) (k : Nat) : startOf (realOps p) (rank p k) = addrOf p k := by
  rw [startOf, take_rank, addrOf]

theorem resolved_op {p : List OpType} {syms : List Sym} {i i' : OpType}
    (h : Resolved p syms i i') : i'.op = i.op ∧ i'.arg1 = i.arg1 := by
  cases h <;> exact ⟨rfl, rfl⟩

theorem startOf_pointwise {p : List OpType} {syms : List Sym} {a b : List OpType}
    (h : Pointwise (Resolved p syms) a b) (n : Nat) : startOf b n = startOf a n := by
  have hsz : ∀ x y, Resolved p syms x y → byteSize y = byteSize x := by
    intro x y h; rw [byteSize, byteSize, (resolved_op h).1]
  induction a generalizing b n with
  | nil =>
    have : b = [] := List.length_eq_zero_iff.mp h.1.symm
    rw [this]
  | cons x a ih =>
    cases b with
    | nil => exact absurd h.1 (by simp)
    | cons y b =>
      cases n with
      | zero => rfl
      | succ n =>
        have := ih (b := b) ⟨by simpa using h.1, fun j u v hu hv => h.2 (j + 1) u v hu hv⟩ n
        simp only [startOf, List.take_succ_cons, List.map_cons, List.sum_cons] at this ⊢
        rw [this, hsz x y (h.2 0 x y rfl rfl)]

/-- The machine at the place of an instruction of the program sees its finished form. -/
theorem insn_place {p q : List OpType} {syms : List Sym} (hq : Pointwise (Resolved p syms) (realOps p) q)
    {k : Nat} {i : OpType} (hk : p[k]? = some i) (hm : isMark i = false) {o : Op}
    (ho : o.toByte = i.op) (post : List Byte) (maxpc : Word)
    (hmax : (encode q).length ≤ maxpc.toNat) (s : VM) :
    ∃ i', Resolved p syms i i' ∧
      Insn (encode q ++ post) maxpc { s with pc := place p k } o i.arg1 i'.arg2 ∧
      (place p k).toNat = addrOf p k ∧ addrOf p k + byteSize i ≤ maxpc.toNat := by
  have hr := realOps_rank hk hm
  have hlt : rank p k < q.length := by
    rw [← hq.1]; exact (List.getElem?_eq_some_iff.mp hr).1
  have hres := hq.2 _ _ _ hr (List.getElem?_eq_getElem hlt)
  have hst : startOf q (rank p k) = addrOf p k := by
    rw [startOf_pointwise hq, startOf_rank]
  have hsz : byteSize q[rank p k] = byteSize i := by
    rw [byteSize, byteSize, (resolved_op hres).1]
  have hle : addrOf p k + byteSize i ≤ (encode q).length := by
    rw [← hst, ← hsz, ← startOf_succ hlt, encode_length]; exact startOf_le _ _
  have hb := maxpc.isLt
  have hpos : 1 ≤ byteSize i := by rw [byteSize]; omega
  have hpl : (place p k).toNat = addrOf p k := by
    rw [place, BitVec.toNat_ofNat]; omega
  refine ⟨_, hres, ?_, hpl, by omega⟩
  have := insn_at hlt [] post maxpc { s with pc := place p k } (by
    show (place p k).toNat = _
    rw [hpl, hst]; simp) (by show (place p k).toNat < _; rw [hpl]; omega)
    (ho.trans (resolved_op hres).1.symm)
  rw [(resolved_op hres).2, List.nil_append] at this
  exact this

theorem insn_alone {i : OpType} {o : Op} (ho : o.toByte = i.op) (s : VM) :
    Insn (opBytes i) (BitVec.ofNat 16 (byteSize i)) { s with pc := 0 } o i.arg1 i.arg2 := by
  have hb : byteSize i ≤ 4 := by
    rw [byteSize, byteSize.operandBytes16]; split <;> (try split) <;> (try split) <;> omega
  have hpos : 1 ≤ byteSize i := by rw [byteSize]; omega
  have h : encode [i] = opBytes i := by simp [encode_eq]
  have := insn_at (l := [i]) (n := 0) (by simp) [] [] (BitVec.ofNat 16 (byteSize i))
    { s with pc := 0 } (by show 0 = _; rfl)
    (by show 0 < (BitVec.ofNat 16 (byteSize i)).toNat; rw [BitVec.toNat_ofNat]; omega) (o := o) ho
  rw [List.nil_append, List.append_nil, h] at this
  exact this

theorem isPlain_kind {o : Op} (h : isPlain o = true) : operandKind o ≠ .program := by
  intro e; simp [isPlain, e] at h

theorem isPlain_movable {o : Op} (h : isPlain o = true) : Movable o ∧ isJump o = false := by
  refine ⟨⟨?_, ?_, ?_⟩, ?_⟩
  · rintro rfl; exact absurd h (by decide)
  · rintro rfl; exact absurd h (by decide)
  · rintro rfl; exact absurd h (by decide)
  · cases o <;> first | rfl | exact absurd h (by decide)

/-- An instruction alone and the same instruction anywhere do the same. -/
theorem alone_at {lib : Lib} (hl : lib.NoPc) {i : OpType} {o : Op} (ho : o.toByte = i.op)
    (hp : isPlain o = true) {code : List Byte} {maxpc : Word} {s s' : VM} {a : Word}
    (hi : Insn code maxpc { s with pc := a } o i.arg1 i.arg2)
    (hx : alone lib i s = .ok (eNOERROR, s')) :
    execute lib code maxpc { s with pc := a } =
      .ok (eNOERROR, { s' with pc := a + BitVec.ofNat 16 (byteSize i) }) := by
  have hs : shift a 0 { s with pc := 0 } = { s with pc := a } := by simp [shift]
  have hma : movedArg a 0 i.arg2 o = i.arg2 := by
    have := (isPlain_movable hp).2
    cases o <;> first | rfl | (exact absurd this (by decide)) | (simp [movedArg])
  obtain ⟨n, hn, hout⟩ := step_shift hl (k := a) (ro := 0) (isPlain_movable hp).1 (insn_alone ho s)
    (by rw [hs, hma]; exact hi)
  rw [(isPlain_movable hp).2] at hout
  rw [alone] at hx
  rw [hx, hs] at hout
  cases hr : execute lib code maxpc { s with pc := a } with
  | ok r =>
    rw [hr] at hout
    obtain ⟨h1, h2, h3⟩ := hout
    have hpc : s'.pc = 0 + BitVec.ofNat 16 n := by
      rcases h3 rfl with e | e <;> exact e
    obtain ⟨e, r⟩ := r
    simp only at h1 h2
    rw [h1, h2, shift, hn i ho.symm, hpc]
    simp [BitVec.add_comm]
  | ub => rw [hr] at hout; exact hout.elim
  | hang => rw [hr] at hout; exact hout.elim

theorem runFor_add (lib : Lib) (code : List Byte) (maxpc : Word) (a b : Nat) (s s' : VM)
    (h : runFor lib code maxpc a s = .ok (eNOERROR, s')) :
    runFor lib code maxpc (a + b) s = runFor lib code maxpc b s' := by
  induction a generalizing s with
  | zero => cases h; rw [Nat.zero_add]
  | succ a ih =>
    rw [runFor] at h
    rw [show a + 1 + b = (a + b) + 1 by omega, runFor]
    cases hx : execute lib code maxpc s with
    | ok r =>
      obtain ⟨e, s1⟩ := r
      rw [hx] at h
      simp only [Res.ok_bind] at h ⊢
      split at h
      · next hne =>
        cases h
        exact absurd rfl hne
      · next hne => rw [if_neg hne]; exact ih s1 h
    | ub => rw [hx] at h; cases h
    | hang => rw [hx] at h; cases h

theorem runFor_one {lib : Lib} {code : List Byte} {maxpc : Word} {s s' : VM}
    (h : execute lib code maxpc s = .ok (eNOERROR, s')) :
    runFor lib code maxpc 1 s = .ok (eNOERROR, s') := by
  rw [runFor, h]; rfl

theorem cond_kind {s : VM} {o : Op} {n : Nat} {P : Prop} (h : Cond s o n P) :
    operandKind o = .program ∧ o ≠ .pcal ∧ hasArg8 o.toByte = false ∧ hasArg16 o.toByte = true := by
  cases h with
  | always => decide
  | zero h _ => cases h <;> decide
  | signed h _ => cases h <;> decide
  | unsigned h _ => cases h <;> decide

/-- A jump in machine code. -/
theorem cond_exec {lib : Lib} {code : List Byte} {maxpc : Word} {s : VM} {o : Op} {n : Nat}
    {P : Prop} {a t : Word} {x : Byte} (hc : Cond s o n P)
    (hi : Insn code maxpc { s with pc := a } o x t) :
    (P → execute lib code maxpc { s with pc := a } = .ok (eNOERROR, { popN s n with pc := t })) ∧
    (¬ P → execute lib code maxpc { s with pc := a } =
      .ok (eNOERROR, { popN s n with pc := a + 3#16 })) := by
  have hk := cond_kind hc
  have ht : Operand16 code (a.toNat + 1) t := by
    have := hi.arg16 hk.2.2.2
    rw [hk.2.2.1] at this
    exact this
  have fin : ∀ {s' : VM} {m : Nat} {pc : Word}, Pops { s with pc := a } s' m pc →
      s' = { popN s m with pc := pc } := by
    intro s' m pc h
    have h1 := h.regs
    have h2 := h.sp
    have h3 := h.pc
    have : s'.sp = s.sp - BitVec.ofNat 16 (2 * m) := by
      apply BitVec.eq_of_toNat_eq
      have e : s'.sp.toNat + 2 * m = s.sp.toNat := h2
      have := s.sp.isLt
      rw [BitVec.toNat_sub, BitVec.toNat_ofNat]
      omega
    rw [h1, h3, this]; rfl
  cases hc with
  | always =>
    refine ⟨fun _ => ?_, fun h => absurd trivial h⟩
    rw [C03_jmp lib code maxpc _ t hi.next ht]
    simp [popN]
  | zero hj hr =>
    obtain ⟨s', he, h1, h2⟩ := C03_zero lib code maxpc { s with pc := a } o t _ hj hi.next hr ht
    exact ⟨fun hp => by rw [he, fin (h1 hp)], fun hp => by rw [he, fin (h2 hp)]⟩
  | signed hj hr =>
    obtain ⟨s', he, h1, h2⟩ := C03_signed lib code maxpc { s with pc := a } o t _ hj hi.next hr ht
    exact ⟨fun hp => by rw [he, fin (h1 hp)], fun hp => by rw [he, fin (h2 hp)]⟩
  | unsigned hj hr =>
    obtain ⟨s', he, h1, h2⟩ := C03_unsigned lib code maxpc { s with pc := a } o t _ hj hi.next hr ht
    exact ⟨fun hp => by rw [he, fin (h1 hp)], fun hp => by rw [he, fin (h2 hp)]⟩

theorem not_mark_of {i : OpType} {o : Op} (ho : o.toByte = i.op) (h1 : o ≠ .label)
    (h2 : o ≠ .line) : isMark i = false :=
  isMark_false (by rw [← ho]; exact fun e => h1 (Op.toByte_inj e))
    (by rw [← ho]; exact fun e => h2 (Op.toByte_inj e))

theorem labelAt_unique {p : List OpType} {L : Word} {k k' : Nat} (h : LabelAt p L k)
    (h' : LabelAt p L k') : k = k' := by
  rcases Nat.lt_trichotomy k k' with e | e | e
  · exact absurd h.1 (h'.2 k e)
  · exact e
  · exact absurd h'.1 (h.2 k' e)

/-- The operand of a finished instruction that uses a defined label. -/
theorem resolved_label {p : List OpType} {syms : List Sym} {i i' : OpType} {o : Op} {k : Nat}
    (h : Resolved p syms i i') (ho : o.toByte = i.op) (hk : operandKind o = .program)
    (hl : LabelAt p i.arg2 k) : i'.arg2 = place p k := by
  cases h with
  | other ho' hk' =>
    rw [Op.toByte_inj (ho'.trans ho.symm)] at hk'
    exact absurd hk hk'
  | label _ _ hl' => rw [labelAt_unique hl hl']; rfl
  | extern _ hn _ => exact absurd hl.1 (hn _)

theorem resolved_other {p : List OpType} {syms : List Sym} {i i' : OpType} {o : Op}
    (h : Resolved p syms i i') (ho : o.toByte = i.op) (hk : operandKind o ≠ .program) : i' = i := by
  cases h with
  | other => rfl
  | label ho' hk' _ =>
    rw [Op.toByte_inj (ho'.trans ho.symm)] at hk'
    exact absurd hk' hk
  | extern hp _ _ =>
    rw [Op.toByte_inj (ho.trans hp)] at hk
    exact absurd rfl hk

/-- RET does not look at the program counter. -/
theorem ret_pc (s : VM) (a : Word) :
    pexec8 { s with pc := a } (some .ret) = pexec8 s (some .ret) := by
  have pp : ∀ t : VM, t.pop = if t.top < t.words then .ok (t.mem t.top, { t with sp := t.sp - 2#16 })
      else .ub := by
    intro t
    by_cases h : t.top < t.words
    · rw [if_pos h, VM.pop_eq _ h]
    · rw [if_neg h, VM.pop, VM.rd, if_neg h]; rfl
  have top : ∀ (u : VM) , u.top = u.sp.toNat / 2 := fun _ => rfl
  simp only [pexec8, pp, top]
  by_cases h1 : s.sp.toNat / 2 < s.words
  · simp only [if_pos h1, Res.ok_bind]
    by_cases h2 : (s.sp - 2#16).toNat / 2 < s.words
    · simp only [if_pos h2, Res.ok_bind]
      by_cases h3 : (s.sp - 2#16 - 2#16).toNat / 2 < s.words
      · simp only [if_pos h3, Res.ok_bind]
      · simp only [if_neg h3]
    · simp only [if_neg h2]
  · simp only [if_neg h1]

/-- One step of the labelled program is one step of the machine, or it passes a mark. -/
theorem lstep_machine {lib : Lib} (hl : lib.NoPc) {p q : List OpType} {syms : List Sym}
    (hq : Pointwise (Resolved p syms) (realOps p) q) (post : List Byte) (maxpc : Word)
    (hmax : (encode q).length ≤ maxpc.toNat) {c c' : Nat × VM}
    (h : PStep lib (place p) p c c') :
    ∃ n ≤ 1, (n = 0 → c'.1 = c.1 + 1 ∧ c.1 < p.length) ∧
      runFor lib (encode q ++ post) maxpc n { c.2 with pc := place p c.1 } =
      .ok (eNOERROR, { c'.2 with pc := place p c'.1 }) := by
  have next : ∀ {k : Nat} {i : OpType}, p[k]? = some i → isMark i = false →
      place p k + BitVec.ofNat 16 (byteSize i) = place p (k + 1) := by
    intro k i hk hm
    rw [place, place, addrOf_succ_real hk hm, BitVec.ofNat_add]
  cases h with
  | @mark k s i hk hm =>
    refine ⟨0, by omega, fun _ => ⟨rfl, (List.getElem?_eq_some_iff.1 hk).1⟩, ?_⟩
    show Res.ok _ = _
    rw [place, place, addrOf_succ_mark hk hm]
  | @plain k s s' i o hk ho hp hx =>
    refine ⟨1, by omega, (fun h => by cases h), runFor_one ?_⟩
    have hm : isMark i = false := not_mark_of ho (by rintro rfl; exact absurd hp (by decide))
      (by rintro rfl; exact absurd hp (by decide))
    obtain ⟨i', hr, hi, _, _⟩ := insn_place hq hk hm ho post maxpc hmax s
    rw [resolved_other hr ho (isPlain_kind hp)] at hi
    rw [alone_at hl ho hp hi hx, next hk hm]
  | @taken k k' s i o n P hk ho hc hp hlab =>
    refine ⟨1, by omega, (fun h => by cases h), runFor_one ?_⟩
    have hkd := cond_kind hc
    have hm : isMark i = false := not_mark_of ho (by rintro rfl; exact absurd hkd.1 (by decide))
      (by rintro rfl; exact absurd hkd.1 (by decide))
    obtain ⟨i', hr, hi, _, _⟩ := insn_place hq hk hm ho post maxpc hmax s
    rw [resolved_label hr ho hkd.1 hlab] at hi
    rw [(cond_exec hc hi).1 hp]
  | @fall k s i o n P hk ho hc hp =>
    refine ⟨1, by omega, (fun h => by cases h), runFor_one ?_⟩
    have hkd := cond_kind hc
    have hm : isMark i = false := not_mark_of ho (by rintro rfl; exact absurd hkd.1 (by decide))
      (by rintro rfl; exact absurd hkd.1 (by decide))
    obtain ⟨i', hr, hi, _, _⟩ := insn_place hq hk hm ho post maxpc hmax s
    have hsz : byteSize i = 3 := by
      rw [← addSize_eq, addSize, ← ho, hkd.2.2.1, hkd.2.2.2]; rfl
    have hnx := next hk hm
    rw [hsz] at hnx
    rw [(cond_exec hc hi).2 hp]
    show Res.ok (eNOERROR, { popN s n with pc := place p k + BitVec.ofNat 16 3 }) = _
    rw [hnx]
  | @call k k' s s' i hk hpc hlab hx =>
    refine ⟨1, by omega, (fun h => by cases h), runFor_one ?_⟩
    have ho : Op.pcal.toByte = i.op := hpc.symm
    have hm : isMark i = false := not_mark_of ho (by decide) (by decide)
    obtain ⟨i', hr, hi, _, _⟩ := insn_place hq hk hm ho post maxpc hmax s
    rw [resolved_label hr ho rfl hlab] at hi
    rw [insn_32 hi (by decide) (by decide), hx]
    have : s'.pc = place p k' := by
      rw [pexec32] at hx
      cases hpc2 : procedureCall { s with pc := place p k } i.arg1 with
      | ok r =>
        obtain ⟨e, s1⟩ := r
        rw [hpc2] at hx
        simp only [Res.ok_bind] at hx
        cases hx; rfl
      | ub => rw [hpc2] at hx; cases hx
      | hang => rw [hpc2] at hx; cases hx
    rw [← this]
  | @ret k k' s s' i hk hro hx hk' hpc =>
    refine ⟨1, by omega, (fun h => by cases h), runFor_one ?_⟩
    have ho : Op.ret.toByte = i.op := hro.symm
    have hm : isMark i = false := not_mark_of ho (by decide) (by decide)
    obtain ⟨i', hr, hi, _, _⟩ := insn_place hq hk hm ho post maxpc hmax s
    rw [insn_8 hi (by decide) (by decide)]
    rw [ret_pc, hx, ← hpc]

end Pas
