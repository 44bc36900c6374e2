import Verif.Props.Peephole3

/-! C33: stack order and stores. -/
namespace Pas
open Spec Popt

/-- Registers that matter for addresses and the memory used by the store. -/
structure Near (s t : VM) (A : Nat) : Prop where
  words : t.words = s.words
  spb : t.spb = s.spb
  fp : t.fp = s.fp
  mem : ∀ j, j < s.top → j ≠ A → t.mem j = s.mem j

/-- The memory after a store. -/
def putM (o : Op) (A : Nat) (m : Nat → Word) (v : Word) : Nat → Word :=
  if isByteStore o then updB m A (v.truncate 8) else updW m (A / 2) v

theorem target_base {s t : VM} {x : Byte} {w A f : Word} (hn : Near s t (A.toNat / 2))
    (hfa : FrameAddr s x.toNat w.toInt A)
    (hf : LinkIn s (fun j => j < s.sp.toNat / 2 ∧ j ≠ A.toNat / 2) x.toNat s.fp f) :
    getBaseAddress t x (signExtend16 w) = .ok A := by
  rw [getBase_in hn.words hn.fp (fun j hj => hn.mem j hj.1 hj.2) hf]
  exact getBase_of hfa

theorem target_store {s t : VM} {o : Op} {x : Byte} {w A : Word} (h : StoreTarget s o x w A)
    (hn : Near s t (A.toNat / 2)) (m : Nat → Word) (v : Word) :
    storeM t o x w m v = if A.toNat / 2 < s.words then .ok (putM o A.toNat m v) else .ub := by
  have e : A.toNat < 2 * s.words ↔ A.toNat / 2 < s.words := by omega
  cases o <;> first | exact h.elim | skip
  case st =>
    have h : A = s.spb + w := h
    rw [storeM, hn.spb, hn.words, ← h]
    rfl
  case stb =>
    have h : A = s.spb + w := h
    rw [storeM, hn.spb, hn.words, ← h]
    simp only [e]
    rfl
  case sts =>
    obtain ⟨hfa, f, hf⟩ := h
    rw [storeM, target_base hn hfa hf, Res.ok_bind, hn.words]
    rfl
  case stsb =>
    obtain ⟨hfa, f, hf⟩ := h
    rw [storeM, target_base hn hfa hf, Res.ok_bind, hn.words]
    simp only [e]
    rfl

/-- What the load after a store sees. -/
def getM (o : Op) (A : Nat) (m : Nat → Word) : Word :=
  if isByteStore o then signExtend8 (byteAt m A) else m (A / 2)

theorem target_load {s t : VM} {o l : Op} {x : Byte} {w A : Word} (hl : loadOf o = some l)
    (h : StoreTarget s o x w A) (hn : Near s t (A.toNat / 2)) :
    loadV t l x w = if A.toNat / 2 < s.words then .ok (getM o A.toNat t.mem) else .ub := by
  have e : A.toNat < 2 * s.words ↔ A.toNat / 2 < s.words := by omega
  cases o <;> first | exact h.elim | skip
  case st =>
    cases hl
    have h : A = s.spb + w := h
    rw [loadV, VM.getStack, VM.rd, hn.spb, hn.words, ← h]
    rfl
  case stb =>
    cases hl
    have h : A = s.spb + w := h
    rw [loadV, VM.rdB, hn.spb, hn.words, ← h]
    simp only [e]
    split <;> rfl
  case sts =>
    cases hl
    obtain ⟨hfa, f, hf⟩ := h
    rw [loadV, target_base hn hfa hf, Res.ok_bind, VM.getStack, VM.rd, hn.words]
    rfl
  case stsb =>
    cases hl
    obtain ⟨hfa, f, hf⟩ := h
    rw [loadV, target_base hn hfa hf, Res.ok_bind, VM.rdB, hn.words]
    simp only [e]
    split <;> rfl

theorem putM_other {o : Op} {A j : Nat} {m : Nat → Word} {v : Word} (h : j ≠ A / 2) :
    putM o A m v j = m j := by
  unfold putM
  split
  · exact updW_other _ _ h
  · exact updW_other _ _ h

theorem putM_congr {o : Op} {A : Nat} {m m' : Nat → Word} {v : Word} {j : Nat} (h : m j = m' j) :
    putM o A m v j = putM o A m' v j := by
  by_cases e : j = A / 2
  · subst e
    unfold putM
    split
    · simp only [updB]
      rw [h, updW_same, updW_same]
    · rw [updW_same, updW_same]
  · rw [putM_other e, putM_other e, h]

/-- C33: exchanging the values of two loads is loading them in the other order. -/
theorem C33_xchg (lib : Lib) (a b c a' b' c' : OpType) (hc : c.op = Op.xchg.toByte)
    (h : stackOrderRule a b c = .rewrite (a', b', c')) :
    Sound lib (fun s => (∃ v, Fetches lib a s v) ∧ ∃ v, Fetches lib b s v)
      [a, b, c] [a', b', c'] := by
  have hc' := ofByte_of hc
  unfold stackOrderRule at h
  rw [hc'] at h
  simp only at h
  split at h
  · next hl =>
    cases h
    rw [Bool.and_eq_true] at hl
    obtain ⟨ob, hob, hlb⟩ := isLoad_op hl.1
    obtain ⟨oa, hoa, hla⟩ := isLoad_op hl.2
    intro s hr ⟨⟨va, hva⟩, ⟨vb, hvb⟩⟩ e s' hx
    have h2 := hr.free.mono (m := 2) (by omega)
    have h1 := h2.mono (m := 1) (by omega)
    have f1 : ∀ v, Free (psh s v) 1 := fun v => psh_free h2
    have f0 : ∀ v w, Free (psh (psh s v) w) 0 := fun v w => psh_free (f1 v)
    have tp : ∀ v w, (psh (psh s v) w).top = s.top + 2 := by
      intro v w; rw [psh_top (f1 v), psh_top h1]
    rw [fetchI_self hoa (isLoadOp_plain hla) hva, fetchI_psh hob (isLoadOp_plain hlb) hvb,
      xchgI hc _ _ (by rw [tp]; omega) (f0 _ _).lt] at hx
    rw [fetchI_self hob (isLoadOp_plain hlb) hvb, fetchI_psh hoa (isLoadOp_plain hla) hva, nopI]
    rw [show ({ psh (psh s va) vb with
        mem := updW (updW (psh (psh s va) vb).mem (psh (psh s va) vb).top
          ((psh (psh s va) vb).mem ((psh (psh s va) vb).top - 1))) ((psh (psh s va) vb).top - 1)
          ((psh (psh s va) vb).mem (psh (psh s va) vb).top) } : VM) = psh (psh s vb) va from ?_] at hx
    · exact ⟨s', hx, sameLive_refl _⟩
    · rw [psh_mem_top (f1 va), tp]
      have e2 : (psh (psh s va) vb).mem (s.top + 2 - 1) = va := by
        rw [psh_mem (by rw [psh_top h1]; omega)]
        have := psh_mem_top (v := va) h1
        rw [psh_top h1] at this
        exact this
      rw [e2]
      have e3 : updW (updW (psh (psh s va) vb).mem (s.top + 2) va) (s.top + 2 - 1) vb =
          (psh (psh s vb) va).mem := by
        funext j
        show updW (updW (updW (psh s va).mem ((psh s va).top + 1) vb) (s.top + 2) va)
          (s.top + 2 - 1) vb j = updW (psh s vb).mem ((psh s vb).top + 1) va j
        rw [psh_top h1, psh_top h1]
        show updW (updW (updW (updW s.mem (s.top + 1) va) (s.top + 1 + 1) vb) (s.top + 2) va)
          (s.top + 2 - 1) vb j = updW (updW s.mem (s.top + 1) vb) (s.top + 1 + 1) va j
        simp only [updW]
        repeat' split
        all_goals first | rfl | omega
      rw [e3]
      rfl
  · cases h

example : stackOrderRule ⟨Op.ld.toByte, 0, 4#16⟩ ⟨Op.pushb.toByte, 3, 0⟩ ⟨Op.xchg.toByte, 0, 0⟩ =
    .rewrite (⟨Op.pushb.toByte, 3, 0⟩, ⟨Op.ld.toByte, 0, 4#16⟩, nop) := rfl

theorem inds_sp {x n : Word} (h1 : n.toInt ≤ -2) (h2 : 0 ≤ (x.toNat : Int) + n.toInt + 2) :
    (x + 2#16 + n).toNat / 2 ≤ x.toNat / 2 := by
  have e : (x + 2#16 + n).toNat = ((x.toNat : Int) + n.toInt + 2).toNat := by
    rw [BitVec.toInt_eq_toNat_cond] at *
    simp only [BitVec.toNat_add]
    have := x.isLt
    have := n.isLt
    have e2 : (2#16 : Word).toNat = 2 := rfl
    split at h1 <;> omega
  omega

/-- C33: dropping a value that has just been pushed is the same as not pushing it. -/
theorem C33_inds_load (lib : Lib) (a b c a' b' c' : OpType) (hc : c.op = Op.inds.toByte)
    (hb : isLoad b = true ∨ b.op = Op.dup.toByte)
    (h : stackOrderRule a b c = .rewrite (a', b', c')) :
    a' = a ∧ Sound lib (fun s => (b.op = Op.dup.toByte ∨ ∃ v, Fetches lib b s v) ∧
      0 ≤ (s.sp.toNat : Int) + c.arg2.toInt + 2) [b, c] [b', c'] := by
  have hc' := ofByte_of hc
  unfold stackOrderRule at h
  rw [hc'] at h
  simp only at h
  split at h
  · next hl =>
    cases h
    refine ⟨rfl, ?_⟩
    intro s hr ⟨hP, hsp⟩ e s' hx
    have h1 := hr.free.mono (m := 1) (by omega)
    have key : ∃ v, execSeq lib [b, c] s = execSeq lib [c] (psh s v) := by
      by_cases hd : b.op = Op.dup.toByte
      · exact ⟨_, dupI hd lib _ h1⟩
      · obtain ⟨ob, hob, hlb⟩ := isLoad_op (hb.resolve_right hd)
        obtain ⟨v, hv⟩ := hP.resolve_left hd
        exact ⟨v, fetchI_self hob (isLoadOp_plain hlb) hv _⟩
    obtain ⟨v, hv⟩ := key
    rw [hv, indsI hc] at hx
    have hc2 : ({ c with arg2 := c.arg2 + 2#16 } : OpType).op = Op.inds.toByte := hc
    rw [nopI, indsI hc2]
    cases hx
    refine ⟨_, rfl, ?_⟩
    have esp : s.sp + (c.arg2 + 2#16) = s.sp + 2#16 + c.arg2 := by
      rw [BitVec.add_comm c.arg2, BitVec.add_assoc]
    refine ⟨?_, ?_⟩
    · show ({ s with sp := s.sp + (c.arg2 + 2#16) } : VM) = _
      rw [esp]
      rfl
    · intro i hi
      have hi : i ≤ (s.sp + 2#16 + c.arg2).toNat / 2 ∨ s.top + 2 < i := hi
      have := inds_sp hl.1 hsp
      show s.mem i = updW s.mem (s.top + 1) v i
      rw [updW_other]
      simp only [VM.top] at *
      omega
  · next hn =>
    split at h
    · next hl =>
      exfalso
      exact hn ⟨hl.1, hb⟩
    · cases h

example : stackOrderRule nop ⟨Op.ld.toByte, 0, 4#16⟩ ⟨Op.inds.toByte, 0, 0xfffa#16⟩ =
    .rewrite (nop, nop, ⟨Op.inds.toByte, 0, 0xfffc#16⟩) ∧
    LiveVar (vmWith 5#16 0) .ld 0 4#16 ∧
    0 ≤ ((vmWith 5#16 0).sp.toNat : Int) + (0xfffa#16 : Word).toInt + 2 :=
  ⟨rfl, show ((0#16 : Word) + 4#16).toNat / 2 ≤ (20#16 : Word).toNat / 2 by decide,
    show 0 ≤ ((20#16 : Word).toNat : Int) + (0xfffa#16 : Word).toInt + 2 by decide⟩

/-- C33: storing a copy and dropping the original is storing the original. -/
theorem C33_dup_store (lib : Lib) (a b c a' b' c' : OpType) (o : Op) (hc : c.op = Op.inds.toByte)
    (ho : b.op = o.toByte) (hb : isStore b = true)
    (h : stackOrderRule a b c = .rewrite (a', b', c')) :
    Sound lib (fun s => (∃ A, StoreTarget s o b.arg1 b.arg2 A) ∧
      0 ≤ (s.sp.toNat : Int) + c.arg2.toInt) [a, b, c] [a', b', c'] := by
  have hc' := ofByte_of hc
  have hso : isStoreOp o = true := by
    obtain ⟨o2, h2, h3⟩ := isStore_op hb
    have := ofByte_of ho
    rw [ofByte_of h2] at this
    cases this
    exact h3
  have hnl : ¬ (isLoad b = true ∨ b.op = Op.dup.toByte) := by
    rintro (h1 | h1)
    · obtain ⟨o2, h2, h3⟩ := isLoad_op h1
      have := ofByte_of ho
      rw [ofByte_of h2] at this
      cases this
      cases o <;> first | (cases hso; done) | cases h3
    · have := ofByte_of ho
      rw [ofByte_of h1] at this
      cases this
      cases hso
  unfold stackOrderRule at h
  rw [hc'] at h
  simp only at h
  rw [if_neg (fun hh => hnl hh.2)] at h
  split at h
  · next hl =>
    cases h
    intro s hr ⟨⟨A, hA⟩, hsp⟩ e s' hx
    have h1 := hr.free.mono (m := 1) (by omega)
    have ht : (psh s (s.mem s.top)).top < (psh s (s.mem s.top)).words :=
      (psh_free (n := 0) h1).lt
    have n1 : Near s (psh s (s.mem s.top)) (A.toNat / 2) :=
      ⟨rfl, rfl, rfl, fun j hj _ => psh_mem (by omega)⟩
    have n2 : Near s s (A.toNat / 2) := ⟨rfl, rfl, rfl, fun j _ _ => rfl⟩
    have hpl := isStoreOp_plain hso
    rw [dupI hl.2.2 lib _ h1, execSeq_plain ho hpl, store_effect ho hso ht,
      target_store hA n1, psh_mem_top h1] at hx
    rw [nopI, execSeq_plain ho hpl, store_effect ho hso h1.lt, target_store hA n2]
    by_cases hw : A.toNat / 2 < s.words
    · rw [if_pos hw] at hx ⊢
      simp only [Res.ok_bind] at hx ⊢
      have hc2 : ({ c with arg2 := c.arg2 + 2#16 } : OpType).op = Op.inds.toByte := hc
      rw [indsI hc] at hx
      rw [indsI hc2]
      cases hx
      refine ⟨_, rfl, ?_, ?_⟩
      · have e1 : s.sp - 2#16 + (c.arg2 + 2#16) = s.sp + c.arg2 := by bv_omega
        have e2 : s.sp + 2#16 - 2#16 + c.arg2 = s.sp + c.arg2 := by bv_omega
        show ({ s with
          sp := s.sp - 2#16 + (c.arg2 + 2#16)
          mem := putM o A.toNat s.mem (s.mem s.top) } : VM) = { s with
          sp := s.sp + 2#16 - 2#16 + c.arg2
          mem := putM o A.toNat s.mem (s.mem s.top) }
        rw [e1, e2]
      · intro i hi
        have hi : i ≤ (s.sp + 2#16 - 2#16 + c.arg2).toNat / 2 ∨ s.top + 2 < i := hi
        have e2 : s.sp + 2#16 - 2#16 + c.arg2 = s.sp - 2#16 + 2#16 + c.arg2 := by bv_omega
        have h3 := hr.1
        have e3 : (s.sp - 2#16).toNat = s.sp.toNat - 2 := by
          rw [BitVec.toNat_sub]; have := s.sp.isLt
          have : (2#16 : Word).toNat = 2 := rfl
          omega
        have := inds_sp (x := s.sp - 2#16) hl.1 (by rw [e3]; omega)
        rw [← e2, e3] at this
        refine putM_congr ?_
        symm
        refine updW_other _ _ ?_
        simp only [VM.top] at *
        omega
    · rw [if_neg hw] at hx
      cases hx
  · cases h

example : stackOrderRule ⟨Op.dup.toByte, 0, 0⟩ ⟨Op.sts.toByte, 0, 8#16⟩ ⟨Op.inds.toByte, 0, 0xfffe#16⟩ =
    .rewrite (nop, ⟨Op.sts.toByte, 0, 8#16⟩, ⟨Op.inds.toByte, 0, 0#16⟩) ∧
    StoreTarget (vmWith 5#16 0) .sts 0 8#16 18#16 :=
  ⟨rfl, ⟨0#16, .here _, by decide⟩, _, .here _⟩

end Pas
