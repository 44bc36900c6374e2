import Verif.Props.Peephole4

/-! C33: stores followed by loads, indexed stores and blocks. -/
namespace Pas
open Spec Popt

theorem byteAt_updB (m : Nat → Word) (a : Nat) (b : Byte) : byteAt (updB m a b) a = b := by
  unfold byteAt updB
  by_cases h : a % 2 = 0
  · rw [if_pos h, if_pos h, updW_same]
    ext i hi
    simp [BitVec.getElem_and, BitVec.getElem_or]
  · rw [if_neg h, if_neg h, updW_same]
    ext i hi
    have : ∀ k < 8, (255#16).getLsbD (k + 8) = false := by decide
    have h2 := this i (by omega)
    simp [BitVec.getElem_and, BitVec.getElem_or]
    have e : 8 + i = i + 8 := by omega
    rw [e]
    have : i + 8 < 16 := by omega
    have h3 : ¬ i + 8 < 8 := by omega
    have h4 : i < 16 := by omega
    simp_all

theorem getM_putM {o : Op} {A : Nat} {m : Nat → Word} {v : Word}
    (h : isByteStore o = true → v = signExtend8 (v.truncate 8)) : getM o A (putM o A m v) = v := by
  unfold getM putM
  by_cases hb : isByteStore o = true
  · rw [if_pos hb, if_pos hb, byteAt_updB]; exact (h hb).symm
  · rw [if_neg hb, if_neg hb, updW_same]

/-- C33: storing a variable and loading it again is storing a copy of the value.  For byte stores
the value must fit in a signed byte (`C33_violation_byte`). -/
theorem C33_store_load_partial (lib : Lib) (a b a' b' : OpType) (c c' : Option OpType) (o : Op)
    (ho : a.op = o.toByte) (hst : isStore a = true)
    (h : storeRule a b c = .rewrite (a', b', c')) :
    c' = c ∧ Sound lib (fun s => ∃ A, StoreTarget s o a.arg1 a.arg2 A ∧
      (isByteStore o = true → A.toNat / 2 ≠ s.sp.toNat / 2 ∧
        s.mem (s.sp.toNat / 2) = signExtend8 ((s.mem (s.sp.toNat / 2)).truncate 8)))
      [a, b] [a', b'] := by
  have hso : isStoreOp o = true := by
    obtain ⟨o2, h2, h3⟩ := isStore_op hst
    have := ofByte_of ho
    rw [ofByte_of h2] at this
    cases this
    exact h3
  have hlo : ∃ l, loadOf o = some l ∧ isLoadOp l = true := by
    cases o <;> first | (cases hso; done) | exact ⟨_, rfl, rfl⟩
  obtain ⟨l, hl, hll⟩ := hlo
  unfold storeRule at h
  rw [ofByte_of ho, show (some o).bind loadOf = some l from hl] at h
  simp only at h
  split at h
  · next hc =>
    cases h
    refine ⟨rfl, ?_⟩
    obtain ⟨e1, e2, e3⟩ := hc
    intro s hr ⟨A, hA, hB⟩ e s' hx
    have hpl := isStoreOp_plain hso
    have h1 := hr.free.mono (m := 1) (by omega)
    have n2 : Near s s (A.toNat / 2) := ⟨rfl, rfl, rfl, fun j _ _ => rfl⟩
    have n1 : Near s (psh s (s.mem s.top)) (A.toNat / 2) :=
      ⟨rfl, rfl, rfl, fun j hj _ => psh_mem (by omega)⟩
    have ht : (psh s (s.mem s.top)).top < (psh s (s.mem s.top)).words :=
      (psh_free (n := 0) h1).lt
    have ho2 : ({ b with op := a.op } : OpType).op = o.toByte := ho
    rw [execSeq_plain ho hpl, store_effect ho hso h1.lt, target_store hA n2] at hx
    rw [dupI rfl lib _ h1, execSeq_plain ho2 hpl, store_effect ho2 hso ht, psh_mem_top h1]
    show ∃ s'', (do
        let m ← storeM (psh s (s.mem s.top)) o b.arg1 b.arg2 (psh s (s.mem s.top)).mem (s.mem s.top)
        Res.ok ({ psh s (s.mem s.top) with
          sp := (psh s (s.mem s.top)).sp - 2#16
          mem := m } : VM)) >>= _ = _ ∧ _
    rw [← e1, ← e2, target_store hA n1]
    by_cases hw : A.toNat / 2 < s.words
    · rw [if_pos hw] at hx ⊢
      simp only [Res.ok_bind] at hx ⊢
      let u : VM := { s with
        sp := s.sp - 2#16
        mem := putM o A.toNat s.mem (s.mem s.top) }
      have ut : u.top = s.top - 1 := by
        show (s.sp - 2#16).toNat / 2 = s.sp.toNat / 2 - 1
        have h3 := hr.1
        rw [BitVec.toNat_sub]; have := s.sp.isLt
        have : (2#16 : Word).toNat = 2 := rfl
        omega
      have uf : Free u 1 := by
        refine ⟨?_, h1.2⟩
        rw [ut]; have := h1.1; have h3 : 3 ≤ s.top := hr.1
        show s.top - 1 + 1 < s.words
        omega
      have nu : Near s u (A.toNat / 2) := ⟨rfl, rfl, rfl, fun j hj hne => putM_other hne⟩
      have hx2 : execSeq lib [b] u = .ok (e, s') := hx
      rw [execSeq_plain e3 (isLoadOp_plain hll), load_effect e3 hll uf, ← e1, ← e2,
        target_load hl hA nu, if_pos hw] at hx2
      have gv : getM o A.toNat u.mem = s.mem s.top := getM_putM (fun hb => (hB hb).2)
      rw [Res.ok_bind, gv] at hx2
      cases hx2
      refine ⟨_, rfl, ?_, ?_⟩
      · show ({ s with
          sp := s.sp + 2#16 - 2#16
          mem := putM o A.toNat (psh s (s.mem s.top)).mem (s.mem s.top) } : VM) = { s with
          sp := s.sp - 2#16 + 2#16
          mem := putM o A.toNat (psh s (s.mem s.top)).mem (s.mem s.top) }
        have e1 : s.sp + 2#16 - 2#16 = s.sp - 2#16 + 2#16 := by bv_omega
        rw [e1]
      · intro i hi
        have hi : i ≤ (s.sp - 2#16 + 2#16).toNat / 2 ∨ s.top + 2 < i := hi
        have e2 : s.sp - 2#16 + 2#16 = s.sp := by bv_omega
        rw [e2] at hi
        have hne : i ≠ s.top + 1 := by simp only [VM.top] at *; omega
        show putM o A.toNat (psh s (s.mem s.top)).mem (s.mem s.top) i =
          updW u.mem (u.top + 1) (s.mem s.top) i
        have hm : (psh s (s.mem s.top)).mem i = s.mem i := updW_other _ _ hne
        rw [putM_congr hm, ut]
        have h3 : 3 ≤ s.top := hr.1
        have e4 : s.top - 1 + 1 = s.top := by omega
        rw [e4]
        by_cases hit : i = s.top
        · subst hit
          rw [updW_same]
          by_cases hA2 : s.top = A.toNat / 2
          · have hnb : ¬ isByteStore o = true := fun hb => (hB hb).1 hA2.symm
            unfold putM
            rw [if_neg hnb, ← hA2, updW_same]
          · exact putM_other hA2
        · rw [updW_other _ _ hit]
    · rw [if_neg hw] at hx
      cases hx
  · cases h

example : storeRule ⟨Op.st.toByte, 0, 4#16⟩ ⟨Op.ld.toByte, 0, 4#16⟩ none =
    .rewrite (⟨Op.dup.toByte, 0, 0⟩, ⟨Op.st.toByte, 0, 4#16⟩, none) ∧
    StoreTarget (vmWith 5#16 0) .st 0 4#16 4#16 := ⟨rfl, rfl⟩

/-- C33 does not hold for bytes: storing 300 in a byte and loading it again gives 44, not 300. -/
theorem C33_violation_byte (lib : Lib) : ∃ a b a' b' : OpType, a.op = Op.stb.toByte ∧
    storeRule a b none = .rewrite (a', b', none) ∧ ¬ Sound lib (fun _ => True) [a, b] [a', b'] :=
  ⟨⟨Op.stb.toByte, 0, 4#16⟩, ⟨Op.ldb.toByte, 0, 4#16⟩, _, _, rfl, rfl,
    not_sound (v := (none, 20#16, 44#16, 7#16)) (v' := (none, 20#16, 300#16, 7#16))
      (vmWith_roomy 7#16 300#16) trivial rfl rfl (by decide)⟩

/-- C33 does not hold for an unsigned byte variable either: only LDB and LDSB are matched, and they
are loads of signed bytes. -/
example : storeRule ⟨Op.stb.toByte, 0, 4#16⟩ ⟨Op.uldb.toByte, 0, 4#16⟩ none = .next := rfl

/-- C33 does not hold for the constant in front of an indexed store: the instruction in between is
not checked to be a load, here it is the negation of the index. -/
theorem C33_violation_middle (lib : Lib) : ∃ a b c a' b' c' : OpType,
    a.op = Op.push.toByte ∧ c.op = Op.stsx.toByte ∧
    storeRule a b (some c) = .rewrite (a', b', some c') ∧
    ¬ Sound lib (fun _ => True) [a, b, c] [a', b', c'] :=
  ⟨⟨Op.push.toByte, 0, 2#16⟩, ⟨Op.neg.toByte, 0, 0⟩, ⟨Op.stsx.toByte, 0, 0#16⟩, _, _, _, rfl, rfl,
    rfl, not_sound (v := (none, 18#16, 0xfffe#16, 0#16)) (v' := (none, 18#16, 7#16, 0#16))
      (vmWith_roomy 7#16 8#16) trivial rfl rfl (by decide)⟩

theorem getBase_add {s : VM} {lev : Byte} {off k : Word} (h : SameSide off k) :
    getBaseAddress s lev (signExtend16 (off + k)) =
      (do let a ← getBaseAddress s lev (signExtend16 off); .ok (k + a)) := by
  unfold getBaseAddress signExtend16
  cases chase s lev.toNat s.fp with
  | ub => rfl
  | hang => rfl
  | ok f =>
    simp only [Res.ok_bind, BitVec.ofInt_toInt]
    unfold SameSide at h
    by_cases h0 : off.toInt ≥ 0
    · rw [if_pos h0, if_pos (h.mp h0)]
      congr 1
      ac_rfl
    · rw [if_neg h0, if_neg (fun hh => h0 (h.mpr hh))]
      congr 1
      ac_rfl

theorem stsx_effect {lib : Lib} {i : OpType} {o : Op} {s : VM}
    (ho : i.op = o.toByte) (hs : o = .stsx ∨ o = .stsxb) (h1 : 1 ≤ s.top) (ht : s.top < s.words) :
    effect lib i s = (do
      let a ← getBaseAddress s i.arg1 (signExtend16 i.arg2)
      if (s.mem (s.top - 1) + a).toNat / 2 < s.words then
        .ok { s with
          sp := s.sp - 2#16 - 2#16
          mem := putM (if o = .stsx then .sts else .stsb) (s.mem (s.top - 1) + a).toNat s.mem
            (s.mem s.top) }
      else .ub) := by
  have p1 : ∀ pc, ({ s with pc := pc } : VM).pop = .ok (s.mem s.top, { s with
      pc := pc
      sp := s.sp - 2#16 }) := fun pc => VM.pop_eq _ (by exact ht)
  have et : (s.sp - 2#16).toNat / 2 = s.top - 1 := by
    have h1 : 1 ≤ s.sp.toNat / 2 := h1
    show (s.sp - 2#16).toNat / 2 = s.sp.toNat / 2 - 1
    rw [BitVec.toNat_sub]; have := s.sp.isLt
    have : (2#16 : Word).toNat = 2 := rfl
    omega
  have p2 : ∀ pc, ({ s with
      pc := pc
      sp := s.sp - 2#16 } : VM).pop = .ok (s.mem (s.top - 1), { s with
      pc := pc
      sp := s.sp - 2#16 - 2#16 }) := by
    intro pc
    rw [VM.pop_eq _ (by show (s.sp - 2#16).toNat / 2 < s.words; rw [et]; omega)]
    show Res.ok (s.mem ((s.sp - 2#16).toNat / 2), _) = _
    rw [et]
  have gb : ∀ pc sp off, getBaseAddress ({ s with
      pc := pc
      sp := sp } : VM) i.arg1 off = getBaseAddress s i.arg1 off := by
    intro pc sp off
    have : ∀ d f, chase { s with
        pc := pc
        sp := sp } d f = chase s d f := by
      intro d; induction d with
      | zero => intro f; rfl
      | succ n ih =>
        intro f
        simp only [chase, VM.getStack, VM.rd]
        split
        · simp only [Res.ok_bind]; exact ih _
        · rfl
    unfold getBaseAddress
    rw [this]
  rcases hs with rfl | rfl
  · rw [effect_32 ho rfl rfl, pexec32]
    rw [p1, Res.ok_bind]
    simp only []
    rw [p2, Res.ok_bind]
    simp only []
    rw [gb]
    cases getBaseAddress s i.arg1 (signExtend16 i.arg2) with
    | ub => rfl
    | hang => rfl
    | ok a =>
      simp only [Res.ok_bind, VM.putStack, VM.wr]
      split <;> rfl
  · rw [effect_32 ho rfl rfl, pexec32]
    rw [p1, Res.ok_bind]
    simp only []
    rw [p2, Res.ok_bind]
    simp only []
    rw [gb]
    cases getBaseAddress s i.arg1 (signExtend16 i.arg2) with
    | ub => rfl
    | hang => rfl
    | ok a =>
      simp only [Res.ok_bind, VM.wrB]
      have e : (s.mem (s.top - 1) + a).toNat < 2 * s.words ↔
        (s.mem (s.top - 1) + a).toNat / 2 < s.words := by omega
      simp only [e]
      split <;> rfl

/-- C33: a store with a constant index is a store to the indexed variable, provided the
instruction in between is a load (`C33_violation_middle`) and the index does not cross the frame
header. -/
theorem C33_indexed_store_partial (lib : Lib) (a b c a' b' c' : OpType)
    (ha : isPush a = true) (hb : isLoad b = true)
    (h : storeRule a b (some c) = .rewrite (a', b', some c')) :
    Sound lib (fun s => (∃ v, Fetches lib b s v) ∧
      (∃ f, LinkIn s (· ≤ s.sp.toNat / 2) c.arg1.toNat s.fp f) ∧
      SameSide c.arg2 (expandPush a).arg2) [a, b, c] [a', b', c'] := by
  have hcase : a' = nop ∧ b' = b ∧ ∃ o o', (o = .stsx ∧ o' = .sts ∨ o = .stsxb ∧ o' = .stsb) ∧
      c.op = Op.toByte o ∧
      c' = { withOp c o' with arg2 := c.arg2 + (expandPush a).arg2 } := by
    unfold storeRule at h
    have hn : (Op.ofByte a.op).bind loadOf = none := by
      rcases isPush_cases ha with e | e | e <;> (rw [e]; rfl)
    rw [hn] at h
    simp only at h
    split at h
    · next hp =>
      have ea : (expandPush a).arg2 = a.arg2 := by
        unfold expandPush
        rw [hp, if_neg (by decide), if_neg (by decide)]
      rw [ea]
      split at h
      · next hs => cases h; exact ⟨rfl, rfl, _, _, .inl ⟨rfl, rfl⟩, hs, rfl⟩
      · split at h
        · next hs => cases h; exact ⟨rfl, rfl, _, _, .inr ⟨rfl, rfl⟩, hs, rfl⟩
        · cases h
    · split at h
      · next hs => cases h; exact ⟨rfl, rfl, _, _, .inr ⟨rfl, rfl⟩, hs, rfl⟩
      · cases h
  obtain ⟨rfl, rfl, o, o', hoo, hco, rfl⟩ := hcase
  obtain ⟨ob, hob, hlb⟩ := isLoad_op hb
  intro s hr ⟨⟨v, hv⟩, ⟨f, hf⟩, hss⟩ e s' hx
  generalize hk : (expandPush a).arg2 = k at hss hx ⊢
  have h2 := hr.free.mono (m := 2) (by omega)
  have h1 := h2.mono (m := 1) (by omega)
  have f1 : ∀ v, Free (psh s v) 1 := fun v => psh_free h2
  have f0 : ∀ v w, Free (psh (psh s v) w) 0 := fun v w => psh_free (f1 v)
  have tp : ∀ v w, (psh (psh s v) w).top = s.top + 2 := by
    intro v w; rw [psh_top (f1 v), psh_top h1]
  have hpush := pushI ha lib [b', c] s h1
  rw [hk] at hpush
  rw [hpush, fetchI_psh hob (isLoadOp_plain hlb) hv] at hx
  have hop : isPlain o = true := by rcases hoo with ⟨rfl, _⟩ | ⟨rfl, _⟩ <;> rfl
  have hos : o = .stsx ∨ o = .stsxb := by rcases hoo with ⟨rfl, _⟩ | ⟨rfl, _⟩ <;> simp
  have hos' : isStoreOp o' = true := by rcases hoo with ⟨_, rfl⟩ | ⟨_, rfl⟩ <;> rfl
  have hio : (if o = .stsx then Op.sts else Op.stsb) = o' := by
    rcases hoo with ⟨rfl, rfl⟩ | ⟨rfl, rfl⟩ <;> rfl
  have e2 : (psh (psh s k) v).mem (s.top + 2 - 1) = k := by
    rw [psh_mem (by rw [psh_top h1]; omega)]
    have := psh_mem_top (v := k) h1
    rw [psh_top h1] at this
    exact this
  have gb1 : ∀ off, getBaseAddress (psh (psh s k) v) c.arg1 off = getBaseAddress s c.arg1 off :=
    fun off => getBase_in (s := s) (t := psh (psh s k) v) (Q := (· ≤ s.sp.toNat / 2)) rfl rfl (fun j hj => by
      rw [psh_mem (by rw [psh_top h1]; exact Nat.le_succ_of_le hj), psh_mem hj]) hf off
  have gb2 : ∀ off, getBaseAddress (psh s v) c.arg1 off = getBaseAddress s c.arg1 off :=
    fun off => getBase_in (s := s) (t := psh s v) (Q := (· ≤ s.sp.toNat / 2)) rfl rfl (fun j hj => psh_mem hj) hf off
  rw [execSeq_plain hco hop, stsx_effect hco hos (by rw [tp]; omega) (f0 _ _).lt, hio, tp, e2, gb1]
    at hx
  have tm : (psh (psh s k) v).mem (s.top + 2) = v := by
    have := psh_mem_top (v := v) (f1 k)
    rw [tp] at this
    exact this
  rw [tm] at hx
  have hco2 : ({ withOp c o' with arg2 := c.arg2 + k } : OpType).op = o'.toByte := rfl
  rw [nopI, fetchI_self hob (isLoadOp_plain hlb) hv, execSeq_plain hco2 (isStoreOp_plain hos'),
    store_effect hco2 hos' (f1 v).lt, psh_mem_top h1]
  have hstore : ∀ m w, storeM (psh s v) o' c.arg1 (c.arg2 + k) m w = (do
      let a ← getBaseAddress s c.arg1 (signExtend16 c.arg2)
      if (k + a).toNat / 2 < s.words then .ok (putM o' (k + a).toNat m w) else .ub) := by
    intro m w
    rcases hoo with ⟨_, rfl⟩ | ⟨_, rfl⟩
    · rw [storeM, gb2, getBase_add hss]
      cases getBaseAddress s c.arg1 (signExtend16 c.arg2) <;> rfl
    · rw [storeM, gb2, getBase_add hss]
      cases getBaseAddress s c.arg1 (signExtend16 c.arg2) with
      | ub => rfl
      | hang => rfl
      | ok a =>
        simp only [Res.ok_bind]
        show (if (k + a).toNat < 2 * s.words then _ else _) = _
        have e : (k + a).toNat < 2 * s.words ↔ (k + a).toNat / 2 < s.words := by omega
        simp only [e]
        rfl
  show ∃ s'', (do
      let m ← storeM (psh s v) o' c.arg1 (c.arg2 + k) (psh s v).mem v
      Res.ok ({ psh s v with
        sp := (psh s v).sp - 2#16
        mem := m } : VM)) >>= _ = _ ∧ _
  rw [hstore]
  cases hg : getBaseAddress s c.arg1 (signExtend16 c.arg2) with
  | ub => rw [hg] at hx; cases hx
  | hang => rw [hg] at hx; cases hx
  | ok A =>
    rw [hg] at hx
    simp only [Res.ok_bind] at hx ⊢
    by_cases hw : (k + A).toNat / 2 < s.words
    · rw [if_pos (by exact hw)] at hx
      rw [if_pos hw]
      cases hx
      refine ⟨_, rfl, ?_, ?_⟩
      · show ({ s with
          sp := s.sp + 2#16 - 2#16
          mem := putM o' (k + A).toNat (psh s v).mem v } : VM) = { s with
          sp := s.sp + 2#16 + 2#16 - 2#16 - 2#16
          mem := putM o' (k + A).toNat (psh s v).mem v }
        have e1 : s.sp + 2#16 - 2#16 = s.sp + 2#16 + 2#16 - 2#16 - 2#16 := by bv_omega
        rw [e1]
      · intro i hi
        have hi : i ≤ (s.sp + 2#16 + 2#16 - 2#16 - 2#16).toNat / 2 ∨ s.top + 2 < i := hi
        have e2 : s.sp + 2#16 + 2#16 - 2#16 - 2#16 = s.sp := by bv_omega
        rw [e2] at hi
        have hi2 : i ≠ s.top + 1 ∧ i ≠ s.top + 2 := by
          simp only [VM.top] at *; omega
        show putM o' (k + A).toNat (psh s v).mem v i =
          putM o' (k + A).toNat (psh (psh s k) v).mem v i
        refine putM_congr ?_
        show updW s.mem (s.top + 1) v i =
          updW (updW s.mem (s.top + 1) k) ((psh s k).top + 1) v i
        rw [psh_top h1, updW_other _ _ hi2.1, updW_other _ _ hi2.2, updW_other _ _ hi2.1]
    · rw [if_neg (by exact hw)] at hx
      cases hx

example : storeRule ⟨Op.push.toByte, 0, 6#16⟩ ⟨Op.pushb.toByte, 3, 0⟩
    (some ⟨Op.stsx.toByte, 1, 10#16⟩) =
    .rewrite (nop, ⟨Op.pushb.toByte, 3, 0⟩, some ⟨Op.sts.toByte, 1, 16#16⟩) ∧ SameSide 10#16 6#16 :=
  ⟨rfl, by unfold SameSide; decide⟩

end Pas
