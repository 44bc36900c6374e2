import Verif.Props.Peephole5

/-! C31: constants added to addresses.  C33: blocks with a constant index. -/
namespace Pas
open Spec Popt

/-- The address a load-address instruction gives, moved by a constant. -/
theorem addr_move {s : VM} {o : Op} {x : Byte} {w d v : Word}
    (ho : o = .la ∨ o = .lac ∨ o = .lar ∨ o = .las ∧ SameSide w d)
    (h : loadV s o x w = .ok v) : loadV s o x (w + d) = .ok (v + d) := by
  rcases ho with rfl | rfl | rfl | ⟨rfl, hs⟩
  · cases h; show Res.ok _ = Res.ok _; congr 1; ac_rfl
  · cases h; show Res.ok _ = Res.ok _; congr 1; ac_rfl
  · cases h; show Res.ok _ = Res.ok _; congr 1; ac_rfl
  · have h : getBaseAddress s x (signExtend16 w) = .ok v := h
    show getBaseAddress s x (signExtend16 (w + d)) = _
    rw [getBase_add hs, h, Res.ok_bind, BitVec.add_comm]

/-- The address given by the indexed load-address instructions. -/
def axV (s : VM) (o : Op) (x : Byte) (w : Word) : Res Word :=
  if o = .lax then .ok (s.spb + w + s.mem s.top)
  else getBaseAddress s x (signExtend16 w + (s.mem s.top).toNat)

theorem ax_effect {lib : Lib} {i : OpType} {o : Op} {s : VM} (ho : i.op = o.toByte)
    (hx : o = .lax ∨ o = .lasx) (ht : s.top < s.words) :
    effect lib i s = (do let v ← axV s o i.arg1 i.arg2; .ok (rep1 s v)) := by
  have te : ∀ pc, ({ s with pc := pc } : VM).tos 0 = .ok (s.mem s.top) :=
    fun pc => VM.tos_eq _ (by exact ht) (by omega)
  have se : ∀ pc v, ({ s with pc := pc } : VM).setTos 0 v = .ok { rep1 s v with pc := pc } :=
    fun pc v => VM.setTos_eq _ _ (by exact ht) (by omega)
  rcases hx with rfl | rfl
  · rw [effect_24 ho rfl rfl, pexec24, te, Res.ok_bind, se]
    rfl
  · rw [effect_32 ho rfl rfl, pexec32, te, Res.ok_bind, getBase_pc]
    show _ = (do
      let v ← getBaseAddress s i.arg1 (signExtend16 i.arg2 + (s.mem s.top).toNat)
      Res.ok (rep1 s v))
    cases getBaseAddress s i.arg1 (signExtend16 i.arg2 + (s.mem s.top).toNat) with
    | ub => rfl
    | hang => rfl
    | ok v =>
      simp only [Res.ok_bind]
      rw [se]
      rfl

theorem ax_move {s : VM} {o : Op} {x : Byte} {w d v : Word} (ho : o = .lax ∨ o = .lasx)
    (hs : o = .lasx → (0 ≤ w.toInt + (s.mem s.top).toNat ↔
      0 ≤ (w + d).toInt + (s.mem s.top).toNat))
    (h : axV s o x w = .ok v) : axV s o x (w + d) = .ok (v + d) := by
  rcases ho with rfl | rfl
  · cases h; show Res.ok _ = Res.ok _; congr 1; ac_rfl
  · have h : getBaseAddress s x (signExtend16 w + (s.mem s.top).toNat) = .ok v := h
    show getBaseAddress s x (signExtend16 (w + d) + (s.mem s.top).toNat) = _
    have hs := hs rfl
    generalize s.mem s.top = ix at *
    have e : ∀ u : Word, BitVec.ofInt 16 (u.toInt + ix.toNat) = u + ix := by
      intro u
      rw [BitVec.ofInt_add, BitVec.ofInt_toInt]
      congr 1
      rw [BitVec.ofInt_natCast, BitVec.ofNat_toNat, BitVec.setWidth_eq]
    unfold getBaseAddress signExtend16 at *
    cases hc : chase s x.toNat s.fp with
    | ub => rw [hc] at h; cases h
    | hang => rw [hc] at h; cases h
    | ok f =>
      rw [hc] at h
      simp only [Res.ok_bind, e] at h ⊢
      by_cases h0 : w.toInt + (ix.toNat : Int) ≥ 0
      · rw [if_pos h0] at h
        rw [if_pos (hs.mp h0)]
        cases h
        congr 1
        ac_rfl
      · rw [if_neg h0] at h
        rw [if_neg (fun hh => h0 (hs.mpr hh))]
        cases h
        congr 1
        ac_rfl

/-- C31: adding a constant to an address (or subtracting it) moves the address.  Addresses in a
frame must stay on the same side of the frame header (`C31_violation_las`). -/
theorem C31_address_partial (lib : Lib) (a b c a' b' c' : OpType) (o : Op)
    (ha : Op.ofByte a.op = some o) (had : isAddress a = true) (hb : isPush b = true)
    (hc : isBinary c = true) (h : binaryRule a b c = .ok (.rewrite (a', b', c'))) :
    Sound lib (fun s => (o = .las → (0 ≤ a.arg2.toInt ↔ 0 ≤ a'.arg2.toInt)) ∧
      (o = .lasx → (0 ≤ a.arg2.toInt + (s.mem (s.sp.toNat / 2)).toNat ↔
        0 ≤ a'.arg2.toInt + (s.mem (s.sp.toNat / 2)).toNat))) [a, b, c] [a', b', c'] := by
  have ho := op_of_some ha
  have hoc : o = .la ∨ o = .lax ∨ o = .las ∨ o = .lasx ∨ o = .lac ∨ o = .lar := by
    unfold isAddress at had
    rw [ha] at had
    cases o <;> first | (cases had; done) | simp
  have hna : isPush a = false := by
    unfold isPush
    rw [ha]
    rcases hoc with rfl | rfl | rfl | rfl | rfl | rfl <;> rfl
  unfold binaryRule at h
  rw [hna, hb, hc, had] at h
  simp only [Bool.false_and, Bool.and_self, if_true, Bool.false_eq_true, if_false] at h
  have h := Res.ok.inj h
  generalize hk : (expandPush b).arg2 = k at h
  have hcase : ∃ d g, a' = { a with arg2 := a.arg2 + d } ∧ b' = nop ∧ c' = nop ∧ BinI c g ∧
      ∀ v, g v k = .ok (v + d) := by
    unfold addressConst at h
    rw [hk] at h
    cases hco : Op.ofByte c.op with
    | none => rw [hco] at h; cases h
    | some oc =>
      rw [hco] at h
      have hcb := op_of_some hco
      cases oc <;> first | (cases h; done) | skip
      case add =>
        cases h
        exact ⟨k, _, rfl, rfl, rfl, binI hcb rfl, fun v => by show Res.ok _ = _; rw [ofInt_add]⟩
      case sub =>
        cases h
        refine ⟨-k, _, ?_, rfl, rfl, binI hcb rfl, fun v => ?_⟩
        · rw [← BitVec.sub_eq_add_neg]
        · show Res.ok _ = _
          rw [ofInt_sub, BitVec.sub_eq_add_neg]
  obtain ⟨d, g, rfl, rfl, rfl, hg, hgv⟩ := hcase
  intro s hr ⟨hlas, hlasx⟩ e s' hx
  have h2 := hr.free.mono (m := 2) (by omega)
  have h1 := h2.mono (m := 1) (by omega)
  have f1 : ∀ v, Free (psh s v) 1 := fun v => psh_free h2
  have hplain : isPlain o = true := by
    rcases hoc with rfl | rfl | rfl | rfl | rfl | rfl <;> rfl
  have ho' : ({ a with arg2 := a.arg2 + d } : OpType).op = o.toByte := ho
  by_cases hl : isLoadOp o = true
  · rw [execSeq_plain ho hplain, load_effect ho hl h1] at hx
    rw [execSeq_plain ho' hplain, load_effect ho' hl h1]
    cases hv : loadV s o a.arg1 a.arg2 with
    | ub => rw [hv] at hx; cases hx
    | hang => rw [hv] at hx; cases hx
    | ok v =>
      have hv' := addr_move (d := d) (by
        rcases hoc with rfl | rfl | rfl | rfl | rfl | rfl
        · exact .inl rfl
        · cases hl
        · exact .inr (.inr (.inr ⟨rfl, hlas rfl⟩))
        · cases hl
        · exact .inr (.inl rfl)
        · exact .inr (.inr (.inl rfl))) hv
      have hv2 : loadV s o ({ a with arg2 := a.arg2 + d } : OpType).arg1
          ({ a with arg2 := a.arg2 + d } : OpType).arg2 = .ok (v + d) := hv'
      rw [hv2]
      rw [hv] at hx
      simp only [Res.ok_bind] at hx ⊢
      have hp := pushI hb lib [c] (psh s v) (f1 v)
      rw [hk] at hp
      rw [hp, hg _ _ _ (by rw [psh_top (f1 v), psh_top h1]; omega) (psh_free (f1 v)).lt] at hx
      have m1 : (psh (psh s v) k).mem (psh (psh s v) k).top = k := psh_mem_top (f1 v)
      have m2 : (psh (psh s v) k).mem ((psh (psh s v) k).top - 1) = v := by
        rw [psh_top (f1 v)]
        rw [show (psh s v).top + 1 - 1 = (psh s v).top by omega, psh_mem (Nat.le_refl _)]
        exact psh_mem_top h1
      rw [m1, m2, hgv] at hx
      rw [nopI, nopI]
      cases hx
      exact ⟨_, rfl, live_rep2_psh2 h2 _ _ _⟩
  · have hox : o = .lax ∨ o = .lasx := by
      rcases hoc with rfl | rfl | rfl | rfl | rfl | rfl <;> first | exact (hl rfl).elim | simp
    rw [execSeq_plain ho hplain, ax_effect ho hox h1.lt] at hx
    rw [execSeq_plain ho' hplain, ax_effect ho' hox h1.lt]
    cases hv : axV s o a.arg1 a.arg2 with
    | ub => rw [hv] at hx; cases hx
    | hang => rw [hv] at hx; cases hx
    | ok v =>
      have hv' := ax_move (d := d) hox hlasx hv
      have hv2 : axV s o ({ a with arg2 := a.arg2 + d } : OpType).arg1
          ({ a with arg2 := a.arg2 + d } : OpType).arg2 = .ok (v + d) := hv'
      rw [hv2]
      rw [hv] at hx
      simp only [Res.ok_bind] at hx ⊢
      have fr : Free (rep1 s v) 1 := h1
      have hp := pushI hb lib [c] (rep1 s v) fr
      rw [hk] at hp
      rw [hp, hg _ _ _ (by rw [psh_top fr]; omega) (psh_free fr).lt] at hx
      have m1 : (psh (rep1 s v) k).mem (psh (rep1 s v) k).top = k := psh_mem_top fr
      have m2 : (psh (rep1 s v) k).mem ((psh (rep1 s v) k).top - 1) = v := by
        rw [psh_top fr]
        rw [show (rep1 s v).top + 1 - 1 = (rep1 s v).top by omega, psh_mem (Nat.le_refl _)]
        exact updW_same _ _ _
      rw [m1, m2, hgv] at hx
      rw [nopI, nopI]
      cases hx
      refine ⟨_, rfl, ?_⟩
      have := live_rep2_psh fr k (v + d)
      have e2 : rep1 (rep1 s v) (v + d) = rep1 s (v + d) := by
        simp only [rep1, VM.top, updW_updW]
      rw [e2] at this
      exact this

/-- Address of the field at offset 6 of a global record. -/
example : binaryRule ⟨Op.la.toByte, 0, 10#16⟩ ⟨Op.pushb.toByte, 6, 0⟩ ⟨Op.add.toByte, 0, 0⟩ =
    .ok (.rewrite (⟨Op.la.toByte, 0, 16#16⟩, nop, nop)) := rfl

/-- C31 does not hold for an address moved over the frame header. -/
theorem C31_violation_las (lib : Lib) : ∃ a b c a' b' c' : OpType,
    a.op = Op.las.toByte ∧ c.op = Op.add.toByte ∧
    binaryRule a b c = .ok (.rewrite (a', b', c')) ∧
    ¬ Sound lib (fun _ => True) [a, b, c] [a', b', c'] :=
  ⟨⟨Op.las.toByte, 0, 0xfffe#16⟩, ⟨Op.push.toByte, 0, 4#16⟩, ⟨Op.add.toByte, 0, 0⟩, _, _, _, rfl,
    rfl, rfl, not_sound (v := (none, 22#16, 2#16, 0#16)) (v' := (none, 22#16, 12#16, 0#16))
      (vmWith_roomy 7#16 0#16) trivial rfl rfl (by decide)⟩

/-- C33 does not hold for LAR, an address relative to the stack pointer: exchanged with another
load it gives the address of another word. -/
theorem C33_violation_lar (lib : Lib) : ∃ a b c a' b' c' : OpType,
    c.op = Op.xchg.toByte ∧ stackOrderRule a b c = .rewrite (a', b', c') ∧
    ¬ Sound lib (fun _ => True) [a, b, c] [a', b', c'] :=
  ⟨⟨Op.push.toByte, 0, 4#16⟩, ⟨Op.lar.toByte, 0, 0#16⟩, ⟨Op.xchg.toByte, 0, 0⟩, _, _, _, rfl, rfl,
    not_sound (v := (none, 24#16, 4#16, 22#16)) (v' := (none, 24#16, 4#16, 20#16))
      (vmWith_roomy 7#16 0#16) trivial rfl rfl (by decide)⟩

/-- Two block loads from live memory, in states that differ above the top of the stack. -/
theorem pushBlock_live {T B : Nat} : ∀ (n : Nat) (t t' r : VM) (a : Word),
    t' = { t with mem := t'.mem } → (∀ i, i ≤ t.top ∨ i ≤ T ∨ B + 2 < i → t'.mem i = t.mem i) →
    (∀ j : Nat, 2 * j < n → (a + BitVec.ofNat 16 (2 * j)).toNat / 2 ≤ T) →
    pushBlock t a n = .ok r → ∃ r', pushBlock t' a n = .ok r' ∧ SameLive B r r' := by
  have hpush : ∀ (t t' r : VM) (w : Word), t' = { t with mem := t'.mem } →
      (∀ i, i ≤ t.top ∨ i ≤ T ∨ B + 2 < i → t'.mem i = t.mem i) → t.push w = .ok r →
      ∃ r', t'.push w = .ok r' ∧ r' = { r with mem := r'.mem } ∧
        ∀ i, i ≤ r.top ∨ i ≤ T ∨ B + 2 < i → r'.mem i = r.mem i := by
    intro t t' r w h1 h2 h3
    rw [h1]
    generalize hm : t'.mem = m' at *
    simp only [VM.push, VM.wr] at h3 ⊢
    split at h3
    · next hlt =>
      rw [if_pos (by exact hlt)]
      cases h3
      refine ⟨_, rfl, rfl, ?_⟩
      intro i hi
      simp only [VM.top] at *
      show updW m' ((t.sp + 2#16).toNat / 2) w i = updW t.mem ((t.sp + 2#16).toNat / 2) w i
      by_cases e : i = (t.sp + 2#16).toNat / 2
      · rw [e, updW_same, updW_same]
      · rw [updW_other _ _ e, updW_other _ _ e]
        apply h2
        have hi : i ≤ (t.sp + 2#16).toNat / 2 ∨ i ≤ T ∨ B + 2 < i := hi
        rcases hi with hi | hi
        · left
          have := t.sp.isLt
          have e2 : (2#16 : Word).toNat = 2 := rfl
          rw [BitVec.toNat_add] at *
          omega
        · exact .inr hi
    · cases h3
  intro n
  induction n using Nat.strongRecOn with
  | ind n ih =>
    intro t t' r a h1 h2 h3 h4
    match n, ih, h3, h4 with
    | 0, _, _, h4 =>
      rw [pushBlock] at h4 ⊢
      cases h4
      refine ⟨t', rfl, h1, ?_⟩
      intro i hi
      exact h2 i (hi.elim .inl (fun h => .inr (.inr h)))
    | 1, _, h3, h4 =>
      rw [pushBlock] at h4 ⊢
      have ha : a.toNat / 2 ≤ T := by have := h3 0 (by omega); simpa using this
      have hb : byteAt t'.mem a.toNat = byteAt t.mem a.toNat := by
        unfold byteAt; rw [h2 _ (.inr (.inl ha))]
      have hw : t'.words = t.words := by rw [h1]
      simp only [VM.rdB] at h4 ⊢
      rw [hw, hb]
      split at h4
      · next hlt =>
        rw [if_pos hlt]
        simp only [Res.ok_bind] at h4 ⊢
        obtain ⟨r', e1, e2, e3⟩ := hpush t t' r _ h1 h2 h4
        exact ⟨r', e1, e2, fun i hi => e3 i (hi.elim .inl (fun h => .inr (.inr h)))⟩
      · cases h4
    | n + 2, ih, h3, h4 =>
      rw [pushBlock] at h4 ⊢
      have ha : a.toNat / 2 ≤ T := by have := h3 0 (by omega); simpa using this
      have hw : t'.words = t.words := by rw [h1]
      simp only [VM.getStack, VM.rd] at h4 ⊢
      rw [hw, h2 _ (.inr (.inl ha))]
      split at h4
      · next hlt =>
        rw [if_pos hlt]
        simp only [Res.ok_bind] at h4 ⊢
        cases hp : t.push (t.mem (a.toNat / 2)) with
        | ub => rw [hp] at h4; cases h4
        | hang => rw [hp] at h4; cases h4
        | ok u =>
          rw [hp] at h4
          obtain ⟨u', e1, e2, e3⟩ := hpush t t' u _ h1 h2 hp
          rw [e1]
          simp only [Res.ok_bind] at h4 ⊢
          refine ih n (by omega) u u' r (a + 2#16) e2 e3 ?_ h4
          intro j hj
          have := h3 (j + 1) (by omega)
          rw [show (a + 2#16 + BitVec.ofNat 16 (2 * j)) = a + BitVec.ofNat 16 (2 * (j + 1)) by
            rw [BitVec.add_assoc, show 2#16 = BitVec.ofNat 16 2 from rfl, ← BitVec.ofNat_add]
            congr 2; omega]
          exact this
      · cases h4

/-- C33: a block load with a constant index is a block load from the indexed address.  The
address in a frame must stay on the same side of the frame header. -/
theorem C33_indexed_block_partial (lib : Lib) (a b c a' b' c' : OpType) (hpa : isPush a = true)
    (hb : isLoad b = true) (h : loadRule a b (some c) = .rewrite (a', b', some c')) :
    Sound lib (fun s => ∃ n, Fetches lib b s n ∧
      (c.op = Op.ldxm.toByte → BlockLive s ((expandPush a).arg2 + (s.spb + c.arg2)) n.toNat) ∧
      (c.op = Op.ldsxm.toByte → SameSide c.arg2 (expandPush a).arg2 ∧ ∃ A f,
        FrameAddr s c.arg1.toNat c.arg2.toInt A ∧
        LinkIn s (· ≤ s.sp.toNat / 2) c.arg1.toNat s.fp f ∧
        BlockLive s ((expandPush a).arg2 + A) n.toNat)) [a, b, c] [a', b', c'] := by
  obtain ⟨ob, hob, hlb⟩ := isLoad_op hb
  have hbu : (Op.ofByte b.op).bind unindexed = none := by
    rw [ofByte_of hob]
    cases ob <;> first | rfl | cases hlb
  have hsl : isSimpleLoad a = false := by
    rcases isPush_cases hpa with e | e | e <;> (unfold isSimpleLoad; rw [e]; rfl)
  unfold loadRule at h
  rw [hsl, hpa, if_neg (by decide), if_pos rfl, hbu] at h
  simp only [hb, if_true] at h
  generalize hk : (expandPush a).arg2 = k at h
  intro s hr ⟨n, hn, hP1, hP2⟩ e s' hx
  have h2 := hr.free.mono (m := 2) (by omega)
  have h1 := h2.mono (m := 1) (by omega)
  have f1 : ∀ v, Free (psh s v) 1 := fun v => psh_free h2
  have hpush := pushI hpa lib [b, c] s h1
  rw [hk] at hpush
  rw [hpush, fetchI_psh hob (isLoadOp_plain hlb) hn] at hx
  -- the states in which the blocks are loaded
  let u : VM := { psh (psh s k) n with sp := s.sp }
  let u' : VM := { psh s n with sp := s.sp }
  have p1 : ∀ pc, ({ psh (psh s k) n with pc := pc } : VM).pop = .ok (n, { psh (psh s k) n with
      pc := pc
      sp := (psh s k).sp }) := by
    intro pc
    rw [VM.pop_eq _ (by exact (psh_free (n := 0) (v := n) (f1 k)).lt)]
    have m1 : (psh (psh s k) n).mem (psh (psh s k) n).top = n := psh_mem_top (f1 k)
    show Res.ok ((psh (psh s k) n).mem (psh (psh s k) n).top, _) = _
    rw [m1]
    have e1 : (psh (psh s k) n).sp - 2#16 = (psh s k).sp := by
      show (psh s k).sp + 2#16 - 2#16 = _; bv_omega
    simp only [e1]
  have p2 : ∀ pc, ({ psh (psh s k) n with
      pc := pc
      sp := (psh s k).sp } : VM).pop = .ok (k, { u with pc := pc }) := by
    intro pc
    rw [VM.pop_eq _ (by exact (f1 k).lt)]
    have m2 : (psh (psh s k) n).mem (psh s k).top = k := by
      rw [psh_mem (Nat.le_refl _)]; exact psh_mem_top h1
    show Res.ok ((psh (psh s k) n).mem (psh s k).top, _) = _
    rw [m2]
    have e1 : (psh s k).sp - 2#16 = s.sp := by
      show s.sp + 2#16 - 2#16 = _; bv_omega
    simp only [e1]
    rfl
  have p3 : ∀ pc, ({ psh s n with pc := pc } : VM).pop = .ok (n, { u' with pc := pc }) := by
    intro pc
    rw [VM.pop_eq _ (by exact (f1 n).lt)]
    have m2 : (psh s n).mem (psh s n).top = n := psh_mem_top h1
    show Res.ok ((psh s n).mem (psh s n).top, _) = _
    rw [m2]
    have e1 : (psh s n).sp - 2#16 = s.sp := by
      show s.sp + 2#16 - 2#16 = _; bv_omega
    simp only [e1]
    rfl
  have umem : ∀ i, i ≤ s.top ∨ i ≤ s.top ∨ s.top + 2 < i → u'.mem i = u.mem i := by
    intro i hi
    show updW s.mem (s.top + 1) n i = updW (updW s.mem (s.top + 1) k) ((psh s k).top + 1) n i
    rw [psh_top h1, updW_other _ _ (by omega), updW_other _ _ (by omega), updW_other _ _ (by omega)]
  have block : ∀ (pc A : Word) (r : VM), BlockLive s A n.toNat →
      pushBlock { u with pc := pc } A n.toNat = .ok r →
      ∃ r', pushBlock { u' with pc := pc } A n.toNat = .ok r' ∧ SameLive s.top r r' :=
    fun pc A r hl hp => pushBlock_live (T := s.top) (B := s.top) n.toNat { u with pc := pc }
      { u' with pc := pc } r A rfl umem hl hp
  have fin : ∀ (x : Word) (r r' : VM), SameLive s.top r r' →
      SameLive s.top { r with pc := x } { r' with pc := x } := by
    intro x r r' hs
    refine ⟨?_, hs.live⟩
    rw [hs.regs]
  have ubind : ∀ {α β : Type} (f : α → Res β), (Res.ub >>= f) = Res.ub := fun _ => rfl
  have hbind : ∀ {α β : Type} (f : α → Res β), (Res.hang >>= f) = Res.hang := fun _ => rfl
  split at h
  · next hc =>
    cases h
    have hc2 : ({ withOp c .ldm with arg2 := c.arg2 + k } : OpType).op = Op.ldm.toByte := rfl
    have hA := hP1 hc
    generalize hAd : k + (s.spb + c.arg2) = A at hA
    have ea : ∀ pc, ({ u' with pc := pc } : VM).spb + (c.arg2 + k) = A := by
      intro pc; rw [← hAd]; show s.spb + (c.arg2 + k) = k + (s.spb + c.arg2); ac_rfl
    have eb : ∀ pc, k + (({ u with pc := pc } : VM).spb + c.arg2) = A := fun _ => hAd
    rw [execSeq_plain hc rfl, effect_24 hc rfl rfl, pexec24, p1, Res.ok_bind] at hx
    simp only [] at hx
    rw [p2, Res.ok_bind] at hx
    simp only [] at hx
    rw [eb] at hx
    rw [nopI, fetchI_self hob (isLoadOp_plain hlb) hn, execSeq_plain hc2 rfl, effect_24 hc2 rfl rfl,
      pexec24, p3, Res.ok_bind]
    simp only []
    rw [ea]
    cases hp : pushBlock { u with pc := 0 } A n.toNat with
    | ub => rw [hp, ubind, ubind, ubind] at hx; cases hx
    | hang => rw [hp, hbind, hbind, hbind] at hx; cases hx
    | ok r =>
      obtain ⟨r', e1, e2⟩ := block 0 A r hA hp
      rw [hp] at hx
      rw [e1]
      cases hx
      exact ⟨_, rfl, fin s.pc r r' e2⟩
  · split at h
    · next hc =>
      cases h
      have hc2 : ({ withOp c .ldsm with arg2 := c.arg2 + k } : OpType).op = Op.ldsm.toByte := rfl
      obtain ⟨hss, A, f, hfa, hf, hA⟩ := hP2 hc
      have gu : ∀ (m : VM) (off : Int), m.words = s.words → m.fp = s.fp →
          (∀ j, j ≤ s.top → m.mem j = s.mem j) →
          getBaseAddress m c.arg1 off = getBaseAddress s c.arg1 off := by
        intro m off h1 h2 h3
        exact getBase_in (s := s) (t := m) (Q := (· ≤ s.sp.toNat / 2)) h1 h2 h3 hf off
      have gs : getBaseAddress s c.arg1 (signExtend16 c.arg2) = .ok A := getBase_of hfa
      have eb : ∀ pc, getBaseAddress { u with pc := pc } c.arg1 (signExtend16 c.arg2) = .ok A := by
        intro pc
        rw [gu { u with pc := pc } _ rfl rfl, gs]
        intro j hj
        show (psh (psh s k) n).mem j = _
        rw [psh_mem (by rw [psh_top h1]; omega), psh_mem hj]
      have ea : ∀ pc, getBaseAddress { u' with pc := pc } c.arg1 (signExtend16 (c.arg2 + k)) =
          .ok (k + A) := by
        intro pc
        rw [gu { u' with pc := pc } _ rfl rfl, getBase_add hss, gs]
        · rfl
        · intro j hj
          exact psh_mem hj
      rw [execSeq_plain hc rfl, effect_32 hc rfl rfl, pexec32, p1, Res.ok_bind] at hx
      simp only [] at hx
      rw [p2, Res.ok_bind] at hx
      simp only [] at hx
      rw [eb, Res.ok_bind] at hx
      rw [nopI, fetchI_self hob (isLoadOp_plain hlb) hn, execSeq_plain hc2 rfl,
        effect_32 hc2 rfl rfl, pexec32, p3, Res.ok_bind]
      simp only []
      have ea2 : getBaseAddress { u' with pc := 0 }
          ({ withOp c .ldsm with arg2 := c.arg2 + k } : OpType).arg1
          (signExtend16 ({ withOp c .ldsm with arg2 := c.arg2 + k } : OpType).arg2) = .ok (k + A) :=
        ea 0
      rw [ea2, Res.ok_bind]
      cases hp : pushBlock { u with pc := 0 } (k + A) n.toNat with
      | ub => rw [hp, ubind, ubind, ubind] at hx; cases hx
      | hang => rw [hp, hbind, hbind, hbind] at hx; cases hx
      | ok r =>
        obtain ⟨r', e1, e2⟩ := block 0 (k + A) r hA hp
        rw [hp] at hx
        rw [e1]
        cases hx
        exact ⟨_, rfl, fin s.pc r r' e2⟩
    · cases h

/-- Four bytes of a global array at index 2. -/
example : loadRule ⟨Op.pushb.toByte, 2, 0⟩ ⟨Op.pushb.toByte, 4, 0⟩
      (some ⟨Op.ldxm.toByte, 0, 8#16⟩) =
    .rewrite (nop, ⟨Op.pushb.toByte, 4, 0⟩, some ⟨Op.ldm.toByte, 0, 10#16⟩) ∧
    BlockLive (vmWith 5#16 7#16) (2#16 + ((vmWith 5#16 7#16).spb + 8#16)) (4#16 : Word).toNat := by
  refine ⟨rfl, fun j hj => ?_⟩
  have h2 : j = 0 ∨ j = 1 := by have : (4#16 : Word).toNat = 4 := rfl; omega
  rcases h2 with rfl | rfl
  · show (2#16 + (0#16 + 8#16) + BitVec.ofNat 16 0 : Word).toNat / 2 ≤ (20#16 : Word).toNat / 2
    decide
  · show (2#16 + (0#16 + 8#16) + BitVec.ofNat 16 2 : Word).toNat / 2 ≤ (20#16 : Word).toNat / 2
    decide

end Pas
