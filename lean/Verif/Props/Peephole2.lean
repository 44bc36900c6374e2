import Verif.Props.Peephole

/-! C30, C31, C32: rewriting of two operands and an operator (`popt_BinaryOptimize`) and of
comparisons followed by jumps (`popt_BranchOptimize`). -/
namespace Pas
open Spec Popt

/-! Helper lemmas. -/

theorem isPush_not_frame {i : OpType} (h : isPush i = true) : isFrameLoad i = false := by
  rcases isPush_cases h with e | e | e <;> (unfold isFrameLoad; rw [e]; rfl)

theorem frame_not_push {i : OpType} (h : isFrameLoad i = true) : isPush i = false := by
  cases hp : isPush i with
  | false => rfl
  | true => rw [isPush_not_frame hp] at h; cases h

theorem isLoad_plain {i : OpType} (h : isLoad i = true) : ∃ o, i.op = o.toByte ∧ isPlain o = true := by
  unfold isLoad at h
  cases ho : Op.ofByte i.op with
  | none => rw [ho] at h; cases h
  | some o =>
    rw [ho] at h
    refine ⟨o, op_of_some ho, ?_⟩
    cases o <;> first | rfl | cases h

theorem isFrameLoad_plain {i : OpType} (h : isFrameLoad i = true) :
    ∃ o, i.op = o.toByte ∧ isPlain o = true := by
  unfold isFrameLoad at h
  cases ho : Op.ofByte i.op with
  | none => rw [ho] at h; cases h
  | some o =>
    rw [ho] at h
    refine ⟨o, op_of_some ho, ?_⟩
    cases o <;> first | rfl | cases h

theorem ofByte_isBinary {c : OpType} (h : isBinary c = true) :
    ∃ o, Op.ofByte c.op = some o := by
  unfold isBinary at h
  cases ho : Op.ofByte c.op with
  | none => rw [ho] at h; cases h
  | some o => exact ⟨o, rfl⟩

/-- C30: an operator with two constant operands is replaced by a constant: the one that the
operator computes.  Excluded: `FoldOk` (`C30_violation_div`, `C30_violation_mod`,
`C30_violation_ult`). -/
theorem C30_fold_partial (lib : Lib) (a b c a' b' c' : OpType) (o : Op) (ha : isPush a = true)
    (hb : isPush b = true) (hc : Op.ofByte c.op = some o)
    (hok : FoldOk o (expandPush a).arg2 (expandPush b).arg2)
    (h : binaryRule a b c = .ok (.rewrite (a', b', c'))) (hbin : isBinary c = true) :
    Sound lib (fun _ => True) [a, b, c] [a', b', c'] := by
  have hc1 := op_of_some hc
  unfold binaryRule at h
  rw [ha, hb, hbin, if_pos (by decide), hc] at h
  cases hv : foldConst (some o) (expandPush a).arg2 (expandPush b).arg2 with
  | ub => rw [hv] at h; cases h
  | hang => rw [hv] at h; cases h
  | ok w =>
    rw [hv, Res.ok_bind] at h
    cases w with
    | none => cases h
    | some v =>
      cases h
      have fold : ∀ g, binF o = some g →
          (∀ r, g (expandPush a).arg2 (expandPush b).arg2 = .ok r → v = r) →
          Sound lib (fun _ => True) [a, b, c] [{ expandPush a with arg2 := v }, nop, nop] :=
        fun g hg hk => fam_fold (pushI ha) (pushI hb) (binI hc1 hg) (pushI_const ha v) hk
      revert hv hok
      generalize (expandPush a).arg2 = x at *
      generalize (expandPush b).arg2 = y at *
      intro hok hv
      have nn : ∀ z : Word, 0 ≤ z.toInt → z.toInt = (z.toNat : Int) ∧ z.toNat < 32768 :=
        fun z hz => toNat_of_nonneg hz
      have ng : ∀ z : Word, z.toInt = (z.toNat : Int) ∧ z.toNat < 32768 ∨
          z.toInt = (z.toNat : Int) - 65536 ∧ 32768 ≤ z.toNat := by
        intro z; have := z.isLt; rw [BitVec.toInt_eq_toNat_cond]; split <;> omega
      have hun := hok.2.2
      unfold foldConst at hv
      cases o <;> first | (cases hv; done) | skip
      case add => cases hv; exact fold _ rfl (fun r hr => by rw [ofInt_add] at hr; cases hr; rfl)
      case sub => cases hv; exact fold _ rfl (fun r hr => by rw [ofInt_sub] at hr; cases hr; rfl)
      case mul =>
        simp only at hv
        split at hv
        · cases hv
        · cases hv; exact fold _ rfl (fun r hr => by rw [ofInt_mul] at hr; cases hr; rfl)
      case umul =>
        simp only at hv
        split at hv
        · cases hv
        · cases hv
          refine fold _ rfl (fun r hr => ?_)
          rw [ofNat_mul] at hr
          split at hr <;> cases hr
          rfl
      case div_ =>
        simp only at hv
        split at hv
        · cases hv
        · cases hv
          refine fold _ rfl (fun r hr => ?_)
          rw [(nn _ (hok.1 rfl)).1] at hr
          split at hr <;> cases hr
          rfl
      case mod_ =>
        simp only at hv
        split at hv
        · cases hv
        · cases hv
          refine fold _ rfl (fun r hr => ?_)
          have h1 := nn _ (hok.2.1 rfl).1
          have h2 := nn _ (hok.2.1 rfl).2
          rw [h1.1, h2.1] at hr
          split at hr
          · cases hr
          · cases hr
            rw [← Int.ofNat_tmod]
            rfl
      case umod =>
        simp only at hv
        split at hv
        · cases hv
        · cases hv
          refine fold _ rfl (fun r hr => ?_)
          split at hr <;> cases hr
          rfl
      case or_ => cases hv; exact fold _ rfl (fun r hr => by cases hr; rfl)
      case and_ => cases hv; exact fold _ rfl (fun r hr => by cases hr; rfl)
      case equ =>
        cases hv
        refine fold _ rfl (fun r hr => ?_)
        cases hr
        simp only [truth_eq, BitVec.toInt_inj]
        congr 1; simp only [decide_eq_decide]; exact eq_comm
      case neq =>
        cases hv
        refine fold _ rfl (fun r hr => ?_)
        cases hr
        simp only [truth_eq, BitVec.toInt_inj, ne_eq]
        congr 1; simp only [decide_eq_decide]; exact not_congr eq_comm
      all_goals
        cases hv
        refine fold _ rfl (fun r hr => ?_)
        cases hr
        simp only [truth_eq]
        first
          | done
          | rfl
          | skip
        try congr 1
        try simp only [decide_eq_decide]
        first
          | done
          | omega
          | (have h1 := hun (by simp); have h2 := ng x; have h3 := ng y; omega)

/-- `7 div 2` and `200 < 100` (unsigned). -/
example : binaryRule ⟨Op.pushb.toByte, 7, 0⟩ ⟨Op.pushb.toByte, 2, 0⟩ ⟨Op.div_.toByte, 0, 0⟩ =
    .ok (.rewrite (⟨Op.push.toByte, 0, 3#16⟩, nop, nop)) ∧ FoldOk .div_ 7#16 2#16 ∧
    binaryRule ⟨Op.upushb.toByte, 200, 0⟩ ⟨Op.upushb.toByte, 100, 0⟩ ⟨Op.ult.toByte, 0, 0⟩ =
    .ok (.rewrite (⟨Op.push.toByte, 0, 0#16⟩, nop, nop)) ∧ FoldOk .ult 200#16 100#16 := by
  refine ⟨rfl, ?_, rfl, ?_⟩ <;> (unfold FoldOk; decide)

/-- C30 does not hold for constant divisions with a negative dividend. -/
theorem C30_violation_div (lib : Lib) : ∃ a b c a' b' c' : OpType, c.op = Op.div_.toByte ∧
    binaryRule a b c = .ok (.rewrite (a', b', c')) ∧
    ¬ Sound lib (fun _ => True) [a, b, c] [a', b', c'] :=
  ⟨⟨Op.push.toByte, 0, 0xfff8#16⟩, ⟨Op.push.toByte, 0, 2#16⟩, ⟨Op.div_.toByte, 0, 0⟩, _, _, _,
    rfl, rfl, not_sound (s := vmWith 0 0) (v := (none, 22#16, 0xfffc#16, 0#16))
      (v' := (none, 22#16, 0x7ffc#16, 0#16)) (vmWith_roomy _ _) trivial rfl rfl (by decide)⟩

/-- C30 does not hold for constant `mod` with a negative operand. -/
theorem C30_violation_mod (lib : Lib) : ∃ a b c a' b' c' : OpType, c.op = Op.mod_.toByte ∧
    binaryRule a b c = .ok (.rewrite (a', b', c')) ∧
    ¬ Sound lib (fun _ => True) [a, b, c] [a', b', c'] :=
  ⟨⟨Op.push.toByte, 0, 0xffff#16⟩, ⟨Op.push.toByte, 0, 10#16⟩, ⟨Op.mod_.toByte, 0, 0⟩, _, _, _,
    rfl, rfl, not_sound (s := vmWith 0 0) (v := (none, 22#16, 0xffff#16, 0#16))
      (v' := (none, 22#16, 5#16, 0#16)) (vmWith_roomy _ _) trivial rfl rfl (by decide)⟩

/-- C30 does not hold for unsigned comparisons of constants. -/
theorem C30_violation_ult (lib : Lib) : ∃ a b c a' b' c' : OpType, c.op = Op.ult.toByte ∧
    binaryRule a b c = .ok (.rewrite (a', b', c')) ∧
    ¬ Sound lib (fun _ => True) [a, b, c] [a', b', c'] :=
  ⟨⟨Op.push.toByte, 0, 1#16⟩, ⟨Op.push.toByte, 0, 0x8000#16⟩, ⟨Op.ult.toByte, 0, 0⟩, _, _, _,
    rfl, rfl, not_sound (s := vmWith 0 0) (v := (none, 22#16, 0xffff#16, 0#16))
      (v' := (none, 22#16, 0#16, 0#16)) (vmWith_roomy _ _) trivial rfl rfl (by decide)⟩

/-- The optimizer does not end on an unsigned division of two constants: nothing is rewritten and
the loop does not advance. -/
theorem C30_violation_udiv (a b c : OpType) (ha : isPush a = true) (hb : isPush b = true)
    (hc : c.op = Op.udiv.toByte) : binaryRule a b c = .ok .stuck := by
  unfold binaryRule
  have : isBinary c = true := by unfold isBinary; rw [hc]; rfl
  rw [ha, hb, this, hc, if_pos (by decide)]
  rfl

/-- The optimizer itself divides by zero when the divisor is the constant 0. -/
theorem C30_violation_zero (a b c : OpType) (ha : isPush a = true) (hb : isPush b = true)
    (h0 : (expandPush b).arg2 = 0#16)
    (hc : c.op = Op.div_.toByte ∨ c.op = Op.mod_.toByte ∨ c.op = Op.umod.toByte) :
    binaryRule a b c = .ub := by
  unfold binaryRule
  have : isBinary c = true := by unfold isBinary; rcases hc with e | e | e <;> rw [e] <;> rfl
  rw [ha, hb, this, if_pos (by decide), h0]
  rcases hc with e | e | e <;> rw [e] <;> rfl

theorem mulShift_spec {k : Word} (h : mulShift k ≠ 0) : k.toNat = 2 ^ mulShift k ∧ mulShift k ≤ 15 := by
  have hk : k = 2#16 ∨ k = 4#16 ∨ k = 8#16 ∨ k = 16#16 ∨ k = 32#16 ∨ k = 64#16 ∨ k = 128#16 ∨
      k = 256#16 ∨ k = 512#16 ∨ k = 1024#16 ∨ k = 2048#16 ∨ k = 4096#16 ∨ k = 8192#16 ∨
      k = 16384#16 := by
    apply Classical.byContradiction
    intro hn
    simp only [not_or] at hn
    apply h
    simp only [mulShift, hn, if_false]
  rcases hk with e | e | e | e | e | e | e | e | e | e | e | e | e | e <;> (subst e; decide)

/-- C31: a constant, a load of a variable and an operator are replaced by something cheaper that
pushes the same value.  The load has to fetch a value that does not depend on the words above
the top of the stack and on the depth of the stack (not so for LAR).  Excluded: subtraction from
zero (`C31_violation_zero_sub`) and ordering comparisons of zero with a variable that is zero
(`C31_violation_zero_lt`). -/
theorem C31_constLoad_partial (lib : Lib) (a b c a' b' c' : OpType) (o : Op) (ha : isPush a = true)
    (hb : isFrameLoad b = true) (hc : Op.ofByte c.op = some o) (hsub : o ≠ .sub)
    (h : binaryRule a b c = .ok (.rewrite (a', b', c'))) :
    Sound lib (fun s => ∃ v, Fetches lib b s v ∧ (isOrdering o → v ≠ 0#16))
      [a, b, c] [a', b', c'] := by
  have hc1 := op_of_some hc
  obtain ⟨ob, hb1, hp⟩ := isFrameLoad_plain hb
  unfold binaryRule at h
  rw [ha, hb, frame_not_push hb, if_neg (by simp), if_pos (by decide)] at h
  have h := Res.ok.inj h
  unfold constLoad at h
  rw [hc] at h
  have cut : ∀ x : Word, minus1 &&& x = x := fun x => BitVec.allOnes_and
  have hmm : minus1 = -1#16 := by decide
  have hz : (0#16 : Word).toInt = 0 := by decide
  have nz : ∀ v : Word, v ≠ 0#16 → v.toInt ≠ 0 := fun v hv e => hv ((toInt_eq_zero v).mp e)
  have same : ∀ g, binF o = some g →
      (∀ v r, g (expandPush a).arg2 v = .ok r → v = r) →
      Sound lib (fun s => ∃ v, Fetches lib b s v ∧ (isOrdering o → v ≠ 0#16)) [a, b, c] [nop, b, nop] :=
    fun g hg hk => fam_cl_id (pushI ha) hb1 hp (binI hc1 hg)
      (fun s ⟨v, hf, _⟩ => ⟨v, hf, hk v⟩)
  have one : ∀ oz g z, binF o = some g → unF oz = some z →
      (∀ v r, (isOrdering o → v ≠ 0#16) → g (expandPush a).arg2 v = .ok r → z v = r) →
      Sound lib (fun s => ∃ v, Fetches lib b s v ∧ (isOrdering o → v ≠ 0#16))
        [a, b, c] [nop, b, withOp c oz] :=
    fun oz g z hg hz hk => fam_cl_un (pushI ha) hb1 hp (binI hc1 hg) (unI_with hz)
      (fun s ⟨v, hf, hv⟩ => ⟨v, hf, fun r => hk v r hv⟩)
  have shift : ∀ g, binF o = some g → mulShift (expandPush a).arg2 ≠ 0 →
      (∀ v r, g (expandPush a).arg2 v = .ok r → r = v * (expandPush a).arg2) →
      Sound lib (fun s => ∃ v, Fetches lib b s v ∧ (isOrdering o → v ≠ 0#16)) [a, b, c]
        [b, ⟨Op.push.toByte, 0, BitVec.ofNat 16 (mulShift (expandPush a).arg2)⟩, withOp c .sll] := by
    intro g hg hm hk
    obtain ⟨e1, e2⟩ := mulShift_spec hm
    obtain ⟨e3, e4⟩ := shift_const e2
    refine fam_cl_bin (pushI ha) hb1 hp (binI hc1 hg) (pushI_push rfl) (binI_with (o := .sll) rfl) ?_
    intro s ⟨v, hf, _⟩
    refine ⟨v, hf, fun r hr => ?_⟩
    rw [hk v r hr]
    simp only [e3, e4, if_true, mul_pow e1]
  have ordz : ∀ oz g z, binF o = some g → unF oz = some z →
      (∀ v r, (isOrdering o → v ≠ 0#16) → g 0#16 v = .ok r → z v = r) →
      (if (expandPush a).arg2 = 0#16 then Action.rewrite (nop, b, withOp c oz) else .next) =
        .rewrite (a', b', c') → Sound lib (fun s => ∃ v, Fetches lib b s v ∧ (isOrdering o → v ≠ 0#16))
        [a, b, c] [a', b', c'] := by
    intro oz g z hg hz hk hr
    split at hr
    · next h0 =>
      cases hr
      exact one oz g z hg hz (fun v r hv he => hk v r hv (by rw [h0] at he; exact he))
    · cases hr
  cases o <;> first | (exact absurd rfl hsub) | (cases h; done) | skip
  all_goals first | (simp only at h) | skip
  case add =>
    split at h
    · next hk =>
      cases h; refine same _ rfl ?_
      intro v r hr; rw [hk, ofInt_add, BitVec.zero_add] at hr; cases hr; rfl
    · split at h
      · next hk =>
        cases h; refine one .inc _ _ rfl rfl ?_
        intro v r _ hr; rw [hk, ofInt_add, BitVec.add_comm] at hr; cases hr; rfl
      · split at h
        · next hk =>
          cases h; refine one .dec _ _ rfl rfl ?_
          intro v r _ hr
          rw [hk, ofInt_add, BitVec.add_comm, hmm, ← BitVec.sub_eq_add_neg] at hr; cases hr; rfl
        · cases h
  case mul =>
    split at h
    · next hk =>
      cases h; refine same _ rfl ?_
      intro v r hr; rw [hk, ofInt_mul, BitVec.one_mul] at hr; cases hr; rfl
    · split at h
      · cases h
      · next hm =>
        cases h; refine shift _ rfl hm ?_
        intro v r hr; rw [ofInt_mul, BitVec.mul_comm] at hr; cases hr; rfl
  case umul =>
    split at h
    · next hk =>
      cases h; refine same _ rfl ?_
      intro v r hr; rw [hk, ofNat_mul, BitVec.one_mul] at hr
      split at hr <;> cases hr; rfl
    · split at h
      · cases h
      · next hm =>
        cases h; refine shift _ rfl hm ?_
        intro v r hr; rw [ofNat_mul, BitVec.mul_comm] at hr
        split at hr <;> cases hr; rfl
  case or_ =>
    split at h
    · next hk =>
      cases h; refine same _ rfl ?_
      intro v r hr; rw [hk] at hr; simp only [BitVec.zero_or] at hr; cases hr; rfl
    · cases h
  case and_ =>
    split at h
    · next hk =>
      cases h; refine same _ rfl ?_
      intro v r hr; rw [hk] at hr; simp only [cut] at hr; cases hr; rfl
    · cases h
  case equ =>
    refine ordz .equz _ _ rfl rfl ?_ h
    intro v r _ hr; cases hr; simp only [hz]
  case neq =>
    refine ordz .neqz _ _ rfl rfl ?_ h
    intro v r _ hr; cases hr; simp only [hz]
  all_goals
    refine ordz _ _ _ rfl rfl ?_ h
    intro v r hv hr
    have := nz v (hv (by simp [isOrdering]))
    cases hr
    simp only [hz]
    congr 1; simp only [decide_eq_decide]
    omega

/-- C31 does not hold for `0 - x` with a variable in a stack frame: the constant is removed but the
subtraction is kept, so it takes another operand from the stack. -/
theorem C31_violation_zero_sub (lib : Lib) : ∃ a b c a' b' c' : OpType, c.op = Op.sub.toByte ∧
    isPush a = true ∧ isFrameLoad b = true ∧ binaryRule a b c = .ok (.rewrite (a', b', c')) ∧
    ¬ Sound lib (fun _ => True) [a, b, c] [a', b', c'] :=
  ⟨⟨Op.push.toByte, 0, 0#16⟩, ⟨Op.lds.toByte, 0, 8#16⟩, ⟨Op.sub.toByte, 0, 0⟩, _, _, _,
    rfl, rfl, rfl, rfl, not_sound (s := vmWith 5#16 0) (v := (none, 22#16, 0xfffb#16, 0#16))
      (v' := (none, 20#16, 0xfffb#16, 5#16)) (vmWith_roomy _ _) trivial rfl rfl (by decide)⟩

/-- C31 does not hold for `0 < x` when `x` is zero: the comparison becomes `x >= 0`. -/
theorem C31_violation_zero_lt (lib : Lib) : ∃ a b c a' b' c' : OpType, c.op = Op.lt.toByte ∧
    isPush a = true ∧ isFrameLoad b = true ∧ binaryRule a b c = .ok (.rewrite (a', b', c')) ∧
    ¬ Sound lib (fun _ => True) [a, b, c] [a', b', c'] :=
  ⟨⟨Op.push.toByte, 0, 0#16⟩, ⟨Op.lds.toByte, 0, 8#16⟩, ⟨Op.lt.toByte, 0, 0⟩, _, _, _,
    rfl, rfl, rfl, rfl, not_sound (s := vmWith 0 0) (v := (none, 22#16, 0#16, 0#16))
      (v' := (none, 22#16, 0xffff#16, 0#16)) (vmWith_roomy _ _) trivial rfl rfl (by decide)⟩

/-- C31: a constant second operand, whatever comes before.  The first instruction is unchanged and
the other two compute the same value.  Excluded: an unsigned division by 65535, which becomes a
negation (`C31_violation_udiv`). -/
theorem C31_otherConst_partial (lib : Lib) (a b c a' b' c' : OpType) (o : Op)
    (ha : isPush a = false) (ha2 : isAddress a = false) (hb : isPush b = true)
    (hbin : isBinary c = true) (hc : Op.ofByte c.op = some o)
    (h : binaryRule a b c = .ok (.rewrite (a', b', c'))) :
    a' = a ∧ Sound lib (fun s => o = .udiv → (expandPush b).arg2 = 0xffff#16 →
      opnd s 0 = 0#16 ∨ opnd s 0 = 0xffff#16) [b, c] [b', c'] := by
  have hc1 := op_of_some hc
  unfold binaryRule at h
  rw [ha, ha2, hb, hbin, if_neg (by simp), if_neg (by simp), if_pos (by decide), if_neg (by simp)] at h
  have h := Res.ok.inj h
  unfold otherConst at h
  rw [hc] at h
  have cut : ∀ x : Word, x &&& minus1 = x := fun x => BitVec.and_allOnes
  have hmm : minus1 = -1#16 := by decide
  have h1 : (1#16 : Word).toInt = 1 := by decide
  have drop : ∀ g, binF o = some g → (∀ x r, g x (expandPush b).arg2 = .ok r → x = r) →
      Sound lib (fun s => o = .udiv → (expandPush b).arg2 = 0xffff#16 →
        opnd s 0 = 0#16 ∨ opnd s 0 = 0xffff#16) [b, c] [nop, nop] :=
    fun g hg hk => fam_bin_id (pushI hb) (binI hc1 hg) (fun s _ _ r => hk _ r)
  have one : ∀ oz g z, binF o = some g → unF oz = some z →
      (∀ x r, (o = .udiv → (expandPush b).arg2 = 0xffff#16 → x = 0#16 ∨ x = 0xffff#16) →
        g x (expandPush b).arg2 = .ok r → z x = r) →
      Sound lib (fun s => o = .udiv → (expandPush b).arg2 = 0xffff#16 →
        opnd s 0 = 0#16 ∨ opnd s 0 = 0xffff#16) [b, c] [nop, withOp c oz] :=
    fun oz g z hg hz hk => fam_bin_un (pushI hb) (binI hc1 hg) (unI_with hz)
      (fun s _ hP r => hk _ r hP)
  cases o <;> first | (cases h; done) | skip
  all_goals first | (simp only at h) | skip
  case add =>
    split at h
    · next hk =>
      cases h; refine ⟨rfl, one .inc _ _ rfl rfl ?_⟩
      intro x r _ hr; rw [hk, ofInt_add] at hr; cases hr; rfl
    · split at h
      · next hk =>
        cases h; refine ⟨rfl, drop _ rfl ?_⟩
        intro x r hr; rw [hk, ofInt_add, BitVec.add_zero] at hr; cases hr; rfl
      · split at h
        · next hk =>
          cases h; refine ⟨rfl, one .dec _ _ rfl rfl ?_⟩
          intro x r _ hr; rw [hk, ofInt_add, hmm, ← BitVec.sub_eq_add_neg] at hr; cases hr; rfl
        · cases h
  case sub =>
    split at h
    · next hk =>
      cases h; refine ⟨rfl, one .dec _ _ rfl rfl ?_⟩
      intro x r _ hr; rw [hk, ofInt_sub] at hr; cases hr; rfl
    · split at h
      · next hk =>
        cases h; refine ⟨rfl, drop _ rfl ?_⟩
        intro x r hr; rw [hk, ofInt_sub, BitVec.sub_zero] at hr; cases hr; rfl
      · split at h
        · next hk =>
          cases h; refine ⟨rfl, one .inc _ _ rfl rfl ?_⟩
          intro x r _ hr
          rw [hk, ofInt_sub, hmm, BitVec.sub_eq_add_neg, BitVec.neg_neg] at hr; cases hr; rfl
        · cases h
  case mul =>
    split at h
    · next hk =>
      cases h; refine ⟨rfl, drop _ rfl ?_⟩
      intro x r hr; rw [hk, ofInt_mul, BitVec.mul_one] at hr; cases hr; rfl
    · split at h
      · next hk =>
        cases h; refine ⟨rfl, one .neg _ _ rfl rfl ?_⟩
        intro x r _ hr
        have : minus1.toInt = -1 := by decide
        rw [hk] at hr
        simp only [this, Int.mul_neg, Int.mul_one] at hr; cases hr; rfl
      · cases h
  case umul =>
    split at h
    · next hk =>
      cases h; refine ⟨rfl, drop _ rfl ?_⟩
      intro x r hr; rw [hk, ofNat_mul, BitVec.mul_one] at hr
      split at hr <;> cases hr; rfl
    · cases h
  case div_ =>
    split at h
    · next hk =>
      cases h; refine ⟨rfl, drop _ rfl ?_⟩
      intro x r hr; rw [hk] at hr
      simp only [h1, Int.tdiv_one, BitVec.ofInt_toInt] at hr
      rw [if_neg (by decide)] at hr
      cases hr; rfl
    · cases h
  case udiv =>
    split at h
    · next hk =>
      cases h; refine ⟨rfl, drop _ rfl ?_⟩
      intro x r hr; rw [hk] at hr
      have : (1#16 : Word).toNat = 1 := rfl
      simp only [this, Nat.div_one, BitVec.ofNat_toNat, BitVec.setWidth_eq] at hr
      rw [if_neg (by decide)] at hr
      cases hr; rfl
    · split at h
      · next hk =>
        cases h; refine ⟨rfl, one .neg _ _ rfl rfl ?_⟩
        intro x r hx hr
        rw [hk] at hx hr
        rcases hx rfl rfl with e | e <;> subst e <;> (cases hr; decide)
      · cases h
  case or_ =>
    split at h
    · next hk =>
      cases h; refine ⟨rfl, drop _ rfl ?_⟩
      intro x r hr; rw [hk] at hr; simp only [BitVec.or_zero] at hr; cases hr; rfl
    · cases h
  case and_ =>
    split at h
    · next hk =>
      cases h; refine ⟨rfl, drop _ rfl ?_⟩
      intro x r hr; rw [hk] at hr; simp only [cut] at hr; cases hr; rfl
    · cases h

/-- A local variable plus 1. -/
example : binaryRule ⟨Op.lds.toByte, 0, 4#16⟩ ⟨Op.pushb.toByte, 1, 0⟩ ⟨Op.add.toByte, 0, 0⟩ =
    .ok (.rewrite (⟨Op.lds.toByte, 0, 4#16⟩, nop, ⟨Op.inc.toByte, 0, 0⟩)) := rfl

/-- C31 does not hold for an unsigned division by 65535: 1 div 65535 is 0, the negation of 1 is
65535. -/
theorem C31_violation_udiv (lib : Lib) : ∃ a b c b' c' : OpType, c.op = Op.udiv.toByte ∧
    isPush b = true ∧ binaryRule a b c = .ok (.rewrite (a, b', c')) ∧
    ¬ Sound lib (fun _ => True) [b, c] [b', c'] :=
  ⟨⟨Op.lds.toByte, 0, 4#16⟩, ⟨Op.push.toByte, 0, 0xffff#16⟩, ⟨Op.udiv.toByte, 0, 0⟩, _, _,
    rfl, rfl, rfl, not_sound (s := vmWith 0 1#16) (v := (none, 20#16, 0#16, 0#16))
      (v' := (none, 20#16, 0xffff#16, 0#16)) (vmWith_roomy _ _) trivial rfl rfl (by decide)⟩

/-- C31: a constant and a variable are exchanged if the operator is commutative; a subtraction
from zero is dropped.  Excluded: the latter, unless the variable equals its negation
(`C31_violation_negate`). -/
theorem C31_swap_partial (lib : Lib) (a b c a' b' c' : OpType) (o : Op) (ha : isPush a = true)
    (hb : isPush b = false) (hfb : isFrameLoad b = false) (hlb : isLoad b = true)
    (hc : Op.ofByte c.op = some o) (h : binaryRule a b c = .ok (.rewrite (a', b', c'))) :
    Sound lib (fun s => ∃ v, Fetches lib b s v ∧ (o = .sub → v = 0#16 ∨ v = 0x8000#16))
      [a, b, c] [a', b', c'] := by
  have hc1 := op_of_some hc
  obtain ⟨ob, hb1, hp⟩ := isLoad_plain hlb
  have hneg : a.op ≠ Op.neg.toByte := by
    rcases isPush_cases ha with e | e | e <;> rw [e] <;> decide
  unfold binaryRule at h
  rw [ha, hb, hfb, hlb, if_neg (by simp), if_neg (by simp), if_neg (by simp)] at h
  split at h
  · split at h
    · next ht =>
      have h := Res.ok.inj h
      cases h
      unfold isTransitive at ht
      rw [hc] at ht
      have swap : ∀ g, binF o = some g → (∀ x y, g x y = g y x) →
          Sound lib (fun s => ∃ v, Fetches lib b s v ∧ (o = .sub → v = 0#16 ∨ v = 0x8000#16))
            [a, b, c] [b, expandPush a, c] :=
        fun g hg hk => fam_cl_bin (pushI ha) hb1 hp (binI hc1 hg) (pushI_push (expandPush_op ha))
          (binI hc1 hg) (fun s ⟨v, hf, _⟩ => ⟨v, hf, fun r hr => by rw [hk]; exact hr⟩)
      cases o <;> first | (cases ht; done) | skip
      case add => exact swap _ rfl (fun x y => by simp only [Int.add_comm])
      case mul => exact swap _ rfl (fun x y => by simp only [Int.mul_comm])
      case umul => exact swap _ rfl (fun x y => by simp only [Nat.mul_comm])
      case or_ => exact swap _ rfl (fun x y => by simp only [BitVec.or_comm])
      case and_ => exact swap _ rfl (fun x y => by simp only [BitVec.and_comm])
      case equ => exact swap _ rfl (fun x y => by simp only [eq_comm])
      case neq => exact swap _ rfl (fun x y => by simp only [ne_comm])
    · split at h
      · next hs =>
        have h := Res.ok.inj h
        cases h
        have : o = .sub := by
          rw [hs.1, Op.ofByte_toByte] at hc; cases hc; rfl
        subst this
        refine fam_cl_id (pushI ha) hb1 hp (binI hc1 rfl) ?_
        intro s ⟨v, hf, hv⟩
        refine ⟨v, hf, fun r hr => ?_⟩
        rw [hs.2, ofInt_sub] at hr
        rcases hv rfl with e | e <;> subst e <;> (cases hr; decide)
      · cases h
  · cases h

/-- C31 does not hold for `0 - x` with a global variable: the negation is lost. -/
theorem C31_violation_negate (lib : Lib) : ∃ a b c a' b' c' : OpType, c.op = Op.sub.toByte ∧
    isPush a = true ∧ isLoad b = true ∧ binaryRule a b c = .ok (.rewrite (a', b', c')) ∧
    ¬ Sound lib (fun _ => True) [a, b, c] [a', b', c'] :=
  ⟨⟨Op.push.toByte, 0, 0#16⟩, ⟨Op.ld.toByte, 0, 18#16⟩, ⟨Op.sub.toByte, 0, 0⟩, _, _, _,
    rfl, rfl, rfl, rfl, not_sound (s := vmWith 5#16 0) (v := (none, 22#16, 0xfffb#16, 0#16))
      (v' := (none, 22#16, 5#16, 0#16)) (vmWith_roomy _ _) trivial rfl rfl (by decide)⟩

/-- C31: adding a negated value is a subtraction. -/
theorem C31_neg_add (lib : Lib) (a b c a' b' c' : OpType) (ha : a.op = Op.neg.toByte)
    (hb : isPush b = false) (h : binaryRule a b c = .ok (.rewrite (a', b', c'))) :
    c' = c ∧ Sound lib (fun _ => True) [a, b] [a', b'] := by
  have hpa : isPush a = false := by unfold isPush; rw [ha]; rfl
  unfold binaryRule at h
  rw [hpa, hb, if_neg (by simp), if_neg (by simp), if_neg (by simp), if_neg (by simp), if_pos ha] at h
  split at h
  · next hadd =>
    have h := Res.ok.inj h
    cases h
    refine ⟨rfl, fam_un_bin (unI ha rfl) (binI hadd rfl) (binI_with (o := .sub) rfl) ?_⟩
    intro x y
    show Res.ok _ = Res.ok _
    rw [ofInt_add, ofInt_sub, ofInt_neg_toInt, BitVec.sub_eq_add_neg]
  · cases h

/-- `x + (-y)`. -/
example : binaryRule ⟨Op.neg.toByte, 0, 0⟩ ⟨Op.add.toByte, 0, 0⟩ ⟨Op.sts.toByte, 0, 2#16⟩ =
    .ok (.rewrite (nop, ⟨Op.sub.toByte, 0, 0⟩, ⟨Op.sts.toByte, 0, 2#16⟩)) := rfl

theorem not_pasBool (b : Bool) : ~~~(pasBool b) = pasBool (!b) := by cases b <;> decide
theorem pasBool_zero (b : Bool) : decide ((pasBool b).toInt = 0) = !b := by cases b <;> decide
theorem pasBool_nonzero (b : Bool) : decide ((pasBool b).toInt ≠ 0) = b := by cases b <;> decide

theorem toInt_neg' {x : Word} (h : x ≠ 0x8000#16) : (-x).toInt = -x.toInt := by
  have h' : x.toNat ≠ 32768 := fun e => h (BitVec.eq_of_toNat_eq e)
  have hx := x.isLt
  rw [BitVec.toInt_eq_toNat_cond, BitVec.toInt_eq_toNat_cond, BitVec.toNat_neg]
  split <;> split <;> omega

/-- C32: a comparison followed by NOT is the opposite comparison; a comparison, a complement or a
negation followed by a jump is one jump, taken for the same operands, to the same label, with the
same stack.  Excluded: `BranchOk` (`C32_violation_not`, `C32_violation_neg`). -/
theorem C32_branch_partial (lib : Lib) (a b a' b' : OpType) (o j : Op)
    (ha : Op.ofByte a.op = some o) (hb : Op.ofByte b.op = some j)
    (h : branchRule a b = .rewrite (a', b')) :
    Sound lib (fun s => BranchOk o j (opnd s 0)) [a, b] [a', b'] := by
  have ha1 := op_of_some ha
  have hb1 := op_of_some hb
  unfold branchRule at h
  rw [ha, hb] at h
  have hz : ∀ x : Word, decide ((~~~x).toInt = 0) = decide (x = 0xffff#16) := by
    intro x
    have e : (~~~x = 0#16) ↔ x = 0xffff#16 := by
      constructor
      · intro h; rw [← BitVec.not_not (b := x), h]; decide
      · intro h; rw [h]; decide
    simp only [toInt_eq_zero, e]
  -- the rewritings of a comparison
  have inv2 : ∀ (o' : Op) g g', binF o = some g → binF o' = some g' → j = .not_ →
      (∀ x y r, g x y = .ok r → g' x y = .ok (~~~r)) →
      Sound lib (fun s => BranchOk o j (opnd s 0)) [a, b] [withOp a o', nop] := by
    intro o' g g' hg hg' hj hk
    subst hj
    exact fam_bin_then_un (binI ha1 hg) (unI hb1 rfl) (binI_with hg') hk
  have inv1 : ∀ (o' : Op) f f', unF o = some f → unF o' = some f' → j = .not_ →
      (∀ x, ~~~(f x) = f' x) →
      Sound lib (fun s => BranchOk o j (opnd s 0)) [a, b] [withOp a o', nop] := by
    intro o' f f' hf hf' hj hk
    subst hj
    exact fam_un_un (unI ha1 hf) (unI hb1 rfl) (unI_with hf') hk
  have jmp2 : ∀ (o' : Op) g t t', binF o = some g → j1F j = some t → j2F o' = some t' →
      (∀ x y r, g x y = .ok r → t' x y = t r) →
      Sound lib (fun s => BranchOk o j (opnd s 0)) [a, b] [nop, withOp b o'] := by
    intro o' g t t' hg ht ht' hk
    exact fam_bin_jump (binI ha1 hg) (j1I hb1 ht) (j2I (i := withOp b o') rfl ht') rfl hk
  have jmp1 : ∀ (o' : Op) f t t', unF o = some f → j1F j = some t → j1F o' = some t' →
      (∀ x, BranchOk o j x → t' x = t (f x)) →
      Sound lib (fun s => BranchOk o j (opnd s 0)) [a, b] [nop, withOp b o'] := by
    intro o' f t t' hf ht ht' hk
    exact fam_un_jump (unI ha1 hf) (j1I hb1 ht) (j1I (i := withOp b o') rfl ht') rfl
      (fun s _ hP => hk _ hP)
  have dn : ∀ p q : Prop, [Decidable p] → [Decidable q] → (¬ p ↔ q) → (!decide p) = decide q := by
    intro p q _ _ hpq
    rw [Bool.eq_iff_iff]
    simp only [Bool.not_eq_true', decide_eq_false_iff_not, decide_eq_true_eq, hpq]
  split at h
  · next e1 e2 =>
    cases e1; cases e2; cases h
    refine jmp1 .jneqz _ _ _ rfl rfl rfl (fun x hx => ?_)
    rcases hx.1 rfl (.inl rfl) with e | e <;> subst e <;> decide
  · next e1 e2 =>
    cases e1; cases e2; cases h
    refine jmp1 .jequz _ _ _ rfl rfl rfl (fun x hx => ?_)
    rcases hx.1 rfl (.inr rfl) with e | e <;> subst e <;> decide
  · next e1 e2 =>
    cases e1; cases e2; cases h
    refine jmp1 .jgtz _ _ _ rfl rfl rfl (fun x hx => ?_)
    have := toInt_neg' (hx.2 rfl)
    simp only [ofInt_neg_toInt, this, decide_eq_decide]; omega
  · next e1 e2 =>
    cases e1; cases e2; cases h
    refine jmp1 .jltez _ _ _ rfl rfl rfl (fun x hx => ?_)
    have := toInt_neg' (hx.2 rfl)
    simp only [ofInt_neg_toInt, this, decide_eq_decide]; omega
  · next e1 e2 =>
    cases e1; cases e2; cases h
    refine jmp1 .jltz _ _ _ rfl rfl rfl (fun x hx => ?_)
    have := toInt_neg' (hx.2 rfl)
    simp only [ofInt_neg_toInt, this, decide_eq_decide]; omega
  · next e1 e2 =>
    cases e1; cases e2; cases h
    refine jmp1 .jgtez _ _ _ rfl rfl rfl (fun x hx => ?_)
    have := toInt_neg' (hx.2 rfl)
    simp only [ofInt_neg_toInt, this, decide_eq_decide]; omega
  · next e1 e2 =>
    cases e1; cases e2
    cases o <;> first | (cases h; done) | skip
    all_goals
      cases h
      first
        | (refine inv2 _ _ _ rfl rfl rfl (fun x y r hr => ?_)
           cases hr
           rw [not_pasBool]
           congr 2
           exact (dn _ _ (by omega)).symm)
        | (refine inv1 _ _ _ rfl rfl rfl (fun x => ?_)
           simp only [not_pasBool]
           congr 1
           exact dn _ _ (by omega))
  · next e1 e2 =>
    cases e1; cases e2
    cases o <;> first | (cases h; done) | skip
    all_goals
      cases h
      first
        | (refine jmp2 _ _ _ _ rfl rfl rfl (fun x y r hr => ?_)
           cases hr
           rw [pasBool_zero]
           exact (dn _ _ (by omega)).symm)
        | (refine jmp1 _ _ _ _ rfl rfl rfl (fun x _ => ?_)
           simp only [pasBool_zero]
           exact (dn _ _ (by omega)).symm)
  · next e1 e2 =>
    cases e1; cases e2
    cases o <;> first | (cases h; done) | skip
    all_goals
      cases h
      first
        | (refine jmp2 _ _ _ _ rfl rfl rfl (fun x y r hr => ?_)
           cases hr
           rw [pasBool_nonzero]
           try (rw [decide_eq_decide]; omega)
           done)
        | (refine jmp1 _ _ _ _ rfl rfl rfl (fun x _ => ?_)
           simp only [pasBool_nonzero, decide_eq_decide]
           done)
        | (refine jmp1 _ _ _ _ rfl rfl rfl (fun x _ => ?_)
           simp only [pasBool_nonzero])
  · cases h

/-- `if x < y` and a state in which a complemented value is a Boolean. -/
example : branchRule ⟨Op.lt.toByte, 0, 0⟩ ⟨Op.jequz.toByte, 0, 7#16⟩ =
    .rewrite (nop, ⟨Op.jgte.toByte, 0, 7#16⟩) ∧ BranchOk .lt .jequz 5#16 ∧
    BranchOk .not_ .jequz 0xffff#16 ∧ BranchOk .neg .jltz 5#16 := by
  refine ⟨rfl, ?_, ?_, ?_⟩ <;> (unfold BranchOk; decide)

/-- C32 does not hold for the complement of a number that is not a Boolean: NOT 1 is not zero, so
the jump on zero is not taken, but afterwards the jump on not zero is taken. -/
theorem C32_violation_not (lib : Lib) : ∃ a b a' b' : OpType, a.op = Op.not_.toByte ∧
    branchRule a b = .rewrite (a', b') ∧ ¬ Sound lib (fun _ => True) [a, b] [a', b'] :=
  ⟨⟨Op.not_.toByte, 0, 0⟩, ⟨Op.jequz.toByte, 0, 7#16⟩, _, _, rfl, rfl,
    not_sound (s := vmWith 0 1#16) (v := (none, 18#16, 0#16, 0#16))
      (v' := (some 7#16, 18#16, 0#16, 0#16)) (vmWith_roomy _ _) trivial rfl rfl (by decide)⟩

/-- C32 does not hold for the negation of the smallest integer. -/
theorem C32_violation_neg (lib : Lib) : ∃ a b a' b' : OpType, a.op = Op.neg.toByte ∧
    branchRule a b = .rewrite (a', b') ∧ ¬ Sound lib (fun _ => True) [a, b] [a', b'] :=
  ⟨⟨Op.neg.toByte, 0, 0⟩, ⟨Op.jltz.toByte, 0, 7#16⟩, _, _, rfl, rfl,
    not_sound (s := vmWith 0 0x8000#16) (v := (some 7#16, 18#16, 0#16, 0#16))
      (v' := (none, 18#16, 0#16, 0#16)) (vmWith_roomy _ _) trivial rfl rfl (by decide)⟩

end Pas
