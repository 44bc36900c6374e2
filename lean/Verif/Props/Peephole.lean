import Verif.Lemmas.Rules

/-! C30, C31, C32: rewriting of a constant followed by another instruction
(`popt_UnaryOptimize`). -/
namespace Pas
open Spec Popt

/-! Helper lemmas. -/

theorem op_of_some {i : OpType} {o : Op} (h : Op.ofByte i.op = some o) : i.op = o.toByte :=
  (Op.toByte_ofByte h).symm

theorem pushI_const {i : OpType} (h : isPush i = true) (v : Word) :
    PushI { expandPush i with arg2 := v } v :=
  pushI_push (i := { expandPush i with arg2 := v }) (expandPush_op h)

theorem unI_with {i : OpType} {o : Op} {f : Word → Word} (h : unF o = some f) : UnI (withOp i o) f :=
  unI (i := withOp i o) rfl h

theorem binI_with {i : OpType} {o : Op} {f : Word → Word → Res Word} (h : binF o = some f) :
    BinI (withOp i o) f :=
  binI (i := withOp i o) rfl h

theorem powerOfTwoFrom_spec : ∀ (n v k : Nat) (r : Int), powerOfTwoFrom n v k = r → 0 ≤ r →
    ∃ j, r = ((k + j : Nat) : Int) ∧ v = 2 ^ j ∧ j ≤ n
  | 0, v, k, r, h, h0 => by
    unfold powerOfTwoFrom at h
    split at h
    · omega
    · exact ⟨0, by omega, by omega, Nat.le_refl _⟩
  | n + 1, v, k, r, h, h0 => by
    unfold powerOfTwoFrom at h
    split at h
    · obtain ⟨j, h1, h2, h3⟩ := powerOfTwoFrom_spec n _ _ r h h0
      refine ⟨j + 1, by omega, ?_, by omega⟩
      rw [Nat.pow_succ]
      omega
    · split at h
      · omega
      · exact ⟨0, by omega, by omega, by omega⟩

theorem powerOfTwo_spec {c : Word} (h : 1 ≤ powerOfTwo c.toNat) :
    ∃ j : Nat, powerOfTwo c.toNat = (j : Int) ∧ c.toNat = 2 ^ j ∧ 1 ≤ j ∧ j ≤ 15 := by
  obtain ⟨j, h1, h2, _⟩ := powerOfTwoFrom_spec 16 c.toNat 0 _ rfl (by unfold powerOfTwo at h; omega)
  have h1' : powerOfTwo c.toNat = (j : Int) := by unfold powerOfTwo; omega
  refine ⟨j, h1', h2, by omega, ?_⟩
  have hlt := c.isLt
  rw [h2] at hlt
  have : j < 16 := (Nat.pow_lt_pow_iff_right (by decide : 1 < 2)).mp hlt
  omega

theorem ofInt_neg_toInt (c : Word) : BitVec.ofInt 16 (-c.toInt) = -c := by
  rw [BitVec.ofInt_neg, BitVec.ofInt_toInt]

theorem toInt_eq_zero (c : Word) : c.toInt = 0 ↔ c = 0#16 := by
  rw [← BitVec.toInt_zero, BitVec.toInt_inj]

theorem truth_eq (b : Bool) : truth b = pasBool b := rfl

theorem toInt_dec {x : Word} (h : x ≠ 0x8000#16) : (x - 1#16).toInt = x.toInt - 1 := by
  have h' : x.toNat ≠ 32768 := fun e => h (BitVec.eq_of_toNat_eq e)
  have hx := x.isLt
  rw [BitVec.toInt_eq_toNat_cond, BitVec.toInt_eq_toNat_cond, BitVec.toNat_sub]
  simp only [BitVec.toNat_ofNat]
  split <;> split <;> omega

theorem toInt_inc {x : Word} (h : x ≠ 0x7fff#16) : (x + 1#16).toInt = x.toInt + 1 := by
  have h' : x.toNat ≠ 32767 := fun e => h (BitVec.eq_of_toNat_eq e)
  have hx := x.isLt
  rw [BitVec.toInt_eq_toNat_cond, BitVec.toInt_eq_toNat_cond, BitVec.toNat_add]
  simp only [BitVec.toNat_ofNat]
  split <;> split <;> omega

theorem ofInt_add (x y : Word) : BitVec.ofInt 16 (x.toInt + y.toInt) = x + y := by
  rw [BitVec.ofInt_add, BitVec.ofInt_toInt, BitVec.ofInt_toInt]

theorem ofInt_sub (x y : Word) : BitVec.ofInt 16 (x.toInt - y.toInt) = x - y := by
  rw [Int.sub_eq_add_neg, BitVec.ofInt_add, ofInt_neg_toInt, BitVec.ofInt_toInt, BitVec.sub_eq_add_neg]

theorem ofInt_mul (x y : Word) : BitVec.ofInt 16 (x.toInt * y.toInt) = x * y := by
  rw [BitVec.ofInt_mul, BitVec.ofInt_toInt, BitVec.ofInt_toInt]

theorem ofNat_mul (x y : Word) : BitVec.ofNat 16 (x.toNat * y.toNat) = x * y := by
  apply BitVec.eq_of_toNat_eq
  rw [BitVec.toNat_ofNat, BitVec.toNat_mul]

/-- Shifting by a small constant. -/
theorem shift_const {j : Nat} (h : j ≤ 15) : shiftOk (BitVec.ofNat 16 j) = true ∧
    (BitVec.ofNat 16 j).toNat = j := by
  have : ∀ j < 16, shiftOk (BitVec.ofNat 16 j) = true ∧ (BitVec.ofNat 16 j).toNat = j := by decide
  exact this j (by omega)

theorem mul_pow {x c : Word} {j : Nat} (hc : c.toNat = 2 ^ j) :
    BitVec.ofInt 16 (x.toInt * 2 ^ j) = x * c := by
  rw [BitVec.ofInt_mul, BitVec.ofInt_toInt]
  congr 1
  apply BitVec.eq_of_toNat_eq
  rw [hc, BitVec.toNat_ofInt]
  have hlt := c.isLt
  rw [hc] at hlt
  have : ((2 : Int) ^ j) = ((2 ^ j : Nat) : Int) := by simp
  rw [this]
  omega

theorem toNat_of_nonneg {x : Word} (h : 0 ≤ x.toInt) : x.toInt = (x.toNat : Int) ∧ x.toNat < 32768 := by
  rw [BitVec.toInt_eq_toNat_cond] at h ⊢
  have := x.isLt
  split at h <;> split <;> omega

/-- Division of a non-negative number by a power of two. -/
theorem div_pow {x c : Word} {j : Nat} (hx : 0 ≤ x.toInt) (hc : c.toNat = 2 ^ j) (hj : j ≤ 15) :
    Int.tdiv x.toInt c.toInt = x.toInt >>> j := by
  obtain ⟨e, hlt⟩ := toNat_of_nonneg hx
  rw [e]
  have hs : (x.toNat : Int) >>> j = ((x.toNat / 2 ^ j : Nat) : Int) := by
    rw [Int.shiftRight_eq_div_pow]; simp
  rw [hs]
  by_cases h15 : j = 15
  · subst h15
    have hc' : c = 0x8000#16 := BitVec.eq_of_toNat_eq hc
    rw [hc']
    have : (0x8000#16).toInt = -32768 := by decide
    rw [this, Int.tdiv_neg, Nat.div_eq_of_lt (by omega)]
    have : Int.tdiv (x.toNat : Int) 32768 = 0 := Int.tdiv_eq_zero_of_lt (by omega) (by omega)
    rw [this]; rfl
  · have hlt2 : 2 ^ j ≤ 2 ^ 14 := Nat.pow_le_pow_right (by decide) (by omega)
    have hci : c.toInt = ((2 ^ j : Nat) : Int) := by
      rw [BitVec.toInt_eq_toNat_cond, hc]
      split <;> omega
    rw [hci]
    exact (Int.ofNat_tdiv _ _).symm

/-- C30: rewriting a constant followed by a one-operand operator leaves on the stack what the two
instructions leave.  Excluded: the tests > 0 and ≤ 0 of a negative constant
(`C30_violation_gtz`). -/
theorem C30_unary_partial (lib : Lib) (a b a' b' : OpType) (o : Op) (ha : isPush a = true)
    (hb : Op.ofByte b.op = some o) (ho : oneOperand o = true)
    (hc : o = .gtz ∨ o = .ltez → 0 ≤ (expandPush a).arg2.toInt)
    (h : unaryRule a b = .rewrite (a', b')) : Sound lib (fun _ => True) [a, b] [a', b'] := by
  have hb1 := op_of_some hb
  unfold unaryRule at h
  rw [if_pos ha] at h
  unfold unaryConst at h
  rw [hb] at h
  have hpos : 0 ≤ (expandPush a).arg2.toInt →
      (expandPush a).arg2.toInt = (expandPush a).arg2.toNat := by
    intro h0; rw [BitVec.toInt_eq_toNat_cond] at h0 ⊢; split <;> omega
  cases o <;> first | exact absurd ho (by decide) | skip
  case neg => cases h; exact fam_const_un (pushI ha) (unI hb1 rfl) (pushI_const ha _) (ofInt_neg_toInt _)
  case abs_ =>
    simp only at h
    split at h
    · next hn =>
      cases h
      exact fam_const_un (pushI ha) (unI hb1 rfl) (pushI_const ha _)
        ((if_pos hn).trans (ofInt_neg_toInt _))
    · next hn =>
      cases h
      exact fam_const_un (pushI ha) (unI hb1 rfl) (pushI_const ha _) (if_neg hn)
  case gtz =>
    have h0 := hpos (hc (.inl rfl))
    cases h
    refine fam_const_un (pushI ha) (unI hb1 rfl) (pushI_const ha _) ?_
    simp only [h0, truth_eq]
    congr 1
    simp
  case ltez =>
    have h0 := hpos (hc (.inr rfl))
    cases h
    refine fam_const_un (pushI ha) (unI hb1 rfl) (pushI_const ha _) ?_
    simp only [h0, truth_eq]
    congr 1
    simp
  all_goals
    cases h
    refine fam_const_un (pushI ha) (unI hb1 rfl) (pushI_const ha _) ?_
    first | rfl | simp only [truth_eq, toInt_eq_zero, ne_eq]

/-- A constant, a comparison and the rewriting. -/
example : unaryRule ⟨Op.pushb.toByte, 0xfe#8, 0⟩ ⟨Op.abs_.toByte, 0, 0⟩ =
    .rewrite (⟨Op.push.toByte, 0, 2#16⟩, nop) := by decide

/-- C30 does not hold for the tests > 0 and ≤ 0: the constant is compared as an unsigned number,
so `-1 > 0` becomes true. -/
theorem C30_violation_gtz (lib : Lib) : ∃ a b a' b' : OpType, isPush a = true ∧
    b.op = Op.gtz.toByte ∧ unaryRule a b = .rewrite (a', b') ∧
    ¬ Sound lib (fun _ => True) [a, b] [a', b'] :=
  ⟨⟨Op.push.toByte, 0, 0xffff#16⟩, ⟨Op.gtz.toByte, 0, 0⟩, _, _, rfl, rfl, rfl,
    not_sound (s := vmWith 0 0) (v := (none, 22#16, 0#16, 0#16)) (v' := (none, 22#16, 0xffff#16, 0#16))
      (vmWith_roomy _ _) trivial rfl rfl (by decide)⟩

/-- C31: a two-operand operator whose second operand is a constant is replaced by something that
computes the same value, for every first operand `x`.  Excluded: division of a negative number
(`C31_violation_div`) and comparisons with 1 or −1 that overflow (`C31_violation_lt`). -/
theorem C31_unary_partial (lib : Lib) (a b a' b' : OpType) (o : Op) (ha : isPush a = true)
    (hb : Op.ofByte b.op = some o) (ho : twoOperand o = true)
    (h : unaryRule a b = .rewrite (a', b')) :
    Sound lib (SecondOk o (expandPush a).arg2)
      [a, b] [a', b'] := by
  have hb1 := op_of_some hb
  unfold unaryRule at h
  rw [if_pos ha] at h
  unfold unaryConst at h
  rw [hb] at h
  have cut : ∀ x : Word, x &&& minus1 = x := fun x => BitVec.and_allOnes
  -- comparisons
  have cmp : ∀ (oz : Op) (g : Word → Word → Res Word) (z : Word → Word), binF o = some g →
      unF oz = some z → (∀ x, g x 0#16 = .ok (z x)) →
      (∀ x, (o = .lt ∨ o = .gte ∨ o = .gt ∨ o = .lte → stepOk x 1#16) →
        g x 1#16 = .ok (z (x - 1#16))) →
      (∀ x, (o = .lt ∨ o = .gte ∨ o = .gt ∨ o = .lte → stepOk x minus1) →
        g x minus1 = .ok (z (x + 1#16))) →
      (if (expandPush a).arg2 = 0#16 then Action.rewrite (nop, withOp b oz)
        else if (expandPush a).arg2 = 1#16 then
          .rewrite (⟨Op.dec.toByte, (expandPush a).arg1, 0⟩, withOp b oz)
        else if (expandPush a).arg2 = minus1 then
          .rewrite (⟨Op.inc.toByte, (expandPush a).arg1, 0⟩, withOp b oz)
        else .next) = .rewrite (a', b') →
      Sound lib (SecondOk o (expandPush a).arg2) [a, b] [a', b'] := by
    intro oz g z hg hz h0 h1 h2 hr
    split at hr
    · next hk =>
      cases hr
      refine fam_bin_un (pushI ha) (binI hb1 hg) (unI_with hz) ?_
      intro s _ _ r hr
      rw [hk, h0] at hr
      cases hr; rfl
    · split at hr
      · next hk =>
        cases hr
        refine fam_bin_un2 (pushI ha) (binI hb1 hg) (unI (o := .dec) rfl rfl) (unI_with hz) ?_
        intro s _ hP
        rw [hk] at hP ⊢
        exact h1 _ hP.2
      · split at hr
        · next hk =>
          cases hr
          refine fam_bin_un2 (pushI ha) (binI hb1 hg) (unI (o := .inc) rfl rfl) (unI_with hz) ?_
          intro s _ hP
          rw [hk] at hP ⊢
          exact h2 _ hP.2
        · cases hr
  -- dropping
  have drop : ∀ g : Word → Word → Res Word, binF o = some g →
      (∀ s, SecondOk o (expandPush a).arg2 s →
        ∀ r, g (s.mem s.top) (expandPush a).arg2 = .ok r → s.mem s.top = r) →
      Sound lib (SecondOk o (expandPush a).arg2) [a, b] [nop, nop] :=
    fun g hg hk => fam_bin_id (pushI ha) (binI hb1 hg) (fun s _ hP r hr => hk s hP r hr)
  -- one operand
  have one : ∀ (oz : Op) (g : Word → Word → Res Word) (z : Word → Word), binF o = some g →
      unF oz = some z → (∀ x r, g x (expandPush a).arg2 = .ok r → z x = r) →
      Sound lib (SecondOk o (expandPush a).arg2)
        [a, b] [nop, withOp b oz] :=
    fun oz g z hg hz hk => fam_bin_un (pushI ha) (binI hb1 hg) (unI_with hz)
      (fun s _ _ r hr => hk _ r hr)
  -- shifts
  have shift : ∀ (os : Op) (g g' : Word → Word → Res Word), binF o = some g → binF os = some g' →
      (∀ s, SecondOk o (expandPush a).arg2 s →
        ∀ (j : Nat) r, (expandPush a).arg2.toNat = 2 ^ j → 1 ≤ j → j ≤ 15 →
        g (s.mem s.top) (expandPush a).arg2 = .ok r → g' (s.mem s.top) (BitVec.ofNat 16 j) = .ok r) →
      1 ≤ powerOfTwo (expandPush a).arg2.toNat →
      Sound lib (SecondOk o (expandPush a).arg2)
        [a, b] [{ expandPush a with
          arg2 := BitVec.ofInt 16 (powerOfTwo (expandPush a).arg2.toNat) }, withOp b os] := by
    intro os g g' hg hg' hk hp
    obtain ⟨j, e1, e2, e3, e4⟩ := powerOfTwo_spec hp
    rw [e1]
    refine fam_bin_bin (pushI ha) (binI hb1 hg) (pushI_const ha _) (binI_with hg') ?_
    intro s _ hP r hr
    exact hk s hP j r e2 e3 e4 hr
  have hz : (0#16 : Word).toInt = 0 := by decide
  have h1 : (1#16 : Word).toInt = 1 := by decide
  have hm1 : minus1.toInt = -1 := by decide
  have sk1 : ∀ x : Word, stepOk x 1#16 → x ≠ 0x8000#16 := fun x hx => hx.1 rfl
  have sk2 : ∀ x : Word, stepOk x minus1 → x ≠ 0x7fff#16 := fun x hx => hx.2 rfl
  have hmm : minus1 = -1#16 := by decide
  cases o <;> first | exact absurd ho (by decide) | skip
  all_goals first | (simp only at h) | skip
  case add =>
    split at h
    · next hk =>
      cases h; refine drop _ rfl ?_
      intro s _ r hr; rw [hk] at hr; simp only [ofInt_add, BitVec.add_zero] at hr; cases hr; rfl
    · split at h
      · next hk =>
        cases h; refine one .inc _ _ rfl rfl ?_
        intro x r hr; rw [hk] at hr; simp only [ofInt_add] at hr; cases hr; rfl
      · split at h
        · next hk =>
          cases h; refine one .dec _ _ rfl rfl ?_
          intro x r hr; rw [hk] at hr
          simp only [ofInt_add, hmm, ← BitVec.sub_eq_add_neg] at hr
          cases hr; rfl
        · cases h
  case sub =>
    split at h
    · next hk =>
      cases h; refine drop _ rfl ?_
      intro s _ r hr; rw [hk] at hr; simp only [ofInt_sub, BitVec.sub_zero] at hr; cases hr; rfl
    · split at h
      · next hk =>
        cases h; refine one .dec _ _ rfl rfl ?_
        intro x r hr; rw [hk] at hr; simp only [ofInt_sub] at hr; cases hr; rfl
      · split at h
        · next hk =>
          cases h; refine one .inc _ _ rfl rfl ?_
          intro x r hr; rw [hk] at hr
          simp only [ofInt_sub, hmm, BitVec.sub_eq_add_neg, BitVec.neg_neg] at hr
          cases hr; rfl
        · cases h
  case mul =>
    split at h
    · next hk =>
      cases h; refine drop _ rfl ?_
      intro s _ r hr; rw [hk] at hr; simp only [ofInt_mul, BitVec.mul_one] at hr; cases hr; rfl
    · split at h
      · next hp =>
        cases h
        refine shift .sll _ _ rfl rfl ?_ hp
        intro s _ j r hj _ hj15 hr
        obtain ⟨e1, e2⟩ := shift_const hj15
        simp only [ofInt_mul] at hr
        simp only [e1, e2, if_true, mul_pow hj]
        exact hr
      · cases h
  case umul =>
    split at h
    · next hk =>
      cases h; refine drop _ rfl ?_
      intro s _ r hr; rw [hk] at hr; simp only [ofNat_mul, BitVec.mul_one] at hr
      split at hr <;> cases hr; rfl
    · split at h
      · next hp =>
        cases h
        refine shift .sll _ _ rfl rfl ?_ hp
        intro s _ j r hj _ hj15 hr
        obtain ⟨e1, e2⟩ := shift_const hj15
        simp only [ofNat_mul] at hr
        simp only [e1, e2, if_true, mul_pow hj]
        split at hr
        · exact hr
        · cases hr
      · cases h
  case div_ =>
    split at h
    · next hk =>
      cases h; refine drop _ rfl ?_
      intro s _ r hr; rw [hk] at hr
      simp only [h1, Int.tdiv_one, BitVec.ofInt_toInt] at hr
      rw [if_neg (by decide)] at hr
      cases hr; rfl
    · next hk =>
      split at h
      · next hp =>
        cases h
        refine shift .sra _ _ rfl rfl ?_ hp
        intro s hP j r hj _ hj15 hr
        obtain ⟨e1, e2⟩ := shift_const hj15
        have hx : 0 ≤ (s.mem s.top).toInt := hP.1 rfl hk
        split at hr
        · cases hr
        · rw [div_pow hx hj hj15] at hr
          simp only [e1, e2, if_true]
          exact hr
      · cases h
  case udiv =>
    split at h
    · next hk =>
      cases h; refine drop _ rfl ?_
      intro s _ r hr; rw [hk] at hr
      have : (1#16 : Word).toNat = 1 := rfl
      simp only [this, Nat.div_one, BitVec.ofNat_toNat, BitVec.setWidth_eq] at hr
      rw [if_neg (by decide)] at hr
      cases hr; rfl
    · next hk =>
      split at h
      · next hp =>
        cases h
        refine shift .srl _ _ rfl rfl ?_ hp
        intro s _ j r hj _ hj15 hr
        obtain ⟨e1, e2⟩ := shift_const hj15
        simp only [hj] at hr
        simp only [e1, e2, if_true, Nat.shiftRight_eq_div_pow]
        split at hr
        · cases hr
        · exact hr
      · cases h
  case sll =>
    split at h
    · next hk =>
      cases h; refine drop _ rfl ?_
      intro s _ r hr; rw [hk] at hr
      have e : (s.mem s.top).toInt * 2 ^ (0#16 : Word).toNat = (s.mem s.top).toInt := by
        show _ * (2 : Int) ^ 0 = _
        simp
      have hs : shiftOk 0#16 = true := by decide
      simp only [e, hs, if_true, BitVec.ofInt_toInt] at hr
      cases hr; rfl
    · cases h
  case srl =>
    split at h
    · next hk =>
      cases h; refine drop _ rfl ?_
      intro s _ r hr; rw [hk] at hr
      have e : (s.mem s.top).toNat >>> (0#16 : Word).toNat = (s.mem s.top).toNat := rfl
      have hs : shiftOk 0#16 = true := by decide
      simp only [e, hs, if_true, BitVec.ofNat_toNat, BitVec.setWidth_eq] at hr
      cases hr; rfl
    · cases h
  case sra =>
    split at h
    · next hk =>
      cases h; refine drop _ rfl ?_
      intro s _ r hr; rw [hk] at hr
      have e : (s.mem s.top).toInt >>> (0#16 : Word).toNat = (s.mem s.top).toInt :=
        Int.shiftRight_zero _
      have hs : shiftOk 0#16 = true := by decide
      simp only [e, hs, if_true, BitVec.ofInt_toInt] at hr
      cases hr; rfl
    · cases h
  case or_ =>
    split at h
    · next hk =>
      cases h; refine drop _ rfl ?_
      intro s _ r hr; rw [hk] at hr; simp only [BitVec.or_zero] at hr; cases hr; rfl
    · cases h
  case and_ =>
    split at h
    · next hk =>
      cases h; refine drop _ rfl ?_
      intro s _ r hr; rw [hk] at hr; simp only [cut] at hr; cases hr; rfl
    · cases h
  case equ =>
    refine cmp .equz _ _ rfl rfl ?_ ?_ ?_ h
    · intro x; simp only [hz]; congr 2; simp only [decide_eq_decide]; omega
    · intro x _; congr 2; simp only [decide_eq_decide, toInt_eq_zero, BitVec.toInt_inj]; bv_omega
    · intro x _; congr 2; simp only [decide_eq_decide, toInt_eq_zero, BitVec.toInt_inj, hmm]; bv_omega
  case neq =>
    refine cmp .neqz _ _ rfl rfl ?_ ?_ ?_ h
    · intro x; simp only [hz]; congr 2; simp only [decide_eq_decide]; omega
    · intro x _; congr 2
      simp only [decide_eq_decide, toInt_eq_zero, BitVec.toInt_inj, ne_eq]; bv_omega
    · intro x _; congr 2
      simp only [decide_eq_decide, toInt_eq_zero, BitVec.toInt_inj, ne_eq, hmm]; bv_omega
  all_goals
    refine cmp _ _ _ rfl rfl ?_ ?_ ?_ h
    · intro x; simp only [hz]
    · intro x hx
      have := sk1 x (hx (by simp))
      simp only [h1, toInt_dec this]
      congr 2; simp only [decide_eq_decide]; omega
    · intro x hx
      have := sk2 x (hx (by simp))
      simp only [hm1, toInt_inc this]
      congr 2; simp only [decide_eq_decide]; omega

/-- Multiplication by 8: a shift by 3, for every first operand. -/
example : unaryRule ⟨Op.upushb.toByte, 8, 0⟩ ⟨Op.mul.toByte, 0, 0⟩ =
    .rewrite (⟨Op.push.toByte, 0, 3#16⟩, ⟨Op.sll.toByte, 0, 0⟩) ∧
    ∀ s, SecondOk .mul 8#16 s := ⟨by decide, fun _ => by simp [SecondOk]⟩

/-- States that satisfy the conditions for a division and for a comparison with 1. -/
example : SecondOk .div_ 2#16 (vmWith 0 7#16) ∧ SecondOk .lt 1#16 (vmWith 0 7#16) := by
  constructor
  · exact ⟨fun _ _ => show 0 ≤ (7#16 : Word).toInt by decide, by simp⟩
  · exact ⟨by simp, fun _ => ⟨fun _ => show (7#16 : Word) ≠ _ by decide,
      fun h => absurd h (by decide)⟩⟩

/-- C31 does not hold for the division of a negative number by a power of two: −1 div 2 is 0,
but the arithmetic shift gives −1. -/
theorem C31_violation_div (lib : Lib) : ∃ a b a' b' : OpType, isPush a = true ∧
    b.op = Op.div_.toByte ∧ unaryRule a b = .rewrite (a', b') ∧
    ¬ Sound lib (fun _ => True) [a, b] [a', b'] :=
  ⟨⟨Op.push.toByte, 0, 2#16⟩, ⟨Op.div_.toByte, 0, 0⟩, ⟨Op.push.toByte, 0, 1#16⟩,
    ⟨Op.sra.toByte, 0, 0⟩, rfl, rfl, by decide,
    not_sound (s := vmWith 0 0xffff#16) (v := (none, 20#16, 0#16, 0#16))
      (v' := (none, 20#16, 0xffff#16, 0#16)) (vmWith_roomy _ _) trivial rfl rfl (by decide)⟩

/-- C31 does not hold for `x < 1` when `x` is the smallest integer: decrementing overflows. -/
theorem C31_violation_lt (lib : Lib) : ∃ a b a' b' : OpType, isPush a = true ∧
    b.op = Op.lt.toByte ∧ unaryRule a b = .rewrite (a', b') ∧
    ¬ Sound lib (fun _ => True) [a, b] [a', b'] :=
  ⟨⟨Op.push.toByte, 0, 1#16⟩, ⟨Op.lt.toByte, 0, 0⟩, ⟨Op.dec.toByte, 0, 0⟩,
    ⟨Op.ltz.toByte, 0, 0⟩, rfl, rfl, by decide,
    not_sound (s := vmWith 0 0x8000#16) (v := (none, 20#16, 0xffff#16, 0#16))
      (v' := (none, 20#16, 0#16, 0#16)) (vmWith_roomy _ _) trivial rfl rfl (by decide)⟩

/-- C31: increment and decrement cancel; consecutive adjustments of a stack pointer are joined. -/
theorem C31_adjacent (lib : Lib) (a b a' b' : OpType) (ha : isPush a = false)
    (h : unaryRule a b = .rewrite (a', b')) : Sound lib (fun _ => True) [a, b] [a', b'] := by
  unfold unaryRule at h
  rw [ha, if_neg (by decide)] at h
  have adj : ∀ x y : Word, BitVec.ofInt 16 (signExtend16 (x + y)) =
      BitVec.ofInt 16 (signExtend16 x) + BitVec.ofInt 16 (signExtend16 y) := by
    intro x y
    simp only [signExtend16, BitVec.ofInt_toInt]
  cases ho : Op.ofByte a.op with
  | none => rw [ho] at h; cases h
  | some o =>
    rw [ho] at h
    have ha1 := op_of_some ho
    cases o <;> first | (cases h; done) | skip
    case inc =>
      simp only at h
      split at h
      · next hb =>
        cases h
        exact fam_un_inverse (unI ha1 rfl) (unI hb rfl) (fun x => BitVec.add_sub_cancel _ _)
      · cases h
    case dec =>
      simp only at h
      split at h
      · next hb =>
        cases h
        exact fam_un_inverse (unI ha1 rfl) (unI hb rfl) (fun x => BitVec.sub_add_cancel _ _)
      · cases h
    case inds =>
      simp only at h
      split at h
      · next hb =>
        cases h
        have hb1 := hb.trans ha1
        intro s _ _ e s' hx
        rw [execSeq_plain ha1 rfl, effect_24 ha1 rfl rfl, pexec24] at hx
        simp only [done24, Res.ok_bind, if_true] at hx
        rw [execSeq_plain hb1 rfl, effect_24 hb1 rfl rfl, pexec24] at hx
        simp only [done24, Res.ok_bind, if_true] at hx
        have ha2 : ({ a with arg2 := a.arg2 + b.arg2 } : OpType).op = Op.inds.toByte := ha1
        rw [execSeq_plain ha2 rfl, effect_24 ha2 rfl rfl, pexec24]
        simp only [done24, Res.ok_bind, if_true]
        rw [nopI, adj, ← BitVec.add_assoc]
        exact ⟨s', hx, sameLive_refl _⟩
      · cases h
    case incs =>
      simp only at h
      split at h
      · next hb =>
        cases h
        have hb1 := hb.trans ha1
        intro s _ _ e s' hx
        rw [execSeq_plain ha1 rfl, effect_24 ha1 rfl rfl, pexec24] at hx
        simp only [done24, Res.ok_bind, if_true] at hx
        rw [execSeq_plain hb1 rfl, effect_24 hb1 rfl rfl, pexec24] at hx
        simp only [done24, Res.ok_bind, if_true] at hx
        have ha2 : ({ a with arg2 := a.arg2 + b.arg2 } : OpType).op = Op.incs.toByte := ha1
        rw [execSeq_plain ha2 rfl, effect_24 ha2 rfl rfl, pexec24]
        simp only [done24, Res.ok_bind, if_true]
        rw [nopI, adj, ← BitVec.add_assoc]
        exact ⟨s', hx, sameLive_refl _⟩
      · cases h

/-- C31: the shorter forms of a constant push the same constant. -/
theorem C31_push (lib : Lib) (a : OpType) (ha : isPush a = true) :
    Sound lib (fun _ => True) [a] [expandPush a] ∧ Sound lib (fun _ => True) [a] [optimizePush a] := by
  have hexp : PushI (expandPush a) (expandPush a).arg2 := pushI_push (expandPush_op ha)
  have hopt : PushI (optimizePush a) (expandPush a).arg2 := by
    unfold optimizePush
    split
    · next hp =>
      have he : expandPush a = a := by simp [expandPush, hp, Op.toByte]
      split
      · next hr =>
        have := pushI_pushb (i := ⟨Op.pushb.toByte, a.arg2.setWidth 8, 0⟩) rfl
        have e : signExtend8 (a.arg2.setWidth 8) = a.arg2 := by
          have hx := a.arg2.isLt
          unfold signExtend8
          apply BitVec.eq_of_toInt_eq
          rw [BitVec.toInt_signExtend_of_le (by decide)]
          have h1 := hr.1
          have h2 := hr.2
          rw [BitVec.toInt_eq_toNat_cond] at h1 h2 ⊢
          rw [BitVec.toInt_eq_toNat_cond, BitVec.toNat_setWidth]
          split at h1 <;> split at h2 <;> split <;> omega
        rw [he]
        rwa [e] at this
      · split
        · next hr =>
          have := pushI_upushb (i := ⟨Op.upushb.toByte, a.arg2.setWidth 8, 0⟩) rfl
          have e : (a.arg2.setWidth 8).zeroExtend 16 = a.arg2 := by
            apply BitVec.eq_of_toNat_eq
            simp only [BitVec.zeroExtend, BitVec.toNat_setWidth]
            omega
          rw [he]
          rwa [e] at this
        · exact pushI ha
    · exact pushI ha
  constructor <;>
  · intro s hr _ e s' h
    have h1 := hr.free.mono (m := 1) (by omega)
    rw [pushI ha lib _ _ h1] at h
    refine ⟨s', ?_, sameLive_refl _⟩
    first | rw [hexp lib _ _ h1] | rw [hopt lib _ _ h1]
    exact h

/-- C32: a jump on a constant becomes an unconditional jump or nothing, and is taken exactly when
it was.  Excluded: the tests > 0 and ≤ 0 of a negative constant. -/
theorem C32_unary_partial (lib : Lib) (a b a' b' : OpType) (o : Op) (ha : isPush a = true)
    (hb : Op.ofByte b.op = some o) (ho : jumpOnTop o = true)
    (hc : o = .jgtz ∨ o = .jltez → 0 ≤ (expandPush a).arg2.toInt)
    (h : unaryRule a b = .rewrite (a', b')) : Sound lib (fun _ => True) [a, b] [a', b'] := by
  have hb1 := op_of_some hb
  unfold unaryRule at h
  rw [if_pos ha] at h
  unfold unaryConst at h
  rw [hb] at h
  have hpos : 0 ≤ (expandPush a).arg2.toInt →
      (expandPush a).arg2.toInt = (expandPush a).arg2.toNat := by
    intro h0; rw [BitVec.toInt_eq_toNat_cond] at h0 ⊢; split <;> omega
  have key : ∀ (f : Word → Bool) (t : Bool), j1F o = some f → t = f (expandPush a).arg2 →
      (if t = true then Action.rewrite (nop, withOp b Op.jmp) else Action.rewrite (nop, nop)) =
        Action.rewrite (a', b') → Sound lib (fun _ => True) [a, b] [a', b'] := by
    intro f t hf ht hr
    cases t
    · cases hr
      exact fam_jump_never (pushI ha) (j1I hb1 hf) ht.symm
    · cases hr
      exact fam_jump_taken (pushI ha) (j1I hb1 hf) rfl rfl ht.symm
  cases o <;> first | exact absurd ho (by decide) | skip
  case jgtz =>
    have h0 := hpos (hc (.inl rfl))
    refine key _ _ rfl ?_ h
    simp only [h0]
    simp
  case jltez =>
    have h0 := hpos (hc (.inr rfl))
    refine key _ _ rfl ?_ h
    simp only [h0]
    simp
  all_goals
    refine key _ _ rfl ?_ h
    simp only [toInt_eq_zero, ne_eq]

/-- A jump that is always taken. -/
example : unaryRule ⟨Op.pushb.toByte, 0xff#8, 0⟩ ⟨Op.jltz.toByte, 0, 7#16⟩ =
    .rewrite (nop, ⟨Op.jmp.toByte, 0, 7#16⟩) := by decide

/-- C32 does not hold for jumps on > 0 and ≤ 0: the constant is compared as an unsigned number. -/
theorem C32_violation_jgtz (lib : Lib) : ∃ a b a' b' : OpType, isPush a = true ∧
    b.op = Op.jgtz.toByte ∧ unaryRule a b = .rewrite (a', b') ∧
    ¬ Sound lib (fun _ => True) [a, b] [a', b'] :=
  ⟨⟨Op.push.toByte, 0, 0xffff#16⟩, ⟨Op.jgtz.toByte, 0, 7#16⟩, _, _, rfl, rfl, rfl,
    not_sound (s := vmWith 0 0) (v := (none, 20#16, 0#16, 0#16))
      (v' := (some 7#16, 20#16, 0#16, 0#16)) (vmWith_roomy _ _) trivial rfl rfl (by decide)⟩

end Pas
