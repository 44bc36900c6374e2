import Verif.Lemmas.LongWindow
import Verif.Props.Long
import Verif.Lemmas.Rules

/-! Property C62: operations on 32-bit constants are computed by the optimizer as the machine would
compute them. -/
namespace Pas
open Spec Popt LongOps

theorem labsI {lib : Lib} (hlib : lib.longOps8 = longOps8) : LUnI lib (longOp 0x42#8)
    (fun a => if a.toInt < 0 then signed (-a.toInt) else .ok a) := by
  intro rest s h1 h2
  rw [long_exec hlib rfl]
  show ((do
      let a ← getTos32 { s with pc := 2#16 } 0
      if a.toInt < 0 then
        let r ← signed (-a.toInt)
        let s ← putTos32 { s with pc := 2#16 } r 0
        pure (eNOERROR, s)
      else pure (eNOERROR, { s with pc := 2#16 }) : Res (Nat × VM)) >>= _) = _
  rw [getTos32_eq _ 0 (by exact h1) (by exact h2)]
  rw [Res.ok_bind]
  have hl : (s.mem (VM.top { s with pc := 2#16 } - 0) ++ s.mem (VM.top { s with pc := 2#16 } - (0 + 1)) :
    BitVec 32) = Spec.long s 0 := rfl
  dsimp only
  rw [hl]
  by_cases hn : (Spec.long s 0).toInt < 0
  · rw [if_pos hn, if_pos hn]
    cases signed (-(Spec.long s 0).toInt) with
    | ub => rfl
    | hang => rfl
    | ok r =>
      simp only [Res.ok_bind]
      rw [putTos32_eq _ _ 0 (by exact h1) (by exact h2)]
      rfl
  · rw [if_neg hn, if_neg hn]
    simp only [Res.ok_bind, Res.pure_eq, if_true]
    rw [repL_self]

theorem signed_eq (r : Int) : signed32 r = signed r := rfl

theorem signed_ok {r : Int} {v : BitVec 32} (h : signed r = .ok v) : v = BitVec.ofInt 32 r := by
  unfold signed at h
  split at h
  · cases h; rfl
  · cases h

theorem ofInt_toInt_add (a b : BitVec 32) : BitVec.ofInt 32 (a.toInt + b.toInt) = a + b := by
  rw [BitVec.ofInt_add, BitVec.ofInt_toInt, BitVec.ofInt_toInt]

theorem ofInt_toInt_sub (a b : BitVec 32) : BitVec.ofInt 32 (a.toInt - b.toInt) = a - b := by
  rw [Int.sub_eq_add_neg, BitVec.ofInt_add, BitVec.ofInt_neg, BitVec.ofInt_toInt, BitVec.ofInt_toInt,
    BitVec.sub_eq_add_neg]

theorem byte_of {c : Byte} {n : Nat} (h : c.toNat = n) : c = BitVec.ofNat 8 n := by
  rw [← h, BitVec.ofNat_toNat, BitVec.setWidth_eq]

theorem eq_pred (w : BitVec 32) :
    decide ((1#32 : BitVec 32).toInt = w.toInt) = decide ((w - 1#32).toInt = 0) := by
  refine decide_eq_decide.2 ?_
  rw [BitVec.toInt_inj, show (0 : Int) = (0#32 : BitVec 32).toInt from rfl, BitVec.toInt_inj]
  constructor
  · intro h; rw [← h]; rfl
  · intro h; bv_omega

theorem eq_succ (w : BitVec 32) :
    decide ((0xffffffff#32 : BitVec 32).toInt = w.toInt) = decide ((w + 1#32).toInt = 0) := by
  refine decide_eq_decide.2 ?_
  rw [BitVec.toInt_inj, show (0 : Int) = (0#32 : BitVec 32).toInt from rfl, BitVec.toInt_inj]
  constructor
  · intro h; rw [← h]; rfl
  · intro h; bv_omega

theorem ne_pred (w : BitVec 32) :
    decide ((1#32 : BitVec 32).toInt ≠ w.toInt) = decide ((w - 1#32).toInt ≠ 0) := by
  have := eq_pred w
  rw [decide_eq_decide] at this
  exact decide_eq_decide.2 (not_congr this)

theorem ne_succ (w : BitVec 32) :
    decide ((0xffffffff#32 : BitVec 32).toInt ≠ w.toInt) = decide ((w + 1#32).toInt ≠ 0) := by
  have := eq_succ w
  rw [decide_eq_decide] at this
  exact decide_eq_decide.2 (not_congr this)

/-- **C62** (one constant): whatever an iteration of the optimizer makes of two instructions that push a
32-bit constant and an operation on it, it can replace them.  Missing: the operations and constants
outside `LongOk` (`C62_violation_zero`, `C62_violation_equal`, `C62_violation_order`,
`C62_violation_narrow`, `C62_violation_shift`) and iterations in which the optimizer itself has undefined
behaviour (`C62_violation_overflow`). -/
theorem C62_unary_partial (lib : Lib) (hlib : lib.longOps8 = longOps8) (a b : OpType) (c : Byte)
    (ha : isPush a = true) (hb : isPush b = true) (hok : LongOk c (constLong a b)) (t : Table) (i n : Nat)
    (h : longUnaryStep (window [a, b, longOp c]) 2 = .ok (t, i, n)) :
    SoundLong lib (fun _ => True) [a, b, longOp c] (insnsOf t) := by
  obtain ⟨nc0, n60, n5e, n5f, n50, n56, n58, n4b⟩ := hok
  rw [step3 ha hb n5e n5f, Res.bind_eq_ok] at h
  obtain ⟨act, hact, h⟩ := h
  have pa := pushI ha
  have pb := pushI hb
  generalize hv : constLong a b = v at *
  have hv' : ((expandPush b).arg2 ++ (expandPush a).arg2 : BitVec 32) = v := hv
  -- the outcomes
  have hnone : act = .none → SoundLong lib (fun _ => True) [a, b, longOp c] (insnsOf t) := by
    rintro rfl
    unfold longApply at h
    simp only [Nat.sub_self] at h
    rw [put3_window ha hb, tail_none] at h
    cases h
    refine lfam_same pa pb ?_ ?_
    · have : word0 v = (expandPush a).arg2 := by rw [← hv']; exact lo_append _ _
      rw [this]; exact pushI_opt _
    · have : word1 v = (expandPush b).arg2 := by rw [← hv']; exact hi_append _ _
      rw [this]; exact pushI_opt _
  have hconst : ∀ {f r}, act = .const r → LUnI lib (longOp c) f → f v = .ok r →
      SoundLong lib (fun _ => True) [a, b, longOp c] (insnsOf t) := by
    rintro f r rfl hf hr
    unfold longApply at h
    simp only [Nat.sub_self] at h
    rw [put3_window ha hb] at h
    cases h
    exact lfam_const pa pb hf (by rw [hv']; exact hr) (pushI_of _) (pushI_of _)
  have hdrop : ∀ {g}, act = .drop → LBinI lib (longOp c) g → (∀ w r, g w v = .ok r → r = w) →
      SoundLong lib (fun _ => True) [a, b, longOp c] (insnsOf t) := by
    rintro g rfl hg hr
    unfold longApply at h
    simp only [Nat.sub_self] at h
    rw [put3_window ha hb] at h
    cases h
    exact lfam_drop pa pb hg (by rw [hv']; exact hr)
  have honly : ∀ {g f d}, act = .only d → LBinI lib (longOp c) g → LUnI lib (longOp d) f →
      (∀ w r, g w v = .ok r → f w = .ok r) →
      SoundLong lib (fun _ => True) [a, b, longOp c] (insnsOf t) := by
    rintro g f d rfl hg hf hr
    unfold longApply at h
    simp only [Nat.sub_self] at h
    rw [put3_window ha hb] at h
    rw [show ({ longOp c with arg1 := d } : OpType) = longOp d from rfl, tail_only] at h
    cases h
    exact lfam_only pa pb hg hf (by rw [hv']; exact hr)
  have htwo : ∀ {g : BitVec 32 → BitVec 32 → Bool} {f : BitVec 32 → Res (BitVec 32)}
      {k : BitVec 32 → BitVec 32} {z : BitVec 32 → Bool} {d e : Byte}, act = .two d e → (∀ s, longOps8 s c = cmp32 s g) → LUnI lib (longOp d) f →
      (∀ w, f w = .ok (k w)) → (∀ s, longOps8 s e = cmpz32 s z) → (∀ w, g v w = z (k w)) →
      SoundLong lib (fun _ => True) [a, b, longOp c] (insnsOf t) := by
    rintro g f k z d e rfl hg hf hk hz hr
    unfold longApply at h
    simp only [Nat.sub_self] at h
    rw [put3_window ha hb] at h
    rw [show ({ longOp c with arg1 := e } : OpType) = longOp e from rfl,
      show (⟨Op.longop8.toByte, d, 0⟩ : OpType) = longOp d from rfl, tail_two] at h
    cases h
    exact lfam_two hlib pa pb rfl hg hf hk rfl hz (by rw [hv']; exact hr)
  have pow0 : ∀ d, longPower v 0 d = if v = 1#32 then .drop else .none := by
    intro d
    unfold longPower
    split
    · rfl
    · rfl
  unfold longUnary at hact
  split at hact
  case h_1 hc => exact absurd (byte_of hc) n60
  case h_2 hc =>
    rw [Res.bind_eq_ok] at hact
    obtain ⟨r, hr, hact⟩ := hact
    obtain rfl := byte_of hc
    exact hconst (Res.ok.inj hact).symm (lunI hlib (i := longOp 0x41#8) rfl fun s => rfl) hr
  case h_3 hc =>
    obtain rfl := byte_of hc
    split at hact
    · next hn =>
      rw [Res.bind_eq_ok] at hact
      obtain ⟨r, hr, hact⟩ := hact
      exact hconst (Res.ok.inj hact).symm (labsI hlib) (by rw [if_pos hn]; exact hr)
    · next hn =>
      exact hconst (Res.ok.inj hact).symm (labsI hlib) (by rw [if_neg hn])
  case h_4 hc =>
    obtain rfl := byte_of hc
    exact hconst (Res.ok.inj hact).symm (lunI hlib (i := longOp 0x43#8) rfl fun s => rfl) rfl
  case h_5 hc =>
    obtain rfl := byte_of hc
    exact hconst (Res.ok.inj hact).symm (lunI hlib (i := longOp 0x44#8) rfl fun s => rfl) rfl
  case h_6 hc =>
    obtain rfl := byte_of hc
    exact hconst (Res.ok.inj hact).symm (lunI hlib (i := longOp 0x45#8) rfl fun s => rfl) rfl
  case h_7 hc =>
    obtain rfl := byte_of hc
    have hg := lbinI hlib (i := longOp 0x46#8) (f := fun a b => signed (a.toInt + b.toInt)) rfl fun s => rfl
    have hact := (Res.ok.inj hact).symm
    split at hact
    · next e =>
      refine hdrop hact hg fun w r hr => ?_
      rw [signed_ok hr, ofInt_toInt_add, e, BitVec.add_zero]
    · split at hact
      · next e =>
        refine honly hact hg (lunI hlib (i := longOp 0x43#8) rfl fun s => rfl) fun w r hr => ?_
        rw [signed_ok hr, ofInt_toInt_add, e]
      · split at hact
        · next e =>
          refine honly hact hg (lunI hlib (i := longOp 0x44#8) rfl fun s => rfl) fun w r hr => ?_
          rw [signed_ok hr, ofInt_toInt_add, e, BitVec.sub_eq_add_neg]
          rfl
        · exact hnone hact
  case h_8 hc =>
    obtain rfl := byte_of hc
    have hg := lbinI hlib (i := longOp 0x47#8) (f := fun a b => signed (a.toInt - b.toInt)) rfl fun s => rfl
    have hact := (Res.ok.inj hact).symm
    split at hact
    · next e =>
      refine hdrop hact hg fun w r hr => ?_
      rw [signed_ok hr, ofInt_toInt_sub, e, BitVec.sub_zero]
    · split at hact
      · next e =>
        refine honly hact hg (lunI hlib (i := longOp 0x44#8) rfl fun s => rfl) fun w r hr => ?_
        rw [signed_ok hr, ofInt_toInt_sub, e]
      · split at hact
        · next e =>
          refine honly hact hg (lunI hlib (i := longOp 0x43#8) rfl fun s => rfl) fun w r hr => ?_
          rw [signed_ok hr, ofInt_toInt_sub, e, BitVec.sub_eq_add_neg]
          rfl
        · exact hnone hact
  case h_9 hc =>
    obtain rfl := byte_of hc
    rw [pow0] at hact
    have hact := (Res.ok.inj hact).symm
    have hg := lbinI hlib (i := longOp 0x48#8) (f := fun a b => signed (a.toInt * b.toInt)) rfl fun s => rfl
    split at hact
    · next e =>
      refine hdrop hact hg fun w r hr => ?_
      rw [signed_ok hr, e, show (1#32 : BitVec 32).toInt = 1 from rfl, Int.mul_one, BitVec.ofInt_toInt]
    · exact hnone hact
  case h_10 hc =>
    obtain rfl := byte_of hc
    rw [pow0] at hact
    have hact := (Res.ok.inj hact).symm
    have hg := lbinI hlib (i := longOp 0x61#8) (f := fun a b => .ok (a * b)) rfl fun s => rfl
    split at hact
    · next e =>
      refine hdrop hact hg fun w r hr => ?_
      rw [← Res.ok.inj hr, e, BitVec.mul_one]
    · exact hnone hact
  case h_11 hc =>
    obtain rfl := byte_of hc
    rw [pow0] at hact
    have hact := (Res.ok.inj hact).symm
    have hg := lbinI hlib (i := longOp 0x49#8) (f := fun a b => if b.toInt = 0 then .ub else signed (Int.tdiv a.toInt b.toInt)) rfl fun s => rfl
    split at hact
    · next e =>
      refine hdrop hact hg fun w r hr => ?_
      rw [e, show (1#32 : BitVec 32).toInt = 1 from rfl, if_neg (by decide)] at hr
      rw [signed_ok hr, Int.tdiv_one, BitVec.ofInt_toInt]
    · exact hnone hact
  case h_12 hc =>
    obtain rfl := byte_of hc
    rw [pow0] at hact
    have hact := (Res.ok.inj hact).symm
    have hg := lbinI hlib (i := longOp 0x62#8) (f := fun a b => if b.toNat = 0 then .ub else .ok (BitVec.ofNat 32 (a.toNat / b.toNat))) rfl fun s => rfl
    split at hact
    · next e =>
      refine hdrop hact hg fun w r hr => ?_
      rw [e, show (1#32 : BitVec 32).toNat = 1 from rfl, if_neg (by decide)] at hr
      rw [← Res.ok.inj hr, Nat.div_one, BitVec.ofNat_toNat, BitVec.setWidth_eq]
    · exact hnone hact
  case h_13 hc =>
    rw [if_neg (n4b (by omega))] at hact
    exact hnone (Res.ok.inj hact).symm
  case h_14 hc =>
    rw [if_neg (n4b (by omega))] at hact
    exact hnone (Res.ok.inj hact).symm
  case h_15 hc =>
    rw [if_neg (n4b (by omega))] at hact
    exact hnone (Res.ok.inj hact).symm
  case h_16 hc =>
    obtain rfl := byte_of hc
    have hact := (Res.ok.inj hact).symm
    have hg := lbinI hlib (i := longOp 0x4e#8) (f := fun a b => .ok (a ||| b)) rfl fun s => rfl
    split at hact
    · next e =>
      refine hdrop hact hg fun w r hr => ?_
      rw [← Res.ok.inj hr, e, BitVec.or_zero]
    · exact hnone hact
  case h_17 hc =>
    obtain rfl := byte_of hc
    have hact := (Res.ok.inj hact).symm
    have hg := lbinI hlib (i := longOp 0x4f#8) (f := fun a b => .ok (a &&& b)) rfl fun s => rfl
    split at hact
    · next e =>
      refine hdrop hact hg fun w r hr => ?_
      rw [← Res.ok.inj hr, e, show (0xffffffff#32 : BitVec 32) = BitVec.allOnes 32 from rfl, BitVec.and_allOnes]
    · exact hnone hact
  case h_18 hc => exact absurd (by omega) n50
  case h_19 hc => exact absurd (by omega) n50
  case h_20 hc => exact absurd (by omega) n50
  case h_21 hc => exact absurd (by omega) n50
  case h_22 hc => exact absurd (by omega) n50
  case h_23 hc => exact absurd (by omega) n50
  case h_24 hc =>
    obtain rfl := byte_of hc
    have hact := (Res.ok.inj hact).symm
    unfold longCmp at hact
    rw [if_neg (n56 (by decide))] at hact
    split at hact
    · next e =>
      exact htwo (g := fun p1 p2 => decide (p1.toInt = p2.toInt))
        (z := fun a => decide (a.toInt = 0)) hact (fun s => rfl)
        (lunI hlib (i := longOp 0x44#8) rfl fun s => rfl) (fun w => rfl) (fun s => rfl)
        (fun w => by rw [e]; exact eq_pred w)
    · split at hact
      · next e =>
        exact htwo (g := fun p1 p2 => decide (p1.toInt = p2.toInt))
          (z := fun a => decide (a.toInt = 0)) hact (fun s => rfl)
          (lunI hlib (i := longOp 0x43#8) rfl fun s => rfl) (fun w => rfl) (fun s => rfl)
          (fun w => by rw [e]; exact eq_succ w)
      · exact hnone hact
  case h_25 hc =>
    obtain rfl := byte_of hc
    have hact := (Res.ok.inj hact).symm
    unfold longCmp at hact
    rw [if_neg (n56 (by decide))] at hact
    split at hact
    · next e =>
      exact htwo (g := fun p1 p2 => decide (p1.toInt ≠ p2.toInt))
        (z := fun a => decide (a.toInt ≠ 0)) hact (fun s => rfl)
        (lunI hlib (i := longOp 0x44#8) rfl fun s => rfl) (fun w => rfl) (fun s => rfl)
        (fun w => by rw [e]; exact ne_pred w)
    · split at hact
      · next e =>
        exact htwo (g := fun p1 p2 => decide (p1.toInt ≠ p2.toInt))
          (z := fun a => decide (a.toInt ≠ 0)) hact (fun s => rfl)
          (lunI hlib (i := longOp 0x43#8) rfl fun s => rfl) (fun w => rfl) (fun s => rfl)
          (fun w => by rw [e]; exact ne_succ w)
      · exact hnone hact
  case h_26 hc =>
    obtain ⟨e0, e1, e2⟩ := n58 (by omega)
    have hact := (Res.ok.inj hact).symm
    unfold longCmp at hact
    rw [if_neg e0, if_neg e1, if_neg e2] at hact
    exact hnone hact
  case h_27 hc =>
    obtain ⟨e0, e1, e2⟩ := n58 (by omega)
    have hact := (Res.ok.inj hact).symm
    unfold longCmp at hact
    rw [if_neg e0, if_neg e1, if_neg e2] at hact
    exact hnone hact
  case h_28 hc =>
    obtain ⟨e0, e1, e2⟩ := n58 (by omega)
    have hact := (Res.ok.inj hact).symm
    unfold longCmp at hact
    rw [if_neg e0, if_neg e1, if_neg e2] at hact
    exact hnone hact
  case h_29 hc =>
    obtain ⟨e0, e1, e2⟩ := n58 (by omega)
    have hact := (Res.ok.inj hact).symm
    unfold longCmp at hact
    rw [if_neg e0, if_neg e1, if_neg e2] at hact
    exact hnone hact
  case h_30 hc => omega
  case h_31 hc => omega
  case h_32 hc => omega
  case h_33 hc => omega
  case h_34 hc => omega
  case h_35 hc => omega
  case h_36 => exact hnone (Res.ok.inj hact).symm

theorem lfam_same5 {lib : Lib} {P : VM → Prop} {a b c d x a' b' c' d' : OpType} {u w m n : Word}
    (ha : PushI a u) (hb : PushI b w) (hc : PushI c m) (hd : PushI d n)
    (ha' : PushI a' u) (hb' : PushI b' w) (hc' : PushI c' m) (hd' : PushI d' n) :
    SoundLong lib P [a, b, c, d, x] [a', b', c', d', x] := by
  intro s hr _ e s' h
  have h4 := hr.free
  have h2 := hr.free.mono (m := 2) (by omega)
  have f2 : Free (pshL s (w ++ u)) 2 := pshL_free h4
  rw [push2 ha hb h2, push2 hc hd f2] at h
  rw [push2 ha' hb' h2, push2 hc' hd' f2]
  exact ⟨s', h, sameLong_refl _⟩

theorem lfam_same4 {lib : Lib} {P : VM → Prop} {a b c x a' b' c' : OpType} {u w m : Word}
    (ha : PushI a u) (hb : PushI b w) (hc : PushI c m)
    (ha' : PushI a' u) (hb' : PushI b' w) (hc' : PushI c' m) :
    SoundLong lib P [a, b, c, x] [a', b', c', x] := by
  intro s hr _ e s' h
  have h3 := hr.free.mono (m := 3) (by omega)
  have h2 := hr.free.mono (m := 2) (by omega)
  have f1 : Free (pshL s (w ++ u)) 1 := pshL_free h3
  rw [push2 ha hb h2, hc _ _ _ f1] at h
  rw [push2 ha' hb' h2, hc' _ _ _ f1]
  exact ⟨s', h, sameLong_refl _⟩

theorem truth_pasBool (b : Bool) : truth b = pasBool b := by cases b <;> rfl

/-- **C62** (two constants): whatever an iteration of the optimizer makes of the instructions that push
two 32-bit constants and an operation on them, it can replace them.  Missing: the comparisons for order
(`C62_violation_folded_order`) and iterations in which the optimizer itself has undefined behaviour. -/
theorem C62_binary_partial (lib : Lib) (hlib : lib.longOps8 = longOps8) (k0 k1 j0 j1 : OpType) (c : Byte)
    (h0 : isPush k0 = true) (h1 : isPush k1 = true) (h2 : isPush j0 = true) (h3 : isPush j1 = true)
    (hok : BinaryOk c) (t : Table) (i n : Nat)
    (h : longBinaryStep (window [k0, k1, j0, j1, longOp c]) 4 = .ok (t, i, n)) :
    SoundLong lib (fun _ => True) [k0, k1, j0, j1, longOp c] (insnsOf t) := by
  obtain ⟨n58, n64, n4b, n38⟩ := hok
  have p0 := pushI h0
  have p1 := pushI h1
  have p2 := pushI h2
  have p3 := pushI h3
  rw [step5 h0 h1 h2 h3, Res.bind_eq_ok] at h
  obtain ⟨o, ho, h⟩ := h
  have hfold : ∀ {g : BitVec 32 → BitVec 32 → Res (BitVec 32)} {r : BitVec 32}, o = some r →
      LBinI lib (longOp c) g →
      (∀ r', g (constLong k0 k1) (constLong j0 j1) = .ok r' → r' = r) →
      SoundLong lib (fun _ => True) [k0, k1, j0, j1, longOp c] (insnsOf t) := by
    rintro g r rfl hg hr
    cases h
    exact lfam_fold p0 p1 p2 p3 hg hr (pushI_of _) (pushI_of _)
  have hcmp : ∀ {g : BitVec 32 → BitVec 32 → Bool} {r : Bool}, o = none →
      longCompare c (constLong k0 k1) (constLong j0 j1) = some r → (∀ s, longOps8 s c = cmp32 s g) →
      g (constLong j0 j1) (constLong k0 k1) = r →
      SoundLong lib (fun _ => True) [k0, k1, j0, j1, longOp c] (insnsOf t) := by
    rintro g r rfl hc hg hr
    simp only [hc] at h
    cases h
    refine lfam_compare hlib p0 p1 p2 p3 rfl hg ?_ (pushI_opt _)
    rw [truth_pasBool]
    exact congrArg _ hr
  have hsame : o = none → longCompare c (constLong k0 k1) (constLong j0 j1) = none →
      SoundLong lib (fun _ => True) [k0, k1, j0, j1, longOp c] (insnsOf t) := by
    rintro rfl hc
    simp only [hc] at h
    rw [shift5 (isPush_opt _) (isPush_opt _) (isPush_opt _) (isPush_opt _) n4b] at h
    cases h
    simp only [expand_opt]
    exact lfam_same5 p0 p1 p2 p3 (pushI_opt _) (pushI_opt _) (pushI_opt _) (pushI_opt _)
  generalize constLong k0 k1 = k at *
  generalize constLong j0 j1 = j at *
  have sg : ∀ {r : Int} {o : Option (BitVec 32)}, (do pure (some (← signed32 r)) : Res _) = .ok o →
      ∃ v, o = some v ∧ signed r = .ok v := by
    intro r o h
    rw [Res.bind_eq_ok] at h
    obtain ⟨v, hv, h⟩ := h
    exact ⟨v, (Res.ok.inj h).symm, hv⟩
  have zi : ∀ {x : BitVec 32}, x ≠ 0#32 → x.toInt ≠ 0 := by
    intro x hx h
    exact hx (BitVec.eq_of_toInt_eq (by rw [h]; rfl))
  have zn : ∀ {x : BitVec 32}, x ≠ 0#32 → x.toNat ≠ 0 := by
    intro x hx h
    exact hx (BitVec.eq_of_toNat_eq (by rw [h]; rfl))
  unfold longFold at ho
  split at ho
  · next hc =>
    obtain rfl := byte_of hc
    obtain ⟨v, e, hv⟩ := sg ho
    refine hfold e (lbinI hlib (i := longOp 0x46#8) (f := fun a b => signed (a.toInt + b.toInt)) rfl
      fun s => rfl) fun r hr => ?_
    rw [hv] at hr; exact (Res.ok.inj hr).symm
  · next hc =>
    obtain rfl := byte_of hc
    obtain ⟨v, e, hv⟩ := sg ho
    refine hfold e (lbinI hlib (i := longOp 0x47#8) (f := fun a b => signed (a.toInt - b.toInt)) rfl
      fun s => rfl) fun r hr => ?_
    rw [hv] at hr; exact (Res.ok.inj hr).symm
  · next hc =>
    obtain rfl := byte_of hc
    obtain ⟨v, e, hv⟩ := sg ho
    refine hfold e (lbinI hlib (i := longOp 0x48#8) (f := fun a b => signed (a.toInt * b.toInt)) rfl
      fun s => rfl) fun r hr => ?_
    rw [hv] at hr; exact (Res.ok.inj hr).symm
  · next hc =>
    obtain rfl := byte_of hc
    refine hfold (Res.ok.inj ho).symm (lbinI hlib (i := longOp 0x61#8) (f := fun a b => .ok (a * b)) rfl
      fun s => rfl) fun r hr => ?_
    exact (Res.ok.inj hr).symm
  · next hc =>
    obtain rfl := byte_of hc
    split at ho
    · cases ho
    · next hj =>
      obtain ⟨v, e, hv⟩ := sg ho
      refine hfold e (lbinI hlib (i := longOp 0x49#8)
        (f := fun a b => if b.toInt = 0 then .ub else signed (Int.tdiv a.toInt b.toInt)) rfl
        fun s => rfl) fun r hr => ?_
      rw [if_neg (zi hj), hv] at hr; exact (Res.ok.inj hr).symm
  · next hc => exact absurd (byte_of hc) n38
  · next hc =>
    obtain rfl := byte_of hc
    split at ho
    · cases ho
    · next hj =>
      obtain ⟨v, e, hv⟩ := sg ho
      refine hfold e (lbinI hlib (i := longOp 0x4a#8)
        (f := fun a b => if b.toInt = 0 ∨ (a.toInt = -2147483648 ∧ b.toInt = -1) then .ub
          else signed (Int.tmod a.toInt b.toInt)) rfl
        fun s => rfl) fun r hr => ?_
      rw [if_neg (fun h => hj (h.imp_left fun h => BitVec.eq_of_toInt_eq (by rw [h]; rfl))), hv] at hr
      exact (Res.ok.inj hr).symm
  · next hc =>
    obtain rfl := byte_of hc
    split at ho
    · cases ho
    · next hj =>
      refine hfold (Res.ok.inj ho).symm (lbinI hlib (i := longOp 0x63#8)
        (f := fun a b => if b.toNat = 0 then .ub else .ok (BitVec.ofNat 32 (a.toNat % b.toNat))) rfl
        fun s => rfl) fun r hr => ?_
      rw [if_neg (zn hj)] at hr; exact (Res.ok.inj hr).symm
  · next hc =>
    obtain rfl := byte_of hc
    refine hfold (Res.ok.inj ho).symm (lbinI hlib (i := longOp 0x4e#8) (f := fun a b => .ok (a ||| b)) rfl
      fun s => rfl) fun r hr => ?_
    exact (Res.ok.inj hr).symm
  · next hc =>
    obtain rfl := byte_of hc
    refine hfold (Res.ok.inj ho).symm (lbinI hlib (i := longOp 0x4f#8) (f := fun a b => .ok (a &&& b)) rfl
      fun s => rfl) fun r hr => ?_
    exact (Res.ok.inj hr).symm
  · have ho := (Res.ok.inj ho).symm
    by_cases e1 : c = 0x56#8
    · subst e1
      refine hcmp (g := fun p1 p2 => decide (p1.toInt = p2.toInt)) ho rfl (fun s => rfl) ?_
      refine decide_eq_decide.2 ?_
      rw [BitVec.toInt_inj]
      exact eq_comm
    · by_cases e2 : c = 0x57#8
      · subst e2
        refine hcmp (g := fun p1 p2 => decide (p1.toInt ≠ p2.toInt)) ho rfl (fun s => rfl) ?_
        refine decide_eq_decide.2 (not_congr ?_)
        rw [BitVec.toInt_inj]
        exact eq_comm
      · refine hsame ho ?_
        unfold longCompare
        split
        · next hc => exact absurd (byte_of hc) e1
        · next hc => exact absurd (byte_of hc) e2
        all_goals first
          | rfl
          | (next hc => exact absurd (by omega) n58)
          | (next hc => exact absurd (by omega) n64)

/-- **C62** (shift): whatever an iteration of the optimizer makes of the instructions that push a 32-bit
constant and a count and then shift, it can replace them. -/
theorem C62_shift (lib : Lib) (hlib : lib.longOps8 = longOps8) (k0 k1 j : OpType) (c : Byte)
    (h0 : isPush k0 = true) (h1 : isPush k1 = true) (h2 : isPush j = true) (t : Table) (i n : Nat)
    (h : longBinaryStep (window [k0, k1, j, longOp c]) 3 = .ok (t, i, n)) :
    SoundLong lib (fun _ => True) [k0, k1, j, longOp c] (insnsOf t) := by
  have p0 := pushI h0
  have p1 := pushI h1
  have p2 := pushI h2
  rw [step4 h0 h1 h2, Res.bind_eq_ok] at h
  obtain ⟨o, ho, h⟩ := h
  have hfold : ∀ {g : BitVec 32 → Nat → BitVec 32} {r : BitVec 32}, o = some r → LShiftI lib (longOp c) g →
      g (constLong k0 k1) (expandPush j).arg2.toNat = r →
      SoundLong lib (fun _ => True) [k0, k1, j, longOp c] (insnsOf t) := by
    rintro g r rfl hg hr
    cases h
    exact lfam_shift p0 p1 p2 hg hr (pushI_opt _) (pushI_opt _)
  unfold longShift at ho
  split at ho
  · next hc =>
    obtain rfl := byte_of hc
    split at ho
    · exact hfold (Res.ok.inj ho).symm (lshiftI hlib (i := longOp 0x4b#8) rfl fun s => rfl) rfl
    · cases ho
  · next hc =>
    obtain rfl := byte_of hc
    split at ho
    · exact hfold (Res.ok.inj ho).symm (lshiftI hlib (i := longOp 0x4c#8) rfl fun s => rfl) rfl
    · cases ho
  · next hc =>
    obtain rfl := byte_of hc
    split at ho
    · exact hfold (Res.ok.inj ho).symm (lshiftI hlib (i := longOp 0x4d#8) rfl fun s => rfl) rfl
    · cases ho
  · cases ho
    cases h
    exact lfam_same4 p0 p1 p2 (pushI_opt _) (pushI_opt _) (pushI_opt _)

/-- **C62** (conversion): two instructions that push a 16-bit constant and make a 32-bit number of it
(signed 0x5e, unsigned 0x5f) become two that push the halves of that number. -/
theorem C62_widen (lib : Lib) (hlib : lib.longOps8 = longOps8) (a : OpType) (c : Byte)
    (ha : isPush a = true) (hc : c = 0x5e#8 ∨ c = 0x5f#8) (t : Table) (i n : Nat)
    (h : longUnaryStep (window [a, longOp c]) 1 = .ok (t, i, n)) :
    (∃ p q, insnsOf t = [p, q] ∧ isPush p = true ∧ isPush q = true ∧
      constLong p q = if c = 0x5e#8 then BitVec.ofInt 32 (expandPush a).arg2.toInt
        else (expandPush a).arg2.zeroExtend 32) ∧
    SoundLong lib (fun _ => True) [a, longOp c] (insnsOf t) := by
  have hv := vis2 (listing_push ha) (listing_long c)
  have g0 : Popt.get (window [a, longOp c]) (1 - 1) = some ⟨a, 0⟩ := by unfold Popt.get; rw [hv]; rfl
  have g1 : Popt.get (window [a, longOp c]) 1 = some ⟨longOp c, 0⟩ := by unfold Popt.get; rw [hv]; rfl
  have hp : ∀ p q, put2 (window [a, longOp c]) (1 - 1) p q = window [p, q] := by
    intro p q; unfold put2; rw [hv]; rfl
  unfold longUnaryStep at h
  rw [g0, g1] at h
  simp only at h
  rw [if_pos (by rfl), if_pos ha] at h
  have hx : ∀ v : BitVec 32, constLong (optimizePush (pushOf (word0 v))) (optimizePush (pushOf (word1 v))) = v := by
    intro v
    unfold constLong
    rw [expand_opt, expand_opt]
    exact split_long v
  rcases hc with rfl | rfl
  · rw [if_pos (by rfl), hp] at h
    cases h
    refine ⟨⟨_, _, rfl, isPush_opt _, isPush_opt _, ?_⟩, ?_⟩
    · rw [hx, if_pos rfl]
    · exact lfam_widen hlib (g := fun w => BitVec.ofInt 32 (signExtend16 w)) (pushI ha) rfl (fun s => rfl)
        (pushI_opt _) (pushI_opt _)
  · rw [if_neg (by decide), if_pos (by rfl), hp] at h
    cases h
    refine ⟨⟨_, _, rfl, isPush_opt _, isPush_opt _, ?_⟩, ?_⟩
    · rw [hx, if_neg (by decide)]
    · exact lfam_widen hlib (g := fun w => w.zeroExtend 32) (pushI ha) rfl (fun s => rfl)
        (pushI_opt _) (pushI_opt _)

/-! ### Where it does not hold -/

theorem not_soundLong {lib : Lib} {P : VM → Prop} {s : VM} {v v' : Option Word × Word × Word × Word}
    {l l' : List OpType} (hr : Roomy s) (hP : P s) (h : seen (execSeq lib l s) = some v)
    (h' : seen (execSeq lib l' s) = some v') (hne : v ≠ v') : ¬ SoundLong lib P l l' := by
  intro hs
  cases he : execSeq lib l s with
  | ub => rw [he] at h; cases h
  | hang => rw [he] at h; cases h
  | ok r =>
    obtain ⟨e, s'⟩ := r
    obtain ⟨s'', h2, hl⟩ := hs s hr hP e s' he
    rw [he] at h
    rw [h2] at h'
    apply hne
    cases h
    cases h'
    have hsp : s''.sp = s'.sp := by rw [hl.regs]
    have ht : s''.top = s'.top := congrArg (fun w : Word => w.toNat / 2) hsp
    have hlv : ∀ i, i ≤ s'.top → s''.mem i = s'.mem i := fun i hi => hl.live i (.inl hi)
    rw [hsp, ht, hlv _ (Nat.le_refl _), hlv _ (Nat.sub_le _ _)]

/-- A comparison with zero leaves one word on the stack; the folded one leaves two. -/
theorem C62_violation_zero (lib : Lib) (hlib : lib.longOps8 = longOps8) : ∃ (t : Table) (i n : Nat),
    longUnaryStep (window [⟨Op.pushb.toByte, 0, 0⟩, ⟨Op.pushb.toByte, 0, 0⟩, longOp 0x50#8]) 2 = .ok (t, i, n) ∧
    ¬ SoundLong lib (fun _ => True) [⟨Op.pushb.toByte, 0, 0⟩, ⟨Op.pushb.toByte, 0, 0⟩, longOp 0x50#8]
      (insnsOf t) := by
  cases lib
  subst hlib
  exact ⟨_, _, _, rfl,
    not_soundLong (s := vmWith 0 0) (v := (none, 22#16, 0xffff#16, 0#16))
      (v' := (none, 24#16, 0xffff#16, 0xffff#16)) (vmWith_roomy _ _) trivial rfl rfl (by decide)⟩

/-- A test for equality with zero disappears: 0 is left on the stack, and the number. -/
theorem C62_violation_equal (lib : Lib) (hlib : lib.longOps8 = longOps8) : ∃ (t : Table) (i n : Nat),
    longUnaryStep (window [⟨Op.pushb.toByte, 0, 0⟩, ⟨Op.pushb.toByte, 0, 0⟩, longOp 0x56#8]) 2 = .ok (t, i, n) ∧
    ¬ SoundLong lib (fun _ => True) [⟨Op.pushb.toByte, 0, 0⟩, ⟨Op.pushb.toByte, 0, 0⟩, longOp 0x56#8]
      (insnsOf t) := by
  cases lib
  subst hlib
  exact ⟨_, _, _, rfl,
    not_soundLong (s := vmWith 0 0) (v := (none, 18#16, 0xffff#16, 0#16))
      (v' := (none, 22#16, 0#16, 0#16)) (vmWith_roomy _ _) trivial rfl rfl (by decide)⟩

/-- `x < 1` becomes `x - 1 < 0`, while the machine takes the operands in the other order (C17): with
`x = 0` the machine says false. -/
theorem C62_violation_order (lib : Lib) (hlib : lib.longOps8 = longOps8) : ∃ (t : Table) (i n : Nat),
    longUnaryStep (window [⟨Op.pushb.toByte, 1, 0⟩, ⟨Op.pushb.toByte, 0, 0⟩, longOp 0x58#8]) 2 = .ok (t, i, n) ∧
    ¬ SoundLong lib (fun _ => True) [⟨Op.pushb.toByte, 1, 0⟩, ⟨Op.pushb.toByte, 0, 0⟩, longOp 0x58#8]
      (insnsOf t) := by
  cases lib
  subst hlib
  exact ⟨_, _, _, rfl,
    not_soundLong (s := vmWith 0 0) (v := (none, 18#16, 0#16, 0#16))
      (v' := (none, 18#16, 0xffff#16, 0#16)) (vmWith_roomy _ _) trivial rfl rfl (by decide)⟩

/-- A conversion to 16 bits: the optimizer reads a pointer behind its window when nothing follows, and
otherwise deletes the instruction that follows instead of the conversion. -/
theorem C62_violation_narrow :
    longUnaryStep (window [⟨Op.pushb.toByte, 5, 0⟩, ⟨Op.pushb.toByte, 0, 0⟩, longOp 0x60#8]) 2 = .ub ∧
    ∃ (i n : Nat), longUnaryStep (window [⟨Op.pushb.toByte, 5, 0⟩, ⟨Op.pushb.toByte, 0, 0⟩, longOp 0x60#8,
        ⟨Op.neg.toByte, 0, 0⟩]) 2 =
      .ok (window [⟨Op.push.toByte, 0, 5⟩, nop, longOp 0x60#8, nop], i, n) :=
  ⟨rfl, _, _, rfl⟩

/-- A shift by 0 of a long whose upper half is the constant 0: the upper half and the shift disappear,
with the word below. -/
theorem C62_violation_shift (lib : Lib) (hlib : lib.longOps8 = longOps8) : ∃ (t : Table) (i n : Nat),
    longUnaryStep (window [⟨Op.pushb.toByte, 0, 0⟩, ⟨Op.pushb.toByte, 0, 0⟩, longOp 0x4b#8]) 2 = .ok (t, i, n) ∧
    ¬ SoundLong lib (fun _ => True) [⟨Op.pushb.toByte, 0, 0⟩, ⟨Op.pushb.toByte, 0, 0⟩, longOp 0x4b#8]
      (insnsOf t) := by
  cases lib
  subst hlib
  exact ⟨_, _, _, rfl,
    not_soundLong (s := vmWith 0 7) (v := (none, 22#16, 0#16, 7#16))
      (v' := (none, 20#16, 7#16, 0#16)) (vmWith_roomy _ _) trivial rfl rfl (by decide)⟩

/-- The optimizer computes with the signed numbers of the host: it has undefined behaviour when the
program divides by the constant 0, also in a part of the program that is never executed. -/
theorem C62_violation_overflow :
    longBinaryStep (window [⟨Op.pushb.toByte, 1, 0⟩, ⟨Op.pushb.toByte, 0, 0⟩, ⟨Op.pushb.toByte, 0, 0⟩,
      ⟨Op.pushb.toByte, 0, 0⟩, longOp 0x49#8]) 4 = .ub ∧
    longUnaryStep (window [⟨Op.push.toByte, 0, 0⟩, ⟨Op.push.toByte, 0, 0x8000#16⟩, longOp 0x41#8]) 2 = .ub :=
  ⟨rfl, rfl⟩

/-- Of two different constants the optimizer finds the one less than the other exactly when the machine
does not, and the same with greater. -/
theorem C62_violation_folded_order (k j : BitVec 32) (hne : k ≠ j) (s : VM) :
    (∀ c, c = 0x58#8 ∨ c = 0x59#8 ∨ c = 0x5a#8 ∨ c = 0x5b#8 → ∃ g, longOps8 s c = cmp32 s g ∧
      longCompare c k j = some !(g j k)) := by
  have hne : k.toInt ≠ j.toInt := fun h => hne (BitVec.eq_of_toInt_eq h)
  rintro c (rfl | rfl | rfl | rfl)
  · refine ⟨fun a b => decide (a.toInt < b.toInt), rfl, congrArg some ?_⟩
    show decide (k.toInt < j.toInt) = !decide (j.toInt < k.toInt)
    rw [← decide_not]; exact decide_eq_decide.2 (by omega)
  · refine ⟨fun a b => decide (a.toInt ≥ b.toInt), rfl, congrArg some ?_⟩
    show decide (k.toInt ≥ j.toInt) = !decide (j.toInt ≥ k.toInt)
    rw [← decide_not]; exact decide_eq_decide.2 (by omega)
  · refine ⟨fun a b => decide (a.toInt > b.toInt), rfl, congrArg some ?_⟩
    show decide (k.toInt > j.toInt) = !decide (j.toInt > k.toInt)
    rw [← decide_not]; exact decide_eq_decide.2 (by omega)
  · refine ⟨fun a b => decide (a.toInt ≤ b.toInt), rfl, congrArg some ?_⟩
    show decide (k.toInt ≤ j.toInt) = !decide (j.toInt ≤ k.toInt)
    rw [← decide_not]; exact decide_eq_decide.2 (by omega)

/-! The hypotheses are met: `-x` of the constant 70000, `x + 1`, `x = 1`, `300000 div 7`, `70000 << 3`. -/

def k70000 : List OpType := [⟨Op.push.toByte, 0, 4464#16⟩, ⟨Op.pushb.toByte, 1, 0⟩]

example : LongOk 0x41#8 70000#32 ∧ LongOk 0x46#8 1#32 ∧ LongOk 0x56#8 1#32 := by
  refine ⟨?_, ?_, ?_⟩ <;>
    exact ⟨by decide, by decide, by decide, by decide, by decide, by decide, by decide, by decide⟩

example : constLong ⟨Op.push.toByte, 0, 4464#16⟩ ⟨Op.pushb.toByte, 1, 0⟩ = 70000#32 ∧
    (match longUnaryStep (window (k70000 ++ [longOp 0x41#8])) 2 with
      | .ok (t, _, _) => insnsOf t
      | _ => []) = [pushOf 0xee90#16, pushOf 0xfffe#16, nop] ∧
    (match longUnaryStep (window [⟨Op.pushb.toByte, 1, 0⟩, ⟨Op.pushb.toByte, 0, 0⟩, longOp 0x46#8]) 2 with
      | .ok (t, _, _) => insnsOf t
      | _ => []) = [nop, nop, longOp 0x43#8] ∧
    (match longUnaryStep (window [⟨Op.pushb.toByte, 1, 0⟩, ⟨Op.pushb.toByte, 0, 0⟩, longOp 0x56#8]) 2 with
      | .ok (t, _, _) => insnsOf t
      | _ => []) = [nop, longOp 0x44#8, longOp 0x50#8] := by decide +kernel

example : BinaryOk 0x49#8 ∧
    (match longBinaryStep (window (k70000 ++ [⟨Op.pushb.toByte, 7, 0⟩, ⟨Op.pushb.toByte, 0, 0⟩, longOp 0x49#8])) 4
      with
      | .ok (t, _, _) => insnsOf t
      | _ => []) = [pushOf 10000#16, pushOf 0#16, nop, nop, nop] ∧
    (match longBinaryStep (window (k70000 ++ [⟨Op.pushb.toByte, 3, 0⟩, longOp 0x4b#8])) 3 with
      | .ok (t, _, _) => insnsOf t
      | _ => []) = [⟨Op.push.toByte, 0, 0x8b80#16⟩, ⟨Op.pushb.toByte, 8, 0⟩, nop, nop] ∧
    (match longUnaryStep (window [⟨Op.push.toByte, 0, 0xfed4#16⟩, longOp 0x5e#8]) 1 with
      | .ok (t, _, _) => insnsOf t
      | _ => []) = [⟨Op.push.toByte, 0, 0xfed4#16⟩, ⟨Op.pushb.toByte, 0xff, 0⟩] := by
  refine ⟨by unfold BinaryOk; decide, ?_⟩
  decide +kernel

end Pas
