import Verif.Lemmas.OptSteps

/-! The loops over 32-bit constants and over strings. -/
namespace Pas.Popt

theorem isLong_op {x : OpType} (h : isLong x = true) : x.op = Op.longop8.toByte := by
  unfold isLong at h; exact beq_iff_eq.mp h

theorem wt_long {x : OpType} (h : isLong x = true) : wt x = 4 + (if longMul x.arg1 = true then 1 else 0) := by
  unfold wt
  rw [h, isLong_op h, Op.ofByte_toByte]
  simp [wtOp]

theorem out_long {xs : List OpType} {x : OpType} (hx : x ∈ xs) (h : isLong x = true) {c : Byte}
    (hc : c.toNat < 0xc0) : Out xs ⟨x.op, c, x.arg2⟩ := by
  refine ⟨Or.inl ⟨x, hx, rfl⟩, fun hj => ?_⟩
  exfalso
  unfold isJump at hj
  rw [show (⟨x.op, c, x.arg2⟩ : OpType).op = Op.longop8.toByte from isLong_op h,
    Op.ofByte_toByte] at hj
  simp only [Option.map_some, Option.getD_some, jumpOp, Bool.false_or, Bool.and_eq_true,
    decide_eq_true_eq] at hj
  omega

/-- What is known of the actions of `popt_LongUnaryOptimize`. -/
def ActOk (code : Byte) : LongAct → Prop
  | .only c => longMul c = false ∧ c.toNat < 0xc0
  | .two d1 d2 => longMul d1 = false ∧ d1.toNat < 0xc0 ∧ longMul d2 = false ∧ d2.toNat < 0xc0
  | .shift c _ => longMul code = true ∧ longMul c = false ∧ c.toNat < 0xc0
  | .jump => 0xc0 ≤ code.toNat
  | _ => True

theorem actOk_cmp (code : Byte) (v : Long) (z : Byte) (hz : longMul z = false ∧ z.toNat < 0xc0) :
    ActOk code (longCmp v z) := by
  unfold longCmp
  split
  · trivial
  · split
    · exact ⟨rfl, by decide, hz⟩
    · split
      · exact ⟨rfl, by decide, hz⟩
      · trivial

theorem actOk_power (code : Byte) (v : Long) (x : Word) (c : Byte) (h : longMul code = true)
    (hc : longMul c = false ∧ c.toNat < 0xc0) : ActOk code (longPower v x c) := by
  unfold longPower
  split
  · trivial
  · split
    · exact ⟨h, hc⟩
    · trivial

theorem actOk_truth (code : Byte) (b : Bool) : ActOk code (longTruth b) := trivial

theorem actOk_jump (code : Byte) (b : Bool) (h : 0xc0 ≤ code.toNat) : ActOk code (longJump b) := by
  unfold longJump
  split
  · exact h
  · trivial

theorem longMul_of {code : Byte} (h : code.toNat = 0x48 ∨ code.toNat = 0x61 ∨ code.toNat = 0x49 ∨
    code.toNat = 0x62) : longMul code = true := by
  have key : ∀ b : Byte, (b.toNat = 0x48 ∨ b.toNat = 0x61 ∨ b.toNat = 0x49 ∨ b.toNat = 0x62) →
    longMul b = true := by decide +kernel
  exact key code h

theorem signed_act {r : Int} {act : LongAct} {code : Byte}
    (h : (do pure (LongAct.const (← signed32 r)) : Res LongAct) = .ok act) : ActOk code act := by
  rw [Res.bind_eq_ok] at h
  obtain ⟨_, _, h⟩ := h
  cases h
  trivial

theorem longUnary_act {code : Byte} {v : Long} {x : Word} {act : LongAct}
    (h : longUnary code v x = .ok act) : ActOk code act := by
  unfold longUnary at h
  split at h
  case h_2 => exact signed_act h
  case h_3 =>
    split at h
    · exact signed_act h
    · cases h; trivial
  case h_7 => cases h; (repeat' split) <;> first | trivial | exact ⟨rfl, by decide⟩
  case h_8 => cases h; (repeat' split) <;> first | trivial | exact ⟨rfl, by decide⟩
  all_goals first
    | (cases h; first
        | (trivial; done)
        | exact actOk_truth _ _
        | exact actOk_cmp _ _ _ ⟨rfl, by decide⟩
        | exact actOk_power _ _ _ _ (longMul_of (by omega)) ⟨rfl, by decide⟩
        | exact actOk_jump _ _ (by omega)
        | (split <;> trivial))

theorem out2_nop {a b : OpType} (ha : a.op ≠ Op.nop.toByte) : Out2 a b nop nop :=
  ⟨out_nop, out_nop, by have := wt_pos ha; rw [wt_nop]; omega⟩

theorem longBack_good {t0 t : Table} {i n : Nat} {r : Step} (hi : 1 ≤ i) (hc : Chg t0 t)
    (hm : meas t < meas t0 ∨ (meas t = meas t0 ∧ n = 0)) (h : longBack t i = .ok r) :
    Good t0 i (r.1, r.2.1, n + r.2.2) := by
  unfold longBack at h
  obtain ⟨j, rfl⟩ : ∃ j, i = j + 1 := ⟨i - 1, by omega⟩
  rw [Nat.add_sub_cancel] at h
  cases hx : get t (j + 1) with
  | none => rw [hx] at h; cases h
  | some x =>
    cases hy : get t j with
    | none => rw [hx, hy] at h; cases h
    | some y =>
      rw [hx, hy] at h
      dsimp only at h
      split at h
      · cases h
        obtain ⟨_, hp⟩ := get_at hy
        obtain ⟨h1, h2⟩ := put2_less hy hx (out2_nop hp.nop)
        refine Good.less (hc.trans h1) ?_ (Still.refl _) (Nat.le_succ _)
        rcases hm with hm | hm <;> omega
      · cases h
        rcases hm with hm | hm
        · exact Good.less hc hm (Still.refl _) (Nat.le_succ _)
        · exact ⟨hc, Nat.le_of_eq hm.1, Or.inr ⟨Nat.lt_succ_self _, hm.2⟩, Nat.le_succ _⟩

theorem longTail_good {t0 t : Table} {i n : Nat} {r : Step} (hc : Chg t0 t)
    (hm : meas t < meas t0 ∨ (meas t = meas t0 ∧ n = 0)) (h : longTail t i n = .ok r) :
    Good t0 i r := by
  unfold longTail at h
  split at h
  · cases h
  · next hi =>
    dsimp only at h
    have hs : Still t (optAt (optAt t (i - 1)) (i - 2)) := (optAt_still _ _).trans (optAt_still _ _)
    have hc' := hc.trans hs.chg
    have hm' : meas (optAt (optAt t (i - 1)) (i - 2)) < meas t0 ∨
        (meas (optAt (optAt t (i - 1)) (i - 2)) = meas t0 ∧ n = 0) := by rw [hs.meas]; exact hm
    have idle : Good t0 i (optAt (optAt t (i - 1)) (i - 2), i + 1, n) := by
      rcases hm' with hm' | hm'
      · exact Good.less hc' hm' (Still.refl _) (Nat.le_succ _)
      · exact ⟨hc', Nat.le_of_eq hm'.1, Or.inr ⟨Nat.lt_succ_self _, hm'.2⟩, Nat.le_succ _⟩
    split at h
    · cases h; exact idle
    · split at h
      · rw [Res.bind_eq_ok] at h
        obtain ⟨⟨t', i', k⟩, hb, h⟩ := h
        cases h
        exact longBack_good (by omega) hc' hm' hb
      · cases h; exact idle

/-- A listed instruction deleted. -/
theorem putAt_nop {t : Table} {i p : Nat} (h : (vis t)[i]? = some p) :
    Chg t (putAt t p nop) ∧ meas (putAt t p nop) ≤ meas t := by
  obtain ⟨x, hx, hf, hn⟩ := vis_get h
  have e := ops_putAt t p nop
  refine ⟨?_, ?_⟩
  · unfold Chg; rw [e]
    exact Edit.set (ops_get hx) hf rfl out_nop
  · have := mu_set nop 0 (ops_get hx)
    unfold meas; rw [e]
    rw [m_nop] at this
    omega

theorem wt_pushOf (w : Word) : wt (pushOf w) = 3 := wt_push rfl

theorem longApply_good {t : Table} {j : Nat} {z y x : OpR} (hz : get t j = some z)
    (hy : get t (j + 1) = some y) (hx : get t (j + 2) = some x) (pz : isPush z.ins = true)
    (py : isPush y.ins = true) (lx : isLong x.ins = true) {v : Long} {act : LongAct}
    (ok : ActOk x.ins.arg1 act) {r : Step} (h : longApply t (j + 2) x.ins v act = .ok r) :
    Good t (j + 2) r := by
  have wz := wt_push pz
  have wy := wt_push py
  have wx := wt_long lx
  have wc : ∀ c : Byte, wt ⟨x.ins.op, c, x.ins.arg2⟩ = 4 + (if longMul c = true then 1 else 0) :=
    fun c => wt_long (x := ⟨x.ins.op, c, x.ins.arg2⟩) lx
  have op : ∀ {w : Word} {xs : List OpType}, Out xs (pushOf w) := push_made rfl
  unfold longApply at h
  rw [Nat.add_sub_cancel] at h
  dsimp only at h
  cases act with
  | none =>
    have hs := put3_still hz hy hx (a' := pushOf (word0 v)) (b' := pushOf (word1 v)) pz py rfl rfl
      (Or.inl rfl)
    exact longTail_good hs.chg (Or.inr ⟨hs.meas, rfl⟩) h
  | const v' =>
    cases h
    obtain ⟨h1, h2⟩ := put3_less hz hy hx (a' := pushOf (word0 v')) (b' := pushOf (word1 v')) (c' := nop)
      ⟨op, op, out_nop, by rw [wt_pushOf, wt_pushOf, wt_nop]; omega⟩
    exact Good.less h1 h2 (Still.refl _) (Nat.le_refl _)
  | drop =>
    cases h
    obtain ⟨h1, h2⟩ := put3_less hz hy hx (a' := nop) (b' := nop) (c' := nop)
      ⟨out_nop, out_nop, out_nop, by rw [wt_nop]; omega⟩
    exact Good.less h1 h2 (Still.refl _) (Nat.le_refl _)
  | only c =>
    obtain ⟨k1, k2⟩ := ok
    have hw := wc c
    rw [k1] at hw
    simp only [Bool.false_eq_true, if_false] at hw
    obtain ⟨h1, h2⟩ := put3_less hz hy hx (a' := nop) (b' := nop) (c' := ⟨x.ins.op, c, x.ins.arg2⟩)
      ⟨out_nop, out_nop, out_long m3 lx k2, by rw [wt_nop]; omega⟩
    exact longTail_good h1 (Or.inl h2) h
  | narrow =>
    obtain ⟨h1, h2⟩ := put3_less hz hy hx (a' := pushOf (word0 v)) (b' := nop) (c' := x.ins)
      ⟨op, out_nop, out_same m3, by rw [wt_nop, wt_pushOf]; omega⟩
    dsimp only at h
    split at h
    · next p hp =>
      cases h
      obtain ⟨h3, h4⟩ := putAt_nop hp
      exact Good.less (h1.trans h3) (by omega) (Still.refl _) (Nat.le_refl _)
    · cases h
  | first =>
    cases h
    obtain ⟨h1, h2⟩ := put3_less hz hy hx (a' := pushOf (word0 v)) (b' := nop) (c' := nop)
      ⟨op, out_nop, out_nop, by rw [wt_nop, wt_pushOf]; omega⟩
    exact Good.less h1 h2 (Still.refl _) (Nat.le_refl _)
  | two d1 d2 =>
    obtain ⟨k1, k2, k3, k4⟩ := ok
    have hw := wc d2
    rw [k3] at hw
    simp only [Bool.false_eq_true, if_false] at hw
    have hw1 : wt ⟨Op.longop8.toByte, d1, 0⟩ = 4 := by rw [wt_long rfl]; simp [k1]
    have o1 : Out [z.ins, y.ins, x.ins] ⟨Op.longop8.toByte, d1, 0⟩ := by
      refine ⟨Or.inl ⟨x.ins, m3, isLong_op lx⟩, fun hj => ?_⟩
      exfalso
      unfold isJump at hj
      rw [Op.ofByte_toByte] at hj
      simp only [Option.map_some, Option.getD_some, jumpOp, Bool.false_or, Bool.and_eq_true,
        decide_eq_true_eq] at hj
      omega
    obtain ⟨h1, h2⟩ := put3_less hz hy hx (a' := nop) (b' := ⟨Op.longop8.toByte, d1, 0⟩)
      (c' := ⟨x.ins.op, d2, x.ins.arg2⟩)
      ⟨out_nop, o1, out_long m3 lx k4, by rw [wt_nop, hw1]; omega⟩
    exact longTail_good h1 (Or.inl h2) h
  | shift c w =>
    obtain ⟨k1, k2, k3⟩ := ok
    have hw := wc c
    rw [k2] at hw
    rw [k1] at wx
    simp only [Bool.false_eq_true, if_false, if_true] at hw wx
    obtain ⟨h1, h2⟩ := put3_less hz hy hx (a' := pushOf (word0 v)) (b' := pushOf w)
      (c' := ⟨x.ins.op, c, x.ins.arg2⟩)
      ⟨op, op, out_long m3 lx k3, by rw [wt_pushOf, wt_pushOf]; omega⟩
    exact longTail_good h1 (Or.inl h2) h
  | jump =>
    cases h
    have ok : 0xc0 ≤ x.ins.arg1.toNat := ok
    have o1 : Out [z.ins, y.ins, x.ins] { x.ins with op := Op.jmp.toByte, arg1 := 0 } := by
      refine ⟨Or.inr (made_of_op (o := .jmp) rfl), fun _ => ⟨x.ins, m3, ?_, rfl⟩⟩
      unfold isJump
      rw [lx, decide_eq_true ok]
      simp
    have hw : wt { x.ins with op := Op.jmp.toByte, arg1 := 0 } = 3 := wt_of_op (o := .jmp) rfl (by decide)
    obtain ⟨h1, h2⟩ := put3_less hz hy hx (a' := nop) (b' := nop)
      (c' := { x.ins with op := Op.jmp.toByte, arg1 := 0 })
      ⟨out_nop, out_nop, o1, by rw [wt_nop, hw]; omega⟩
    exact Good.less h1 h2 (Still.refl _) (Nat.le_succ _)

theorem isPush_opt {i : OpType} (h : isPush i = true) : isPush (optimizePush i) = true := by
  rcases same_opt i with e | e
  · rw [e]; exact h
  · exact e.2

theorem longUnaryStep_good {t : Table} {i : Nat} {r : Step} (hi : 1 ≤ i)
    (h : longUnaryStep t i = .ok r) : Good t i r := by
  unfold longUnaryStep at h
  obtain ⟨j, rfl⟩ : ∃ j, i = j + 1 := ⟨i - 1, by omega⟩
  rw [Nat.add_sub_cancel] at h
  cases hy : get t j with
  | none => rw [hy] at h; cases h
  | some y =>
    cases hx : get t (j + 1) with
    | none => rw [hx, hy] at h; cases h
    | some x =>
      rw [hx, hy] at h
      dsimp only at h
      by_cases lx : isLong x.ins = true
      · rw [if_pos lx] at h
        by_cases py : isPush y.ins = true
        · rw [if_pos py] at h
          have wy := wt_push py
          have wx := wt_long lx
          have cnv : ∀ v : Long, Good t (j + 1)
              (put2 t j (optimizePush (pushOf (word0 v))) (optimizePush (pushOf (word1 v))), j + 1 + 1, 0) := by
            intro v
            have q0 : isPush (optimizePush (pushOf (word0 v))) = true := isPush_opt rfl
            have q1 : isPush (optimizePush (pushOf (word1 v))) = true := isPush_opt rfl
            obtain ⟨h1, h2⟩ := put2_less hy hx
              (⟨push_made q0, push_made q1, by rw [wt_push q0, wt_push q1]; omega⟩ :
                Out2 y.ins x.ins (optimizePush (pushOf (word0 v))) (optimizePush (pushOf (word1 v))))
            exact Good.less h1 h2 (Still.refl _) (Nat.le_succ _)
          split at h
          · cases h; exact cnv _
          · split at h
            · cases h; exact cnv _
            · split at h
              · exact longTail_good (Chg.refl t) (Or.inr ⟨rfl, rfl⟩) h
              · next hj =>
                obtain ⟨k, rfl⟩ : ∃ k, j = k + 1 := ⟨j - 1, by omega⟩
                rw [show k + 1 + 1 - 2 = k by omega] at h
                cases hz : get t k with
                | none => rw [hz] at h; cases h
                | some z =>
                  rw [hz] at h
                  dsimp only at h
                  split at h
                  · next pz =>
                    rw [Res.bind_eq_ok] at h
                    obtain ⟨act, ha, h⟩ := h
                    exact longApply_good hz hy hx pz py lx (longUnary_act ha) h
                  · exact longTail_good (Chg.refl t) (Or.inr ⟨rfl, rfl⟩) h
        · rw [if_neg py] at h
          have := longBack_good (by omega) (Chg.refl t) (Or.inr ⟨rfl, rfl⟩) h (n := 0)
          rwa [Nat.zero_add] at this
      · rw [if_neg lx] at h
        cases h
        exact Good.idle (Still.refl t)

theorem pushAt_get {t : Table} {i : Nat} {w : Word} (h : pushAt t i = some w) :
    ∃ x, get t i = some x ∧ isPush x.ins = true := by
  unfold pushAt at h
  split at h
  · next x hx =>
    split at h
    · next hp => exact ⟨x, hx, hp⟩
    · cases h
  · cases h

theorem longShiftStep_good {t0 t : Table} {i : Nat} {x : OpType} {r : Step} (hs0 : Still t0 t)
    (hi : i < count t) (h : longShiftStep t i x = .ok r) : Good t0 i r := by
  unfold longShiftStep at h
  split at h
  · cases h; exact Good.idle hs0
  · next h3 =>
    obtain ⟨j, rfl⟩ : ∃ j, i = j + 3 := ⟨i - 3, by omega⟩
    rw [show j + 3 - 3 = j by omega, show j + 3 - 2 = j + 1 by omega,
      show j + 3 - 1 = j + 2 by omega] at h
    split at h
    · next k0 k1 w e0 e1 e2 =>
      obtain ⟨a, ha, pa⟩ := pushAt_get e0
      obtain ⟨b, hb, pb⟩ := pushAt_get e1
      obtain ⟨c, hc, pc⟩ := pushAt_get e2
      rw [Res.bind_eq_ok] at h
      obtain ⟨o, _, h⟩ := h
      cases o with
      | some v =>
        cases h
        have hs := put2_still ha hb (a' := pushOf (word0 v)) (b' := pushOf (word1 v)) pa pb rfl rfl
        obtain ⟨y, hy⟩ := get_some (t := put2 t j (pushOf (word0 v)) (pushOf (word1 v)))
          (i := j + 2) (by rw [hs.count]; omega)
        obtain ⟨z, hz⟩ := get_some (t := put2 t j (pushOf (word0 v)) (pushOf (word1 v)))
          (i := j + 2 + 1) (by rw [hs.count]; omega)
        obtain ⟨_, hp⟩ := get_at hy
        obtain ⟨h1, h2⟩ := put2_less hy hz (out2_nop hp.nop)
        refine Good.less ((hs0.trans hs).chg.trans h1) ?_
          (((optAt_still _ _).trans (optAt_still _ _)).trans (optAt_still _ _)) (Nat.le_succ _)
        rw [← (hs0.trans hs).meas]; exact h2
      | none =>
        cases h
        have hs := put3_still ha hb hc (a' := pushOf k0) (b' := pushOf k1) (c' := pushOf w) pa pb
          rfl rfl (Or.inr ⟨pc, rfl⟩)
        exact Good.idle ((hs0.trans hs).trans
          (((optAt_still _ _).trans (optAt_still _ _)).trans (optAt_still _ _)))
    · cases h; exact Good.idle hs0

/-- Two constants, or nothing, written over listed instructions. -/
theorem put2_push (t : Table) (i : Nat) {a' b' : OpType} (ha' : wt a' ≤ 3 ∧ Out [] a')
    (hb' : wt b' ≤ 3 ∧ Out [] b') :
    Chg t (put2 t i a' b') ∧ meas (put2 t i a' b') ≤ meas t + 288 := by
  cases ha : get t i with
  | none =>
    have : put2 t i a' b' = t := by
      unfold get at ha
      unfold put2
      split at ha
      · next p hp =>
        obtain ⟨x, hx, _⟩ := vis_get hp
        rw [hx] at ha; cases ha
      · next hp =>
        rw [hp]
    rw [this]; exact ⟨Chg.refl t, by omega⟩
  | some a =>
    cases hb : get t (i + 1) with
    | none =>
      have : put2 t i a' b' = t := by
        unfold get at hb
        unfold put2
        split at hb
        · next p hp =>
          obtain ⟨x, hx, _⟩ := vis_get hp
          rw [hx] at hb; cases hb
        · next hp =>
          rw [hp]
          cases (vis t)[i]? <;> rfl
      rw [this]; exact ⟨Chg.refl t, by omega⟩
    | some b =>
      have mo : ∀ {y}, Out [] y → Out [a.ins, b.ins] y := fun h => mono_out h (by simp)
      obtain ⟨h, p, q, _, _, e⟩ := put2_chg ha hb (mo ha'.2) (mo hb'.2)
      refine ⟨h, ?_⟩
      obtain ⟨_, hp⟩ := get_at ha
      obtain ⟨_, hq⟩ := get_at hb
      have w1 := wt_pos hp.nop
      have w2 := wt_pos hq.nop
      have h1 := m_le p a'
      have h2 := m_le q b'
      have h3 := m_ge p a.ins
      have h4 := m_ge q b.ins
      omega

theorem put3_gone {t : Table} {j : Nat} {a b c : OpR} (ha : get t j = some a)
    (hb : get t (j + 1) = some b) (hc : get t (j + 2) = some c) (pa : isPush a.ins = true)
    (pb : isPush b.ins = true) (lc : isLong c.ins = true) {c' : OpType}
    (hc' : wt c' ≤ 3 ∧ Out [] c') :
    Chg t (put3 t j nop nop c') ∧ meas (put3 t j nop nop c') + 288 < meas t := by
  obtain ⟨h, p, q, r, _, _, _, e⟩ := put3_chg ha hb hc (a' := nop) (b' := nop) (c' := c') out_nop
    out_nop (mono_out hc'.2 (by simp))
  refine ⟨h, ?_⟩
  have wa := wt_push pa
  have wb := wt_push pb
  have wc := wt_long lc
  have h1 := m_ge p a.ins
  have h2 := m_ge q b.ins
  have h3 := m_ge r c.ins
  have h4 := m_le r c'
  rw [m_nop, m_nop] at e
  omega

theorem longBinaryStep_good {t : Table} {i : Nat} {r : Step} (h : longBinaryStep t i = .ok r) :
    Good t i r := by
  unfold longBinaryStep at h
  cases hx : get t i with
  | none => rw [hx] at h; cases h
  | some x =>
    rw [hx] at h
    dsimp only at h
    have hcount := get_not_none hx
    by_cases lx : isLong x.ins = true
    · rw [if_pos lx] at h
      split at h
      · exact longShiftStep_good (Still.refl t) hcount h
      · next h4 =>
        obtain ⟨j, rfl⟩ : ∃ j, i = j + 4 := ⟨i - 4, by omega⟩
        rw [show j + 4 - 4 = j by omega, show j + 4 - 3 = j + 1 by omega,
          show j + 4 - 2 = j + 2 by omega, show j + 4 - 1 = j + 3 by omega] at h
        split at h
        · next k0 k1 j0 j1 e0 e1 e2 e3 =>
          obtain ⟨a, ha, pa⟩ := pushAt_get e0
          obtain ⟨b, hb, pb⟩ := pushAt_get e1
          obtain ⟨c, hc, pc⟩ := pushAt_get e2
          obtain ⟨d, hd, pd⟩ := pushAt_get e3
          have pw : ∀ {i : OpType}, isPush i = true → wt i ≤ 3 ∧ Out [] i := fun h =>
            ⟨Nat.le_of_eq (wt_push h), push_made h⟩
          have nw : wt nop ≤ 3 ∧ Out [] nop := ⟨by decide, out_nop⟩
          rw [Res.bind_eq_ok] at h
          obtain ⟨o, _, h⟩ := h
          cases o with
          | some v =>
            cases h
            obtain ⟨g1, g2⟩ := put3_gone hc hd hx pc pd lx nw
            obtain ⟨g3, g4⟩ := put2_push (put3 t (j + 2) nop nop nop) j
              (a' := pushOf (word0 v)) (b' := pushOf (word1 v)) (pw rfl) (pw rfl)
            exact Good.less (g1.trans g3) (by omega) (Still.refl _) (Nat.le_succ _)
          | none =>
            dsimp only at h
            split at h
            · next bv _ =>
              cases h
              have pt : isPush (optimizePush (pushOf (truth bv))) = true := isPush_opt rfl
              obtain ⟨g1, g2⟩ := put3_gone hc hd hx pc pd lx (pw pt)
              obtain ⟨g3, g4⟩ := put2_push (put3 t (j + 2) nop nop (optimizePush (pushOf (truth bv)))) j
                (a' := nop) (b' := nop) nw nw
              exact Good.less (g1.trans g3) (by omega) (Still.refl _) (Nat.le_refl _)
            · have s1 := put2_still hc hd (a' := pushOf j0) (b' := pushOf j1) pc pd rfl rfl
              have gone : ∀ n, n < j + 2 → ∀ y, get t n = some y → isPush y.ins = true →
                  ∃ y', get (put2 t (j + 2) (pushOf j0) (pushOf j1)) n = some y' ∧
                    isPush y'.ins = true := by
                intro n hn y hy hp
                obtain ⟨p, hp'⟩ := get_at hy
                obtain ⟨q, hq⟩ := get_at hc
                obtain ⟨q', hq'⟩ := get_at hd
                have l1 := vis_lt hn hp'.vis hq.vis
                have l2 := vis_lt (Nat.lt_succ_self _) hq.vis hq'.vis
                have hv : (vis (put2 t (j + 2) (pushOf j0) (pushOf j1)))[n]? = some p := by
                  rw [s1.vis]; exact hp'.vis
                have ho : (ops (put2 t (j + 2) (pushOf j0) (pushOf j1)))[p]? = some y.ins := by
                  rw [put2_at hq hq']
                  exact set_get_ne _ (by omega) (set_get_ne _ (by omega) (ops_get hp'.tab))
                unfold ops at ho
                rw [List.getElem?_map, Option.map_eq_some_iff] at ho
                obtain ⟨y', hy', e⟩ := ho
                refine ⟨y', ?_, by rw [e]; exact hp⟩
                unfold get; rw [hv]; exact hy'
              obtain ⟨a2, ha2, pa2⟩ := gone j (by omega) a ha pa
              obtain ⟨b2, hb2, pb2⟩ := gone (j + 1) (by omega) b hb pb
              have s2 := put2_still ha2 hb2 (a' := pushOf k0) (b' := pushOf k1) pa2 pb2 rfl rfl
              have s3 := (s1.trans s2).trans
                ((((optAt_still _ (j + 3)).trans (optAt_still _ (j + 2))).trans
                  (optAt_still _ (j + 1))).trans (optAt_still _ j))
              exact longShiftStep_good s3 (by rw [s3.count]; exact hcount) h
        · exact longShiftStep_good (Still.refl t) hcount h
    · rw [if_neg lx] at h
      cases h
      exact Good.idle (Still.refl t)

/-! Outcomes of the loops over 32-bit constants -/

theorem signed32_ne (r : Int) : signed32 r ≠ .hang := by
  unfold signed32; split <;> nofun

theorem longUnary_hang {code : Byte} {v : Long} {x : Word} : longUnary code v x ≠ .hang := by
  intro h
  have sg : ∀ r : Int, (do pure (LongAct.const (← signed32 r)) : Res LongAct) ≠ .hang := by
    intro r h
    cases hs : signed32 r with
    | hang => exact signed32_ne r hs
    | ub => rw [hs] at h; cases h
    | ok w => rw [hs] at h; cases h
  unfold longUnary at h
  split at h
  case h_2 => exact sg _ h
  case h_3 =>
    split at h
    · exact sg _ h
    · cases h
  all_goals cases h

theorem longBack_hang (t : Table) (i : Nat) : longBack t i ≠ .hang := by
  unfold longBack
  split
  · split <;> nofun
  · nofun

theorem longTail_hang (t : Table) (i n : Nat) : longTail t i n ≠ .hang := by
  intro h
  unfold longTail at h
  split at h
  · cases h
  · dsimp only at h
    split at h
    · cases h
    · split at h
      · cases hb : longBack (optAt (optAt t (i - 1)) (i - 2)) i with
        | hang => exact longBack_hang _ _ hb
        | ub => rw [hb] at h; cases h
        | ok r => rw [hb] at h; cases h
      · cases h

theorem longApply_hang (t : Table) (i : Nat) (x : OpType) (v : Long) (act : LongAct) :
    longApply t i x v act ≠ .hang := by
  intro h
  unfold longApply at h
  cases act <;> dsimp only at h
  case none => exact longTail_hang _ _ _ h
  case only => exact longTail_hang _ _ _ h
  case two => exact longTail_hang _ _ _ h
  case shift => exact longTail_hang _ _ _ h
  case narrow => split at h <;> cases h
  all_goals cases h

theorem longUnaryStep_hang (t : Table) (i : Nat) : longUnaryStep t i ≠ .hang := by
  intro h
  unfold longUnaryStep at h
  split at h
  · split at h
    · split at h
      · dsimp only at h
        split at h
        · cases h
        · split at h
          · cases h
          · split at h
            · exact longTail_hang _ _ _ h
            · split at h
              · split at h
                · next z hz hp =>
                  cases ha : longUnary _ _ _ with
                  | hang => exact longUnary_hang ha
                  | ub => rw [ha] at h; cases h
                  | ok act => rw [ha] at h; exact longApply_hang _ _ _ _ _ h
                · exact longTail_hang _ _ _ h
              · cases h
      · exact longBack_hang _ _ h
    · cases h
  · cases h

theorem longShiftStep_hang (t : Table) (i : Nat) (x : OpType) : longShiftStep t i x ≠ .hang := by
  intro h
  unfold longShiftStep at h
  split at h
  · cases h
  · split at h
    · next k0 k1 j _ _ _ =>
      cases hs : longShift x.arg1 (long k0 k1) j with
      | hang =>
        unfold longShift at hs
        split at hs
        · split at hs <;> cases hs
        · split at hs <;> cases hs
        · split at hs <;> cases hs
        · cases hs
      | ub => rw [hs] at h; cases h
      | ok o => rw [hs] at h; cases o <;> cases h
    · cases h

theorem longFold_hang (code : Byte) (k j : Long) : longFold code k j ≠ .hang := by
  intro h
  have sg : ∀ r : Int, (do pure (some (← signed32 r)) : Res (Option Long)) ≠ .hang := by
    intro r h
    cases hs : signed32 r with
    | hang => exact signed32_ne r hs
    | ub => rw [hs] at h; cases h
    | ok w => rw [hs] at h; cases h
  unfold longFold at h
  split at h
  all_goals first
    | (cases h; done)
    | exact sg _ h
    | (split at h
       · cases h
       · first
         | (cases h; done)
         | exact sg _ h)

theorem longBinaryStep_hang (t : Table) (i : Nat) : longBinaryStep t i ≠ .hang := by
  intro h
  unfold longBinaryStep at h
  split at h
  · cases h
  · next x _ =>
    split at h
    · split at h
      · exact longShiftStep_hang _ _ _ h
      · split at h
        · next k0 k1 j0 j1 _ _ _ _ =>
          cases hf : longFold x.ins.arg1 (long k0 k1) (long j0 j1) with
          | hang => exact longFold_hang _ _ _ hf
          | ub => rw [hf] at h; cases h
          | ok o =>
            rw [hf] at h
            cases o with
            | some v => cases h
            | none =>
              dsimp only [Res.ok_bind] at h
              split at h
              · cases h
              · exact longShiftStep_hang _ _ _ h
        · exact longShiftStep_hang _ _ _ h
    · cases h

theorem longUnaryStep_ub {t : Table} {i : Nat} (hi : i < count t)
    (h : longUnaryStep t i = .ub) : ∃ x ∈ ops t, x.op = Op.longop8.toByte := by
  obtain ⟨x, hx⟩ := get_some hi
  obtain ⟨y, hy⟩ := get_some (t := t) (i := i - 1) (by omega)
  obtain ⟨_, hp⟩ := get_at hx
  unfold longUnaryStep at h
  rw [hx, hy] at h
  dsimp only at h
  by_cases lx : isLong x.ins = true
  · exact ⟨x.ins, hp.mem, isLong_op lx⟩
  · rw [if_neg lx] at h; cases h

theorem longBinaryStep_ub {t : Table} {i : Nat} (hi : i < count t)
    (h : longBinaryStep t i = .ub) : ∃ x ∈ ops t, x.op = Op.longop8.toByte := by
  obtain ⟨x, hx⟩ := get_some hi
  obtain ⟨_, hp⟩ := get_at hx
  unfold longBinaryStep at h
  rw [hx] at h
  dsimp only at h
  by_cases lx : isLong x.ins = true
  · exact ⟨x.ins, hp.mem, isLong_op lx⟩
  · rw [if_neg lx] at h; cases h

/-! ### Strings -/

theorem stringStep_good {t : Table} {i : Nat} {r : Step} (h : stringStep t i = .ok r) : Good t i r := by
  unfold stringStep at h
  cases ha : get t i with
  | none => rw [ha] at h; cases h
  | some a =>
    cases hb : get t (i + 1) with
    | none => rw [ha, hb] at h; cases h
    | some b =>
      cases hc : get t (i + 2) with
      | none => rw [ha, hb, hc] at h; cases h
      | some c =>
        rw [ha, hb, hc] at h
        dsimp only at h
        have del : ∀ k, Good t i (adjust t (i + 1) (fun _ => nop), i + 1, k) := by
          intro k
          obtain ⟨p, hp⟩ := get_at hb
          have e := ops_adjust hp (fun _ => nop)
          have hm := mu_set nop 0 (ops_get hp.tab)
          have hw := wt_pos hp.nop
          have hg := m_ge (0 + p) b.ins
          rw [m_nop] at hm
          have hlt : meas (adjust t (i + 1) fun _ => nop) < meas t := by
            unfold meas; rw [e]; omega
          refine ⟨?_, Nat.le_of_lt hlt, Or.inl hlt, Nat.le_succ _⟩
          unfold Chg; rw [e]
          exact Edit.set (ops_get hp.tab) hp.fix rfl out_nop
        have idle : Good t i (t, i + 1, 0) := Good.idle (Still.refl t)
        repeat' split at h
        all_goals (cases h; first | exact del _ | exact idle)

theorem stringStep_ne {t : Table} {i : Nat} (hi : i + 2 < count t) :
    stringStep t i ≠ .hang ∧ stringStep t i ≠ .ub := by
  obtain ⟨a, ha⟩ := get_some (t := t) (i := i) (by omega)
  obtain ⟨b, hb⟩ := get_some (t := t) (i := i + 1) (by omega)
  obtain ⟨c, hc⟩ := get_some hi
  unfold stringStep
  rw [ha, hb, hc]
  dsimp only
  constructor <;> (repeat' split) <;> nofun

end Pas.Popt
