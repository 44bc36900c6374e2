import Verif.Lemmas.OptTable

/-! Every iteration of the loops of the optimizer either makes the window lighter or goes on
without counting a change. -/
namespace Pas.Popt

/-- What an iteration at index `i` does. -/
structure Good (t : Table) (i : Nat) (r : Step) : Prop where
  chg : Chg t r.1
  le : meas r.1 ≤ meas t
  prog : meas r.1 < meas t ∨ (i < r.2.1 ∧ r.2.2 = 0)
  mono : i ≤ r.2.1

theorem Good.idle {t t' : Table} {i : Nat} (h : Still t t') : Good t i (t', i + 1, 0) :=
  ⟨h.chg, Nat.le_of_eq h.meas, Or.inr ⟨Nat.lt_succ_self i, rfl⟩, Nat.le_succ i⟩

theorem Good.less {t t' t'' : Table} {i i' k : Nat} (hc : Chg t t') (h : meas t' < meas t)
    (hs : Still t' t'') (hi : i ≤ i') : Good t i (t'', i', k) :=
  have : meas t'' < meas t := by rw [hs.meas]; exact h
  ⟨hc.trans hs.chg, Nat.le_of_lt this, Or.inl this, hi⟩

theorem unaryStep_good {t : Table} {i : Nat} {r : Step} (h : unaryStep t i = .ok r) : Good t i r := by
  unfold unaryStep at h
  cases ha : get t i with
  | none => rw [ha] at h; cases h
  | some a =>
    cases hb : get t (i + 1) with
    | none => rw [ha, hb] at h; cases h
    | some b =>
      rw [ha, hb] at h
      dsimp only at h
      cases hr : unaryRule a.ins b.ins with
      | next =>
        rw [hr] at h
        cases h
        refine Good.idle ?_
        split
        · exact adjust_still t i same_re
        · exact Still.refl t
      | rewrite ab =>
        obtain ⟨a', b'⟩ := ab
        rw [hr] at h
        cases h
        obtain ⟨_, hq⟩ := get_at hb
        obtain ⟨h1, h2⟩ := put2_less ha hb (unaryRule_out hq.nop hr)
        refine Good.less h1 h2 ?_ (Nat.le_refl i)
        split
        · exact optAt_still _ i
        · exact Still.refl _
      | stuck => exact absurd hr (unaryRule_not_stuck _ _)

theorem unaryStep_ne {t : Table} {i : Nat} (hi : i + 1 < count t) :
    unaryStep t i ≠ .hang ∧ unaryStep t i ≠ .ub := by
  obtain ⟨a, ha⟩ := get_some (t := t) (i := i) (by omega)
  obtain ⟨b, hb⟩ := get_some hi
  unfold unaryStep
  rw [ha, hb]
  dsimp only
  cases hr : unaryRule a.ins b.ins with
  | next => exact ⟨nofun, nofun⟩
  | rewrite ab => exact ⟨nofun, nofun⟩
  | stuck => exact absurd hr (unaryRule_not_stuck _ _)

theorem branchStep_good {t : Table} {i : Nat} {r : Step} (h : branchStep t i = .ok r) : Good t i r := by
  unfold branchStep at h
  cases ha : get t i with
  | none => rw [ha] at h; cases h
  | some a =>
    cases hb : get t (i + 1) with
    | none => rw [ha, hb] at h; cases h
    | some b =>
      rw [ha, hb] at h
      dsimp only at h
      cases hr : branchRule a.ins b.ins with
      | next =>
        rw [hr] at h
        cases h
        exact Good.idle (Still.refl t)
      | rewrite ab =>
        obtain ⟨a', b'⟩ := ab
        rw [hr] at h
        cases h
        obtain ⟨_, hp⟩ := get_at ha
        obtain ⟨h1, h2⟩ := put2_less ha hb (branchRule_out hp.nop hr)
        exact Good.less h1 h2 (Still.refl _) (Nat.le_refl i)
      | stuck => exact absurd hr (branchRule_not_stuck _ _)

theorem branchStep_ne {t : Table} {i : Nat} (hi : i + 1 < count t) :
    branchStep t i ≠ .hang ∧ branchStep t i ≠ .ub := by
  obtain ⟨a, ha⟩ := get_some (t := t) (i := i) (by omega)
  obtain ⟨b, hb⟩ := get_some hi
  unfold branchStep
  rw [ha, hb]
  dsimp only
  cases hr : branchRule a.ins b.ins with
  | next => exact ⟨nofun, nofun⟩
  | rewrite ab => exact ⟨nofun, nofun⟩
  | stuck => exact absurd hr (branchRule_not_stuck _ _)

theorem stackStep_good {t : Table} {i : Nat} {r : Step} (h : stackStep t i = .ok r) : Good t i r := by
  unfold stackStep at h
  cases ha : get t i with
  | none => rw [ha] at h; cases h
  | some a =>
    cases hb : get t (i + 1) with
    | none => rw [ha, hb] at h; cases h
    | some b =>
      cases hc : get t (i + 2) with
      | none => rw [ha, hb, hc] at h; cases h
      | some c =>
        rw [ha, hb, hc] at h
        dsimp only at h
        cases hr : stackOrderRule a.ins b.ins c.ins with
        | next =>
          rw [hr] at h
          cases h
          exact Good.idle (Still.refl t)
        | rewrite abc =>
          obtain ⟨a', b', c'⟩ := abc
          rw [hr] at h
          cases h
          obtain ⟨_, hp⟩ := get_at ha
          obtain ⟨_, hq⟩ := get_at hb
          obtain ⟨h1, h2⟩ := put3_less ha hb hc (stackOrderRule_out hp.nop hq.nop hr)
          refine Good.less h1 h2 ?_ (Nat.le_refl i)
          split
          · exact swapOff_still _ _
          · exact Still.refl _
        | stuck => exact absurd hr (stackOrderRule_not_stuck _ _ _)

theorem stackStep_ne {t : Table} {i : Nat} (hi : i + 2 < count t) :
    stackStep t i ≠ .hang ∧ stackStep t i ≠ .ub := by
  obtain ⟨a, ha⟩ := get_some (t := t) (i := i) (by omega)
  obtain ⟨b, hb⟩ := get_some (t := t) (i := i + 1) (by omega)
  obtain ⟨c, hc⟩ := get_some hi
  unfold stackStep
  rw [ha, hb, hc]
  dsimp only
  cases hr : stackOrderRule a.ins b.ins c.ins with
  | next => exact ⟨nofun, nofun⟩
  | rewrite ab => exact ⟨nofun, nofun⟩
  | stuck => exact absurd hr (stackOrderRule_not_stuck _ _ _)

theorem put2or3_less {t : Table} {i : Nat} {a b : OpR} (ha : get t i = some a)
    (hb : get t (i + 1) = some b) {a' b' : OpType} {c' : Option OpType}
    (o : OutOpt a.ins b.ins ((get t (i + 2)).map (·.ins)) a' b' c') :
    Chg t (put2or3 t i a' b' c') ∧ meas (put2or3 t i a' b' c') < meas t := by
  cases hc : get t (i + 2) with
  | none =>
    rw [hc] at o
    cases c' with
    | none => exact put2_less ha hb o
    | some _ => exact absurd o id
  | some c =>
    rw [hc] at o
    cases c' with
    | none => exact absurd o id
    | some c' => exact put3_less ha hb hc o

theorem loadStep_good {t : Table} {i : Nat} {r : Step} (h : loadStep t i = .ok r) : Good t i r := by
  unfold loadStep at h
  cases ha : get t i with
  | none => rw [ha] at h; cases h
  | some a =>
    cases hb : get t (i + 1) with
    | none => rw [ha, hb] at h; cases h
    | some b =>
      rw [ha, hb] at h
      dsimp only at h
      cases hr : loadRule a.ins b.ins ((get t (i + 2)).map (·.ins)) with
      | next =>
        rw [hr] at h
        cases h
        exact Good.idle (Still.refl t)
      | rewrite ab =>
        obtain ⟨a', b', c'⟩ := ab
        rw [hr] at h
        cases h
        obtain ⟨h1, h2⟩ := put2or3_less ha hb (loadRule_out hr)
        exact Good.less h1 h2 (Still.refl _) (by split <;> omega)
      | stuck => exact absurd hr (loadRule_not_stuck _ _ _)

theorem loadStep_ne {t : Table} {i : Nat} (hi : i + 1 < count t) :
    loadStep t i ≠ .hang ∧ loadStep t i ≠ .ub := by
  obtain ⟨a, ha⟩ := get_some (t := t) (i := i) (by omega)
  obtain ⟨b, hb⟩ := get_some hi
  unfold loadStep
  rw [ha, hb]
  dsimp only
  cases hr : loadRule a.ins b.ins ((get t (i + 2)).map (·.ins)) with
  | next => exact ⟨nofun, nofun⟩
  | rewrite ab => exact ⟨nofun, nofun⟩
  | stuck => exact absurd hr (loadRule_not_stuck _ _ _)

theorem storeStep_good {t : Table} {i : Nat} {r : Step} (h : storeStep t i = .ok r) : Good t i r := by
  unfold storeStep at h
  cases ha : get t i with
  | none => rw [ha] at h; cases h
  | some a =>
    cases hb : get t (i + 1) with
    | none => rw [ha, hb] at h; cases h
    | some b =>
      rw [ha, hb] at h
      dsimp only at h
      cases hr : storeRule a.ins b.ins ((get t (i + 2)).map (·.ins)) with
      | next =>
        rw [hr] at h
        cases h
        exact Good.idle (Still.refl t)
      | rewrite ab =>
        obtain ⟨a', b', c'⟩ := ab
        rw [hr] at h
        cases h
        obtain ⟨h1, h2⟩ := put2or3_less ha hb (storeRule_out hr)
        exact Good.less h1 h2 (Still.refl _) (by split <;> omega)
      | stuck => exact absurd hr (storeRule_not_stuck _ _ _)

theorem storeStep_ne {t : Table} {i : Nat} (hi : i + 1 < count t) :
    storeStep t i ≠ .hang ∧ storeStep t i ≠ .ub := by
  obtain ⟨a, ha⟩ := get_some (t := t) (i := i) (by omega)
  obtain ⟨b, hb⟩ := get_some hi
  unfold storeStep
  rw [ha, hb]
  dsimp only
  cases hr : storeRule a.ins b.ins ((get t (i + 2)).map (·.ins)) with
  | next => exact ⟨nofun, nofun⟩
  | rewrite ab => exact ⟨nofun, nofun⟩
  | stuck => exact absurd hr (storeRule_not_stuck _ _ _)

/-! ### Binary operators -/

theorem binaryIdle_still (t : Table) (i : Nat) (a b c : OpType) : Still t (binaryIdle t i a b c) := by
  unfold binaryIdle
  dsimp only
  split
  · exact adjust_still _ _ same_re
  · split
    · exact adjust_still _ _ same_re
    · split
      · exact adjust_still _ _ same_re
      · exact Still.refl t

theorem binaryDone_still (t : Table) (i : Nat) (a b c a' b' c' : OpType) :
    Still (put3 t i a' b' c') (binaryDone t i a b c a' b' c') := by
  unfold binaryDone
  dsimp only
  split
  · exact (optAt_still _ _).trans (optAt_still _ _)
  · split
    · exact optAt_still _ _
    · split
      · exact optAt_still _ _
      · split
        · split
          · exact (swapOff_still _ _).trans (optAt_still _ _)
          · exact optAt_still _ _
        · exact Still.refl _

theorem put3_swap {t : Table} {i : Nat} {a b c : OpR} (hlen : t.length ≤ 16) (ha : get t i = some a)
    (hb : get t (i + 1) = some b) (hc : get t (i + 2) = some c) {a' b' c' : OpType}
    (o : SwapOut a.ins b.ins c.ins a' b' c') :
    Chg t (put3 t i a' b' c') ∧ meas (put3 t i a' b' c') < meas t := by
  obtain ⟨h1, h2, _, _, rfl, rfl, rfl⟩ := o
  have h3 := isPush_expand h1
  obtain ⟨h, p, q, r, hpq, hqr, hr, e⟩ :=
    put3_chg ha hb hc (out_same m2) (push_made h3) (out_same m3)
  refine ⟨h, ?_⟩
  have e1 : m p b.ins = m q b.ins := by unfold m; rw [h2]; rfl
  have e2 : m q (expandPush a.ins) < m p a.ins := by
    rw [m_push q h3 h1]
    unfold m
    rw [h1]
    simp only [if_true]
    omega
  omega

theorem binaryStep_good {t : Table} {i : Nat} {r : Step} (hlen : t.length ≤ 16)
    (h : binaryStep t i = .ok r) : Good t i r := by
  unfold binaryStep at h
  cases ha : get t i with
  | none => rw [ha] at h; cases h
  | some a =>
    cases hb : get t (i + 1) with
    | none => rw [ha, hb] at h; cases h
    | some b =>
      cases hc : get t (i + 2) with
      | none => rw [ha, hb, hc] at h; cases h
      | some c =>
        rw [ha, hb, hc] at h
        dsimp only at h
        rw [Res.bind_eq_ok] at h
        obtain ⟨act, hr, h⟩ := h
        cases act with
        | next =>
          cases h
          exact Good.idle (binaryIdle_still ..)
        | rewrite abc =>
          obtain ⟨a', b', c'⟩ := abc
          cases h
          obtain ⟨_, hr3⟩ := get_at hc
          have : Chg t (put3 t i a' b' c') ∧ meas (put3 t i a' b' c') < meas t := by
            rcases binaryRule_out hr3.nop hr with o | o
            · exact put3_less ha hb hc o
            · exact put3_swap hlen ha hb hc o
          exact Good.less this.1 this.2 (binaryDone_still ..) (Nat.le_refl i)
        | stuck => cases h

theorem binaryStep_hang {t : Table} {i : Nat} (h : binaryStep t i = .hang) :
    ∃ x ∈ ops t, x.op = Op.udiv.toByte := by
  unfold binaryStep at h
  cases ha : get t i with
  | none => rw [ha] at h; cases h
  | some a =>
    cases hb : get t (i + 1) with
    | none => rw [ha, hb] at h; cases h
    | some b =>
      cases hc : get t (i + 2) with
      | none => rw [ha, hb, hc] at h; cases h
      | some c =>
        rw [ha, hb, hc] at h
        dsimp only at h
        obtain ⟨_, hp⟩ := get_at hc
        cases hr : binaryRule a.ins b.ins c.ins with
        | hang => exact absurd hr binaryRule_not_hang
        | ub => rw [hr] at h; cases h
        | ok act =>
          rw [hr] at h
          cases act with
          | next => cases h
          | rewrite abc => cases h
          | stuck => exact ⟨c.ins, hp.mem, binaryRule_stuck hr⟩

/-- The operations on which the optimizer can fail. -/
def badOp : Op → Bool
  | .mul | .umul | .div_ | .mod_ | .umod | .longop8 => true
  | _ => false

theorem binaryStep_ub {t : Table} {i : Nat} (hi : i + 2 < count t) (h : binaryStep t i = .ub) :
    ∃ x ∈ ops t, ∃ o, x.op = o.toByte ∧ badOp o = true := by
  obtain ⟨a, ha⟩ := get_some (t := t) (i := i) (by omega)
  obtain ⟨b, hb⟩ := get_some (t := t) (i := i + 1) (by omega)
  obtain ⟨c, hc⟩ := get_some hi
  unfold binaryStep at h
  rw [ha, hb, hc] at h
  dsimp only at h
  obtain ⟨_, hp⟩ := get_at hc
  cases hr : binaryRule a.ins b.ins c.ins with
  | hang => exact absurd hr binaryRule_not_hang
  | ub =>
    refine ⟨c.ins, hp.mem, ?_⟩
    rcases binaryRule_ub hr with e | e | e | e | e <;> exact ⟨_, ofByte_some e, rfl⟩
  | ok act =>
    rw [hr] at h
    cases act with
    | next => cases h
    | rewrite abc => cases h
    | stuck => cases h

end Pas.Popt
