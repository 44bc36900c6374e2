import Verif.Lemmas.LongConst

/-! What an iteration over 32-bit constants does with a window of a few instructions. -/
namespace Pas
open Spec Popt LongOps

theorem listing_push {i : OpType} (h : isPush i = true) : listing i = .take := by
  rcases isPush_cases h with e | e | e <;> simp [listing, e, Op.ofByte_toByte]

theorem listing_long (c : Byte) : listing (longOp c) = .take := rfl
theorem listing_nop : listing nop = .skip := rfl
theorem listing_pushOf (w : Word) : listing (pushOf w) = .take := rfl

theorem pushI_of (w : Word) : PushI (pushOf w) w := pushI_push (i := pushOf w) rfl

theorem pushI_opt (w : Word) : PushI (optimizePush (pushOf w)) w := by
  unfold optimizePush
  rw [if_pos (by rfl)]
  split
  · next h =>
    have := pushI_pushb (i := ⟨Op.pushb.toByte, w.setWidth 8, 0⟩) rfl
    have e : signExtend8 (w.setWidth 8) = w := by
      have hx := w.isLt
      have h1 : -128 ≤ w.toInt := h.1
      have h2 : w.toInt ≤ 127 := h.2
      unfold signExtend8
      apply BitVec.eq_of_toInt_eq
      rw [BitVec.toInt_signExtend_of_le (by decide)]
      rw [BitVec.toInt_eq_toNat_cond] at h1 h2 ⊢
      rw [BitVec.toInt_eq_toNat_cond, BitVec.toNat_setWidth]
      split at h1 <;> split at h2 <;> split <;> omega
    rwa [e] at this
  · split
    · next h =>
      have := pushI_upushb (i := ⟨Op.upushb.toByte, w.setWidth 8, 0⟩) rfl
      have e : (w.setWidth 8).zeroExtend 16 = w := by
        have h : w.toNat ≤ 255 := h
        apply BitVec.eq_of_toNat_eq
        simp only [BitVec.toNat_setWidth]
        omega
      rwa [e] at this
    · exact pushI_of w

theorem long_eq (a b : OpType) : Popt.long (expandPush a).arg2 (expandPush b).arg2 = constLong a b := rfl

variable {a b x : OpType}

theorem vis3 (ha : listing a = .take) (hb : listing b = .take) (hx : listing x = .take) :
    vis (window [a, b, x]) = [0, 1, 2] := by
  simp [vis, window, visFrom, ha, hb, hx]

theorem step3 (ha : isPush a = true) (hb : isPush b = true) {c : Byte} (h1 : c ≠ 0x5e#8) (h2 : c ≠ 0x5f#8) :
    longUnaryStep (window [a, b, longOp c]) 2 = (do
      let act ← longUnary c (constLong a b) 0
      longApply (window [a, b, longOp c]) 2 (longOp c) (constLong a b) act) := by
  unfold longUnaryStep Popt.get
  rw [vis3 (listing_push ha) (listing_push hb) (listing_long c)]
  simp [window, isLong, longOp, ha, hb, h1, h2, long_eq]

theorem put3_window (ha : isPush a = true) (hb : isPush b = true) (c : Byte) (p q r : OpType) :
    put3 (window [a, b, longOp c]) 0 p q r = window [p, q, r] := by
  unfold put3
  rw [vis3 (listing_push ha) (listing_push hb) (listing_long c)]
  rfl

theorem tail_none (c : Byte) (u w : Word) (n : Nat) :
    longTail (window [pushOf u, pushOf w, longOp c]) 2 n =
      .ok (window [optimizePush (pushOf u), optimizePush (pushOf w), longOp c], 3, n) := by
  have hp : ∀ w, isPush (optimizePush (pushOf w)) = true := by
    intro w
    unfold optimizePush
    rw [if_pos (by rfl)]
    split
    · rfl
    · split <;> rfl
  have e1 : optAt (window [pushOf u, pushOf w, longOp c]) (2 - 1) =
      window [pushOf u, optimizePush (pushOf w), longOp c] := by
    unfold optAt adjust
    rw [vis3 rfl rfl rfl]
    rfl
  have e2 : optAt (window [pushOf u, optimizePush (pushOf w), longOp c]) (2 - 2) =
      window [optimizePush (pushOf u), optimizePush (pushOf w), longOp c] := by
    unfold optAt adjust
    rw [vis3 rfl (listing_push (hp w)) rfl]
    rfl
  have hv := vis3 (listing_push (hp u)) (listing_push (hp w)) (listing_long c)
  have hl : isLong (optimizePush (pushOf w)) = false := by
    have := hp w
    unfold isPush at this
    unfold isLong
    cases h : (optimizePush (pushOf w)).op == Op.longop8.toByte
    · rfl
    · rw [beq_iff_eq.mp h, Op.ofByte_toByte] at this
      cases this
  unfold longTail
  rw [if_neg (by omega)]
  simp only [e1, e2]
  have g2 : get (window [optimizePush (pushOf u), optimizePush (pushOf w), longOp c]) 2 = some ⟨longOp c, 0⟩ := by
    unfold Popt.get; rw [hv]; rfl
  have g1 : get (window [optimizePush (pushOf u), optimizePush (pushOf w), longOp c]) (2 - 1) =
      some ⟨optimizePush (pushOf w), 0⟩ := by
    unfold Popt.get; rw [hv]; rfl
  rw [g2]
  simp only
  rw [if_pos (by rfl)]
  unfold longBack
  rw [g2, g1]
  simp [hl]

theorem tail_only (c : Byte) (n : Nat) :
    longTail (window [nop, nop, longOp c]) 2 n = .ok (window [nop, nop, longOp c], 3, n) := rfl

theorem tail_two (d c : Byte) (n : Nat) :
    longTail (window [nop, longOp d, longOp c]) 2 n = .ok (window [nop, longOp d, longOp c], 3, n) := rfl

theorem isPush_opt (w : Word) : isPush (optimizePush (pushOf w)) = true := by
  unfold optimizePush
  rw [if_pos (by rfl)]
  split
  · rfl
  · split <;> rfl

theorem expand_opt (w : Word) : (expandPush (optimizePush (pushOf w))).arg2 = w :=
  by
  unfold optimizePush
  rw [if_pos (by rfl)]
  split
  · next h =>
    show signExtend8 (w.setWidth 8) = w
    have hx := w.isLt
    have h1 : -128 ≤ w.toInt := h.1
    have h2 : w.toInt ≤ 127 := h.2
    unfold signExtend8
    apply BitVec.eq_of_toInt_eq
    rw [BitVec.toInt_signExtend_of_le (by decide)]
    rw [BitVec.toInt_eq_toNat_cond] at h1 h2 ⊢
    rw [BitVec.toInt_eq_toNat_cond, BitVec.toNat_setWidth]
    split at h1 <;> split at h2 <;> split <;> omega
  · split
    · next h =>
      show (w.setWidth 8).zeroExtend 16 = w
      have h : w.toNat ≤ 255 := h
      apply BitVec.eq_of_toNat_eq
      simp only [BitVec.toNat_setWidth]
      omega
    · rfl

variable {c d : OpType}

theorem vis2 (ha : listing a = .take) (hb : listing b = .take) : vis (window [a, b]) = [0, 1] := by
  simp [vis, window, visFrom, ha, hb]

theorem vis4 (ha : listing a = .take) (hb : listing b = .take) (hc : listing c = .take)
    (hx : listing x = .take) : vis (window [a, b, c, x]) = [0, 1, 2, 3] := by
  simp [vis, window, visFrom, ha, hb, hc, hx]

theorem vis5 (ha : listing a = .take) (hb : listing b = .take) (hc : listing c = .take)
    (hd : listing d = .take) (hx : listing x = .take) : vis (window [a, b, c, d, x]) = [0, 1, 2, 3, 4] := by
  simp [vis, window, visFrom, ha, hb, hc, hd, hx]

theorem vis_optAt5 {p0 p1 p2 p3 : OpType} (h0 : listing p0 = .take) (h1 : listing p1 = .take)
    (h2 : listing p2 = .take) (h3 : listing p3 = .take) (hx : listing x = .take) :
    optAt (window [p0, p1, p2, p3, x]) 3 = window [p0, p1, p2, optimizePush p3, x] ∧
    optAt (window [p0, p1, p2, p3, x]) 2 = window [p0, p1, optimizePush p2, p3, x] ∧
    optAt (window [p0, p1, p2, p3, x]) 1 = window [p0, optimizePush p1, p2, p3, x] ∧
    optAt (window [p0, p1, p2, p3, x]) 0 = window [optimizePush p0, p1, p2, p3, x] := by
  unfold optAt adjust
  rw [vis5 h0 h1 h2 h3 hx]
  exact ⟨rfl, rfl, rfl, rfl⟩

theorem vis_optAt4 {p0 p1 p2 : OpType} (h0 : listing p0 = .take) (h1 : listing p1 = .take)
    (h2 : listing p2 = .take) (hx : listing x = .take) :
    optAt (window [p0, p1, p2, x]) 2 = window [p0, p1, optimizePush p2, x] ∧
    optAt (window [p0, p1, p2, x]) 1 = window [p0, optimizePush p1, p2, x] ∧
    optAt (window [p0, p1, p2, x]) 0 = window [optimizePush p0, p1, p2, x] := by
  unfold optAt adjust
  rw [vis4 h0 h1 h2 hx]
  exact ⟨rfl, rfl, rfl⟩

theorem pushAt_of {t : Table} {i : Nat} {y : OpType} (h : Popt.get t i = some ⟨y, 0⟩) (hp : isPush y = true) :
    pushAt t i = some (expandPush y).arg2 := by
  unfold pushAt; rw [h]; simp [hp]

/-- The iteration with two constants. -/
theorem step5 {e : Byte} (ha : isPush a = true) (hb : isPush b = true) (hc : isPush c = true)
    (hd : isPush d = true) :
    longBinaryStep (window [a, b, c, d, longOp e]) 4 = (do
      match ← longFold e (constLong a b) (constLong c d) with
      | some v => .ok (window [pushOf (word0 v), pushOf (word1 v), nop, nop, nop], 5, 1)
      | none =>
        match longCompare e (constLong a b) (constLong c d) with
        | some r => .ok (window [nop, nop, nop, nop, optimizePush (pushOf (truth r))], 4, 1)
        | none =>
          let w (x : OpType) := optimizePush (pushOf (expandPush x).arg2)
          longShiftStep (window [w a, w b, w c, w d, longOp e]) 4 (longOp e)) := by
  have la := listing_push ha
  have lb := listing_push hb
  have lc := listing_push hc
  have ld := listing_push hd
  have hv := vis5 la lb lc ld (listing_long e)
  have hw : ∀ x : OpType, listing (optimizePush (pushOf (expandPush x).arg2)) = .take :=
    fun x => listing_push (isPush_opt _)
  have g0 : Popt.get (window [a, b, c, d, longOp e]) 0 = some ⟨a, 0⟩ := by unfold Popt.get; rw [hv]; rfl
  have g1 : Popt.get (window [a, b, c, d, longOp e]) 1 = some ⟨b, 0⟩ := by unfold Popt.get; rw [hv]; rfl
  have g2 : Popt.get (window [a, b, c, d, longOp e]) 2 = some ⟨c, 0⟩ := by unfold Popt.get; rw [hv]; rfl
  have g3 : Popt.get (window [a, b, c, d, longOp e]) 3 = some ⟨d, 0⟩ := by unfold Popt.get; rw [hv]; rfl
  have g4 : Popt.get (window [a, b, c, d, longOp e]) 4 = some ⟨longOp e, 0⟩ := by
    unfold Popt.get; rw [hv]; rfl
  unfold longBinaryStep
  rw [g4]
  simp only
  rw [if_pos (by rfl), if_neg (by omega), pushAt_of (i := 4 - 4) g0 ha, pushAt_of (i := 4 - 3) g1 hb,
    pushAt_of (i := 4 - 2) g2 hc, pushAt_of (i := 4 - 1) g3 hd]
  simp only
  rw [long_eq, long_eq]
  have p3 : ∀ p q r, put3 (window [a, b, c, d, longOp e]) (4 - 2) p q r = window [a, b, p, q, r] := by
    intro p q r; unfold put3; rw [hv]; rfl
  have p2 : ∀ p q, put2 (window [a, b, c, d, longOp e]) (4 - 2) p q = window [a, b, p, q, longOp e] := by
    intro p q; unfold put2; rw [hv]; rfl
  simp only [p3, p2]
  congr 1
  funext o
  cases o with
  | some v =>
    simp only
    have : vis (window [a, b, nop, nop, nop]) = [0, 1] := by
      simp [vis, window, visFrom, la, lb, listing_nop]
    unfold put2
    rw [this]
    rfl
  | none =>
    simp only
    rw [show (longOp e).arg1 = e from rfl]
    cases longCompare e (constLong a b) (constLong c d) with
    | some r =>
      have : ∀ w, vis (window [a, b, nop, nop, optimizePush (pushOf w)]) = [0, 1, 4] := by
        intro w
        simp [vis, window, visFrom, la, lb, listing_nop, listing_push (isPush_opt w)]
      simp only
      unfold put2
      rw [this]
      rfl
    | none =>
      simp only
      have q2 : ∀ x y : Word, put2 (window [a, b, pushOf x, pushOf y, longOp e]) (4 - 4)
          (pushOf (expandPush a).arg2) (pushOf (expandPush b).arg2) =
          window [pushOf (expandPush a).arg2, pushOf (expandPush b).arg2, pushOf x, pushOf y, longOp e] := by
        intro x y
        unfold put2
        rw [vis5 la lb rfl rfl rfl]
        rfl
      rw [q2]
      rw [show (4 - 1 : Nat) = 3 from rfl, (vis_optAt5 rfl rfl rfl rfl rfl).1,
        show (4 - 2 : Nat) = 2 from rfl, (vis_optAt5 rfl rfl rfl (hw d) rfl).2.1,
        show (4 - 3 : Nat) = 1 from rfl, (vis_optAt5 rfl rfl (hw c) (hw d) rfl).2.2.1,
        show (4 - 4 : Nat) = 0 from rfl, (vis_optAt5 rfl (hw b) (hw c) (hw d) rfl).2.2.2]

/-- The iteration with a constant and a count of a shift. -/
theorem step4 {e : Byte} (ha : isPush a = true) (hb : isPush b = true) (hc : isPush c = true) :
    longBinaryStep (window [a, b, c, longOp e]) 3 = (do
      match ← longShift e (constLong a b) (expandPush c).arg2 with
      | some v =>
        .ok (window [optimizePush (pushOf (word0 v)), optimizePush (pushOf (word1 v)), nop, nop], 4, 1)
      | none =>
        let w (x : OpType) := optimizePush (pushOf (expandPush x).arg2)
        .ok (window [w a, w b, w c, longOp e], 4, 0)) := by
  have la := listing_push ha
  have lb := listing_push hb
  have lc := listing_push hc
  have hv := vis4 la lb lc (listing_long e)
  have hw : ∀ x : OpType, listing (optimizePush (pushOf (expandPush x).arg2)) = .take :=
    fun x => listing_push (isPush_opt _)
  have g0 : Popt.get (window [a, b, c, longOp e]) 0 = some ⟨a, 0⟩ := by unfold Popt.get; rw [hv]; rfl
  have g1 : Popt.get (window [a, b, c, longOp e]) 1 = some ⟨b, 0⟩ := by unfold Popt.get; rw [hv]; rfl
  have g2 : Popt.get (window [a, b, c, longOp e]) 2 = some ⟨c, 0⟩ := by unfold Popt.get; rw [hv]; rfl
  have g3 : Popt.get (window [a, b, c, longOp e]) 3 = some ⟨longOp e, 0⟩ := by
    unfold Popt.get; rw [hv]; rfl
  unfold longBinaryStep
  rw [g3]
  simp only
  rw [if_pos (by rfl), if_pos (by omega)]
  unfold longShiftStep
  rw [if_neg (by omega), pushAt_of (i := 3 - 3) g0 ha, pushAt_of (i := 3 - 2) g1 hb,
    pushAt_of (i := 3 - 1) g2 hc]
  simp only
  rw [long_eq]
  congr 1
  funext o
  cases o with
  | some v =>
    simp only
    have e1 : put2 (window [a, b, c, longOp e]) (3 - 3) (pushOf (word0 v)) (pushOf (word1 v)) =
        window [pushOf (word0 v), pushOf (word1 v), c, longOp e] := by
      unfold put2; rw [hv]; rfl
    have e2 : put2 (window [pushOf (word0 v), pushOf (word1 v), c, longOp e]) (3 - 1) nop nop =
        window [pushOf (word0 v), pushOf (word1 v), nop, nop] := by
      unfold put2; rw [vis4 rfl rfl lc rfl]; rfl
    have n2 : ∀ p q : OpType, listing p = .take → listing q = .take →
        vis (window [p, q, nop, nop]) = [0, 1] := by
      intro p q hp hq
      simp [vis, window, visFrom, hp, hq, listing_nop]
    have e3 : optAt (window [pushOf (word0 v), pushOf (word1 v), nop, nop]) (3 - 1) =
        window [pushOf (word0 v), pushOf (word1 v), nop, nop] := by
      unfold optAt adjust; rw [n2 _ _ rfl rfl]; rfl
    have e4 : optAt (window [pushOf (word0 v), pushOf (word1 v), nop, nop]) (3 - 2) =
        window [pushOf (word0 v), optimizePush (pushOf (word1 v)), nop, nop] := by
      unfold optAt adjust; rw [n2 _ _ rfl rfl]; rfl
    have e5 : optAt (window [pushOf (word0 v), optimizePush (pushOf (word1 v)), nop, nop]) (3 - 3) =
        window [optimizePush (pushOf (word0 v)), optimizePush (pushOf (word1 v)), nop, nop] := by
      unfold optAt adjust; rw [n2 _ _ rfl (listing_push (isPush_opt _))]; rfl
    rw [e1, e2, e3, e4, e5]
  | none =>
    simp only
    have e1 : put3 (window [a, b, c, longOp e]) (3 - 3) (pushOf (expandPush a).arg2)
        (pushOf (expandPush b).arg2) (pushOf (expandPush c).arg2) =
        window [pushOf (expandPush a).arg2, pushOf (expandPush b).arg2, pushOf (expandPush c).arg2,
          longOp e] := by
      unfold put3; rw [hv]; rfl
    rw [e1, show (3 - 1 : Nat) = 2 from rfl, (vis_optAt4 rfl rfl rfl rfl).1,
        show (3 - 2 : Nat) = 1 from rfl, (vis_optAt4 rfl rfl (hw c) rfl).2.1,
        show (3 - 3 : Nat) = 0 from rfl, (vis_optAt4 rfl (hw b) (hw c) rfl).2.2]

/-- What is left when there is no shift. -/
theorem shift5 {e : Byte} (ha : isPush a = true) (hb : isPush b = true) (hc : isPush c = true)
    (hd : isPush d = true) (he : ¬ (0x4b ≤ e.toNat ∧ e.toNat ≤ 0x4d)) :
    longShiftStep (window [a, b, c, d, longOp e]) 4 (longOp e) =
      .ok (window [a, optimizePush (pushOf (expandPush b).arg2), optimizePush (pushOf (expandPush c).arg2),
        optimizePush (pushOf (expandPush d).arg2), longOp e], 5, 0) := by
  have la := listing_push ha
  have lb := listing_push hb
  have lc := listing_push hc
  have ld := listing_push hd
  have hv := vis5 la lb lc ld (listing_long e)
  have hw : ∀ x : OpType, listing (optimizePush (pushOf (expandPush x).arg2)) = .take :=
    fun x => listing_push (isPush_opt _)
  have g1 : Popt.get (window [a, b, c, d, longOp e]) 1 = some ⟨b, 0⟩ := by unfold Popt.get; rw [hv]; rfl
  have g2 : Popt.get (window [a, b, c, d, longOp e]) 2 = some ⟨c, 0⟩ := by unfold Popt.get; rw [hv]; rfl
  have g3 : Popt.get (window [a, b, c, d, longOp e]) 3 = some ⟨d, 0⟩ := by unfold Popt.get; rw [hv]; rfl
  have hs : ∀ k n, longShift (longOp e).arg1 k n = .ok none := by
    intro k n
    show longShift e k n = _
    unfold longShift
    split
    · next h => exact absurd (by omega) he
    · next h => exact absurd (by omega) he
    · next h => exact absurd (by omega) he
    · rfl
  unfold longShiftStep
  rw [if_neg (by omega), pushAt_of (i := 4 - 3) g1 hb, pushAt_of (i := 4 - 2) g2 hc,
    pushAt_of (i := 4 - 1) g3 hd]
  simp only [hs, Res.ok_bind]
  have e1 : put3 (window [a, b, c, d, longOp e]) (4 - 3) (pushOf (expandPush b).arg2)
      (pushOf (expandPush c).arg2) (pushOf (expandPush d).arg2) =
      window [a, pushOf (expandPush b).arg2, pushOf (expandPush c).arg2, pushOf (expandPush d).arg2,
        longOp e] := by
    unfold put3; rw [hv]; rfl
  rw [e1, show (4 - 1 : Nat) = 3 from rfl, (vis_optAt5 la rfl rfl rfl rfl).1,
        show (4 - 2 : Nat) = 2 from rfl, (vis_optAt5 la rfl rfl (hw d) rfl).2.1,
        show (4 - 3 : Nat) = 1 from rfl, (vis_optAt5 la rfl (hw c) (hw d) rfl).2.2.1]

end Pas
