import Verif.Lemmas.OptLong

/-! The loops and passes of the optimizer: they end, and what they keep. -/
namespace Pas.Popt

/-- None of the instructions has an opcode in `bad`. -/
def Free (bad : Op → Bool) (l : List OpType) : Prop :=
  ∀ x ∈ l, ∀ o : Op, x.op = o.toByte → bad o = false

theorem free_out {bad : Op → Bool} (hb : ∀ o, madeOp o = true → bad o = false) {xs ys : List OpType}
    (h : Free bad xs) (ho : ∀ y ∈ ys, Out xs y) : Free bad ys := by
  intro y hy o e
  rcases (ho y hy).op with ⟨x, hx, e'⟩ | hm
  · exact h x hx o (e'.trans e)
  · rw [made_of_op e] at hm
    exact hb o hm

def udivOp : Op → Bool
  | .udiv => true
  | _ => false

def failOp (o : Op) : Bool := udivOp o || badOp o

theorem made_udiv (o : Op) (h : madeOp o = true) : udivOp o = false := by
  cases o <;> first | rfl | cases h

theorem made_fail (o : Op) (h : madeOp o = true) : failOp o = false := by
  cases o <;> first | rfl | cases h

/-! ### One loop -/

structure LoopGood (t : Table) (n : Nat) (r : Table × Nat) : Prop where
  chg : Chg t r.1
  le : meas r.1 ≤ meas t
  mono : n ≤ r.2
  prog : n < r.2 → meas r.1 < meas t

theorem loop_good {step : Table → Nat → Res Step} {w lo : Nat}
    (hs : ∀ t i r, t.length ≤ 16 → lo ≤ i → step t i = .ok r → Good t i r) :
    ∀ (fuel : Nat) (t : Table) (i n : Nat) (r : Table × Nat), t.length ≤ 16 → lo ≤ i →
      loop step w fuel t i n = .ok r → LoopGood t n r := by
  intro fuel
  induction fuel with
  | zero => intro t i n r _ _ h; cases h
  | succ fuel ih =>
    intro t i n r hl hlo h
    unfold loop at h
    split at h
    · rw [Res.bind_eq_ok] at h
      obtain ⟨⟨t', i', k⟩, h1, h2⟩ := h
      have g := hs t i _ hl hlo h1
      have g2 := ih t' i' (n + k) r (by rw [g.chg.len]; exact hl) (Nat.le_trans hlo g.mono) h2
      have hle : meas t' ≤ meas t := g.le
      refine ⟨g.chg.trans g2.chg, Nat.le_trans g2.le hle, by have := g2.mono; omega, fun hn => ?_⟩
      rcases g.prog with hp | ⟨_, hk⟩
      · exact Nat.lt_of_le_of_lt g2.le hp
      · have hk : k = 0 := hk
        exact Nat.lt_of_lt_of_le (g2.prog (by omega)) hle
    · cases h
      exact ⟨Chg.refl t, Nat.le_refl _, Nat.le_refl _, fun h => absurd h (Nat.lt_irrefl _)⟩

theorem loop_hang {step : Table → Nat → Res Step} {w lo : Nat} {P : List OpType → Prop}
    (hP : ∀ t t', Chg t t' → P (ops t) → P (ops t'))
    (hs : ∀ t i r, t.length ≤ 16 → lo ≤ i → step t i = .ok r → Good t i r)
    (hh : ∀ t i, P (ops t) → i + w < count t → step t i ≠ .hang) :
    ∀ (fuel : Nat) (t : Table) (i n : Nat), t.length ≤ 16 → lo ≤ i → P (ops t) →
      21 * meas t + (20 - i) < fuel → loop step w fuel t i n ≠ .hang := by
  intro fuel
  induction fuel with
  | zero => intro t i n _ _ _ h; omega
  | succ fuel ih =>
    intro t i n hl hlo hp hf h
    unfold loop at h
    split at h
    · next hi =>
      cases h1 : step t i with
      | hang => exact hh t i hp hi h1
      | ub => rw [h1] at h; cases h
      | ok r =>
        obtain ⟨t', i', k⟩ := r
        rw [h1] at h
        have g := hs t i _ hl hlo h1
        have hc := count_le t
        have hle : meas t' ≤ meas t := g.le
        refine ih t' i' (n + k) (by rw [g.chg.len]; exact hl) (Nat.le_trans hlo g.mono)
          (hP _ _ g.chg hp) ?_ h
        rcases g.prog with hm | ⟨hi', _⟩
        · have hm : meas t' < meas t := hm
          omega
        · have hi' : i < i' := hi'
          omega
    · cases h

theorem loop_ub {step : Table → Nat → Res Step} {w lo : Nat} {P : List OpType → Prop}
    (hP : ∀ t t', Chg t t' → P (ops t) → P (ops t'))
    (hs : ∀ t i r, t.length ≤ 16 → lo ≤ i → step t i = .ok r → Good t i r)
    (hh : ∀ t i, P (ops t) → i + w < count t → step t i ≠ .ub) :
    ∀ (fuel : Nat) (t : Table) (i n : Nat), t.length ≤ 16 → lo ≤ i → P (ops t) →
      loop step w fuel t i n ≠ .ub := by
  intro fuel
  induction fuel with
  | zero => intro t i n _ _ _ h; cases h
  | succ fuel ih =>
    intro t i n hl hlo hp h
    unfold loop at h
    split at h
    · next hi =>
      cases h1 : step t i with
      | ub => exact hh t i hp hi h1
      | hang => rw [h1] at h; cases h
      | ok r =>
        obtain ⟨t', i', k⟩ := r
        rw [h1] at h
        have g := hs t i _ hl hlo h1
        exact ih t' i' (n + k) (by rw [g.chg.len]; exact hl) (Nat.le_trans hlo g.mono)
          (hP _ _ g.chg hp) h
    · cases h

theorem loop_mono {step : Table → Nat → Res Step} {w : Nat} :
    ∀ (fuel : Nat) (t : Table) (i n : Nat), loop step w fuel t i n ≠ .hang →
      loop step w (fuel + 1) t i n = loop step w fuel t i n := by
  intro fuel
  induction fuel with
  | zero => intro t i n h; exact absurd rfl h
  | succ fuel ih =>
    intro t i n h
    unfold loop at h
    rw [loop]
    conv => rhs; rw [loop]
    split
    · next hi =>
      rw [if_pos hi] at h
      cases h1 : step t i with
      | ub => rfl
      | hang => rfl
      | ok r =>
        obtain ⟨t', i', k⟩ := r
        rw [h1] at h
        simp only [Res.ok_bind]
        exact ih _ _ _ h
    · rfl

/-! ### The bodies -/

/-- Bound for the iterations of one loop. -/
def LOOPB : Nat := 21 * (656 * 16) + 21

structure BodyOk (body : Nat → Table → Res (Table × Nat)) : Prop where
  good : ∀ fuel t r, t.length ≤ 16 → body fuel t = .ok r → LoopGood t 0 r
  hang : ∀ fuel t, t.length ≤ 16 → Free udivOp (ops t) → LOOPB ≤ fuel → body fuel t ≠ .hang
  ub : ∀ fuel t, t.length ≤ 16 → Free failOp (ops t) → body fuel t ≠ .ub
  mono : ∀ fuel t, body fuel t ≠ .hang → body (fuel + 1) t = body fuel t

theorem Free.chg {bad : Op → Bool} (hb : ∀ o, madeOp o = true → bad o = false) {t t' : Table}
    (h : Chg t t') (hf : Free bad (ops t)) : Free bad (ops t') :=
  free_out hb hf (fun _ hy => Edit.out h hy)

theorem loop_hang' {step : Table → Nat → Res Step} {w lo : Nat}
    (hs : ∀ t i r, t.length ≤ 16 → lo ≤ i → step t i = .ok r → Good t i r)
    (hh : ∀ t i, Free udivOp (ops t) → i + w < count t → step t i ≠ .hang)
    {fuel : Nat} {t : Table} {n : Nat} (hl : t.length ≤ 16) (hf : Free udivOp (ops t))
    (hb : LOOPB ≤ fuel) {i : Nat} (hi : lo ≤ i) : loop step w fuel t i n ≠ .hang := by
  refine loop_hang (P := Free udivOp) (fun _ _ h => Free.chg made_udiv h) hs hh fuel t i n hl hi hf ?_
  have := meas_bound t
  unfold LOOPB at hb
  omega

theorem loop_ub' {step : Table → Nat → Res Step} {w lo : Nat}
    (hs : ∀ t i r, t.length ≤ 16 → lo ≤ i → step t i = .ok r → Good t i r)
    (hh : ∀ t i, Free failOp (ops t) → i + w < count t → step t i ≠ .ub)
    {fuel : Nat} {t : Table} {n : Nat} (hl : t.length ≤ 16) (hf : Free failOp (ops t))
    {i : Nat} (hi : lo ≤ i) : loop step w fuel t i n ≠ .ub :=
  loop_ub (P := Free failOp) (fun _ _ h => Free.chg made_fail h) hs hh fuel t i n hl hi hf

theorem free_not {bad : Op → Bool} {l : List OpType} (h : Free bad l) {o : Op} (hb : bad o = true) :
    ¬ ∃ x ∈ l, x.op = o.toByte := by
  rintro ⟨x, hx, e⟩
  have := h x hx o e
  rw [hb] at this; cases this

/-- The loops of `round`: the step function, the distance looked ahead and the first index. -/
structure LoopSpec where
  step : Table → Nat → Res Step
  w : Nat
  lo : Nat
  good : ∀ t i r, t.length ≤ 16 → lo ≤ i → step t i = .ok r → Good t i r
  hang : ∀ t i, Free udivOp (ops t) → i + w < count t → step t i ≠ .hang
  ub : ∀ t i, Free failOp (ops t) → i + w < count t → step t i ≠ .ub

def spec1 : LoopSpec := ⟨unaryStep, 1, 0, fun _ _ _ _ _ h => unaryStep_good h,
  fun _ _ _ h => (unaryStep_ne h).1, fun _ _ _ h => (unaryStep_ne h).2⟩
def spec2 : LoopSpec := ⟨longUnaryStep, 0, 1, fun _ _ _ _ hi h => longUnaryStep_good hi h,
  fun _ _ _ _ => longUnaryStep_hang _ _,
  fun _ _ hf hi h => free_not hf (o := .longop8) rfl (longUnaryStep_ub hi h)⟩
def spec3 : LoopSpec := ⟨binaryStep, 2, 0, fun _ _ _ hl _ h => binaryStep_good hl h,
  fun _ _ hf _ h => free_not hf (o := .udiv) rfl (binaryStep_hang h),
  fun _ _ hf hi h => by
    obtain ⟨x, hx, o, e, hb⟩ := binaryStep_ub hi h
    exact free_not hf (o := o) (by unfold failOp; rw [hb, Bool.or_true]) ⟨x, hx, e⟩⟩
def spec4 : LoopSpec := ⟨longBinaryStep, 0, 1, fun _ _ _ _ _ h => longBinaryStep_good h,
  fun _ _ _ _ => longBinaryStep_hang _ _,
  fun _ _ hf hi h => free_not hf (o := .longop8) rfl (longBinaryStep_ub hi h)⟩
def spec5 : LoopSpec := ⟨branchStep, 1, 0, fun _ _ _ _ _ h => branchStep_good h,
  fun _ _ _ h => (branchStep_ne h).1, fun _ _ _ h => (branchStep_ne h).2⟩
def spec6 : LoopSpec := ⟨stackStep, 2, 0, fun _ _ _ _ _ h => stackStep_good h,
  fun _ _ _ h => (stackStep_ne h).1, fun _ _ _ h => (stackStep_ne h).2⟩
def spec7 : LoopSpec := ⟨loadStep, 1, 0, fun _ _ _ _ _ h => loadStep_good h,
  fun _ _ _ h => (loadStep_ne h).1, fun _ _ _ h => (loadStep_ne h).2⟩
def spec8 : LoopSpec := ⟨storeStep, 1, 0, fun _ _ _ _ _ h => storeStep_good h,
  fun _ _ _ h => (storeStep_ne h).1, fun _ _ _ h => (storeStep_ne h).2⟩
def specS : LoopSpec := ⟨stringStep, 2, 0, fun _ _ _ _ _ h => stringStep_good h,
  fun _ _ _ h => (stringStep_ne h).1, fun _ _ _ h => (stringStep_ne h).2⟩

/-- Several loops one after the other. -/
def chain : List LoopSpec → Nat → Table → Nat → Res (Table × Nat)
  | [], _, t, n => .ok (t, n)
  | s :: r, fuel, t, n => do
    let (t', k) ← loop s.step s.w fuel t s.lo 0
    chain r fuel t' (n + k)

theorem round_chain (fuel : Nat) (t : Table) :
    round fuel t = chain [spec1, spec2, spec3, spec4, spec5, spec6, spec7, spec8] fuel t 0 := by
  simp only [round, chain, Nat.zero_add]
  rfl

theorem stringRound_chain (fuel : Nat) (t : Table) : stringRound fuel t = chain [specS] fuel t 0 := by
  simp only [stringRound, chain, Nat.zero_add]
  show loop stringStep 2 fuel t 0 0 = (loop stringStep 2 fuel t 0 0 >>= fun r => .ok (r.1, r.2))
  cases loop stringStep 2 fuel t 0 0 <;> rfl

theorem chain_good : ∀ (l : List LoopSpec) (fuel : Nat) (t : Table) (n : Nat) (r : Table × Nat),
    t.length ≤ 16 → chain l fuel t n = .ok r → LoopGood t n r := by
  intro l
  induction l with
  | nil =>
    intro fuel t n r _ h
    cases h
    exact ⟨Chg.refl t, Nat.le_refl _, Nat.le_refl _, fun h => absurd h (Nat.lt_irrefl _)⟩
  | cons s l ih =>
    intro fuel t n r hl h
    unfold chain at h
    rw [Res.bind_eq_ok] at h
    obtain ⟨⟨t', k⟩, h1, h2⟩ := h
    have g := loop_good s.good fuel t s.lo 0 _ hl (Nat.le_refl _) h1
    have g2 := ih fuel t' (n + k) r (by rw [g.chg.len]; exact hl) h2
    have hle : meas t' ≤ meas t := g.le
    refine ⟨g.chg.trans g2.chg, Nat.le_trans g2.le hle, by have := g2.mono; omega, fun hn => ?_⟩
    by_cases hk : 0 < k
    · exact Nat.lt_of_le_of_lt g2.le (g.prog hk)
    · exact Nat.lt_of_lt_of_le (g2.prog (by omega)) hle

theorem chain_hang : ∀ (l : List LoopSpec) (fuel : Nat) (t : Table) (n : Nat), t.length ≤ 16 →
    Free udivOp (ops t) → LOOPB ≤ fuel → chain l fuel t n ≠ .hang := by
  intro l
  induction l with
  | nil => intro fuel t n _ _ _ h; cases h
  | cons s l ih =>
    intro fuel t n hl hf hb h
    unfold chain at h
    cases h1 : loop s.step s.w fuel t s.lo 0 with
    | hang => exact loop_hang' s.good s.hang hl hf hb (Nat.le_refl _) h1
    | ub => rw [h1] at h; cases h
    | ok r =>
      obtain ⟨t', k⟩ := r
      rw [h1] at h
      have g := loop_good s.good fuel t s.lo 0 _ hl (Nat.le_refl _) h1
      exact ih fuel t' (n + k) (by rw [g.chg.len]; exact hl) (hf.chg made_udiv g.chg) hb h

theorem chain_ub : ∀ (l : List LoopSpec) (fuel : Nat) (t : Table) (n : Nat), t.length ≤ 16 →
    Free failOp (ops t) → chain l fuel t n ≠ .ub := by
  intro l
  induction l with
  | nil => intro fuel t n _ _ h; cases h
  | cons s l ih =>
    intro fuel t n hl hf h
    unfold chain at h
    cases h1 : loop s.step s.w fuel t s.lo 0 with
    | ub => exact loop_ub' s.good s.ub hl hf (Nat.le_refl _) h1
    | hang => rw [h1] at h; cases h
    | ok r =>
      obtain ⟨t', k⟩ := r
      rw [h1] at h
      have g := loop_good s.good fuel t s.lo 0 _ hl (Nat.le_refl _) h1
      exact ih fuel t' (n + k) (by rw [g.chg.len]; exact hl) (hf.chg made_fail g.chg) h

theorem chain_mono : ∀ (l : List LoopSpec) (fuel : Nat) (t : Table) (n : Nat),
    chain l fuel t n ≠ .hang → chain l (fuel + 1) t n = chain l fuel t n := by
  intro l
  induction l with
  | nil => intro fuel t n _; rfl
  | cons s l ih =>
    intro fuel t n h
    unfold chain at h ⊢
    cases h1 : loop s.step s.w fuel t s.lo 0 with
    | hang => rw [h1] at h; exact absurd rfl h
    | ub => rw [loop_mono _ _ _ _ (by rw [h1]; nofun), h1]; rfl
    | ok r =>
      obtain ⟨t', k⟩ := r
      rw [loop_mono _ _ _ _ (by rw [h1]; nofun), h1]
      rw [h1] at h
      exact ih fuel t' (n + k) h

theorem round_ok : BodyOk round :=
  ⟨fun fuel t r hl h => chain_good _ fuel t 0 r hl (by rw [← round_chain]; exact h),
   fun fuel t hl hf hb => by rw [round_chain]; exact chain_hang _ fuel t 0 hl hf hb,
   fun fuel t hl hf => by rw [round_chain]; exact chain_ub _ fuel t 0 hl hf,
   fun fuel t h => by
    rw [round_chain] at h
    rw [round_chain, round_chain]; exact chain_mono _ fuel t 0 h⟩

theorem stringRound_ok : BodyOk stringRound :=
  ⟨fun fuel t r hl h => chain_good _ fuel t 0 r hl (by rw [← stringRound_chain]; exact h),
   fun fuel t hl hf hb => by rw [stringRound_chain]; exact chain_hang _ fuel t 0 hl hf hb,
   fun fuel t hl hf => by rw [stringRound_chain]; exact chain_ub _ fuel t 0 hl hf,
   fun fuel t h => by
    rw [stringRound_chain] at h
    rw [stringRound_chain, stringRound_chain]; exact chain_mono _ fuel t 0 h⟩

/-! ### Until nothing changes -/

section
variable {body : Nat → Table → Res (Table × Nat)} (hb : BodyOk body)
include hb

theorem settle_chg : ∀ (fuel : Nat) (t t' : Table), t.length ≤ 16 → settle body fuel t = .ok t' →
    Chg t t' := by
  intro fuel
  induction fuel with
  | zero => intro t t' _ h; cases h
  | succ fuel ih =>
    intro t t' hl h
    unfold settle at h
    rw [Res.bind_eq_ok] at h
    obtain ⟨⟨t₁, n⟩, h1, h2⟩ := h
    have g := hb.good fuel t _ hl h1
    dsimp only at h2
    split at h2
    · exact g.chg.trans (ih t₁ t' (by rw [g.chg.len]; exact hl) h2)
    · cases h2; exact g.chg

theorem settle_hang : ∀ (fuel : Nat) (t : Table), t.length ≤ 16 → Free udivOp (ops t) →
    meas t + LOOPB < fuel → settle body fuel t ≠ .hang := by
  intro fuel
  induction fuel with
  | zero => intro t _ _ h; omega
  | succ fuel ih =>
    intro t hl hf hn h
    unfold settle at h
    cases h1 : body fuel t with
    | hang => exact hb.hang fuel t hl hf (by omega) h1
    | ub => rw [h1] at h; cases h
    | ok r =>
      obtain ⟨t', n⟩ := r
      rw [h1] at h
      have g := hb.good fuel t _ hl h1
      simp only [Res.ok_bind] at h
      split at h
      · next hpos =>
        have : meas t' < meas t := g.prog hpos
        exact ih t' (by rw [g.chg.len]; exact hl) (hf.chg made_udiv g.chg) (by omega) h
      · cases h

theorem settle_ub : ∀ (fuel : Nat) (t : Table), t.length ≤ 16 → Free failOp (ops t) →
    settle body fuel t ≠ .ub := by
  intro fuel
  induction fuel with
  | zero => intro t _ _ h; cases h
  | succ fuel ih =>
    intro t hl hf h
    unfold settle at h
    cases h1 : body fuel t with
    | ub => exact hb.ub fuel t hl hf h1
    | hang => rw [h1] at h; cases h
    | ok r =>
      obtain ⟨t', n⟩ := r
      rw [h1] at h
      have g := hb.good fuel t _ hl h1
      simp only [Res.ok_bind] at h
      split at h
      · exact ih t' (by rw [g.chg.len]; exact hl) (hf.chg made_fail g.chg) h
      · cases h

theorem settle_mono : ∀ (fuel : Nat) (t : Table), settle body fuel t ≠ .hang →
    settle body (fuel + 1) t = settle body fuel t := by
  intro fuel
  induction fuel with
  | zero => intro t h; exact absurd rfl h
  | succ fuel ih =>
    intro t h
    unfold settle at h
    rw [settle]
    conv => rhs; rw [settle]
    cases h1 : body fuel t with
    | hang => rw [h1] at h; exact absurd rfl h
    | ub => rw [hb.mono _ _ (by rw [h1]; nofun), h1]; rfl
    | ok r =>
      obtain ⟨t', n⟩ := r
      rw [h1] at h
      rw [hb.mono _ _ (by rw [h1]; nofun), h1]
      simp only [Res.ok_bind] at h ⊢
      split
      · next hpos => rw [if_pos hpos] at h; exact ih t' h
      · rfl

end

end Pas.Popt
