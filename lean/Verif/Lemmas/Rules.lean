import Verif.Lemmas.Peephole

/-! Families of sound rewrites. -/
namespace Pas
open Spec Popt

variable {lib : Lib} {P : VM → Prop} {a a' b b' c c' : OpType}

/-- A constant operand of a one-operand instruction. -/
theorem fam_const_un {k v : Word} {f : Word → Word} (ha : PushI a k) (hb : UnI b f)
    (ha' : PushI a' v) (hv : f k = v) : Sound lib P [a, b] [a', nop] := by
  intro s hr hP e s' h
  have h1 := hr.free.mono (m := 1) (by omega)
  rw [ha lib _ _ h1, hb lib _ _ (by rw [psh_top h1]; omega) (psh_free (hr.free.mono (m := 1) (by omega))).lt,
    psh_mem_top h1, hv, rep1_psh h1] at h
  refine ⟨s', ?_, sameLive_refl _⟩
  rw [ha' lib _ _ h1, nopI]
  exact h

/-- A constant second operand: the two-operand instruction becomes `f`. -/
theorem fam_bin_un {k : Word} {g : Word → Word → Res Word} {f : Word → Word} (ha : PushI a k)
    (hb : BinI b g) (hb' : UnI b' f) (hg : ∀ s, Roomy s → P s → ∀ r, g (s.mem s.top) k = .ok r → f (s.mem s.top) = r) :
    Sound lib P [a, b] [nop, b'] := by
  intro s hr hP e s' h
  have h1 := hr.free.mono (m := 1) (by omega)
  have htop := hr.top
  rw [ha lib _ _ h1, hb lib _ _ (by rw [psh_top h1]; omega)
    (psh_free (hr.free.mono (m := 1) (by omega))).lt, psh_mem_top h1, psh_top h1, Nat.add_sub_cancel,
    psh_mem (Nat.le_refl _)] at h
  cases hgx : g (s.mem s.top) k with
  | ub => rw [hgx] at h; cases h
  | hang => rw [hgx] at h; cases h
  | ok r =>
    rw [hgx, Res.ok_bind] at h
    rw [nopI, hb' lib _ _ (by omega) hr.free.lt, hg s hr hP r hgx]
    cases h
    exact ⟨_, rfl, live_rep2_psh h1 _ _⟩

/-- A constant second operand that changes nothing. -/
theorem fam_bin_id {k : Word} {g : Word → Word → Res Word} (ha : PushI a k)
    (hb : BinI b g) (hg : ∀ s, Roomy s → P s → ∀ r, g (s.mem s.top) k = .ok r → s.mem s.top = r) :
    Sound lib P [a, b] [nop, nop] := by
  intro s hr hP e s' h
  have h1 := hr.free.mono (m := 1) (by omega)
  have htop := hr.top
  rw [ha lib _ _ h1, hb lib _ _ (by rw [psh_top h1]; omega)
    (psh_free (hr.free.mono (m := 1) (by omega))).lt, psh_mem_top h1, psh_top h1, Nat.add_sub_cancel,
    psh_mem (Nat.le_refl _)] at h
  cases hgx : g (s.mem s.top) k with
  | ub => rw [hgx] at h; cases h
  | hang => rw [hgx] at h; cases h
  | ok r =>
    rw [hgx, Res.ok_bind, ← hg s hr hP r hgx] at h
    rw [nopI, nopI]
    cases h
    refine ⟨s, rfl, ?_⟩
    have := live_rep2_psh h1 k (s.mem s.top)
    have e : rep1 s (s.mem s.top) = s := by rw [rep1, updW_id]
    rwa [e] at this

/-- Another constant and another instruction. -/
theorem fam_bin_bin {k k' : Word} {g g' : Word → Word → Res Word} (ha : PushI a k)
    (hb : BinI b g) (ha' : PushI a' k') (hb' : BinI b' g')
    (hg : ∀ s, Roomy s → P s → ∀ r, g (s.mem s.top) k = .ok r → g' (s.mem s.top) k' = .ok r) : Sound lib P [a, b] [a', b'] := by
  intro s hr hP e s' h
  have h1 := hr.free.mono (m := 1) (by omega)
  have htop := hr.top
  have hl := (psh_free (v := k) (hr.free.mono (m := 1) (by omega))).lt
  have hl' := (psh_free (v := k') (hr.free.mono (m := 1) (by omega))).lt
  rw [ha lib _ _ h1, hb lib _ _ (by rw [psh_top h1]; omega) hl, psh_mem_top h1, psh_top h1,
    Nat.add_sub_cancel, psh_mem (Nat.le_refl _)] at h
  rw [ha' lib _ _ h1, hb' lib _ _ (by rw [psh_top h1]; omega) hl', psh_mem_top h1, psh_top h1,
    Nat.add_sub_cancel, psh_mem (Nat.le_refl _)]
  cases hgx : g (s.mem s.top) k with
  | ub => rw [hgx] at h; cases h
  | hang => rw [hgx] at h; cases h
  | ok r =>
    rw [hgx, Res.ok_bind] at h
    rw [hg s hr hP _ hgx, Res.ok_bind]
    cases h
    refine ⟨_, rfl, ?_⟩
    have e1 : ∀ x : Word, rep2 (psh s x) r =
        { s with mem := updW (updW s.mem (s.top + 1) x) s.top r } := by
      intro x
      rw [rep2, psh_top h1, Nat.add_sub_cancel]
      simp [psh, BitVec.add_sub_cancel]
    rw [e1, e1]
    refine ⟨rfl, ?_⟩
    intro i hi
    have hi' : i ≤ s.top ∨ s.top + 2 < i := hi
    show updW (updW s.mem (s.top + 1) k') s.top r i = updW (updW s.mem (s.top + 1) k) s.top r i
    by_cases hit : i = s.top
    · rw [hit, updW_same, updW_same]
    · rw [updW_other _ _ hit, updW_other _ _ hit, updW_other _ _ (by omega),
        updW_other _ _ (by omega)]

/-- A constant operand of a two-operand instruction: two one-operand instructions. -/
theorem fam_bin_un2 {k : Word} {g : Word → Word → Res Word} {f f' : Word → Word} (ha : PushI a k)
    (hb : BinI b g) (ha' : UnI a' f) (hb' : UnI b' f') (hg : ∀ s, Roomy s → P s → g (s.mem s.top) k = .ok (f' (f (s.mem s.top)))) :
    Sound lib P [a, b] [a', b'] := by
  intro s hr hP e s' h
  have h1 := hr.free.mono (m := 1) (by omega)
  have htop := hr.top
  rw [ha lib _ _ h1, hb lib _ _ (by rw [psh_top h1]; omega)
    (psh_free (hr.free.mono (m := 1) (by omega))).lt, psh_mem_top h1, psh_top h1, Nat.add_sub_cancel,
    psh_mem (Nat.le_refl _), hg s hr hP, Res.ok_bind] at h
  rw [ha' lib _ _ (by omega) hr.free.lt, hb' lib _ _ (by rw [rep1_top]; omega) (by exact hr.free.lt)]
  cases h
  refine ⟨_, rfl, ?_⟩
  have := live_rep2_psh h1 k (f' (f (s.mem s.top)))
  have e : rep1 (rep1 s (f (s.mem s.top))) (f' ((rep1 s (f (s.mem s.top))).mem
      (rep1 s (f (s.mem s.top))).top)) = rep1 s (f' (f (s.mem s.top))) := by
    have e2 : (rep1 s (f (s.mem s.top))).mem (rep1 s (f (s.mem s.top))).top = f (s.mem s.top) :=
      updW_same _ _ _
    rw [e2]
    simp only [rep1, VM.top, updW_updW]
  rw [e]
  exact this

/-- A jump on a constant that is always taken. -/
theorem fam_jump_taken {k : Word} {f : Word → Bool} (ha : PushI a k) (hb : J1I b f)
    (hj : b'.op = Op.jmp.toByte) (hl : b'.arg2 = b.arg2) (hf : f k = true) :
    Sound lib P [a, b] [nop, b'] := by
  intro s hr hP e s' h
  have h1 := hr.free.mono (m := 1) (by omega)
  rw [ha lib _ _ h1, hb, psh_mem_top h1, if_pos hf] at h
  cases h
  rw [nopI, jmpI hj, hl, popN_zero]
  exact ⟨s, rfl, popN_psh k⟩

/-- A jump on a constant that is never taken. -/
theorem fam_jump_never {k : Word} {f : Word → Bool} (ha : PushI a k) (hb : J1I b f)
    (hf : f k = false) : Sound lib P [a, b] [nop, nop] := by
  intro s hr hP e s' h
  have h1 := hr.free.mono (m := 1) (by omega)
  rw [ha lib _ _ h1, hb, psh_mem_top h1, hf, if_neg (by decide)] at h
  cases h
  rw [nopI, nopI]
  exact ⟨s, rfl, popN_psh k⟩

/-- Two instructions that cancel. -/
theorem fam_un_inverse {f g : Word → Word} (ha : UnI a f) (hb : UnI b g) (h : ∀ x, g (f x) = x) :
    Sound lib P [a, b] [nop, nop] := by
  intro s hr hP e s' hx
  have htop := hr.top
  rw [ha lib _ _ (by omega) hr.free.lt, hb lib _ _ (by rw [rep1_top]; omega) (by exact hr.free.lt)] at hx
  cases hx
  rw [nopI, nopI]
  refine ⟨s, rfl, ?_⟩
  have e2 : (rep1 s (f (s.mem s.top))).mem (rep1 s (f (s.mem s.top))).top = f (s.mem s.top) :=
    updW_same _ _ _
  rw [e2, h]
  have : rep1 (rep1 s (f (s.mem s.top))) (s.mem s.top) = s := by
    simp only [rep1, VM.top, updW_updW, updW_id]
  rw [this]
  exact sameLive_refl s

/-- Two instructions on the top word that become one. -/
theorem fam_un_un {f g h : Word → Word} (ha : UnI a f) (hb : UnI b g) (ha' : UnI a' h)
    (hh : ∀ x, g (f x) = h x) : Sound lib P [a, b] [a', nop] := by
  intro s hr hP e s' hx
  have htop := hr.top
  rw [ha lib _ _ (by omega) hr.free.lt, hb lib _ _ (by rw [rep1_top]; omega) (by exact hr.free.lt)] at hx
  cases hx
  rw [ha' lib _ _ (by omega) hr.free.lt, nopI]
  refine ⟨_, rfl, ?_⟩
  have e2 : (rep1 s (f (s.mem s.top))).mem (rep1 s (f (s.mem s.top))).top = f (s.mem s.top) :=
    updW_same _ _ _
  rw [e2, hh]
  have : rep1 (rep1 s (f (s.mem s.top))) (h (s.mem s.top)) = rep1 s (h (s.mem s.top)) := by
    simp only [rep1, VM.top, updW_updW]
  rw [this]
  exact sameLive_refl _

/-- A two-operand and a one-operand instruction that become a two-operand instruction. -/
theorem fam_bin_then_un {g g' : Word → Word → Res Word} {f : Word → Word} (ha : BinI a g)
    (hb : UnI b f) (ha' : BinI a' g') (hg : ∀ x y r, g x y = .ok r → g' x y = .ok (f r)) :
    Sound lib P [a, b] [a', nop] := by
  intro s hr hP e s' hx
  have htop := hr.top
  rw [ha lib _ _ (by omega) hr.free.lt] at hx
  rw [ha' lib _ _ (by omega) hr.free.lt]
  cases hgx : g (s.mem (s.top - 1)) (s.mem s.top) with
  | ub => rw [hgx] at hx; cases hx
  | hang => rw [hgx] at hx; cases hx
  | ok r =>
    have ht : (rep2 s r).top = s.top - 1 := rep2_top (by omega)
    rw [hgx, Res.ok_bind, hb lib _ _ (by rw [ht]; omega)
      (by rw [ht]; show s.top - 1 < s.words; have := hr.free.lt; omega)] at hx
    rw [hg _ _ _ hgx, Res.ok_bind, nopI]
    cases hx
    have e1 : (rep2 s r).mem (rep2 s r).top = r := by rw [ht]; exact updW_same _ _ _
    have e2 : rep1 (rep2 s r) (f r) = rep2 s (f r) := by
      rw [rep1, ht]; simp only [rep2, updW_updW]
    rw [e1, e2]
    exact ⟨_, rfl, sameLive_refl _⟩

/-- A one-operand instruction and a jump that become a jump. -/
theorem fam_un_jump {f : Word → Word} {t t' : Word → Bool} (ha : UnI a f) (hb : J1I b t)
    (hb' : J1I b' t') (hl : b'.arg2 = b.arg2) (ht : ∀ s, Roomy s → P s → t' (s.mem s.top) = t (f (s.mem s.top))) :
    Sound lib P [a, b] [nop, b'] := by
  intro s hr hP e s' hx
  have htop := hr.top
  have e2 : (rep1 s (f (s.mem s.top))).mem (rep1 s (f (s.mem s.top))).top = f (s.mem s.top) :=
    updW_same _ _ _
  rw [ha lib _ _ (by omega) hr.free.lt, hb, e2, ← ht s hr hP] at hx
  rw [nopI, hb']
  cases hc : t' (s.mem s.top)
  · rw [hc] at hx
    cases hx
    exact ⟨_, rfl, popN_rep1 (by omega) _⟩
  · rw [hc] at hx
    cases hx
    rw [hl]
    exact ⟨_, rfl, popN_rep1 (by omega) _⟩

/-- A two-operand instruction and a jump that become a jump. -/
theorem fam_bin_jump {g : Word → Word → Res Word} {t : Word → Bool} {t' : Word → Word → Bool}
    (ha : BinI a g) (hb : J1I b t) (hb' : J2I b' t') (hl : b'.arg2 = b.arg2)
    (ht : ∀ x y r, g x y = .ok r → t' x y = t r) : Sound lib P [a, b] [nop, b'] := by
  intro s hr hP e s' hx
  have htop := hr.top
  rw [ha lib _ _ (by omega) hr.free.lt] at hx
  rw [nopI, hb']
  cases hgx : g (s.mem (s.top - 1)) (s.mem s.top) with
  | ub => rw [hgx] at hx; cases hx
  | hang => rw [hgx] at hx; cases hx
  | ok r =>
    have htp : (rep2 s r).top = s.top - 1 := rep2_top (by omega)
    have e1 : (rep2 s r).mem (rep2 s r).top = r := by rw [htp]; exact updW_same _ _ _
    rw [hgx, Res.ok_bind, hb, e1, ← ht _ _ _ hgx] at hx
    cases hc : t' (s.mem (s.top - 1)) (s.mem s.top)
    · rw [hc] at hx
      cases hx
      exact ⟨_, rfl, popN_rep2 (by omega) _⟩
    · rw [hc] at hx
      cases hx
      rw [hl]
      exact ⟨_, rfl, popN_rep2 (by omega) _⟩

/-- Constant folding of a two-operand instruction. -/
theorem fam_fold {k l v : Word} {g : Word → Word → Res Word} (ha : PushI a k) (hb : PushI b l)
    (hc : BinI c g) (ha' : PushI a' v) (hg : ∀ r, g k l = .ok r → v = r) :
    Sound lib P [a, b, c] [a', nop, nop] := by
  intro s hr hP e s' hx
  have h2 := hr.free.mono (m := 2) (by omega)
  have h1 := h2.mono (m := 1) (by omega)
  have h3 : Free (psh s k) 1 := psh_free h2
  rw [ha lib _ _ h1, hb lib _ _ h3, hc lib _ _ (by rw [psh_top h3]; omega) (psh_free (n := 0) h3).lt,
    psh_mem_top h3, psh_top h3, Nat.add_sub_cancel, psh_mem (Nat.le_refl _), psh_mem_top h1] at hx
  rw [ha' lib _ _ h1, nopI, nopI]
  cases hgx : g k l with
  | ub => rw [hgx] at hx; cases hx
  | hang => rw [hgx] at hx; cases hx
  | ok r =>
    rw [hgx, Res.ok_bind] at hx
    cases hx
    rw [hg _ hgx]
    exact ⟨_, rfl, live_rep2_psh2 h2 _ _ _⟩

/-- A one-operand instruction on the second operand of a two-operand instruction. -/
theorem fam_un_bin {f : Word → Word} {g g' : Word → Word → Res Word} (ha : UnI a f) (hb : BinI b g)
    (hb' : BinI b' g') (h : ∀ x y, g x (f y) = g' x y) : Sound lib P [a, b] [nop, b'] := by
  intro s hr hP e s' hx
  have htop := hr.top
  have e2 : (rep1 s (f (s.mem s.top))).mem (rep1 s (f (s.mem s.top))).top = f (s.mem s.top) :=
    updW_same _ _ _
  have e3 : (rep1 s (f (s.mem s.top))).mem ((rep1 s (f (s.mem s.top))).top - 1) =
      s.mem (s.top - 1) := updW_other _ _ (by show s.top - 1 ≠ s.top; omega)
  rw [ha lib _ _ (by omega) hr.free.lt, hb lib _ _ (by rw [rep1_top]; omega) (by exact hr.free.lt),
    e2, e3, h] at hx
  rw [nopI, hb' lib _ _ (by omega) hr.free.lt]
  cases hgx : g' (s.mem (s.top - 1)) (s.mem s.top) with
  | ub => rw [hgx] at hx; cases hx
  | hang => rw [hgx] at hx; cases hx
  | ok r =>
    rw [hgx, Res.ok_bind] at hx
    cases hx
    refine ⟨_, rfl, rfl, ?_⟩
    intro i hi
    have hi' : i ≤ (rep2 (rep1 s (f (s.mem s.top))) r).top ∨ s.top + 2 < i := hi
    rw [rep2_top (by rw [rep1_top]; omega), rep1_top] at hi'
    show updW s.mem (s.top - 1) r i = updW (updW s.mem s.top (f (s.mem s.top))) (s.top - 1) r i
    by_cases h1 : i = s.top - 1
    · rw [h1, updW_same, updW_same]
    · rw [updW_other _ _ h1, updW_other _ _ h1, updW_other _ _ (by omega)]

/-- A load pushes the value it fetches. -/
theorem fetchI {o : Op} {s t : VM} {v : Word} (ho : b.op = o.toByte) (hp : isPlain o = true)
    (hf : Fetches lib b s v) (h1 : t = { s with mem := t.mem, sp := t.sp })
    (h2 : t.sp = s.sp ∨ t.sp = s.sp + 2#16) (h3 : ∀ j, j ≤ s.sp.toNat / 2 → t.mem j = s.mem j)
    (rest : List OpType) : execSeq lib (b :: rest) t = execSeq lib rest (psh t v) := by
  rw [execSeq_plain ho hp, hf t h1 h2 h3]
  rfl

theorem fetchI_self {o : Op} {s : VM} {v : Word} (ho : b.op = o.toByte) (hp : isPlain o = true)
    (hf : Fetches lib b s v) (rest : List OpType) :
    execSeq lib (b :: rest) s = execSeq lib rest (psh s v) :=
  fetchI ho hp hf rfl (.inl rfl) (fun _ _ => rfl) rest

theorem fetchI_psh {o : Op} {s : VM} {v w : Word} (ho : b.op = o.toByte) (hp : isPlain o = true)
    (hf : Fetches lib b s v) (rest : List OpType) :
    execSeq lib (b :: rest) (psh s w) = execSeq lib rest (psh (psh s w) v) :=
  fetchI ho hp hf rfl (.inr rfl) (fun _ hj => psh_mem hj) rest

/-- Two pushes and a combination: only the result matters. -/
theorem live_rep2_any {s : VM} (h : Free s 2) (x y x' y' z : Word) :
    SameLive s.top (rep2 (psh (psh s x) y) z) (rep2 (psh (psh s x') y') z) := by
  have h1 := live_rep2_psh2 h x y z
  have h2 := live_rep2_psh2 h x' y' z
  have e : ∀ x y : Word, (rep2 (psh (psh s x) y) z).sp = s.sp + 2#16 := by
    intro x y; simp [rep2, psh, BitVec.add_sub_cancel]
  refine ⟨?_, ?_⟩
  · rw [rep2, rep2, psh_top (psh_free (n := 1) h), psh_top (psh_free (n := 1) h)]
    simp [psh]
  · intro i hi
    rw [e] at hi
    rw [← h1.live i (by rw [e]; exact hi), ← h2.live i (by rw [e]; exact hi)]

/-- A constant, a load and a two-operand instruction: `P` tells what the load fetches. -/
theorem seq_const_load {o : Op} {s : VM} {k v : Word} {g : Word → Word → Res Word}
    (ha : PushI a k) (ho : b.op = o.toByte) (hp : isPlain o = true) (hc : BinI c g)
    (hr : Roomy s) (hf : Fetches lib b s v) :
    execSeq lib [a, b, c] s = (do let r ← g k v; .ok (none, rep2 (psh (psh s k) v) r)) := by
  have h2 := hr.free.mono (m := 2) (by omega)
  have h1 := h2.mono (m := 1) (by omega)
  have h3 : Free (psh s k) 1 := psh_free h2
  rw [ha lib _ _ h1, fetchI_psh ho hp hf, hc lib _ _ (by rw [psh_top h3]; omega)
    (psh_free (n := 0) h3).lt, psh_mem_top h3, psh_top h3, Nat.add_sub_cancel,
    psh_mem (Nat.le_refl _), psh_mem_top h1]
  rfl

/-- The constant is not needed and the operator has one operand. -/
theorem fam_cl_un {o : Op} {k : Word} {g : Word → Word → Res Word} {f : Word → Word}
    (ha : PushI a k) (ho : b.op = o.toByte) (hp : isPlain o = true) (hc : BinI c g) (hc' : UnI c' f)
    (hg : ∀ s, P s → ∃ v, Fetches lib b s v ∧ ∀ r, g k v = .ok r → f v = r) :
    Sound lib P [a, b, c] [nop, b, c'] := by
  intro s hr hP e s' hx
  obtain ⟨v, hf, hv⟩ := hg s hP
  have h2 := hr.free.mono (m := 2) (by omega)
  have h1 := h2.mono (m := 1) (by omega)
  rw [seq_const_load ha ho hp hc hr hf] at hx
  rw [nopI, fetchI_self ho hp hf, hc' lib _ _ (by rw [psh_top h1]; omega) (psh_free (n := 0) h1).lt,
    psh_mem_top h1]
  cases hgx : g k v with
  | ub => rw [hgx] at hx; cases hx
  | hang => rw [hgx] at hx; cases hx
  | ok r =>
    rw [hgx] at hx
    cases hx
    rw [hv r hgx, rep1_psh h1]
    exact ⟨_, rfl, live_rep2_psh2 h2 _ _ _⟩

/-- The constant and the operator are not needed. -/
theorem fam_cl_id {o : Op} {k : Word} {g : Word → Word → Res Word}
    (ha : PushI a k) (ho : b.op = o.toByte) (hp : isPlain o = true) (hc : BinI c g)
    (hg : ∀ s, P s → ∃ v, Fetches lib b s v ∧ ∀ r, g k v = .ok r → v = r) :
    Sound lib P [a, b, c] [nop, b, nop] := by
  intro s hr hP e s' hx
  obtain ⟨v, hf, hv⟩ := hg s hP
  have h2 := hr.free.mono (m := 2) (by omega)
  rw [seq_const_load ha ho hp hc hr hf] at hx
  rw [nopI, fetchI_self ho hp hf, nopI]
  cases hgx : g k v with
  | ub => rw [hgx] at hx; cases hx
  | hang => rw [hgx] at hx; cases hx
  | ok r =>
    rw [hgx] at hx
    cases hx
    rw [hv r hgx]
    exact ⟨_, rfl, live_rep2_psh2 h2 _ _ _⟩

/-- The load comes first. -/
theorem fam_cl_bin {o : Op} {k k' : Word} {g g' : Word → Word → Res Word}
    (ha : PushI a k) (ho : b.op = o.toByte) (hp : isPlain o = true) (hc : BinI c g)
    (ha' : PushI a' k') (hc' : BinI c' g')
    (hg : ∀ s, P s → ∃ v, Fetches lib b s v ∧ ∀ r, g k v = .ok r → g' v k' = .ok r) :
    Sound lib P [a, b, c] [b, a', c'] := by
  intro s hr hP e s' hx
  obtain ⟨v, hf, hv⟩ := hg s hP
  have h2 := hr.free.mono (m := 2) (by omega)
  have h1 := h2.mono (m := 1) (by omega)
  have h3 : Free (psh s v) 1 := psh_free h2
  rw [seq_const_load ha ho hp hc hr hf] at hx
  rw [fetchI_self ho hp hf, ha' lib _ _ h3, hc' lib _ _ (by rw [psh_top h3]; omega)
    (psh_free (n := 0) h3).lt, psh_mem_top h3, psh_top h3, Nat.add_sub_cancel,
    psh_mem (Nat.le_refl _), psh_mem_top h1]
  cases hgx : g k v with
  | ub => rw [hgx] at hx; cases hx
  | hang => rw [hgx] at hx; cases hx
  | ok r =>
    rw [hgx] at hx
    cases hx
    rw [hv r hgx]
    exact ⟨_, rfl, live_rep2_any h2 _ _ _ _ _⟩

/-- A state with `y` and `x` on top of the stack and zeros elsewhere. -/
def vmWith (y x : Word) : VM where
  mem := fun i => if i = 10 then x else if i = 9 then y else 0#16
  words := 100
  spb := 0#16
  sp := 20#16
  csp := 0#16
  hpb := 0#16
  hsp := 0#16
  fp := 0#16
  rop := 0#16
  pc := 0#16
  lsp := 0#16
  strSize := 0#16
  roSize := 0#16
  stkSize := 0#16
  hpSize := 0#16
  freeChunks := none

theorem vmWith_roomy (y x : Word) : Roomy (vmWith y x) :=
  ⟨show 3 ≤ (20#16).toNat / 2 by decide, show (20#16).toNat / 2 + 4 < 100 by decide,
    show 100 ≤ 32768 by decide⟩

/-- What can be seen of a result: the jump, the stack pointer, the word on top of the stack and
the one below. -/
def seen : Res (Option Word × VM) → Option (Option Word × Word × Word × Word)
  | .ok (e, s) => some (e, s.sp, s.mem s.top, s.mem (s.top - 1))
  | _ => none

/-- Different outcomes: not a sound rewrite. -/
theorem not_sound {s : VM} {v v' : Option Word × Word × Word × Word} {l l' : List OpType}
    (hr : Roomy s) (hP : P s) (h : seen (execSeq lib l s) = some v)
    (h' : seen (execSeq lib l' s) = some v') (hne : v ≠ v') : ¬ Sound lib P l l' := by
  intro hs
  cases he : execSeq lib l s with
  | ub => rw [he] at h; cases h
  | hang => rw [he] at h; cases h
  | ok r =>
    obtain ⟨e, s'⟩ := r
    obtain ⟨s'', h2, hl⟩ := hs s hr hP e s' he
    rw [he] at h
    rw [h2] at h'
    apply hne
    cases h
    cases h'
    have hsp : s''.sp = s'.sp := by rw [hl.regs]
    have ht : s''.top = s'.top := by rw [VM.top, VM.top, hsp]
    rw [hsp, ht, hl.live _ (.inl (Nat.le_refl s'.top)),
      hl.live _ (.inl (Nat.sub_le s'.top 1))]

end Pas
