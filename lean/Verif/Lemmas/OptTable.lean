import Verif.Lemmas.OptRules

/-! The window of the optimizer: what is listed, how changes act on the instructions, and the
measure that every change decreases. -/
namespace Pas.Popt

/-- The instructions of a table. -/
def ops (t : Table) : List OpType := t.map (·.ins)

theorem ops_length (t : Table) : (ops t).length = t.length := List.length_map ..

theorem ops_get {t : Table} {p : Nat} {x : OpR} (h : t[p]? = some x) : (ops t)[p]? = some x.ins := by
  unfold ops; rw [List.getElem?_map, h]; rfl

/-! ### Listed places -/

def visL : Nat → List OpType → List Nat
  | _, [] => []
  | p, x :: r =>
    match listing x with
    | .stop => []
    | .last => [p]
    | .skip => visL (p + 1) r
    | .take => p :: visL (p + 1) r

theorem visFrom_eq (p : Nat) (t : Table) : visFrom p t = visL p (ops t) := by
  induction t generalizing p with
  | nil => rfl
  | cons x r ih =>
    show (match listing x.ins with | .stop => [] | .last => [p] | .skip => _ | .take => _) = _
    simp only [ops, List.map_cons, visL]
    cases listing x.ins <;> simp only [ih] <;> rfl

theorem vis_eq (t : Table) : vis t = visL 0 (ops t) := visFrom_eq 0 t

theorem visL_congr {l l' : List OpType} (h : l.map listing = l'.map listing) (p : Nat) :
    visL p l = visL p l' := by
  induction l generalizing p l' with
  | nil => cases l' with
    | nil => rfl
    | cons => cases h
  | cons x r ih =>
    cases l' with
    | nil => cases h
    | cons y s =>
      simp only [List.map_cons, List.cons.injEq] at h
      simp only [visL, h.1, ih h.2]

theorem visL_mem {p q : Nat} {l : List OpType} (h : q ∈ visL p l) :
    p ≤ q ∧ ∃ x, l[q - p]? = some x ∧ (listing x = .last ∨ listing x = .take) := by
  induction l generalizing p with
  | nil => cases h
  | cons x r ih =>
    have step : q ∈ visL (p + 1) r → p ≤ q ∧ ∃ y, (x :: r)[q - p]? = some y ∧
        (listing y = .last ∨ listing y = .take) := by
      intro h
      obtain ⟨h1, y, h2, h3⟩ := ih h
      refine ⟨by omega, y, ?_, h3⟩
      rw [show q - p = (q - (p + 1)) + 1 by omega, List.getElem?_cons_succ]
      exact h2
    simp only [visL] at h
    cases hl : listing x with
    | stop => rw [hl] at h; cases h
    | last =>
      rw [hl] at h
      have := List.mem_singleton.mp h
      subst this
      exact ⟨Nat.le_refl _, x, by simp, Or.inl hl⟩
    | skip => rw [hl] at h; exact step h
    | take =>
      rw [hl] at h
      rcases List.mem_cons.mp h with rfl | h
      · exact ⟨Nat.le_refl _, x, by simp, Or.inr hl⟩
      · exact step h

theorem visL_sorted (p : Nat) (l : List OpType) : (visL p l).Pairwise (· < ·) := by
  induction l generalizing p with
  | nil => exact .nil
  | cons x r ih =>
    simp only [visL]
    cases listing x with
    | stop => exact .nil
    | last => exact .cons (by simp) .nil
    | skip => exact ih _
    | take => exact .cons (fun q hq => by have := (visL_mem hq).1; omega) (ih _)

theorem vis_lt {t : Table} {i j p q : Nat} (hij : i < j) (hi : (vis t)[i]? = some p)
    (hj : (vis t)[j]? = some q) : p < q := by
  rw [vis_eq] at hi hj
  obtain ⟨hi', rfl⟩ := List.getElem?_eq_some_iff.mp hi
  obtain ⟨hj', rfl⟩ := List.getElem?_eq_some_iff.mp hj
  exact List.pairwise_iff_getElem.mp (visL_sorted 0 (ops t)) _ _ hi' hj' hij

/-- A listed instruction. -/
theorem listed {i : OpType} (h : listing i = .last ∨ listing i = .take) :
    isFixed i = false ∧ i.op ≠ Op.nop.toByte := by
  have key : ∀ o : Op, Op.ofByte i.op = some o → fixedOp o = false ∧ o ≠ .nop := by
    intro o ho
    unfold listing at h
    rw [ho] at h
    cases o <;> first
      | (constructor <;> decide)
      | (exfalso; revert h; decide)
  constructor
  · unfold isFixed
    cases ho : Op.ofByte i.op with
    | none => rfl
    | some o => exact (key o ho).1
  · intro e
    have : Op.ofByte i.op = some .nop := by rw [e]; rfl
    exact (key _ this).2 rfl

theorem vis_get {t : Table} {i p : Nat} (h : (vis t)[i]? = some p) :
    ∃ x, t[p]? = some x ∧ isFixed x.ins = false ∧ x.ins.op ≠ Op.nop.toByte := by
  have hm : p ∈ visL 0 (ops t) := by
    rw [vis_eq] at h; exact List.mem_of_getElem? h
  obtain ⟨_, y, hy, hl⟩ := visL_mem hm
  rw [Nat.sub_zero] at hy
  unfold ops at hy
  rw [List.getElem?_map, Option.map_eq_some_iff] at hy
  obtain ⟨x, hx, rfl⟩ := hy
  exact ⟨x, hx, listed hl⟩

theorem get_some {t : Table} {i : Nat} (h : i < count t) : ∃ x, get t i = some x := by
  obtain ⟨p, hp⟩ : ∃ p, (vis t)[i]? = some p := ⟨_, List.getElem?_eq_getElem h⟩
  obtain ⟨x, hx, _⟩ := vis_get hp
  exact ⟨x, by unfold get; rw [hp]; exact hx⟩

/-- A listed instruction with its place. -/
structure At (t : Table) (i p : Nat) (x : OpR) : Prop where
  vis : (vis t)[i]? = some p
  tab : t[p]? = some x
  fix : isFixed x.ins = false
  nop : x.ins.op ≠ Op.nop.toByte

theorem get_at {t : Table} {i : Nat} {x : OpR} (h : get t i = some x) : ∃ p, At t i p x := by
  unfold get at h
  split at h
  · next p hp =>
    obtain ⟨y, hy, h1, h2⟩ := vis_get hp
    cases hy.symm.trans h
    exact ⟨p, hp, hy, h1, h2⟩
  · cases h

theorem get_not_none {t : Table} {i : Nat} {x : OpR} (h : get t i = some x) : i < count t := by
  obtain ⟨p, hp⟩ := get_at h
  exact (List.getElem?_eq_some_iff.mp hp.vis).1

theorem At.lt {t : Table} {i p : Nat} {x : OpR} (h : At t i p x) : p < t.length :=
  (List.getElem?_eq_some_iff.mp h.tab).1

theorem count_le (t : Table) : count t ≤ t.length := by
  unfold count
  by_cases h : (vis t).length = 0
  · omega
  · have hl : (vis t).length - 1 < (vis t).length := by omega
    have key : ∀ i, i < (vis t).length → ∃ p, (vis t)[i]? = some p ∧ i ≤ p := by
      intro i
      induction i with
      | zero => intro h; exact ⟨_, List.getElem?_eq_getElem h, Nat.zero_le _⟩
      | succ i ih =>
        intro h
        obtain ⟨p, hp, hle⟩ := ih (by omega)
        have h2 := List.getElem?_eq_getElem h
        have := vis_lt (t := t) (Nat.lt_succ_self i) hp h2
        exact ⟨_, h2, by omega⟩
    obtain ⟨p, hp, hle⟩ := key _ hl
    obtain ⟨x, hx, _⟩ := vis_get hp
    have := (List.getElem?_eq_some_iff.mp hx).1
    omega

/-! ### Changes -/

theorem ops_putAt (t : Table) (p : Nat) (y : OpType) : ops (putAt t p y) = (ops t).set p y := by
  unfold putAt
  apply List.ext_getElem?
  intro q
  unfold ops
  rw [List.getElem?_map, List.getElem?_modify, List.getElem?_set, List.getElem?_map, List.length_map]
  by_cases h : p = q
  · subst h
    simp only [if_true]
    by_cases hl : p < t.length
    · rw [if_pos hl, List.getElem?_eq_getElem hl]; rfl
    · rw [if_neg hl, List.getElem?_eq_none (by omega)]; rfl
  · simp only [h, if_false]
    cases t[q]? <;> rfl

theorem ops_adjust {t : Table} {i p : Nat} {x : OpR} (h : At t i p x) (f : OpType → OpType) :
    ops (adjust t i f) = (ops t).set p (f x.ins) := by
  unfold adjust
  rw [h.vis]
  show ops (t.modify p fun x => { x with ins := f x.ins }) = _
  apply List.ext_getElem?
  intro q
  unfold ops
  rw [List.getElem?_map, List.getElem?_modify, List.getElem?_set, List.getElem?_map, List.length_map]
  by_cases hq : p = q
  · subst hq
    simp only [if_true]
    rw [if_pos h.lt, h.tab]; rfl
  · simp only [hq, if_false]
    cases t[q]? <;> rfl

theorem adjust_none {t : Table} {i : Nat} (h : get t i = none) (f : OpType → OpType) :
    adjust t i f = t := by
  unfold get at h
  unfold adjust
  split at h
  · next p hp =>
    obtain ⟨x, hx, _⟩ := vis_get hp
    rw [hx] at h; cases h
  · rfl

theorem ops_swapOff (t : Table) (i : Nat) : ops (swapOff t i) = ops t := by
  have key : ∀ (t : Table) (p : Nat) (k : Nat), ops (t.modify p fun z => { z with off := k }) = ops t := by
    intro t p k
    apply List.ext_getElem?
    intro q
    unfold ops
    rw [List.getElem?_map, List.getElem?_modify, List.getElem?_map]
    by_cases h : p = q <;> simp only [h, if_true, if_false] <;> cases t[q]? <;> rfl
  unfold swapOff
  split
  · split
    · rw [key, key]
    · rfl
  · rfl

theorem vis_congr {t t' : Table} (h : (ops t').map listing = (ops t).map listing) : vis t' = vis t := by
  rw [vis_eq, vis_eq, visL_congr h]

theorem map_set_same {l : List OpType} {p : Nat} {x y : OpType} (hx : l[p]? = some x)
    (h : listing y = listing x) : (l.set p y).map listing = l.map listing := by
  apply List.ext_getElem?
  intro q
  rw [List.getElem?_map, List.getElem?_set, List.getElem?_map]
  by_cases hq : p = q
  · subst hq
    simp only [if_true]
    rw [if_pos (List.getElem?_eq_some_iff.mp hx).1, hx]
    simp [h]
  · simp [hq]

/-- The instructions `l'` are the instructions `l` with some changed: no fixed one, and into
something written in place of `xs`. -/
structure Edit (xs l l' : List OpType) : Prop where
  len : l'.length = l.length
  each : ∀ (p : Nat) (x y : OpType), l[p]? = some x → l'[p]? = some y →
    y = x ∨ (isFixed x = false ∧ isFixed y = false ∧ Out xs y)

theorem Edit.refl (xs l : List OpType) : Edit xs l l :=
  ⟨rfl, fun _ _ _ h h' => Or.inl (Option.some.inj (h'.symm.trans h))⟩

theorem Edit.trans {xs l l' l'' : List OpType} (h : Edit xs l l') (h' : Edit xs l' l'') :
    Edit xs l l'' := by
  refine ⟨h'.len.trans h.len, ?_⟩
  intro p x z hx hz
  have hp : p < l'.length := by rw [h.len]; exact (List.getElem?_eq_some_iff.mp hx).1
  have hy := List.getElem?_eq_getElem hp
  rcases h'.each p _ z hy hz with e | ⟨f1, f2, o⟩
  · rcases h.each p x _ hx hy with e' | ⟨g1, g2, o'⟩
    · exact Or.inl (e.trans e')
    · rw [e]; exact Or.inr ⟨g1, g2, o'⟩
  · rcases h.each p x _ hx hy with e' | ⟨g1, g2, o'⟩
    · rw [e'] at f1; exact Or.inr ⟨f1, f2, o⟩
    · exact Or.inr ⟨g1, f2, o⟩

theorem Edit.set {xs l : List OpType} {p : Nat} {x y : OpType} (hx : l[p]? = some x)
    (h1 : isFixed x = false) (h2 : isFixed y = false) (o : Out xs y) : Edit xs l (l.set p y) := by
  refine ⟨List.length_set .., ?_⟩
  intro q x' y' hx' hy'
  rw [List.getElem?_set] at hy'
  split at hy'
  · next e =>
    subst e
    cases hx.symm.trans hx'
    split at hy' <;> cases hy'
    exact Or.inr ⟨h1, h2, o⟩
  · exact Or.inl (Option.some.inj (hy'.symm.trans hx'))

theorem out_notFixed {xs : List OpType} {y : OpType} (h : ∀ x ∈ xs, isFixed x = false)
    (o : Out xs y) : isFixed y = false := by
  rcases o.op with ⟨x, hx, e⟩ | hm
  · have := h x hx
    unfold isFixed at this ⊢
    rw [← e]; exact this
  · unfold made at hm
    unfold isFixed
    cases ho : Op.ofByte y.op with
    | none => rfl
    | some o =>
      rw [ho] at hm
      have hm : madeOp o = true := hm
      show fixedOp o = false
      cases o <;> first | rfl | cases hm

theorem Out.trans {xs ys : List OpType} {z : OpType} (h : ∀ y ∈ ys, Out xs y) (o : Out ys z) :
    Out xs z := by
  refine ⟨?_, ?_⟩
  · rcases o.op with ⟨y, hy, e⟩ | hm
    · rcases (h y hy).op with ⟨x, hx, e'⟩ | hm
      · exact Or.inl ⟨x, hx, e'.trans e⟩
      · right
        unfold made at hm ⊢
        rw [← e]; exact hm
    · exact Or.inr hm
  · intro hj
    obtain ⟨y, hy, hyj, e⟩ := o.jump hj
    obtain ⟨x, hx, hxj, e'⟩ := (h y hy).jump hyj
    exact ⟨x, hx, hxj, e'.trans e⟩

/-- A table changed by the optimizer. -/
def Chg (t t' : Table) : Prop := Edit (ops t) (ops t) (ops t')

theorem Chg.refl (t : Table) : Chg t t := Edit.refl ..

theorem Edit.out {l l' : List OpType} (h : Edit l l l') {y : OpType} (hy : y ∈ l') : Out l y := by
  obtain ⟨p, hp⟩ := List.mem_iff_getElem?.mp hy
  have hl : p < l.length := by rw [← h.len]; exact (List.getElem?_eq_some_iff.mp hp).1
  rcases h.each p _ y (List.getElem?_eq_getElem hl) hp with e | ⟨_, _, o⟩
  · rw [e]; exact out_same (List.getElem_mem ..)
  · exact o

theorem Chg.trans {t t' t'' : Table} (h : Chg t t') (h' : Chg t' t'') : Chg t t'' := by
  refine Edit.trans h ⟨h'.len, ?_⟩
  intro p x y hx hy
  rcases h'.each p x y hx hy with e | ⟨f1, f2, o⟩
  · exact Or.inl e
  · exact Or.inr ⟨f1, f2, o.trans (fun _ hz => h.out hz)⟩

theorem Chg.len {t t' : Table} (h : Chg t t') : t'.length = t.length := by
  have := Edit.len h
  rwa [ops_length, ops_length] at this

theorem chg_of_ops {t t' : Table} (h : ops t' = ops t) : Chg t t' := by
  unfold Chg; rw [h]; exact Edit.refl ..

/-! ### The measure -/

/-- A constant weighs more the earlier it stands. -/
def m (p : Nat) (i : OpType) : Nat := 128 * wt i + (if isPush i then 16 - p else 0)

def mu : Nat → List OpType → Nat
  | _, [] => 0
  | p, x :: r => m p x + mu (p + 1) r

def meas (t : Table) : Nat := mu 0 (ops t)

theorem m_le (p : Nat) (i : OpType) : m p i ≤ 128 * wt i + 16 := by
  unfold m; split <;> omega

theorem m_ge (p : Nat) (i : OpType) : 128 * wt i ≤ m p i := by
  unfold m; split <;> omega

theorem m_nop (p : Nat) : m p nop = 0 := rfl

theorem mu_set {l : List OpType} {k : Nat} {x : OpType} (y : OpType) (p : Nat) (h : l[k]? = some x) :
    mu p (l.set k y) + m (p + k) x = mu p l + m (p + k) y := by
  induction l generalizing p k with
  | nil => cases h
  | cons z r ih =>
    cases k with
    | zero =>
      simp only [List.getElem?_cons_zero, Option.some.injEq] at h
      subst h
      simp only [List.set_cons_zero, mu, Nat.add_zero]
      omega
    | succ k =>
      rw [List.getElem?_cons_succ] at h
      have := ih (p + 1) h
      simp only [List.set_cons_succ, mu]
      rw [show p + 1 + k = p + (k + 1) by omega] at this
      omega

theorem meas_bound (t : Table) : meas t ≤ 656 * t.length := by
  have : ∀ (l : List OpType) p, mu p l ≤ 656 * l.length := by
    intro l
    induction l with
    | nil => intro p; exact Nat.le_refl _
    | cons x r ih =>
      intro p
      have h1 := ih (p + 1)
      have h2 := m_le p x
      have h3 := wt_le5 x
      simp only [mu, List.length_cons]
      omega
  unfold meas
  rw [← ops_length]
  exact this _ _

/-! ### The elementary changes -/

theorem set_get_ne {l : List OpType} {p q : Nat} {x : OpType} (y : OpType) (h : p ≠ q)
    (hq : l[q]? = some x) : (l.set p y)[q]? = some x := by
  rw [List.getElem?_set, if_neg h]; exact hq

theorem put2_at {t : Table} {i p q : Nat} {a b : OpR} (ha : At t i p a) (hb : At t (i + 1) q b)
    (a' b' : OpType) : ops (put2 t i a' b') = ((ops t).set p a').set q b' := by
  unfold put2
  rw [ha.vis, hb.vis]
  show ops (putAt (putAt t p a') q b') = _
  rw [ops_putAt, ops_putAt]

theorem put3_at {t : Table} {i p q r : Nat} {a b c : OpR} (ha : At t i p a) (hb : At t (i + 1) q b)
    (hc : At t (i + 2) r c) (a' b' c' : OpType) :
    ops (put3 t i a' b' c') = (((ops t).set p a').set q b').set r c' := by
  unfold put3
  rw [ha.vis, hb.vis, hc.vis]
  show ops (putAt (putAt (putAt t p a') q b') r c') = _
  rw [ops_putAt, ops_putAt, ops_putAt]

theorem At.mem {t : Table} {i p : Nat} {x : OpR} (h : At t i p x) : x.ins ∈ ops t :=
  List.mem_of_getElem? (ops_get h.tab)

/-- Two listed instructions changed. -/
theorem put2_chg {t : Table} {i : Nat} {a b : OpR} (ha : get t i = some a)
    (hb : get t (i + 1) = some b) {a' b' : OpType} (oa : Out [a.ins, b.ins] a')
    (ob : Out [a.ins, b.ins] b') :
    Chg t (put2 t i a' b') ∧ ∃ p q, p < q ∧ q < t.length ∧
      meas (put2 t i a' b') + m p a.ins + m q b.ins = meas t + m p a' + m q b' := by
  obtain ⟨p, hp⟩ := get_at ha
  obtain ⟨q, hq⟩ := get_at hb
  have hpq := vis_lt (Nat.lt_succ_self i) hp.vis hq.vis
  have e := put2_at hp hq a' b'
  have hs : ∀ x ∈ [a.ins, b.ins], x ∈ ops t := by
    intro x hx; simp only [List.mem_cons, List.not_mem_nil, or_false] at hx
    rcases hx with rfl | rfl
    · exact hp.mem
    · exact hq.mem
  have hf : ∀ x ∈ [a.ins, b.ins], isFixed x = false := by
    intro x hx; simp only [List.mem_cons, List.not_mem_nil, or_false] at hx
    rcases hx with rfl | rfl
    · exact hp.fix
    · exact hq.fix
  have gq := set_get_ne a' (Nat.ne_of_lt hpq) (ops_get hq.tab)
  refine ⟨?_, p, q, hpq, hq.lt, ?_⟩
  · unfold Chg
    rw [e]
    exact (Edit.set (ops_get hp.tab) hp.fix (out_notFixed hf oa) (mono_out oa hs)).trans
      (Edit.set gq hq.fix (out_notFixed hf ob) (mono_out ob hs))
  · have h1 := mu_set a' 0 (ops_get hp.tab)
    have h2 := mu_set b' 0 gq
    unfold meas
    rw [e]
    simp only [Nat.zero_add] at h1 h2
    omega

/-- Three listed instructions changed. -/
theorem put3_chg {t : Table} {i : Nat} {a b c : OpR} (ha : get t i = some a)
    (hb : get t (i + 1) = some b) (hc : get t (i + 2) = some c) {a' b' c' : OpType}
    (oa : Out [a.ins, b.ins, c.ins] a') (ob : Out [a.ins, b.ins, c.ins] b')
    (oc : Out [a.ins, b.ins, c.ins] c') :
    Chg t (put3 t i a' b' c') ∧ ∃ p q r, p < q ∧ q < r ∧ r < t.length ∧
      meas (put3 t i a' b' c') + m p a.ins + m q b.ins + m r c.ins =
        meas t + m p a' + m q b' + m r c' := by
  obtain ⟨p, hp⟩ := get_at ha
  obtain ⟨q, hq⟩ := get_at hb
  obtain ⟨r, hr⟩ := get_at hc
  have hpq := vis_lt (Nat.lt_succ_self i) hp.vis hq.vis
  have hqr := vis_lt (Nat.lt_succ_self (i + 1)) hq.vis hr.vis
  have e := put3_at hp hq hr a' b' c'
  have hs : ∀ x ∈ [a.ins, b.ins, c.ins], x ∈ ops t := by
    intro x hx; simp only [List.mem_cons, List.not_mem_nil, or_false] at hx
    rcases hx with rfl | rfl | rfl
    · exact hp.mem
    · exact hq.mem
    · exact hr.mem
  have hf : ∀ x ∈ [a.ins, b.ins, c.ins], isFixed x = false := by
    intro x hx; simp only [List.mem_cons, List.not_mem_nil, or_false] at hx
    rcases hx with rfl | rfl | rfl
    · exact hp.fix
    · exact hq.fix
    · exact hr.fix
  have gq := set_get_ne a' (Nat.ne_of_lt hpq) (ops_get hq.tab)
  have gr := set_get_ne b' (Nat.ne_of_lt hqr)
    (set_get_ne a' (Nat.ne_of_lt (Nat.lt_trans hpq hqr)) (ops_get hr.tab))
  refine ⟨?_, p, q, r, hpq, hqr, hr.lt, ?_⟩
  · unfold Chg
    rw [e]
    exact ((Edit.set (ops_get hp.tab) hp.fix (out_notFixed hf oa) (mono_out oa hs)).trans
      (Edit.set gq hq.fix (out_notFixed hf ob) (mono_out ob hs))).trans
      (Edit.set gr hr.fix (out_notFixed hf oc) (mono_out oc hs))
  · have h1 := mu_set a' 0 (ops_get hp.tab)
    have h2 := mu_set b' 0 gq
    have h3 := mu_set c' 0 gr
    unfold meas
    rw [e]
    simp only [Nat.zero_add] at h1 h2 h3
    omega

theorem put2_less {t : Table} {i : Nat} {a b : OpR} (ha : get t i = some a)
    (hb : get t (i + 1) = some b) {a' b' : OpType} (o : Out2 a.ins b.ins a' b') :
    Chg t (put2 t i a' b') ∧ meas (put2 t i a' b') < meas t := by
  obtain ⟨h, p, q, _, _, e⟩ := put2_chg ha hb o.fst o.snd
  refine ⟨h, ?_⟩
  have := o.less
  have h1 := m_le p a'
  have h2 := m_le q b'
  have h3 := m_ge p a.ins
  have h4 := m_ge q b.ins
  omega

theorem put3_less {t : Table} {i : Nat} {a b c : OpR} (ha : get t i = some a)
    (hb : get t (i + 1) = some b) (hc : get t (i + 2) = some c) {a' b' c' : OpType}
    (o : Out3 a.ins b.ins c.ins a' b' c') :
    Chg t (put3 t i a' b' c') ∧ meas (put3 t i a' b' c') < meas t := by
  obtain ⟨h, p, q, r, _, _, _, e⟩ := put3_chg ha hb hc o.fst o.snd o.thd
  refine ⟨h, ?_⟩
  have := o.less
  have h1 := m_le p a'
  have h2 := m_le q b'
  have h3 := m_ge p a.ins
  have h4 := m_ge q b.ins
  have h5 := m_le r c'
  have h6 := m_ge r c.ins
  omega

/-- A change that turns a constant into a constant. -/
def Same (f : OpType → OpType) : Prop := ∀ i, f i = i ∨ (isPush i = true ∧ isPush (f i) = true)

theorem same_opt : Same optimizePush := by
  intro i
  unfold optimizePush
  split
  · next h =>
    have hi : isPush i = true := by unfold isPush; rw [h]; rfl
    split
    · exact Or.inr ⟨hi, rfl⟩
    · split
      · exact Or.inr ⟨hi, rfl⟩
      · exact Or.inl rfl
  · exact Or.inl rfl

theorem isPush_expand {i : OpType} (h : isPush i = true) : isPush (expandPush i) = true := by
  rw [expandPush_eq h]; rfl

theorem same_re : Same (fun x => optimizePush (expandPush x)) := by
  intro i
  dsimp only
  by_cases hi : isPush i = true
  · rcases same_opt (expandPush i) with e | e
    · rw [e]; exact Or.inr ⟨hi, isPush_expand hi⟩
    · exact Or.inr ⟨hi, e.2⟩
  · have : expandPush i = i := by
      unfold expandPush
      split
      · next h => exact absurd (by unfold isPush; rw [h]; rfl) hi
      · split
        · next h => exact absurd (by unfold isPush; rw [h]; rfl) hi
        · rfl
    rw [this]
    rcases same_opt i with e | e
    · exact Or.inl e
    · exact absurd e.1 hi

theorem push_made {i : OpType} (h : isPush i = true) {xs : List OpType} : Out xs i := by
  rcases isPush_cases h with e | e | e
  · exact out_made e rfl rfl
  · exact out_made e rfl rfl
  · exact out_made e rfl rfl

theorem push_notFixed {i : OpType} (h : isPush i = true) : isFixed i = false :=
  out_notFixed (xs := []) (by simp) (push_made h)

theorem push_listing {i : OpType} (h : isPush i = true) : listing i = .take := by
  unfold listing
  rcases isPush_cases h with e | e | e <;> rw [e] <;> rfl

theorem m_push (p : Nat) {i j : OpType} (hi : isPush i = true) (hj : isPush j = true) : m p i = m p j := by
  unfold m; rw [wt_push hi, wt_push hj, hi, hj]

/-- The table with constants changed into constants. -/
structure Still (t t' : Table) : Prop where
  chg : Chg t t'
  meas : meas t' = meas t
  vis : vis t' = vis t

theorem Still.refl (t : Table) : Still t t := ⟨Chg.refl t, rfl, rfl⟩
theorem Still.trans {t t' t'' : Table} (h : Still t t') (h' : Still t' t'') : Still t t'' :=
  ⟨h.chg.trans h'.chg, h'.meas.trans h.meas, h'.vis.trans h.vis⟩

theorem Still.count {t t' : Table} (h : Still t t') : count t' = count t := by
  unfold Popt.count; rw [h.vis]

theorem still_of_ops {t t' : Table} (h : ops t' = ops t) : Still t t' :=
  ⟨chg_of_ops h, by unfold Popt.meas; rw [h], vis_congr (by rw [h])⟩

theorem set_self {l : List OpType} {p : Nat} {x : OpType} (h : l[p]? = some x) : l.set p x = l := by
  obtain ⟨hp, rfl⟩ := List.getElem?_eq_some_iff.mp h
  exact List.set_getElem_self hp

theorem still_set {t t' : Table} {p : Nat} {x y : OpType} (hx : (ops t)[p]? = some x)
    (e : ops t' = (ops t).set p y) (hpx : isPush x = true) (hpy : isPush y = true) : Still t t' := by
  refine ⟨?_, ?_, ?_⟩
  · unfold Chg; rw [e]
    exact Edit.set hx (push_notFixed hpx) (push_notFixed hpy) (push_made hpy)
  · have := mu_set y 0 hx
    rw [m_push _ hpx hpy] at this
    unfold Popt.meas; rw [e]; omega
  · exact vis_congr (by rw [e]; exact map_set_same hx (by rw [push_listing hpx, push_listing hpy]))

theorem adjust_still (t : Table) (i : Nat) {f : OpType → OpType} (hf : Same f) :
    Still t (adjust t i f) := by
  cases hg : get t i with
  | none => rw [adjust_none hg]; exact Still.refl t
  | some x =>
    obtain ⟨p, hp⟩ := get_at hg
    have e := ops_adjust hp f
    rcases hf x.ins with h | h
    · rw [h, set_self (ops_get hp.tab)] at e
      exact still_of_ops e
    · exact still_set (ops_get hp.tab) e h.1 h.2

theorem optAt_still (t : Table) (i : Nat) : Still t (optAt t i) := adjust_still t i same_opt

theorem swapOff_still (t : Table) (i : Nat) : Still t (swapOff t i) := still_of_ops (ops_swapOff t i)

theorem put2_still {t : Table} {i : Nat} {a b : OpR} (ha : get t i = some a)
    (hb : get t (i + 1) = some b) {a' b' : OpType} (h1 : isPush a.ins = true)
    (h2 : isPush b.ins = true) (h3 : isPush a' = true) (h4 : isPush b' = true) :
    Still t (put2 t i a' b') := by
  obtain ⟨p, hp⟩ := get_at ha
  obtain ⟨q, hq⟩ := get_at hb
  have hpq := vis_lt (Nat.lt_succ_self i) hp.vis hq.vis
  obtain ⟨h, p', q', _, _, e⟩ := put2_chg ha hb (push_made h3) (push_made h4)
  rw [m_push p' h1 h3, m_push q' h2 h4] at e
  refine ⟨h, by omega, vis_congr ?_⟩
  have gq := set_get_ne a' (Nat.ne_of_lt hpq) (ops_get hq.tab)
  rw [put2_at hp hq, map_set_same gq (by rw [push_listing h2, push_listing h4]),
    map_set_same (ops_get hp.tab) (by rw [push_listing h1, push_listing h3])]

theorem put3_still {t : Table} {i : Nat} {a b c : OpR} (ha : get t i = some a)
    (hb : get t (i + 1) = some b) (hc : get t (i + 2) = some c) {a' b' c' : OpType}
    (h1 : isPush a.ins = true) (h2 : isPush b.ins = true) (h3 : isPush a' = true)
    (h4 : isPush b' = true) (h5 : c' = c.ins ∨ (isPush c.ins = true ∧ isPush c' = true)) :
    Still t (put3 t i a' b' c') := by
  obtain ⟨p, hp⟩ := get_at ha
  obtain ⟨q, hq⟩ := get_at hb
  obtain ⟨r, hr⟩ := get_at hc
  have hpq := vis_lt (Nat.lt_succ_self i) hp.vis hq.vis
  have hqr := vis_lt (Nat.lt_succ_self (i + 1)) hq.vis hr.vis
  have oc : Out [a.ins, b.ins, c.ins] c' := by
    rcases h5 with rfl | h5
    · exact out_same m3
    · exact push_made h5.2
  have em : ∀ r, m r c.ins = m r c' := by
    rcases h5 with rfl | h5
    · exact fun _ => rfl
    · exact fun r => m_push r h5.1 h5.2
  have el : listing c' = listing c.ins := by
    rcases h5 with rfl | h5
    · rfl
    · rw [push_listing h5.1, push_listing h5.2]
  obtain ⟨h, p', q', r', _, _, _, e⟩ := put3_chg ha hb hc (push_made h3) (push_made h4) oc
  rw [m_push p' h1 h3, m_push q' h2 h4, em r'] at e
  refine ⟨h, by omega, vis_congr ?_⟩
  have gq := set_get_ne a' (Nat.ne_of_lt hpq) (ops_get hq.tab)
  have gr := set_get_ne b' (Nat.ne_of_lt hqr)
    (set_get_ne a' (Nat.ne_of_lt (Nat.lt_trans hpq hqr)) (ops_get hr.tab))
  rw [put3_at hp hq hr, map_set_same gr el, map_set_same gq (by rw [push_listing h2, push_listing h4]),
    map_set_same (ops_get hp.tab) (by rw [push_listing h1, push_listing h3])]

end Pas.Popt
