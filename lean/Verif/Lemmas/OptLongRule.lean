import Verif.Lemmas.OptLocal

/-! The optimizations of 32-bit constants as rewriting, and the whole local pass. -/
namespace Pas.Popt
open Pas.Spec

/-! ### Several listed instructions, one after the other -/

/-- New instructions at the places `ps`. -/
def setAll : List OpType → List Nat → List OpType → List OpType
  | l, p :: ps, w :: ws => setAll (l.set p w) ps ws
  | l, _, _ => l

theorem setAll_append (l1 : List OpType) : ∀ (ps : List Nat) (ws l2 : List OpType),
    setAll (l1 ++ l2) (ps.map (l1.length + ·)) ws = l1 ++ setAll l2 ps ws := by
  intro ps
  induction ps with
  | nil => intro ws l2; cases ws <;> rfl
  | cons p ps ih =>
    intro ws l2
    cases ws with
    | nil => rfl
    | cons w ws =>
      simp only [List.map_cons, setAll]
      rw [List.set_append_right _ _ (Nat.le_add_right _ _), Nat.add_sub_cancel_left]
      exact ih ws _

theorem visL_shift : ∀ (l : List OpType) (p d : Nat), visL (d + p) l = (visL p l).map (d + ·) := by
  intro l
  induction l with
  | nil => intro p d; rfl
  | cons x r ih =>
    intro p d
    simp only [visL]
    cases listing x with
    | stop => rfl
    | last => rfl
    | skip => exact ih (p + 1) d
    | take => simp only [List.map_cons, List.cons.injEq, true_and]; exact ih (p + 1) d

theorem visL_off (l : List OpType) (d : Nat) : visL d l = (visL 0 l).map (d + ·) := visL_shift l 0 d

theorem map_off_inj {d : Nat} {l : List Nat} {ps rest : List Nat}
    (h : l.map (d + ·) = ps ++ rest) : ∃ qs rs, l = qs ++ rs ∧ ps = qs.map (d + ·) ∧ rest = rs.map (d + ·) := by
  obtain ⟨qs, rs, h1, h2, h3⟩ := List.map_eq_append_iff.mp h
  exact ⟨qs, rs, h1, h2.symm, h3.symm⟩

theorem map_off_off (a b : Nat) (l : List Nat) :
    (l.map (b + ·)).map (a + ·) = l.map (a + b + ·) := by
  rw [List.map_map]; congr 1; funext x; simp [Nat.add_assoc]

theorem placeHead (inp : List OpType) : ∀ (n : Nat) (ps : List Nat) (l : List OpType) (rest : List Nat),
    ps.length = n → visL 0 l = ps ++ rest → ∃ post, ∀ ws : List OpType, ws.length = ps.length →
      (∀ w ∈ ws, notEnd w = true) →
      effective (code (setAll l ps ws ++ inp)) = effective ws ++ post := by
  intro n
  induction n with
  | zero =>
    intro ps l rest hn _
    rw [List.length_eq_zero_iff.mp hn]
    refine ⟨effective (code (l ++ inp)), fun ws hw _ => ?_⟩
    rw [List.length_eq_zero_iff.mp hw]
    rfl
  | succ n ih =>
    intro ps l rest hn h
    cases ps with
    | nil => cases hn
    | cons p ps =>
    obtain ⟨g, a, l2, e1, e2, e3, e4⟩ := vis_next l 0 p (ps ++ rest) h
    rw [Nat.zero_add] at e2
    subst e2
    obtain ⟨g1, g2⟩ := skips e3
    have key : ∃ qs rs, visL 0 l2 = qs ++ rs ∧ ps = qs.map (g.length + 1 + ·) ∨ ps = [] := by
      rcases e4 with ⟨_, e⟩ | ⟨_, e⟩
      · rw [visL_off] at e
        obtain ⟨qs, rs, k1, k2, _⟩ := map_off_inj e.symm
        exact ⟨qs, rs, Or.inl ⟨k1, k2⟩⟩
      · exact ⟨[], [], Or.inr (List.append_eq_nil_iff.mp e).1⟩
    have gen : ∀ (w : OpType) (l3 : List OpType), notEnd w = true →
        effective (code (g ++ w :: l3 ++ inp)) = effective [w] ++ effective (code (l3 ++ inp)) := by
      intro w l3 hw
      rw [List.append_assoc, code_append g2, List.cons_append, code_cons hw, effective_append, g1,
        List.nil_append, ← List.singleton_append, effective_append]
    obtain ⟨qs, rs, k⟩ := key
    rcases k with ⟨k1, rfl⟩ | rfl
    · rw [List.length_cons, List.length_map] at hn
      obtain ⟨post, hp⟩ := ih qs l2 rs (Nat.succ.inj hn) k1
      refine ⟨post, fun ws hw hne => ?_⟩
      cases ws with
      | nil => cases hw
      | cons w ws =>
        have hl : ws.length = qs.length := by simpa using hw
        rw [setAll, e1, set_mid]
        have : g ++ w :: l2 = (g ++ [w]) ++ l2 := by simp
        rw [this, show qs.map (g.length + 1 + ·) = qs.map ((g ++ [w]).length + ·) by simp,
          setAll_append]
        have : (g ++ [w]) ++ setAll l2 qs ws = g ++ w :: setAll l2 qs ws := by simp
        rw [this, gen w _ (hne w (List.mem_cons_self ..)),
          hp ws hl (fun x hx => hne x (List.mem_cons_of_mem _ hx)), ← List.append_assoc,
          ← effective_append, List.singleton_append]
    · refine ⟨effective (code (l2 ++ inp)), fun ws hw hne => ?_⟩
      cases ws with
      | nil => cases hw
      | cons w ws =>
        have : ws = [] := List.length_eq_zero_iff.mp (Nat.succ.inj hw)
        subst this
        rw [setAll, e1, set_mid]
        exact gen w l2 (hne w (List.mem_cons_self ..))

theorem visL_drop : ∀ (i : Nat) (l : List OpType) (p : Nat) (qs : List Nat),
    (visL 0 l).drop i = p :: qs →
    ∃ l1 l2 ps, l = l1 ++ l2 ∧ (∀ x ∈ l1, notEnd x = true) ∧ visL 0 l2 = ps ∧
      p :: qs = ps.map (l1.length + ·) := by
  intro i
  induction i with
  | zero =>
    intro l p qs h
    exact ⟨[], l, _, rfl, by simp, rfl, by rw [List.drop_zero] at h; simp [h]⟩
  | succ i ih =>
    intro l p qs h
    cases hv : visL 0 l with
    | nil => rw [hv] at h; cases h
    | cons v vs =>
      rw [hv, List.drop_succ_cons] at h
      obtain ⟨g, a, l2, e1, e2, e3, e4⟩ := vis_next l 0 v vs hv
      rw [Nat.zero_add] at e2
      subst e2
      rcases e4 with ⟨ha, e⟩ | ⟨_, e⟩
      · rw [e, visL_off, ← List.map_drop] at h
        cases hd : (visL 0 l2).drop i with
        | nil => rw [hd] at h; cases h
        | cons p' qs' =>
          obtain ⟨m1, m2, ps, f1, f2, f3, f4⟩ := ih l2 p' qs' hd
          refine ⟨g ++ a :: m1, m2, ps, by rw [e1, f1]; simp, ?_, f3, ?_⟩
          · intro x hx
            rcases List.mem_append.mp hx with hx | hx
            · exact (skips e3).2 x hx
            · rcases List.mem_cons.mp hx with rfl | hx
              · exact (listing_keep (Or.inr ha)).2
              · exact f2 x hx
          · rw [← h, hd, f4, map_off_off]
            congr 1
            funext x
            simp only [List.length_append, List.length_cons]
            omega
      · rw [e, List.drop_nil] at h; cases h

/-- Listed instructions one after the other, and what may be written over them. -/
theorem placeAll {t : Table} {i : Nat} {p : Nat} {ps rest : List Nat}
    (h : (vis t).drop i = p :: ps ++ rest) (inp : List OpType) :
    ∃ pre post, ∀ ws : List OpType, ws.length = (p :: ps).length → (∀ w ∈ ws, notEnd w = true) →
      effective (code (setAll (ops t) (p :: ps) ws ++ inp)) = pre ++ effective ws ++ post := by
  rw [vis_eq] at h
  obtain ⟨l1, l2, vs, e1, e2, e3, e4⟩ := visL_drop i (ops t) p (ps ++ rest) h
  obtain ⟨qs, rs, k1, k2, _⟩ := map_off_inj (ps := p :: ps) (rest := rest) e4.symm
  obtain ⟨post, hp⟩ := placeHead inp _ qs l2 rs rfl (e3.trans k1)
  refine ⟨effective l1, post, fun ws hw hne => ?_⟩
  rw [k2, List.length_map] at hw
  rw [e1, k2, setAll_append, List.append_assoc, code_append e2, effective_append, hp ws hw hne,
    List.append_assoc]

theorem vis_drop {t : Table} {i p : Nat} (h : (vis t)[i]? = some p) :
    (vis t).drop i = p :: (vis t).drop (i + 1) := by
  obtain ⟨hi, rfl⟩ := List.getElem?_eq_some_iff.mp h
  exact List.drop_eq_getElem_cons hi

theorem get_effective {t : Table} {i p : Nat} {x : OpR} (h : At t i p x) :
    opIn [.nop, .line] x.ins = false ∧ notEnd x.ins = true := by
  have hv := h.vis
  rw [vis_eq] at hv
  obtain ⟨l1, a, l2, e1, e2, _, e4, _⟩ := vis_at i (ops t) 0 p hv
  have hx := ops_get h.tab
  rw [e1, e2, Nat.zero_add] at hx
  rw [← get_mid hx]
  exact listing_keep e4

theorem effective_all {l : List OpType} (h : ∀ x ∈ l, opIn [.nop, .line] x = false) : effective l = l := by
  unfold effective
  rw [List.filter_eq_self]
  intro x hx
  rw [h x hx]; rfl

/-- The listed instructions from `i` on are `xs`, at the places `ps`. -/
def Row (t : Table) : Nat → List Nat → List OpType → Prop
  | _, [], [] => True
  | i, p :: ps, x :: xs => (∃ r, At t i p r ∧ r.ins = x) ∧ Row t (i + 1) ps xs
  | _, _, _ => False

theorem Row.drop {t : Table} : ∀ {ps : List Nat} {i : Nat} {xs : List OpType}, Row t i ps xs →
    ∃ rest, (vis t).drop i = ps ++ rest := by
  intro ps
  induction ps with
  | nil => intro i xs _; exact ⟨_, rfl⟩
  | cons p ps ih =>
    intro i xs h
    cases xs with
    | nil => exact absurd h id
    | cons x xs =>
      obtain ⟨⟨r, hr, _⟩, h⟩ := h
      obtain ⟨rest, e⟩ := ih h
      exact ⟨rest, by rw [vis_drop hr.vis, e]; rfl⟩

theorem Row.len {t : Table} : ∀ {ps : List Nat} {i : Nat} {xs : List OpType}, Row t i ps xs →
    ps.length = xs.length := by
  intro ps
  induction ps with
  | nil => intro i xs h; cases xs with
    | nil => rfl
    | cons => exact absurd h id
  | cons p ps ih =>
    intro i xs h
    cases xs with
    | nil => exact absurd h id
    | cons x xs => rw [List.length_cons, List.length_cons, ih h.2]

theorem Row.set {t : Table} : ∀ {ps : List Nat} {i : Nat} {xs : List OpType}, Row t i ps xs →
    setAll (ops t) ps xs = ops t := by
  intro ps
  induction ps with
  | nil => intro i xs h; cases xs <;> rfl
  | cons p ps ih =>
    intro i xs h
    cases xs with
    | nil => exact absurd h id
    | cons x xs =>
      obtain ⟨⟨r, hr, rfl⟩, h⟩ := h
      rw [setAll, set_self (ops_get hr.tab)]
      exact ih h

theorem Row.item {t : Table} : ∀ {ps : List Nat} {i : Nat} {xs : List OpType}, Row t i ps xs →
    ∀ x ∈ xs, ∃ k r, get t k = some r ∧ r.ins = x := by
  intro ps
  induction ps with
  | nil => intro i xs h; cases xs with
    | nil => intro x hx; cases hx
    | cons => exact absurd h id
  | cons p ps ih =>
    intro i xs h
    cases xs with
    | nil => exact absurd h id
    | cons x xs =>
      obtain ⟨⟨r, hr, rfl⟩, h⟩ := h
      intro y hy
      rcases List.mem_cons.mp hy with rfl | hy
      · exact ⟨i, r, by unfold get; rw [hr.vis]; exact hr.tab, rfl⟩
      · exact ih h y hy

theorem Rewrites.post {R : List OpType → List OpType → Prop} {l l' : List OpType}
    (h : Rewrites R l l') (p : List OpType) : Rewrites R (l ++ p) (l' ++ p) := by
  induction h with
  | refl => exact .refl _
  | step pre post b a l hr _ ih =>
    have := Rewrites.step pre (post ++ p) b a _ hr (by simpa using ih)
    simpa using this

theorem row_rewrites {t t' : Table} {i : Nat} {ps : List Nat} {xs ws : List OpType}
    (h : Row t i ps xs) (hne : xs ≠ []) (hw : ws.length = xs.length)
    (hn : ∀ w ∈ ws, notEnd w = true) (hr : Rewrites InBlock xs (effective ws))
    (ht : ops t' = setAll (ops t) ps ws) : Ruled t t' := by
  intro inp
  have hl := h.len
  cases ps with
  | nil => exact absurd (List.length_eq_zero_iff.mp hl.symm) hne
  | cons p ps =>
    obtain ⟨rest, hd⟩ := h.drop
    obtain ⟨pre, post, hp⟩ := placeAll hd inp
    have hk : ∀ x ∈ xs, opIn [.nop, .line] x = false ∧ notEnd x = true := by
      intro x hx
      obtain ⟨k, r, hg, rfl⟩ := h.item x hx
      obtain ⟨_, ha⟩ := get_at hg
      exact get_effective ha
    have h1 := hp xs hl.symm (fun x hx => (hk x hx).2)
    rw [h.set, effective_all (fun x hx => (hk x hx).1)] at h1
    rw [h1, ht, hp ws (hw.trans hl.symm) hn]
    exact Rewrites.post (Rewrites.pre hr pre) post

theorem row_block {t : Table} {i : Nat} {ps : List Nat} {xs ws : List OpType}
    (h : Row t i ps xs) (ha : Applies xs ws) : InBlock xs ws :=
  ⟨ha, fun x hx => by
    obtain ⟨k, r, hg, rfl⟩ := h.item x hx
    exact get_block hg⟩

theorem row_ruled {t t' : Table} {i : Nat} {ps : List Nat} {xs ws : List OpType}
    (h : Row t i ps xs) (hne : xs ≠ []) (hw : ws.length = xs.length)
    (hn : ∀ w ∈ ws, notEnd w = true) (ha : Applies xs ws)
    (ht : ops t' = setAll (ops t) ps ws) : Ruled t t' := by
  refine row_rewrites h hne hw hn ?_ ht
  have := Rewrites.one (R := InBlock) [] [] _ _ (row_block h ha)
  simpa using this

/-- Constants in their plain form. -/
theorem plains : ∀ (l : List OpType), (∀ x ∈ l, isPush x = true) →
    Rewrites InBlock l (l.map (fun x => pushOf (expandPush x).arg2)) := by
  intro l
  induction l with
  | nil => intro _; exact .refl _
  | cons x l ih =>
    intro hl
    have hx := hl x (List.mem_cons_self ..)
    have hb : InBlock [x] [pushOf (expandPush x).arg2] := ⟨.plain x hx, by
      intro y hy
      rw [List.mem_singleton.mp hy]
      unfold opIn
      rcases isPush_cases hx with e | e | e <;> simp [e, Op.toByte]⟩
    have h1 := Rewrites.one (R := InBlock) [] l _ _ hb
    rw [effective_all (l := [pushOf (expandPush x).arg2]) (by
      intro y hy; rw [List.mem_singleton.mp hy]; exact push_effective rfl)] at h1
    exact Rewrites.trans h1 (Rewrites.pre (ih (fun y hy => hl y (List.mem_cons_of_mem _ hy))) [_])

/-! ### The steps -/

theorem word0_long (a b : Word) : word0 (long a b) = a := by
  unfold word0 long
  apply BitVec.eq_of_getLsbD_eq
  intro i hi
  rw [BitVec.getLsbD_extractLsb', Nat.zero_add, BitVec.getLsbD_append]
  simp [hi]

theorem word1_long (a b : Word) : word1 (long a b) = b := by
  unfold word1 long
  apply BitVec.eq_of_getLsbD_eq
  intro i hi
  rw [BitVec.getLsbD_extractLsb', BitVec.getLsbD_append]
  simp [hi]

theorem pushOf_notEnd (w : Word) : notEnd (pushOf w) = true := push_notEnd rfl
theorem opt_notEnd (w : Word) : notEnd (optimizePush (pushOf w)) = true := push_notEnd (isPush_opt rfl)

theorem longBack_ruled {t : Table} {i : Nat} {r : Step} (hi : 1 ≤ i)
    (hx : ∀ x, get t i = some x → isLong x.ins = true) (h : longBack t i = .ok r) : Ruled t r.1 := by
  unfold longBack at h
  obtain ⟨j, rfl⟩ : ∃ j, i = j + 1 := ⟨i - 1, by omega⟩
  rw [Nat.add_sub_cancel] at h
  cases gx : get t (j + 1) with
  | none => rw [gx] at h; cases h
  | some x =>
    cases gy : get t j with
    | none => rw [gx, gy] at h; cases h
    | some y =>
      rw [gx, gy] at h
      dsimp only at h
      split at h
      · next hc =>
        cases h
        simp only [Bool.and_eq_true, decide_eq_true_eq] at hc
        obtain ⟨p, hp⟩ := get_at gy
        obtain ⟨q, hq⟩ := get_at gx
        exact row_ruled (xs := [y.ins, x.ins]) (ws := [nop, nop]) (ps := [p, q])
          ⟨⟨y, hp, rfl⟩, ⟨x, hq, rfl⟩, trivial⟩ (by simp) rfl
          (by intro w hw; simp only [List.mem_cons, List.not_mem_nil, or_false, or_self] at hw; rw [hw]; exact nop_notEnd rfl)
          (.back _ _ hc.1.1 (hx x gx) hc.2 hc.1.2) (put2_at hp hq _ _)
      · cases h; exact Ruled.refl t

theorem longTail_ruled {t : Table} {i n : Nat} {r : Step} (h : longTail t i n = .ok r) : Ruled t r.1 := by
  unfold longTail at h
  split at h
  · cases h
  · next hi =>
    dsimp only at h
    have hs : Ruled t (optAt (optAt t (i - 1)) (i - 2)) := (optAt_ruled _ _).trans (optAt_ruled _ _)
    split at h
    · cases h; exact hs
    · next x hg =>
      split at h
      · next hl =>
        rw [Res.bind_eq_ok] at h
        obtain ⟨⟨t', i', k⟩, hb, h⟩ := h
        cases h
        have hb' := longBack_ruled (by omega) (fun y hy => by rw [hg] at hy; cases hy; exact hl) hb
        exact hs.trans hb'
      · cases h; exact hs

theorem visL_keep : ∀ (l : List OpType) (d k p q : Nat) (w : OpType), (visL d l)[k]? = some p →
    p < q → (visL d (l.set (q - d) w))[k]? = some p := by
  intro l
  induction l with
  | nil => intro d k p q w h; simp [visL] at h
  | cons x r ih =>
    intro d k p q w h hpq
    have hd := (visL_mem (List.mem_of_getElem? h)).1
    obtain ⟨m, hm⟩ : ∃ m, q - d = m + 1 := ⟨q - d - 1, by omega⟩
    rw [hm, List.set_cons_succ]
    have hm' : m = q - (d + 1) := by omega
    simp only [visL] at h ⊢
    cases hl : listing x with
    | stop => rw [hl] at h; simp at h
    | last => rw [hl] at h; exact h
    | skip =>
      rw [hl] at h
      rw [hm']
      exact ih (d + 1) k p q w h hpq
    | take =>
      rw [hl] at h
      cases k with
      | zero => exact h
      | succ k =>
        dsimp only at h ⊢
        rw [List.getElem?_cons_succ] at h ⊢
        rw [hm']
        exact ih (d + 1) k p q w h hpq

theorem at_keep {t t' : Table} {i p q : Nat} {x : OpR} {w : OpType} (h : At t i p x) (hpq : p < q)
    (ht : ops t' = (ops t).set q w) : ∃ x', At t' i p x' ∧ x'.ins = x.ins := by
  have hv := h.vis
  rw [vis_eq] at hv
  have hv' : (vis t')[i]? = some p := by
    rw [vis_eq, ht]
    exact visL_keep (ops t) 0 i p q w hv hpq
  have ho : (ops t')[p]? = some x.ins := by
    rw [ht]; exact set_get_ne w (by omega) (ops_get h.tab)
  unfold ops at ho
  rw [List.getElem?_map, Option.map_eq_some_iff] at ho
  obtain ⟨x', hx', e⟩ := ho
  exact ⟨x', ⟨hv', hx', by rw [e]; exact h.fix, by rw [e]; exact h.nop⟩, e⟩

theorem visL_erase : ∀ (l : List OpType) (d k p : Nat) (x : OpType), (visL d l)[k]? = some p →
    l[p - d]? = some x → listing x = .take →
    visL d (l.set (p - d) nop) = (visL d l).eraseIdx k := by
  intro l
  induction l with
  | nil => intro d k p x h; simp [visL] at h
  | cons y r ih =>
    intro d k p x h hx hl
    have hd := (visL_mem (List.mem_of_getElem? h)).1
    have step : p ≠ d → ∀ k, (visL (d + 1) r)[k]? = some p →
        visL (d + 1) (r.set (p - (d + 1)) nop) = (visL (d + 1) r).eraseIdx k := by
      intro hne k hk
      refine ih (d + 1) k p x hk ?_ hl
      rw [show p - d = p - (d + 1) + 1 by omega, List.getElem?_cons_succ] at hx
      exact hx
    cases hly : listing y with
    | stop => simp only [visL, hly] at h; simp at h
    | last =>
      simp only [visL, hly] at h
      cases k with
      | zero =>
        simp only [List.getElem?_cons_zero, Option.some.injEq] at h
        subst h
        rw [Nat.sub_self] at hx
        simp only [List.getElem?_cons_zero, Option.some.injEq] at hx
        rw [hx, hl] at hly; cases hly
      | succ k => simp at h
    | skip =>
      simp only [visL, hly] at h ⊢
      have hne : p ≠ d := by
        rintro rfl
        have := (visL_mem (List.mem_of_getElem? h)).1
        omega
      rw [show p - d = p - (d + 1) + 1 by omega, List.set_cons_succ]
      simp only [visL, hly]
      exact step hne k h
    | take =>
      simp only [visL, hly] at h ⊢
      cases k with
      | zero =>
        simp only [List.getElem?_cons_zero, Option.some.injEq] at h
        subst h
        rw [Nat.sub_self, List.set_cons_zero]
        rfl
      | succ k =>
        rw [List.getElem?_cons_succ] at h
        have hne : p ≠ d := by
          rintro rfl
          have := (visL_mem (List.mem_of_getElem? h)).1
          omega
        rw [show p - d = p - (d + 1) + 1 by omega, List.set_cons_succ]
        simp only [visL, hly, List.eraseIdx_cons_succ]
        rw [step hne k h]

theorem push_take {a : OpType} (h : isPush a = true) : listing a = .take := by
  unfold listing
  rcases isPush_cases h with e | e | e <;> rw [e, Op.ofByte_toByte]

theorem longOut_notEnd {x : OpType} (hx : isLong x = true) {v : Long} {act : LongAct}
    {a b c : OpType} (h : longOut x v act = some (a, b, c)) :
    ∀ w ∈ [a, b, c], notEnd w = true := by
  have hl : ∀ k1 k2, notEnd ⟨x.op, k1, k2⟩ = true := by
    intro k1 k2
    have e : x.op = Op.longop8.toByte := isLong_op hx
    unfold notEnd; dsimp only; rw [e]; decide
  have hl' : ∀ k1 k2, notEnd ⟨Op.longop8.toByte, k1, k2⟩ = true := fun _ _ => by unfold notEnd; rfl
  have hj : ∀ k1 k2, notEnd ⟨Op.jmp.toByte, k1, k2⟩ = true := fun _ _ => by unfold notEnd; rfl
  have hnop : notEnd nop = true := nop_notEnd rfl
  cases act <;> simp only [longOut, Option.some.injEq, Prod.mk.injEq, reduceCtorEq] at h
  all_goals
    obtain ⟨rfl, rfl, rfl⟩ := h
    intro w hw
    simp only [List.mem_cons, List.not_mem_nil, or_false] at hw
    rcases hw with rfl | rfl | rfl <;>
      first | exact hnop | exact pushOf_notEnd _ | exact hl _ _ | exact hl' _ _ | exact hj _ _

theorem longApply_ruled {t : Table} {j : Nat} {z y x : OpR} (hz : get t j = some z)
    (hy : get t (j + 1) = some y) (hx : get t (j + 2) = some x) (pz : isPush z.ins = true)
    (py : isPush y.ins = true) (lx : isLong x.ins = true) {act : LongAct}
    (ha : longUnary x.ins.arg1 (longOf z.ins y.ins) x.ins.arg2 = .ok act) {r : Step}
    (h : longApply t (j + 2) x.ins (longOf z.ins y.ins) act = .ok r) : Ruled t r.1 := by
  obtain ⟨p, hp⟩ := get_at hz
  obtain ⟨q, hq⟩ := get_at hy
  obtain ⟨s, hs⟩ := get_at hx
  have row : Row t j [p, q, s] [z.ins, y.ins, x.ins] :=
    ⟨⟨z, hp, rfl⟩, ⟨y, hq, rfl⟩, ⟨x, hs, rfl⟩, trivial⟩
  have w0 : word0 (longOf z.ins y.ins) = (expandPush z.ins).arg2 := word0_long _ _
  have w1 : word1 (longOf z.ins y.ins) = (expandPush y.ins).arg2 := word1_long _ _
  have gen : ∀ a b c, longOut x.ins (longOf z.ins y.ins) act = some (a, b, c) →
      Ruled t (put3 t j a b c) := fun a b c e =>
    row_ruled (ws := [a, b, c]) row (by simp) rfl (longOut_notEnd lx e) (.long _ _ _ _ _ _ act pz py lx ha e)
      (put3_at hp hq hs _ _ _)
  unfold longApply at h
  rw [Nat.add_sub_cancel] at h
  dsimp only at h
  cases act with
  | none =>
    refine Ruled.trans ?_ (longTail_ruled h)
    refine row_rewrites (ws := [pushOf (word0 (longOf z.ins y.ins)),
      pushOf (word1 (longOf z.ins y.ins)), x.ins]) row (by simp) rfl ?_ ?_ (put3_at hp hq hs _ _ _)
    · intro w hw
      simp only [List.mem_cons, List.not_mem_nil, or_false] at hw
      rcases hw with rfl | rfl | rfl
      · exact pushOf_notEnd _
      · exact pushOf_notEnd _
      · exact (get_effective hs).2
    · rw [effective_all (by
        intro w hw
        simp only [List.mem_cons, List.not_mem_nil, or_false] at hw
        rcases hw with rfl | rfl | rfl
        · exact push_effective rfl
        · exact push_effective rfl
        · exact (get_effective hs).1), w0, w1]
      exact Rewrites.post (plains [z.ins, y.ins] (by
        intro w hw
        simp only [List.mem_cons, List.not_mem_nil, or_false] at hw
        rcases hw with rfl | rfl
        · exact pz
        · exact py)) [x.ins]
  | const v' => cases h; exact gen _ _ _ rfl
  | drop => cases h; exact gen _ _ _ rfl
  | only c => exact (gen _ _ _ rfl).trans (longTail_ruled h)
  | first => cases h; exact gen _ _ _ rfl
  | two d1 d2 => exact (gen _ _ _ rfl).trans (longTail_ruled h)
  | shift c w => exact (gen _ _ _ rfl).trans (longTail_ruled h)
  | jump => cases h; exact gen _ _ _ rfl
  | narrow =>
    dsimp only at h
    split at h
    · next d hd =>
      cases h
      have hpq := vis_lt (Nat.lt_succ_self _) hp.vis hq.vis
      have hqs := vis_lt (Nat.lt_succ_self _) hq.vis hs.vis
      -- the instruction deleted is the one that was listed behind
      have e3 : ops (put3 t j (pushOf (word0 (longOf z.ins y.ins))) nop x.ins) =
          ((ops t).set p (pushOf (word0 (longOf z.ins y.ins)))).set q nop := by
        rw [put3_at hp hq hs, set_self]
        exact set_get_ne _ (by omega) (set_get_ne _ (by omega) (ops_get hs.tab))
      have e4 : visL 0 ((ops t).set p (pushOf (word0 (longOf z.ins y.ins)))) = vis t := by
        rw [vis_eq]
        apply visL_congr
        rw [List.map_set]
        obtain ⟨hi, e⟩ := List.getElem?_eq_some_iff.mp (ops_get hp.tab)
        rw [show listing (pushOf (word0 (longOf z.ins y.ins))) = ((ops t).map listing)[p]'(by
          simpa using hi) by rw [List.getElem_map, e, push_take pz]; rfl]
        exact List.set_getElem_self _
      have e5 : vis (put3 t j (pushOf (word0 (longOf z.ins y.ins))) nop x.ins) =
          (vis t).eraseIdx (j + 1) := by
        rw [vis_eq, e3, ← e4]
        refine visL_erase _ 0 (j + 1) q y.ins (by rw [e4]; exact hq.vis) ?_ (push_take py)
        exact set_get_ne _ (by omega) (ops_get hq.tab)
      have hd' : (vis t)[j + 2 + 1]? = some d := by
        rw [e5, List.getElem?_eraseIdx, if_neg (by omega)] at hd
        exact hd
      obtain ⟨w, hw, hf, hn⟩ := vis_get hd'
      have hat : At t (j + 2 + 1) d w := ⟨hd', hw, hf, hn⟩
      have row4 : Row t j [p, q, s, d] [z.ins, y.ins, x.ins, w.ins] :=
        ⟨⟨z, hp, rfl⟩, ⟨y, hq, rfl⟩, ⟨x, hs, rfl⟩, ⟨w, hat, rfl⟩, trivial⟩
      refine row_ruled row4 (ws := [pushOf (expandPush z.ins).arg2, nop, x.ins, nop]) (by simp) rfl ?_
        (.narrow _ _ _ _ pz py lx ha) ?_
      · intro v hv
        simp only [List.mem_cons, List.not_mem_nil, or_false] at hv
        rcases hv with rfl | rfl | rfl | rfl
        · exact pushOf_notEnd _
        · exact nop_notEnd rfl
        · exact (get_effective hs).2
        · exact nop_notEnd rfl
      · rw [ops_putAt, put3_at hp hq hs, w0]; rfl
    · cases h

theorem longUnaryStep_ruled {t : Table} {i : Nat} {r : Step} (hi : 1 ≤ i)
    (h : longUnaryStep t i = .ok r) : Ruled t r.1 := by
  unfold longUnaryStep at h
  obtain ⟨j, rfl⟩ : ∃ j, i = j + 1 := ⟨i - 1, by omega⟩
  rw [Nat.add_sub_cancel] at h
  cases hy : get t j with
  | none => rw [hy] at h; cases h
  | some y =>
    cases hx : get t (j + 1) with
    | none => rw [hx, hy] at h; cases h
    | some x =>
      rw [hx, hy] at h
      dsimp only at h
      by_cases lx : isLong x.ins = true
      · rw [if_pos lx] at h
        by_cases py : isPush y.ins = true
        · rw [if_pos py] at h
          have cnv : ∀ v : Long, (x.ins.arg1 = 0x5e#8 ∧ v = BitVec.ofInt 32 (expandPush y.ins).arg2.toInt ∨
              x.ins.arg1 = 0x5f#8 ∧ v = (expandPush y.ins).arg2.zeroExtend 32) → Ruled t
              (put2 t j (optimizePush (pushOf (word0 v))) (optimizePush (pushOf (word1 v)))) := by
            intro v hv
            obtain ⟨p, hp⟩ := get_at hy
            obtain ⟨q, hq⟩ := get_at hx
            refine row_ruled (xs := [y.ins, x.ins]) (ws := [optimizePush (pushOf (word0 v)),
              optimizePush (pushOf (word1 v))]) (ps := [p, q])
              ⟨⟨y, hp, rfl⟩, ⟨x, hq, rfl⟩, trivial⟩ (by simp) rfl ?_ (.widen _ _ v py lx hv)
              (put2_at hp hq _ _)
            intro w hw
            simp only [List.mem_cons, List.not_mem_nil, or_false] at hw
            rcases hw with rfl | rfl <;> exact opt_notEnd _
          split at h
          · next hc => cases h; exact cnv _ (Or.inl ⟨hc, rfl⟩)
          · split at h
            · next hc => cases h; exact cnv _ (Or.inr ⟨hc, rfl⟩)
            · split at h
              · exact longTail_ruled h
              · next hj =>
                obtain ⟨k, rfl⟩ : ∃ k, j = k + 1 := ⟨j - 1, by omega⟩
                rw [show k + 1 + 1 - 2 = k by omega] at h
                cases hz : get t k with
                | none => rw [hz] at h; cases h
                | some z =>
                  rw [hz] at h
                  dsimp only at h
                  split at h
                  · next pz =>
                    rw [Res.bind_eq_ok] at h
                    obtain ⟨act, ha, h⟩ := h
                    exact longApply_ruled hz hy hx pz py lx ha h
                  · exact longTail_ruled h
        · rw [if_neg py] at h
          exact longBack_ruled (by omega) (fun y hy => by rw [hx] at hy; cases hy; exact lx) h
      · rw [if_neg lx] at h
        cases h
        exact Ruled.refl t

theorem set_same {l : List OpType} {p q : Nat} {a b : OpType} (h : p ≠ q) :
    (l.set p a).set q b = (l.set q b).set p a := List.set_comm _ _ h

theorem get_of_at {t : Table} {i p : Nat} {x : OpR} (h : At t i p x) : get t i = some x := by
  unfold get; rw [h.vis]; exact h.tab

theorem at_still {t t' : Table} {i p : Nat} {x : OpR} (h : At t i p x) (hv : vis t' = vis t)
    (ho : (ops t')[p]? = some x.ins) : ∃ x', At t' i p x' ∧ x'.ins = x.ins := by
  unfold ops at ho
  rw [List.getElem?_map, Option.map_eq_some_iff] at ho
  obtain ⟨x', hx', e⟩ := ho
  exact ⟨x', ⟨by rw [hv]; exact h.vis, hx', by rw [e]; exact h.fix, by rw [e]; exact h.nop⟩, e⟩

/-- A listed instruction stays where it is when another one is made shorter. -/
theorem at_optAt {t : Table} {i j p : Nat} {x : OpR} (h : At t i p x) (hij : j ≠ i) :
    ∃ x', At (optAt t j) i p x' ∧ x'.ins = x.ins := by
  cases hg : get t j with
  | none => unfold optAt; rw [adjust_none hg]; exact ⟨x, h, rfl⟩
  | some y =>
    obtain ⟨q, hq⟩ := get_at hg
    have hne : q ≠ p := by
      rcases Nat.lt_or_gt_of_ne hij with hl | hl
      · exact Nat.ne_of_lt (vis_lt hl hq.vis h.vis)
      · exact Nat.ne_of_gt (vis_lt hl h.vis hq.vis)
    refine at_still h (optAt_still t j).vis ?_
    unfold optAt
    rw [ops_adjust hq]
    exact set_get_ne _ hne (ops_get h.tab)

theorem pushAt_at {t : Table} {i : Nat} {w : Word} (h : pushAt t i = some w) :
    ∃ p x, At t i p x ∧ isPush x.ins = true ∧ w = (expandPush x.ins).arg2 := by
  unfold pushAt at h
  split at h
  · next x hx =>
    obtain ⟨p, hp⟩ := get_at hx
    split at h
    · next hpush => cases h; exact ⟨p, x, hp, hpush, rfl⟩
    · cases h
  · cases h

theorem longShiftStep_ruled {t : Table} {i p : Nat} {x : OpR} {r : Step} (hx : At t i p x)
    (lx : isLong x.ins = true) (h : longShiftStep t i x.ins = .ok r) : Ruled t r.1 := by
  unfold longShiftStep at h
  split at h
  · cases h; exact Ruled.refl t
  · next h3 =>
    obtain ⟨j, rfl⟩ : ∃ j, i = j + 3 := ⟨i - 3, by omega⟩
    rw [show j + 3 - 3 = j by omega, show j + 3 - 2 = j + 1 by omega,
      show j + 3 - 1 = j + 2 by omega] at h
    split at h
    · next k0 k1 w e0 e1 e2 =>
      obtain ⟨p0, a, ha, pa, rfl⟩ := pushAt_at e0
      obtain ⟨p1, b, hb, pb, rfl⟩ := pushAt_at e1
      obtain ⟨p2, c, hc, pc, rfl⟩ := pushAt_at e2
      have l01 := vis_lt (by omega) ha.vis hb.vis
      have l12 := vis_lt (by omega) hb.vis hc.vis
      have l23 := vis_lt (by omega) hc.vis hx.vis
      rw [Res.bind_eq_ok] at h
      obtain ⟨o, ho, h⟩ := h
      have opts : ∀ t', Ruled t' (optAt (optAt (optAt t' (j + 2)) (j + 1)) j) := fun t' =>
        ((optAt_ruled _ _).trans (optAt_ruled _ _)).trans (optAt_ruled _ _)
      cases o with
      | some v =>
        cases h
        have hs := put2_still (get_of_at ha) (get_of_at hb) (a' := pushOf (word0 v))
          (b' := pushOf (word1 v)) pa pb rfl rfl
        have eo := put2_at ha hb (pushOf (word0 v)) (pushOf (word1 v))
        obtain ⟨c', hc', ec⟩ := at_still hc hs.vis (by
          rw [eo]; exact set_get_ne _ (by omega) (set_get_ne _ (by omega) (ops_get hc.tab)))
        obtain ⟨x', hx', ex⟩ := at_still hx hs.vis (by
          rw [eo]; exact set_get_ne _ (by omega) (set_get_ne _ (by omega) (ops_get hx.tab)))
        refine Ruled.trans ?_ (opts _)
        refine row_ruled (xs := [a.ins, b.ins, c.ins, x.ins]) (ps := [p0, p1, p2, p])
          (ws := [pushOf (word0 v), pushOf (word1 v), nop, nop])
          ⟨⟨a, ha, rfl⟩, ⟨b, hb, rfl⟩, ⟨c, hc, rfl⟩, ⟨x, hx, rfl⟩, trivial⟩ (by simp) rfl ?_
          (.shift _ _ _ _ v pa pb pc lx ho) ?_
        · intro v hv
          simp only [List.mem_cons, List.not_mem_nil, or_false] at hv
          rcases hv with rfl | rfl | rfl | rfl
          · exact pushOf_notEnd _
          · exact pushOf_notEnd _
          · exact nop_notEnd rfl
          · exact nop_notEnd rfl
        · rw [put2_at hc' hx', eo]; rfl
      | none =>
        cases h
        refine Ruled.trans ?_ (opts _)
        refine row_rewrites (xs := [a.ins, b.ins, c.ins]) (ps := [p0, p1, p2])
          (ws := [pushOf (expandPush a.ins).arg2, pushOf (expandPush b.ins).arg2,
            pushOf (expandPush c.ins).arg2])
          ⟨⟨a, ha, rfl⟩, ⟨b, hb, rfl⟩, ⟨c, hc, rfl⟩, trivial⟩ (by simp) rfl ?_ ?_
          (put3_at ha hb hc _ _ _)
        · intro v hv
          simp only [List.mem_cons, List.not_mem_nil, or_false] at hv
          rcases hv with rfl | rfl | rfl <;> exact pushOf_notEnd _
        · rw [effective_all (by
            intro w hw
            simp only [List.mem_cons, List.not_mem_nil, or_false] at hw
            rcases hw with rfl | rfl | rfl <;> exact push_effective rfl)]
          exact plains [a.ins, b.ins, c.ins] (by
            intro w hw
            simp only [List.mem_cons, List.not_mem_nil, or_false] at hw
            rcases hw with rfl | rfl | rfl
            · exact pa
            · exact pb
            · exact pc)
    · cases h; exact Ruled.refl t

theorem put2_plain {t : Table} {i p q : Nat} {a b : OpR} (ha : At t i p a) (hb : At t (i + 1) q b)
    (pa : isPush a.ins = true) (pb : isPush b.ins = true) :
    Ruled t (put2 t i (pushOf (expandPush a.ins).arg2) (pushOf (expandPush b.ins).arg2)) := by
  refine row_rewrites (xs := [a.ins, b.ins]) (ps := [p, q])
    (ws := [pushOf (expandPush a.ins).arg2, pushOf (expandPush b.ins).arg2])
    ⟨⟨a, ha, rfl⟩, ⟨b, hb, rfl⟩, trivial⟩ (by simp) rfl ?_ ?_ (put2_at ha hb _ _)
  · intro v hv
    simp only [List.mem_cons, List.not_mem_nil, or_false] at hv
    rcases hv with rfl | rfl <;> exact pushOf_notEnd _
  · rw [effective_all (by
      intro w hw
      simp only [List.mem_cons, List.not_mem_nil, or_false] at hw
      rcases hw with rfl | rfl <;> exact push_effective rfl)]
    exact plains [a.ins, b.ins] (by
      intro w hw
      simp only [List.mem_cons, List.not_mem_nil, or_false] at hw
      rcases hw with rfl | rfl
      · exact pa
      · exact pb)

theorem longBinaryStep_ruled {t : Table} {i : Nat} {r : Step} (h : longBinaryStep t i = .ok r) :
    Ruled t r.1 := by
  unfold longBinaryStep at h
  cases gx : get t i with
  | none => rw [gx] at h; cases h
  | some x =>
    rw [gx] at h
    dsimp only at h
    obtain ⟨p, hx⟩ := get_at gx
    by_cases lx : isLong x.ins = true
    · rw [if_pos lx] at h
      split at h
      · exact longShiftStep_ruled hx lx h
      · next h4 =>
        obtain ⟨j, rfl⟩ : ∃ j, i = j + 4 := ⟨i - 4, by omega⟩
        rw [show j + 4 - 4 = j by omega, show j + 4 - 3 = j + 1 by omega,
          show j + 4 - 2 = j + 2 by omega, show j + 4 - 1 = j + 3 by omega] at h
        split at h
        · next k0 k1 j0 j1 e0 e1 e2 e3 =>
          obtain ⟨p0, a, ha, pa, rfl⟩ := pushAt_at e0
          obtain ⟨p1, b, hb, pb, rfl⟩ := pushAt_at e1
          obtain ⟨p2, c, hc, pc, rfl⟩ := pushAt_at e2
          obtain ⟨p3, d, hd, pd, rfl⟩ := pushAt_at e3
          have l01 := vis_lt (by omega) ha.vis hb.vis
          have l12 := vis_lt (by omega) hb.vis hc.vis
          have l23 := vis_lt (by omega) hc.vis hd.vis
          have l34 := vis_lt (by omega) hd.vis hx.vis
          have row : Row t j [p0, p1, p2, p3, p] [a.ins, b.ins, c.ins, d.ins, x.ins] :=
            ⟨⟨a, ha, rfl⟩, ⟨b, hb, rfl⟩, ⟨c, hc, rfl⟩, ⟨d, hd, rfl⟩, ⟨x, hx, rfl⟩, trivial⟩
          have eo : ∀ u v : OpType, ∀ w0 w1 w2 : OpType,
              ops (put2 (put3 t (j + 2) w0 w1 w2) j u v) =
                setAll (ops t) [p0, p1, p2, p3, p] [u, v, w0, w1, w2] := by
            intro u v w0 w1 w2
            have k3 := put3_at hc hd hx w0 w1 w2
            have keep : ∀ {n pn : Nat} {y : OpR}, At t n pn y → pn < p2 →
                ∃ y', At (put3 t (j + 2) w0 w1 w2) n pn y' ∧ y'.ins = y.ins := by
              intro n pn y hy hlt
              obtain ⟨y1, h1, f1⟩ := at_keep (t' := putAt t p2 w0) hy hlt (ops_putAt _ _ _)
              obtain ⟨y2, h2, f2⟩ := at_keep (t' := putAt (putAt t p2 w0) p3 w1) h1 (by omega) (ops_putAt _ _ _)
              obtain ⟨y3, h3, f3⟩ := at_keep (t' := put3 t (j + 2) w0 w1 w2) (q := p) (w := w2) h2 (by omega)
                (by rw [ops_putAt, ops_putAt, k3])
              exact ⟨y3, h3, f3.trans (f2.trans f1)⟩
            obtain ⟨a', ha', _⟩ := keep ha (by omega)
            obtain ⟨b', hb', _⟩ := keep hb (by omega)
            rw [put2_at ha' hb', k3]
            show _ = (((((ops t).set p0 u).set p1 v).set p2 w0).set p3 w1).set p w2
            rw [set_same (p := p) (q := p0) (by omega), set_same (p := p3) (q := p0) (by omega),
              set_same (p := p2) (q := p0) (by omega), set_same (p := p) (q := p1) (by omega),
              set_same (p := p3) (q := p1) (by omega), set_same (p := p2) (q := p1) (by omega)]
          rw [Res.bind_eq_ok] at h
          obtain ⟨o, ho, h⟩ := h
          cases o with
          | some v =>
            cases h
            refine row_ruled row (ws := [pushOf (word0 v), pushOf (word1 v), nop, nop, nop]) (by simp)
              rfl ?_ (.fold _ _ _ _ _ v pa pb pc pd lx ho) (eo _ _ _ _ _)
            intro v hv
            simp only [List.mem_cons, List.not_mem_nil, or_false] at hv
            rcases hv with rfl | rfl | rfl | rfl | rfl
            · exact pushOf_notEnd _
            · exact pushOf_notEnd _
            · exact nop_notEnd rfl
            · exact nop_notEnd rfl
            · exact nop_notEnd rfl
          | none =>
            dsimp only at h
            split at h
            · next bv hbv =>
              cases h
              refine row_ruled row (ws := [nop, nop, nop, nop, optimizePush (pushOf (truth bv))]) (by simp)
                rfl ?_ (.compare _ _ _ _ _ bv pa pb pc pd lx hbv) (eo _ _ _ _ _)
              intro v hv
              simp only [List.mem_cons, List.not_mem_nil, or_false] at hv
              rcases hv with rfl | rfl | rfl | rfl | rfl
              · exact nop_notEnd rfl
              · exact nop_notEnd rfl
              · exact nop_notEnd rfl
              · exact nop_notEnd rfl
              · exact opt_notEnd _
            · have s1 := put2_still (get_of_at hc) (get_of_at hd)
                (a' := pushOf (expandPush c.ins).arg2) (b' := pushOf (expandPush d.ins).arg2) pc pd rfl rfl
              have r1 := put2_plain hc hd pc pd
              have keep : ∀ {n pn : Nat} {y : OpR}, At t n pn y → pn ≠ p2 → pn ≠ p3 →
                  ∃ y', At (put2 t (j + 2) (pushOf (expandPush c.ins).arg2) (pushOf (expandPush d.ins).arg2)) n pn y' ∧
                    y'.ins = y.ins := by
                intro n pn y hy h2 h3
                refine at_still hy s1.vis ?_
                rw [put2_at hc hd]
                exact set_get_ne _ (Ne.symm h3) (set_get_ne _ (Ne.symm h2) (ops_get hy.tab))
              obtain ⟨a', ha', ea⟩ := keep ha (by omega) (by omega)
              obtain ⟨b', hb', eb⟩ := keep hb (by omega) (by omega)
              obtain ⟨x', hx', ex⟩ := keep hx (by omega) (by omega)
              have pa' : isPush a'.ins = true := by rw [ea]; exact pa
              have pb' : isPush b'.ins = true := by rw [eb]; exact pb
              have r2 := put2_plain ha' hb' pa' pb'
              have s2 := put2_still (get_of_at ha') (get_of_at hb')
                (a' := pushOf (expandPush a'.ins).arg2) (b' := pushOf (expandPush b'.ins).arg2) pa' pb' rfl rfl
              obtain ⟨x2, hx2, ex2⟩ := at_still hx' s2.vis (by
                rw [put2_at ha' hb']
                exact set_get_ne _ (by omega) (set_get_ne _ (by omega) (ops_get hx'.tab)))
              obtain ⟨x3, hx3, ex3⟩ := at_optAt hx2 (j := j + 3) (by omega)
              obtain ⟨x4, hx4, ex4⟩ := at_optAt hx3 (j := j + 2) (by omega)
              obtain ⟨x5, hx5, ex5⟩ := at_optAt hx4 (j := j + 1) (by omega)
              obtain ⟨x6, hx6, ex6⟩ := at_optAt hx5 (j := j) (by omega)
              have e6 : x6.ins = x.ins := by rw [ex6, ex5, ex4, ex3, ex2, ex]
              rw [← ea, ← eb, ← e6] at h
              refine (r1.trans r2).trans (Ruled.trans ?_ (longShiftStep_ruled hx6 (by rw [e6]; exact lx) h))
              exact (((optAt_ruled _ _).trans (optAt_ruled _ _)).trans (optAt_ruled _ _)).trans
                (optAt_ruled _ _)
        · exact longShiftStep_ruled hx lx h
    · rw [if_neg lx] at h
      cases h
      exact Ruled.refl t

/-! ### Loops and passes -/

theorem chain_ruled (l : List LoopSpec)
    (hl : ∀ s ∈ l, ∀ t i r, s.lo ≤ i → s.step t i = .ok r → Ruled t r.1) :
    ∀ (fuel : Nat) (t : Table) (n : Nat) (r : Table × Nat), t.length ≤ 16 →
      chain l fuel t n = .ok r → Ruled t r.1 := by
  have hloop : ∀ s ∈ l, ∀ (fuel : Nat) (t : Table) (i n : Nat) (r : Table × Nat), t.length ≤ 16 →
      s.lo ≤ i → loop s.step s.w fuel t i n = .ok r → Ruled t r.1 := by
    intro s hs fuel
    induction fuel with
    | zero => intro t i n r _ _ h; cases h
    | succ fuel ih =>
      intro t i n r hlen hlo h
      unfold loop at h
      split at h
      · rw [Res.bind_eq_ok] at h
        obtain ⟨⟨t', i', k⟩, h1, h2⟩ := h
        have g := s.good t i _ hlen hlo h1
        exact (hl s hs t i _ hlo h1).trans (ih t' i' (n + k) r (by rw [g.chg.len]; exact hlen)
          (Nat.le_trans hlo g.mono) h2)
      · cases h; exact Ruled.refl t
  induction l with
  | nil => intro fuel t n r _ h; cases h; exact Ruled.refl t
  | cons s l ih =>
    intro fuel t n r hlen h
    unfold chain at h
    rw [Res.bind_eq_ok] at h
    obtain ⟨⟨t', k⟩, h1, h2⟩ := h
    have g := loop_good s.good fuel t s.lo 0 _ hlen (Nat.le_refl _) h1
    refine (hloop s (List.mem_cons_self ..) fuel t s.lo 0 _ hlen (Nat.le_refl _) h1).trans ?_
    exact ih (fun s' hs' => hl s' (List.mem_cons_of_mem _ hs'))
      (fun s' hs' => hloop s' (List.mem_cons_of_mem _ hs')) fuel t' (n + k) r
      (by rw [g.chg.len]; exact hlen) h2

theorem round_ruled {fuel : Nat} {t : Table} {r : Table × Nat} (hlen : t.length ≤ 16)
    (h : round fuel t = .ok r) : Ruled t r.1 := by
  rw [round_chain] at h
  refine chain_ruled _ ?_ fuel t 0 r hlen h
  intro s hs t i r hlo h
  simp only [List.mem_cons, List.not_mem_nil, or_false] at hs
  rcases hs with rfl | rfl | rfl | rfl | rfl | rfl | rfl | rfl
  · exact unaryStep_ruled h
  · exact longUnaryStep_ruled hlo h
  · exact binaryStep_ruled h
  · exact longBinaryStep_ruled h
  · exact branchStep_ruled h
  · exact stackStep_ruled h
  · exact loadStep_ruled h
  · exact storeStep_ruled h

theorem settle_ruled : ∀ (fuel : Nat) (t t' : Table), t.length ≤ 16 →
    settle round fuel t = .ok t' → Ruled t t' := by
  intro fuel
  induction fuel with
  | zero => intro t t' _ h; cases h
  | succ fuel ih =>
    intro t t' hlen h
    unfold settle at h
    rw [Res.bind_eq_ok] at h
    obtain ⟨⟨t₁, n⟩, h1, h2⟩ := h
    have g := round_ok.good fuel t _ hlen h1
    have hr := round_ruled hlen h1
    dsimp only at h2
    split at h2
    · exact hr.trans (ih t₁ t' (by rw [g.chg.len]; exact hlen) h2)
    · cases h2; exact hr

theorem advance_ruled {prog : List OpType} :
    ∀ (fuel : Nat) (s s' : Pass), PassOk prog s →
    Rewrites InBlock (effective (code prog)) (effective (s.out ++ code (stream s))) →
    advance round fuel s = .ok s' → ∃ init e, s'.out = init ++ [e] ∧
      e.op = Op.end_.toByte ∧ Rewrites InBlock (effective (code prog)) (effective init) := by
  intro fuel
  induction fuel with
  | zero => intro s s' _ _ h; cases h
  | succ fuel ih =>
    intro s s' hs hd h
    unfold advance at h
    rw [Res.bind_eq_ok] at h
    obtain ⟨t, ht, h⟩ := h
    have hc := settle_chg round_ok fuel s.table t (Nat.le_of_eq hs.len) ht
    have hs' := passOk_chg hs hc
    have hcut := settle_ruled fuel s.table t (Nat.le_of_eq hs.len) ht s.input
    have hd' : Rewrites InBlock (effective (code prog))
        (effective (s.out ++ code (stream { s with table := t }))) := by
      refine Rewrites.trans hd ?_
      rw [effective_append, effective_append]
      exact Rewrites.pre hcut _
    have hne : ({ s with table := t } : Pass).table ≠ [] := by
      intro e; have := hs'.len; rw [e] at this; cases this
    rcases effective_update _ hne with ⟨u1, u2⟩ | ⟨u1, e, u2, u3, u4⟩
    · dsimp only at h
      rw [u1] at h
      rcases passOk_update hs' with ⟨_, v2, _⟩ | ⟨v1, _⟩
      · refine ih _ _ v2 ?_ h
        rw [u2]; exact hd'
      · rw [u1] at v1; cases v1
    · dsimp only at h
      rw [u1] at h
      cases h
      refine ⟨s.out, e, u3, u2, ?_⟩
      rw [u4, List.append_nil] at hd'
      exact hd'

theorem localPass_ruled {fuel : Nat} {prog : List OpType} {rels : List Reloc}
    {r : List OpType × List Reloc × Bool} (hlab : ∃ y ∈ code prog, y.op = Op.label.toByte)
    (h : pass round fuel prog rels = .ok r) : ∃ init e, r.1 = init ++ [e] ∧
      e.op = Op.end_.toByte ∧ Rewrites InBlock (effective (code prog)) (effective init) := by
  unfold pass at h
  rw [Res.bind_eq_ok] at h
  obtain ⟨s, h1, h⟩ := h
  rw [Res.bind_eq_ok] at h
  obtain ⟨s', h2, h⟩ := h
  cases h
  have hs := setup_ok hlab h1
  refine advance_ruled fuel s s' hs ?_ h2
  unfold setup at h1
  rw [Res.bind_eq_ok] at h1
  obtain ⟨s₀, h1, h3⟩ := h1
  cases h3
  obtain ⟨k1, k2, k3, k4⟩ := skipLead_spec (prog := prog) fuel _ s₀ rfl (by simp) hlab
    (fun y hy => out_same (List.mem_cons_of_mem _ (by simpa using hy))) rfl h1
  have hst : stream s₀ = s₀.input := by unfold stream; rw [k1]; rfl
  rw [fill_code, (fill_spec _ _).1, hst, k4]
  exact .refl _

end Pas.Popt
