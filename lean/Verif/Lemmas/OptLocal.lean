import Verif.Lemmas.OptString

/-! The local optimizations as rewriting: every change is one of the rules, applied to instructions
that are executed one after the other. -/
namespace Pas.Popt
open Pas.Spec

/-- The three instructions that replace two constants and a 32-bit operation; `v` is the constant. -/
def longOut (x : OpType) (v : Long) : LongAct → Option (OpType × OpType × OpType)
  | .const v' => some (pushOf (word0 v'), pushOf (word1 v'), nop)
  | .drop => some (nop, nop, nop)
  | .only code => some (nop, nop, { x with arg1 := code })
  | .first => some (pushOf (word0 v), nop, nop)
  | .two d1 d2 => some (nop, ⟨Op.longop8.toByte, d1, 0⟩, { x with arg1 := d2 })
  | .shift code w => some (pushOf (word0 v), pushOf w, { x with arg1 := code })
  | .jump => some (nop, nop, { x with op := Op.jmp.toByte, arg1 := 0 })
  | .none => none
  | .narrow => none

/-- The 32-bit constant two pushed words make up. -/
def longOf (a b : OpType) : Long := long (expandPush a).arg2 (expandPush b).arg2

/-- The rules of the local optimizations. -/
inductive Applies : List OpType → List OpType → Prop where
  | short (a : OpType) (h : isPush a = true) : Applies [a] [optimizePush a]
  | reshort (a : OpType) (h : isPush a = true) : Applies [a] [optimizePush (expandPush a)]
  | unary (a b a' b' : OpType) (h : unaryRule a b = .rewrite (a', b')) : Applies [a, b] [a', b']
  | binary (a b c a' b' c' : OpType) (h : binaryRule a b c = .ok (.rewrite (a', b', c'))) :
      Applies [a, b, c] [a', b', c']
  | branch (a b a' b' : OpType) (h : branchRule a b = .rewrite (a', b')) : Applies [a, b] [a', b']
  | stack (a b c a' b' c' : OpType) (h : stackOrderRule a b c = .rewrite (a', b', c')) :
      Applies [a, b, c] [a', b', c']
  | load2 (a b a' b' : OpType) (h : loadRule a b none = .rewrite (a', b', none)) :
      Applies [a, b] [a', b']
  | load3 (a b c a' b' c' : OpType) (h : loadRule a b (some c) = .rewrite (a', b', some c')) :
      Applies [a, b, c] [a', b', c']
  | store2 (a b a' b' : OpType) (h : storeRule a b none = .rewrite (a', b', none)) :
      Applies [a, b] [a', b']
  | store3 (a b c a' b' c' : OpType) (h : storeRule a b (some c) = .rewrite (a', b', some c')) :
      Applies [a, b, c] [a', b', c']
  /-- a constant in the form the other rules expect -/
  | plain (a : OpType) (h : isPush a = true) : Applies [a] [pushOf (expandPush a).arg2]
  /-- a 16-bit constant made 32 bits long -/
  | widen (a x : OpType) (v : Long) (ha : isPush a = true) (hx : isLong x = true)
      (hv : x.arg1 = 0x5e#8 ∧ v = BitVec.ofInt 32 (expandPush a).arg2.toInt ∨
        x.arg1 = 0x5f#8 ∧ v = (expandPush a).arg2.zeroExtend 32) :
      Applies [a, x] [optimizePush (pushOf (word0 v)), optimizePush (pushOf (word1 v))]
  /-- an increment behind a decrement -/
  | back (y x : OpType) (hy : isLong y = true) (hx : isLong x = true) (h1 : y.arg1 = 0x44#8)
      (h2 : x.arg1 = 0x43#8) : Applies [y, x] [nop, nop]
  /-- a 32-bit operation on a constant -/
  | long (a b x a' b' c' : OpType) (act : LongAct) (ha : isPush a = true) (hb : isPush b = true)
      (hx : isLong x = true) (h : longUnary x.arg1 (longOf a b) x.arg2 = .ok act)
      (ho : longOut x (longOf a b) act = some (a', b', c')) : Applies [a, b, x] [a', b', c']
  /-- a 32-bit constant cut to 16 bits: the instruction that is deleted is the one behind -/
  | narrow (a b x w : OpType) (ha : isPush a = true) (hb : isPush b = true) (hx : isLong x = true)
      (h : longUnary x.arg1 (longOf a b) x.arg2 = .ok .narrow) :
      Applies [a, b, x, w] [pushOf (expandPush a).arg2, nop, x, nop]
  /-- an operation on two 32-bit constants -/
  | fold (a b c d x : OpType) (v : Long) (ha : isPush a = true) (hb : isPush b = true)
      (hc : isPush c = true) (hd : isPush d = true) (hx : isLong x = true)
      (h : longFold x.arg1 (longOf a b) (longOf c d) = .ok (some v)) :
      Applies [a, b, c, d, x] [pushOf (word0 v), pushOf (word1 v), nop, nop, nop]
  /-- a comparison of two 32-bit constants -/
  | compare (a b c d x : OpType) (v : Bool) (ha : isPush a = true) (hb : isPush b = true)
      (hc : isPush c = true) (hd : isPush d = true) (hx : isLong x = true)
      (h : longCompare x.arg1 (longOf a b) (longOf c d) = some v) :
      Applies [a, b, c, d, x] [nop, nop, nop, nop, optimizePush (pushOf (truth v))]
  /-- a shift of a 32-bit constant -/
  | shift (a b c x : OpType) (v : Long) (ha : isPush a = true) (hb : isPush b = true)
      (hc : isPush c = true) (hx : isLong x = true)
      (h : longShift x.arg1 (longOf a b) (expandPush c).arg2 = .ok (some v)) :
      Applies [a, b, c, x] [pushOf (word0 v), pushOf (word1 v), nop, nop]

theorem Rewrites.trans {R : List OpType → List OpType → Prop} {l l' l'' : List OpType}
    (h : Rewrites R l l') (h' : Rewrites R l' l'') : Rewrites R l l'' := by
  induction h with
  | refl => exact h'
  | step pre post b a l hr _ ih => exact .step pre post b a _ hr (ih h')

theorem Rewrites.pre {R : List OpType → List OpType → Prop} {l l' : List OpType}
    (h : Rewrites R l l') (p : List OpType) : Rewrites R (p ++ l) (p ++ l') := by
  induction h with
  | refl => exact .refl _
  | step pre post b a l hr _ ih =>
    have e : ∀ x : List OpType, p ++ (pre ++ x ++ post) = (p ++ pre) ++ x ++ post := by
      intro x; simp
    rw [e] at ih ⊢
    exact .step (p ++ pre) post b a _ hr ih

theorem Rewrites.one {R : List OpType → List OpType → Prop} (pre post b a : List OpType) (h : R b a) :
    Rewrites R (pre ++ b ++ post) (pre ++ effective a ++ post) := .step pre post b a _ h (.refl _)

/-! ### Where the listed instructions are -/

theorem vis_next : ∀ (l : List OpType) (p q : Nat) (rest : List Nat), visL p l = q :: rest →
    ∃ g a l2, l = g ++ a :: l2 ∧ q = p + g.length ∧ (∀ x ∈ g, listing x = .skip) ∧
      (listing a = .take ∧ rest = visL (q + 1) l2 ∨ listing a = .last ∧ rest = []) := by
  intro l
  induction l with
  | nil => intro p q rest h; cases h
  | cons x r ih =>
    intro p q rest h
    simp only [visL] at h
    cases hl : listing x with
    | stop => rw [hl] at h; cases h
    | last =>
      rw [hl] at h; cases h
      exact ⟨[], x, r, rfl, rfl, by simp, Or.inr ⟨hl, rfl⟩⟩
    | skip =>
      rw [hl] at h
      obtain ⟨g, a, l2, e1, e2, e3, e4⟩ := ih (p + 1) q rest h
      refine ⟨x :: g, a, l2, by rw [e1]; rfl, by rw [e2, List.length_cons]; omega, ?_, e4⟩
      intro y hy
      rcases List.mem_cons.mp hy with rfl | hy
      · exact hl
      · exact e3 y hy
    | take =>
      rw [hl] at h; cases h
      exact ⟨[], x, r, rfl, rfl, by simp, Or.inl ⟨hl, rfl⟩⟩

theorem skips {g : List OpType} (h : ∀ x ∈ g, listing x = .skip) :
    effective g = [] ∧ ∀ x ∈ g, notEnd x = true := by
  constructor
  · unfold effective
    rw [List.filter_eq_nil_iff]
    intro x hx
    rw [listing_skip (h x hx)]; nofun
  · intro x hx
    exact skip_notEnd (listing_skip (h x hx))

theorem vis_at : ∀ (i : Nat) (l : List OpType) (p q : Nat), (visL p l)[i]? = some q →
    ∃ l1 a l2, l = l1 ++ a :: l2 ∧ q = p + l1.length ∧ (∀ x ∈ l1, notEnd x = true) ∧
      (listing a = .last ∨ listing a = .take) ∧
      ∀ j r, (visL p l)[i + 1 + j]? = some r → (visL (q + 1) l2)[j]? = some r := by
  intro i
  induction i with
  | zero =>
    intro l p q h
    cases hv : visL p l with
    | nil => rw [hv] at h; simp at h
    | cons q' rest =>
      rw [hv] at h
      simp only [List.getElem?_cons_zero, Option.some.injEq] at h
      subst h
      obtain ⟨g, a, l2, e1, e2, e3, e4⟩ := vis_next l p q' rest hv
      refine ⟨g, a, l2, e1, e2, (skips e3).2, ?_, ?_⟩
      · rcases e4 with ⟨h, _⟩ | ⟨h, _⟩
        · exact Or.inr h
        · exact Or.inl h
      · intro j r hr
        rw [show 0 + 1 + j = j + 1 by omega, List.getElem?_cons_succ] at hr
        rcases e4 with ⟨_, h⟩ | ⟨_, h⟩
        · rw [h] at hr; exact hr
        · rw [h] at hr; simp at hr
  | succ i ih =>
    intro l p q h
    cases hv : visL p l with
    | nil => rw [hv] at h; simp at h
    | cons q' rest =>
      rw [hv] at h
      simp only [List.getElem?_cons_succ] at h
      obtain ⟨g, a, l2, e1, e2, e3, e4⟩ := vis_next l p q' rest hv
      rcases e4 with ⟨ha, hrest⟩ | ⟨_, hrest⟩
      · rw [hrest] at h
        obtain ⟨l1, a', l2', f1, f2, f3, f4, f5⟩ := ih l2 (q' + 1) q h
        refine ⟨g ++ a :: l1, a', l2', by rw [e1, f1]; simp, ?_, ?_, f4, ?_⟩
        · rw [f2, e2]; simp only [List.length_append, List.length_cons]; omega
        · intro x hx
          rcases List.mem_append.mp hx with hx | hx
          · exact (skips e3).2 x hx
          · rcases List.mem_cons.mp hx with rfl | hx
            · exact (listing_keep (Or.inr ha)).2
            · exact f3 x hx
        · intro j r hr
          rw [show i + 1 + 1 + j = (i + 1 + j) + 1 by omega, List.getElem?_cons_succ, hrest] at hr
          exact f5 j r hr
      · rw [hrest] at h; simp at h

theorem vis_head {l : List OpType} {p q : Nat} (h : (visL p l)[0]? = some q) :
    ∃ g a l2, l = g ++ a :: l2 ∧ q = p + g.length ∧ (∀ x ∈ g, listing x = .skip) ∧
      (listing a = .last ∨ listing a = .take) ∧
      ∀ j r, (visL p l)[1 + j]? = some r → (visL (q + 1) l2)[j]? = some r := by
  cases hv : visL p l with
  | nil => rw [hv] at h; simp at h
  | cons q' rest =>
    rw [hv] at h
    simp only [List.getElem?_cons_zero, Option.some.injEq] at h
    subst h
    obtain ⟨g, a, l2, e1, e2, e3, e4⟩ := vis_next l p q' rest hv
    refine ⟨g, a, l2, e1, e2, e3, ?_, ?_⟩
    · rcases e4 with ⟨h, _⟩ | ⟨h, _⟩
      · exact Or.inr h
      · exact Or.inl h
    · intro j r hr
      rw [show 1 + j = j + 1 by omega, List.getElem?_cons_succ] at hr
      rcases e4 with ⟨_, h⟩ | ⟨_, h⟩
      · rw [h] at hr; exact hr
      · rw [h] at hr; simp at hr

theorem set_mid (l1 : List OpType) (a a' : OpType) (l2 : List OpType) :
    (l1 ++ a :: l2).set l1.length a' = l1 ++ a' :: l2 := by
  rw [List.set_append_right _ _ (Nat.le_refl _), Nat.sub_self]; rfl

theorem get_mid {l1 : List OpType} {a x : OpType} {l2 : List OpType}
    (h : (l1 ++ a :: l2)[l1.length]? = some x) : a = x := by
  rw [List.getElem?_append_right (Nat.le_refl _), Nat.sub_self] at h
  simpa using h

theorem eff_one {x : OpType} (h : opIn [.nop, .line] x = false) : effective [x] = [x] := effective_keep h []

/-- One listed instruction in its place. -/
theorem place1 {t : Table} {i : Nat} {a : OpR} (ha : get t i = some a) (inp : List OpType) :
    ∃ pre post, effective (code (ops t ++ inp)) = pre ++ [a.ins] ++ post ∧
      ∀ f : OpType → OpType, notEnd (f a.ins) = true →
        effective (code (ops (adjust t i f) ++ inp)) = pre ++ effective [f a.ins] ++ post := by
  obtain ⟨p, hp⟩ := get_at ha
  have hv := hp.vis
  rw [vis_eq] at hv
  obtain ⟨l1, x, l2, e1, e2, e3, e4, _⟩ := vis_at i (ops t) 0 p hv
  rw [Nat.zero_add] at e2
  have hx : x = a.ins := by
    have := ops_get hp.tab
    rw [e1, e2] at this
    exact get_mid this
  subst hx
  obtain ⟨k1, k2⟩ := listing_keep e4
  refine ⟨effective l1, effective (code (l2 ++ inp)), ?_, ?_⟩
  · rw [e1, List.append_assoc, code_append e3, List.cons_append, code_cons k2, effective_append,
      effective_keep k1]
    simp
  · intro f hf
    rw [ops_adjust hp f, e1, e2, set_mid, List.append_assoc, code_append e3, List.cons_append,
      code_cons hf, effective_append, ← List.singleton_append, effective_append]
    simp

/-- Two listed instructions one after the other. -/
theorem place2 {t : Table} {i : Nat} {a b : OpR} (ha : get t i = some a)
    (hb : get t (i + 1) = some b) (inp : List OpType) :
    ∃ pre post, effective (code (ops t ++ inp)) = pre ++ [a.ins, b.ins] ++ post ∧
      ∀ a' b', Out [a.ins, b.ins] a' → Out [a.ins, b.ins] b' →
        effective (code (ops (put2 t i a' b') ++ inp)) = pre ++ effective [a', b'] ++ post := by
  obtain ⟨p, hp⟩ := get_at ha
  obtain ⟨q, hq⟩ := get_at hb
  have hv := hp.vis
  have hw := hq.vis
  rw [vis_eq] at hv hw
  obtain ⟨l1, x, l2, e1, e2, e3, e4, e5⟩ := vis_at i (ops t) 0 p hv
  rw [Nat.zero_add] at e2
  obtain ⟨g, y, l3, f1, f2, f3, f4, _⟩ := vis_head (e5 0 q hw)
  have hx : x = a.ins := by
    have := ops_get hp.tab
    rw [e1, e2] at this
    exact get_mid this
  have eq' : ops t = (l1 ++ x :: g) ++ y :: l3 := by rw [e1, f1]; simp
  have hq' : q = (l1 ++ x :: g).length := by rw [f2, e2]; simp only [List.length_append, List.length_cons]; omega
  have hy : y = b.ins := by
    have := ops_get hq.tab
    rw [eq', hq'] at this
    exact get_mid this
  subst hx; subst hy
  obtain ⟨k1, k2⟩ := listing_keep e4
  obtain ⟨k3, k4⟩ := listing_keep f4
  obtain ⟨g1, g2⟩ := skips f3
  have gen : ∀ u v : OpType, notEnd u = true → notEnd v = true →
      effective (code (l1 ++ u :: (g ++ v :: l3) ++ inp)) =
        effective l1 ++ effective [u, v] ++ effective (code (l3 ++ inp)) := by
    intro u v hu hv
    rw [List.append_assoc, code_append e3, List.cons_append, code_cons hu, List.append_assoc,
      code_append g2, List.cons_append, code_cons hv]
    have s : ∀ (o : OpType) (k : List OpType), o :: k = [o] ++ k := fun _ _ => rfl
    rw [s u, s v, s u [v]]
    simp only [effective_append, g1, List.nil_append, List.append_assoc]
  refine ⟨effective l1, effective (code (l3 ++ inp)), ?_, ?_⟩
  · rw [e1, f1, gen _ _ k2 k4]
    congr 2
    rw [effective_keep k1, effective_keep k3]; rfl
  · intro a' b' oa ob
    have hne : ∀ z, Out [a.ins, b.ins] z → notEnd z = true := by
      intro z hz
      unfold notEnd
      simp only [bne_iff_ne, ne_eq]
      intro he
      rcases hz.op with ⟨w, hw, ew⟩ | hm
      · have : notEnd w = true := by
          rcases List.mem_cons.mp hw with rfl | hw
          · exact k2
          · rw [List.mem_singleton.mp hw]; exact k4
        unfold notEnd at this
        rw [ew, he] at this
        simp at this
      · rw [made_of_op he] at hm; cases hm
    rw [put2_at hp hq, eq', List.append_assoc, List.cons_append, e2, set_mid, hq']
    have : (l1 ++ a' :: (g ++ b.ins :: l3)).set (l1 ++ a.ins :: g).length b' = l1 ++ a' :: (g ++ b' :: l3) := by
      have e : l1 ++ a' :: (g ++ b.ins :: l3) = (l1 ++ a' :: g) ++ b.ins :: l3 := by simp
      have el : (l1 ++ a.ins :: g).length = (l1 ++ a' :: g).length := by simp
      rw [e, el, set_mid]; simp
    rw [this, gen _ _ (hne _ oa) (hne _ ob)]

/-- Three listed instructions one after the other. -/
theorem place3 {t : Table} {i : Nat} {a b c : OpR} (ha : get t i = some a)
    (hb : get t (i + 1) = some b) (hc : get t (i + 2) = some c) (inp : List OpType) :
    ∃ pre post, effective (code (ops t ++ inp)) = pre ++ [a.ins, b.ins, c.ins] ++ post ∧
      ∀ a' b' c', Out [a.ins, b.ins, c.ins] a' → Out [a.ins, b.ins, c.ins] b' →
        Out [a.ins, b.ins, c.ins] c' →
        effective (code (ops (put3 t i a' b' c') ++ inp)) = pre ++ effective [a', b', c'] ++ post := by
  obtain ⟨p, hp⟩ := get_at ha
  obtain ⟨q, hq⟩ := get_at hb
  obtain ⟨r, hr⟩ := get_at hc
  have hv := hp.vis
  have hw := hq.vis
  have hz := hr.vis
  rw [vis_eq] at hv hw hz
  obtain ⟨l1, x, l2, e1, e2, e3, e4, e5⟩ := vis_at i (ops t) 0 p hv
  rw [Nat.zero_add] at e2
  obtain ⟨g, y, l3, f1, f2, f3, f4, f5⟩ := vis_head (e5 0 q hw)
  obtain ⟨d, z, l4, d1, d2, d3, d4, _⟩ := vis_head (f5 0 r (e5 1 r hz))
  have hx : x = a.ins := by
    have := ops_get hp.tab
    rw [e1, e2] at this
    exact get_mid this
  have eq' : ops t = (l1 ++ x :: g) ++ y :: l3 := by rw [e1, f1]; simp
  have hq' : q = (l1 ++ x :: g).length := by rw [f2, e2]; simp only [List.length_append, List.length_cons]; omega
  have hy : y = b.ins := by
    have := ops_get hq.tab
    rw [eq', hq'] at this
    exact get_mid this
  have eq2 : ops t = (l1 ++ x :: (g ++ y :: d)) ++ z :: l4 := by rw [e1, f1, d1]; simp
  have hr' : r = (l1 ++ x :: (g ++ y :: d)).length := by
    rw [d2, f2, e2]; simp only [List.length_append, List.length_cons]; omega
  have hz' : z = c.ins := by
    have := ops_get hr.tab
    rw [eq2, hr'] at this
    exact get_mid this
  subst hx; subst hy; subst hz'
  obtain ⟨k1, k2⟩ := listing_keep e4
  obtain ⟨k3, k4⟩ := listing_keep f4
  obtain ⟨k5, k6⟩ := listing_keep d4
  obtain ⟨g1, g2⟩ := skips f3
  obtain ⟨m1, m2⟩ := skips d3
  have gen : ∀ u v w : OpType, notEnd u = true → notEnd v = true → notEnd w = true →
      effective (code (l1 ++ u :: (g ++ v :: (d ++ w :: l4)) ++ inp)) =
        effective l1 ++ effective [u, v, w] ++ effective (code (l4 ++ inp)) := by
    intro u v w hu hv hw
    rw [List.append_assoc, code_append e3, List.cons_append, code_cons hu, List.append_assoc,
      code_append g2, List.cons_append, code_cons hv, List.append_assoc, code_append m2,
      List.cons_append, code_cons hw]
    have s : ∀ (o : OpType) (k : List OpType), o :: k = [o] ++ k := fun _ _ => rfl
    rw [s u, s v, s w, s u [v, w], s v [w]]
    simp only [effective_append, g1, m1, List.nil_append, List.append_assoc]
  refine ⟨effective l1, effective (code (l4 ++ inp)), ?_, ?_⟩
  · rw [e1, f1, d1, gen _ _ _ k2 k4 k6]
    congr 2
    rw [effective_keep k1, effective_keep k3, effective_keep k5]; rfl
  · intro a' b' c' oa ob oc
    have hne : ∀ z, Out [a.ins, b.ins, c.ins] z → notEnd z = true := by
      intro z hz
      unfold notEnd
      simp only [bne_iff_ne, ne_eq]
      intro he
      rcases hz.op with ⟨w, hw, ew⟩ | hm
      · have : notEnd w = true := by
          rcases List.mem_cons.mp hw with rfl | hw
          · exact k2
          · rcases List.mem_cons.mp hw with rfl | hw
            · exact k4
            · rw [List.mem_singleton.mp hw]; exact k6
        unfold notEnd at this
        rw [ew, he] at this
        simp at this
      · rw [made_of_op he] at hm; cases hm
    rw [put3_at hp hq hr, e1, e2, set_mid, hq', hr', f1, d1]
    have s1 : (l1 ++ a' :: (g ++ b.ins :: (d ++ c.ins :: l4))).set (l1 ++ a.ins :: g).length b' =
        l1 ++ a' :: (g ++ b' :: (d ++ c.ins :: l4)) := by
      have e : l1 ++ a' :: (g ++ b.ins :: (d ++ c.ins :: l4)) = (l1 ++ a' :: g) ++ b.ins :: (d ++ c.ins :: l4) := by simp
      have el : (l1 ++ a.ins :: g).length = (l1 ++ a' :: g).length := by simp
      rw [e, el, set_mid]; simp
    have s2 : (l1 ++ a' :: (g ++ b' :: (d ++ c.ins :: l4))).set (l1 ++ a.ins :: (g ++ b.ins :: d)).length c' =
        l1 ++ a' :: (g ++ b' :: (d ++ c' :: l4)) := by
      have e : l1 ++ a' :: (g ++ b' :: (d ++ c.ins :: l4)) = (l1 ++ a' :: (g ++ b' :: d)) ++ c.ins :: l4 := by simp
      have el : (l1 ++ a.ins :: (g ++ b.ins :: d)).length = (l1 ++ a' :: (g ++ b' :: d)).length := by simp
      rw [e, el, set_mid]; simp
    rw [s1, s2, gen _ _ _ (hne _ oa) (hne _ ob) (hne _ oc)]

/-! ### The steps -/

/-- A rule is applied inside a block: none of the instructions it replaces is a label, a call or a
return. -/
def InBlock (before after : List OpType) : Prop :=
  Applies before after ∧ ∀ i ∈ before, opIn [.label, .pcal, .ret, .end_] i = false

theorem get_block {t : Table} {i : Nat} {x : OpR} (h : get t i = some x) :
    opIn [.label, .pcal, .ret, .end_] x.ins = false := by
  obtain ⟨p, hp⟩ := get_at h
  cases hb : opIn [.label, .pcal, .ret, .end_] x.ins with
  | false => rfl
  | true =>
    have hf := hp.fix
    unfold opIn at hb
    simp only [List.any_cons, List.any_nil, Bool.or_eq_true, beq_iff_eq, Bool.or_false] at hb
    unfold isFixed at hf
    rcases hb with e | e | e | e <;> (rw [e, Op.ofByte_toByte] at hf; cases hf)

theorem block1 {t : Table} {i : Nat} {a : OpR} (ha : get t i = some a) {l : List OpType}
    (h : Applies [a.ins] l) : InBlock [a.ins] l :=
  ⟨h, fun x hx => by rw [List.mem_singleton.mp hx]; exact get_block ha⟩

theorem block2 {t : Table} {i j : Nat} {a b : OpR} (ha : get t i = some a) (hb : get t j = some b)
    {l : List OpType} (h : Applies [a.ins, b.ins] l) : InBlock [a.ins, b.ins] l :=
  ⟨h, fun x hx => by
    rcases List.mem_cons.mp hx with rfl | hx
    · exact get_block ha
    · rw [List.mem_singleton.mp hx]; exact get_block hb⟩

theorem block3 {t : Table} {i j k : Nat} {a b c : OpR} (ha : get t i = some a) (hb : get t j = some b)
    (hc : get t k = some c) {l : List OpType} (h : Applies [a.ins, b.ins, c.ins] l) :
    InBlock [a.ins, b.ins, c.ins] l :=
  ⟨h, fun x hx => by
    rcases List.mem_cons.mp hx with rfl | hx
    · exact get_block ha
    · rcases List.mem_cons.mp hx with rfl | hx
      · exact get_block hb
      · rw [List.mem_singleton.mp hx]; exact get_block hc⟩

/-- A table is changed by rules only. -/
def Ruled (t t' : Table) : Prop :=
  ∀ inp, Rewrites InBlock (effective (code (ops t ++ inp))) (effective (code (ops t' ++ inp)))

theorem Ruled.refl (t : Table) : Ruled t t := fun _ => .refl _
theorem Ruled.trans {t t' t'' : Table} (h : Ruled t t') (h' : Ruled t' t'') : Ruled t t'' :=
  fun inp => Rewrites.trans (h inp) (h' inp)
theorem Ruled.of_ops {t t' : Table} (h : ops t' = ops t) : Ruled t t' := fun inp => by
  rw [h]; exact .refl _

theorem push_notEnd {a : OpType} (h : isPush a = true) : notEnd a = true := by
  unfold notEnd
  rcases isPush_cases h with e | e | e <;> rw [e] <;> decide

theorem push_effective {a : OpType} (h : isPush a = true) : opIn [.nop, .line] a = false := by
  unfold opIn
  rcases isPush_cases h with e | e | e <;> simp [e, Op.toByte]

theorem optimizePush_id {a : OpType} (h : isPush a = false) : optimizePush a = a ∧ expandPush a = a := by
  have h1 : a.op ≠ Op.push.toByte := by intro e; unfold isPush at h; rw [e, Op.ofByte_toByte] at h; cases h
  have h2 : a.op ≠ Op.pushb.toByte := by intro e; unfold isPush at h; rw [e, Op.ofByte_toByte] at h; cases h
  have h3 : a.op ≠ Op.upushb.toByte := by intro e; unfold isPush at h; rw [e, Op.ofByte_toByte] at h; cases h
  exact ⟨by unfold optimizePush; rw [if_neg h1], by unfold expandPush; rw [if_neg h2, if_neg h3]⟩

theorem adjust_ruled {t : Table} {i : Nat} {f : OpType → OpType}
    (hf : ∀ a, isPush a = true → Applies [a] [f a] ∧ isPush (f a) = true)
    (hn : ∀ a, isPush a = false → f a = a) : Ruled t (adjust t i f) := by
  cases hg : get t i with
  | none => rw [adjust_none hg]; exact Ruled.refl t
  | some x =>
    intro inp
    obtain ⟨pre, post, e1, e2⟩ := place1 hg inp
    cases hp : isPush x.ins with
    | true =>
      obtain ⟨r1, r2⟩ := hf _ hp
      rw [e1, e2 f (push_notEnd r2)]
      exact Rewrites.one pre post _ _ (block1 hg r1)
    | false =>
      obtain ⟨p, hat⟩ := get_at hg
      have e : ops (adjust t i f) = ops t := by
        rw [ops_adjust hat, hn _ hp]
        obtain ⟨hi, hx⟩ := List.getElem?_eq_some_iff.mp (ops_get hat.tab)
        rw [← hx]
        exact List.set_getElem_self hi
      rw [e]
      exact .refl _

theorem optAt_ruled (t : Table) (i : Nat) : Ruled t (optAt t i) :=
  adjust_ruled (fun a h => ⟨.short a h, isPush_opt h⟩) (fun _ h => (optimizePush_id h).1)

theorem re_ruled (t : Table) (i : Nat) : Ruled t (adjust t i (fun x => optimizePush (expandPush x))) :=
  adjust_ruled (fun a h => ⟨.reshort a h, isPush_opt (isPush_expand h)⟩)
    (fun _ h => by rw [(optimizePush_id h).2, (optimizePush_id h).1])

theorem unaryStep_ruled {t : Table} {i : Nat} {r : Step} (h : unaryStep t i = .ok r) : Ruled t r.1 := by
  unfold unaryStep at h
  cases ha : get t i with
  | none => rw [ha] at h; cases h
  | some a =>
    cases hb : get t (i + 1) with
    | none => rw [ha, hb] at h; cases h
    | some b =>
      rw [ha, hb] at h
      dsimp only at h
      cases hr : unaryRule a.ins b.ins with
      | next =>
        rw [hr] at h
        cases h
        dsimp only
        split
        · exact re_ruled t i
        · exact Ruled.refl t
      | rewrite ab =>
        obtain ⟨a', b'⟩ := ab
        rw [hr] at h
        cases h
        obtain ⟨_, hq⟩ := get_at hb
        have o := unaryRule_out hq.nop hr
        have h1 : Ruled t (put2 t i a' b') := by
          intro inp
          obtain ⟨pre, post, e1, e2⟩ := place2 ha hb inp
          rw [e1, e2 a' b' o.fst o.snd]
          exact Rewrites.one _ _ _ _ (block2 ha hb (.unary _ _ _ _ hr))
        refine h1.trans ?_
        split
        · exact optAt_ruled _ i
        · exact Ruled.refl _
      | stuck => exact absurd hr (unaryRule_not_stuck _ _)

theorem branchStep_ruled {t : Table} {i : Nat} {r : Step} (h : branchStep t i = .ok r) : Ruled t r.1 := by
  unfold branchStep at h
  cases ha : get t i with
  | none => rw [ha] at h; cases h
  | some a =>
    cases hb : get t (i + 1) with
    | none => rw [ha, hb] at h; cases h
    | some b =>
      rw [ha, hb] at h
      dsimp only at h
      cases hr : branchRule a.ins b.ins with
      | next => rw [hr] at h; cases h; exact Ruled.refl t
      | rewrite ab =>
        obtain ⟨a', b'⟩ := ab
        rw [hr] at h
        cases h
        obtain ⟨_, hp⟩ := get_at ha
        have o := branchRule_out hp.nop hr
        intro inp
        obtain ⟨pre, post, e1, e2⟩ := place2 ha hb inp
        show Rewrites InBlock _ (effective (code (ops (put2 t i a' b') ++ inp)))
        rw [e1, e2 a' b' o.fst o.snd]
        exact Rewrites.one _ _ _ _ (block2 ha hb (.branch _ _ _ _ hr))
      | stuck => exact absurd hr (branchRule_not_stuck _ _)

theorem stackStep_ruled {t : Table} {i : Nat} {r : Step} (h : stackStep t i = .ok r) : Ruled t r.1 := by
  unfold stackStep at h
  cases ha : get t i with
  | none => rw [ha] at h; cases h
  | some a =>
    cases hb : get t (i + 1) with
    | none => rw [ha, hb] at h; cases h
    | some b =>
      cases hc : get t (i + 2) with
      | none => rw [ha, hb, hc] at h; cases h
      | some c =>
        rw [ha, hb, hc] at h
        dsimp only at h
        cases hr : stackOrderRule a.ins b.ins c.ins with
        | next => rw [hr] at h; cases h; exact Ruled.refl t
        | rewrite abc =>
          obtain ⟨a', b', c'⟩ := abc
          rw [hr] at h
          cases h
          obtain ⟨_, hp⟩ := get_at ha
          obtain ⟨_, hq⟩ := get_at hb
          have o := stackOrderRule_out hp.nop hq.nop hr
          have h1 : Ruled t (put3 t i a' b' c') := by
            intro inp
            obtain ⟨pre, post, e1, e2⟩ := place3 ha hb hc inp
            rw [e1, e2 a' b' c' o.fst o.snd o.thd]
            exact Rewrites.one _ _ _ _ (block3 ha hb hc (.stack _ _ _ _ _ _ hr))
          refine h1.trans ?_
          dsimp only
          split
          · exact Ruled.of_ops (ops_swapOff _ _)
          · exact Ruled.refl _
        | stuck => exact absurd hr (stackOrderRule_not_stuck _ _ _)

theorem loadStep_ruled {t : Table} {i : Nat} {r : Step} (h : loadStep t i = .ok r) : Ruled t r.1 := by
  unfold loadStep at h
  cases ha : get t i with
  | none => rw [ha] at h; cases h
  | some a =>
    cases hb : get t (i + 1) with
    | none => rw [ha, hb] at h; cases h
    | some b =>
      rw [ha, hb] at h
      dsimp only at h
      cases hr : loadRule a.ins b.ins ((get t (i + 2)).map (·.ins)) with
      | next => rw [hr] at h; cases h; exact Ruled.refl t
      | rewrite ab =>
        obtain ⟨a', b', c'⟩ := ab
        rw [hr] at h
        cases h
        have o := loadRule_out hr
        intro inp
        show Rewrites InBlock _ (effective (code (ops (put2or3 t i a' b' c') ++ inp)))
        cases hc : get t (i + 2) with
        | none =>
          rw [hc] at o hr
          cases c' with
          | some _ => exact absurd o id
          | none =>
            obtain ⟨pre, post, e1, e2⟩ := place2 ha hb inp
            show Rewrites InBlock _ (effective (code (ops (put2 t i a' b') ++ inp)))
            have o : Out2 a.ins b.ins a' b' := o
            rw [e1, e2 a' b' o.fst o.snd]
            exact Rewrites.one _ _ _ _ (block2 ha hb (.load2 _ _ _ _ hr))
        | some c =>
          rw [hc] at o hr
          cases c' with
          | none => exact absurd o id
          | some c' =>
            obtain ⟨pre, post, e1, e2⟩ := place3 ha hb hc inp
            show Rewrites InBlock _ (effective (code (ops (put3 t i a' b' c') ++ inp)))
            have o : Out3 a.ins b.ins c.ins a' b' c' := o
            rw [e1, e2 a' b' c' o.fst o.snd o.thd]
            exact Rewrites.one _ _ _ _ (block3 ha hb hc (.load3 _ _ _ _ _ _ hr))
      | stuck => exact absurd hr (loadRule_not_stuck _ _ _)

theorem storeStep_ruled {t : Table} {i : Nat} {r : Step} (h : storeStep t i = .ok r) : Ruled t r.1 := by
  unfold storeStep at h
  cases ha : get t i with
  | none => rw [ha] at h; cases h
  | some a =>
    cases hb : get t (i + 1) with
    | none => rw [ha, hb] at h; cases h
    | some b =>
      rw [ha, hb] at h
      dsimp only at h
      cases hr : storeRule a.ins b.ins ((get t (i + 2)).map (·.ins)) with
      | next => rw [hr] at h; cases h; exact Ruled.refl t
      | rewrite ab =>
        obtain ⟨a', b', c'⟩ := ab
        rw [hr] at h
        cases h
        have o := storeRule_out hr
        intro inp
        show Rewrites InBlock _ (effective (code (ops (put2or3 t i a' b' c') ++ inp)))
        cases hc : get t (i + 2) with
        | none =>
          rw [hc] at o hr
          cases c' with
          | some _ => exact absurd o id
          | none =>
            obtain ⟨pre, post, e1, e2⟩ := place2 ha hb inp
            show Rewrites InBlock _ (effective (code (ops (put2 t i a' b') ++ inp)))
            have o : Out2 a.ins b.ins a' b' := o
            rw [e1, e2 a' b' o.fst o.snd]
            exact Rewrites.one _ _ _ _ (block2 ha hb (.store2 _ _ _ _ hr))
        | some c =>
          rw [hc] at o hr
          cases c' with
          | none => exact absurd o id
          | some c' =>
            obtain ⟨pre, post, e1, e2⟩ := place3 ha hb hc inp
            show Rewrites InBlock _ (effective (code (ops (put3 t i a' b' c') ++ inp)))
            have o : Out3 a.ins b.ins c.ins a' b' c' := o
            rw [e1, e2 a' b' c' o.fst o.snd o.thd]
            exact Rewrites.one _ _ _ _ (block3 ha hb hc (.store3 _ _ _ _ _ _ hr))
      | stuck => exact absurd hr (storeRule_not_stuck _ _ _)

theorem binaryIdle_ruled (t : Table) (i : Nat) (a b c : OpType) : Ruled t (binaryIdle t i a b c) := by
  unfold binaryIdle
  dsimp only
  split
  · exact re_ruled _ _
  · split
    · exact re_ruled _ _
    · split
      · exact re_ruled _ _
      · exact Ruled.refl t

theorem binaryDone_ruled (t : Table) (i : Nat) (a b c a' b' c' : OpType) :
    Ruled (put3 t i a' b' c') (binaryDone t i a b c a' b' c') := by
  unfold binaryDone
  dsimp only
  split
  · exact (optAt_ruled _ _).trans (optAt_ruled _ _)
  · split
    · exact optAt_ruled _ _
    · split
      · exact optAt_ruled _ _
      · split
        · split
          · exact (Ruled.of_ops (ops_swapOff _ _)).trans (optAt_ruled _ _)
          · exact optAt_ruled _ _
        · exact Ruled.refl _

theorem binaryStep_ruled {t : Table} {i : Nat} {r : Step} (h : binaryStep t i = .ok r) : Ruled t r.1 := by
  unfold binaryStep at h
  cases ha : get t i with
  | none => rw [ha] at h; cases h
  | some a =>
    cases hb : get t (i + 1) with
    | none => rw [ha, hb] at h; cases h
    | some b =>
      cases hc : get t (i + 2) with
      | none => rw [ha, hb, hc] at h; cases h
      | some c =>
        rw [ha, hb, hc] at h
        dsimp only at h
        rw [Res.bind_eq_ok] at h
        obtain ⟨act, hr, h⟩ := h
        cases act with
        | next => cases h; exact binaryIdle_ruled _ _ _ _ _
        | rewrite abc =>
          obtain ⟨a', b', c'⟩ := abc
          cases h
          obtain ⟨_, hr3⟩ := get_at hc
          have h1 : Ruled t (put3 t i a' b' c') := by
            intro inp
            obtain ⟨pre, post, e1, e2⟩ := place3 ha hb hc inp
            have hout : Out [a.ins, b.ins, c.ins] a' ∧ Out [a.ins, b.ins, c.ins] b' ∧
                Out [a.ins, b.ins, c.ins] c' := by
              rcases binaryRule_out hr3.nop hr with o | ⟨h1, h2, _, _, rfl, rfl, rfl⟩
              · exact ⟨o.fst, o.snd, o.thd⟩
              · exact ⟨out_same m2, push_made (isPush_expand h1), out_same m3⟩
            rw [e1, e2 a' b' c' hout.1 hout.2.1 hout.2.2]
            exact Rewrites.one _ _ _ _ (block3 ha hb hc (.binary _ _ _ _ _ _ hr))
          exact h1.trans (binaryDone_ruled _ _ _ _ _ _ _ _)
        | stuck => cases h

end Pas.Popt
