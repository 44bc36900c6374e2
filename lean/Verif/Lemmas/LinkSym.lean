import Verif.Lemmas.Link
/-! Invariant of the linker's symbol table. -/
namespace Pas.Link
open Pas.Spec Pas.Poff

theorem _root_.Pas.Spec.SameThing.symm {a b : Sym} (h : SameThing a b) : SameThing b a := ⟨h.1.symm, h.2.symm⟩
theorem _root_.Pas.Spec.SameThing.trans {a b c : Sym} (h : SameThing a b) (h' : SameThing b c) : SameThing a c :=
  ⟨h.1.trans h'.1, h.2.trans h'.2⟩
theorem _root_.Pas.Spec.SameThing.refl (a : Sym) : SameThing a a := ⟨rfl, rfl⟩

theorem defsOf_congr {a b : Sym} (h : SameThing a b) (ss : List Sym) : defsOf a ss = defsOf b ss := by
  unfold defsOf
  apply List.filter_congr
  intro d _
  have : (IsDef d ∧ SameThing d a) ↔ (IsDef d ∧ SameThing d b) :=
    ⟨fun ⟨x, y⟩ => ⟨x, y.trans h⟩, fun ⟨x, y⟩ => ⟨x, y.trans h.symm⟩⟩
  simp [this]

theorem defsOf_snoc (s x : Sym) (ss : List Sym) :
    defsOf s (ss ++ [x]) = defsOf s ss ++ (if IsDef x ∧ SameThing x s then [x] else []) := by
  unfold defsOf
  rw [List.filter_append]
  congr 1
  by_cases h : IsDef x ∧ SameThing x s <;> simp [h]

/-- After merging the symbols `os`. -/
structure Inv (t : SymTab) (os : List Sym) : Prop where
  sorted : t.order.Pairwise fun a b => SymBefore (t.get a) (t.get b)
  ids : ∀ id ∈ t.order, id < t.heap.length
  slots : ∀ i (h : i < os.length), ∃ id ∈ t.order, t.slots i = some id ∧ SameThing (t.get id) os[i]
  used : ∀ id ∈ t.order, ∃ s ∈ os, SameThing s (t.get id)
  defd : ∀ id ∈ t.order, IsDef (t.get id) → (defsOf (t.get id) os).head? = some (t.get id)
  undef : ∀ id ∈ t.order, ¬ IsDef (t.get id) → defsOf (t.get id) os = []
  multi : t.multi = 0 ↔ ∀ id ∈ t.order, (defsOf (t.get id) os).length ≤ 1
  alloc : os.length ≤ t.alloc
  grain : t.alloc = 0 ∨ 1024 ≤ t.alloc

theorem inv_empty : Inv SymTab.empty [] := by
  constructor <;> simp [SymTab.empty]

theorem get_append {t : SymTab} {id : Nat} (h : id < t.heap.length) (s : Sym) :
    (t.heap ++ [s]).getD id default = t.get id := by
  rw [SymTab.get, List.getD_eq_getElem?_getD, List.getElem?_append_left h,
    List.getD_eq_getElem?_getD]

theorem order_inj {t : SymTab}
    (hs : t.order.Pairwise fun a b => SymBefore (t.get a) (t.get b)) {a b : Nat}
    (ha : a ∈ t.order) (hb : b ∈ t.order) (h : SameThing (t.get a) (t.get b)) : a = b := by
  generalize t.order = l at *
  induction l with
  | nil => cases ha
  | cons x xs ih =>
    rw [List.pairwise_cons] at hs
    rcases List.mem_cons.1 ha with rfl | ha
    · rcases List.mem_cons.1 hb with rfl | hb
      · rfl
      · exact (before_irrefl (hs.1 b hb) h).elim
    · rcases List.mem_cons.1 hb with rfl | hb
      · exact (before_irrefl (hs.1 _ ‹_›) h.symm).elim
      · exact ih hs.2 ha hb

/-- The state after inserting a symbol (all but the slots). -/
structure Inserted (t t' : SymTab) (id : Nat) (os : List Sym) (s : Sym) : Prop where
  sorted : t'.order.Pairwise fun a b => SymBefore (t'.get a) (t'.get b)
  ids : ∀ id ∈ t'.order, id < t'.heap.length
  here : id ∈ t'.order ∧ SameThing (t'.get id) s
  keep : ∀ j ∈ t.order, j ∈ t'.order ∧ SameThing (t'.get j) (t.get j)
  used : ∀ id ∈ t'.order, ∃ x ∈ os ++ [s], SameThing x (t'.get id)
  defd : ∀ id ∈ t'.order, IsDef (t'.get id) →
    (defsOf (t'.get id) (os ++ [s])).head? = some (t'.get id)
  undef : ∀ id ∈ t'.order, ¬ IsDef (t'.get id) → defsOf (t'.get id) (os ++ [s]) = []
  multi : t'.multi = 0 ↔ ∀ id ∈ t'.order, (defsOf (t'.get id) (os ++ [s])).length ≤ 1
  slots : t'.slots = t.slots
  alloc : t'.alloc = t.alloc

theorem defsOf_other {s x : Sym} (os : List Sym) (h : ¬ SameThing x s) :
    defsOf s (os ++ [x]) = defsOf s os := by
  rw [defsOf_snoc, if_neg (fun h' => h h'.2), List.append_nil]

theorem defsOf_undef {s x : Sym} (os : List Sym) (h : ¬ IsDef x) :
    defsOf s (os ++ [x]) = defsOf s os := by
  rw [defsOf_snoc, if_neg (fun h' => h h'.1), List.append_nil]

theorem defsOf_def {s x : Sym} (os : List Sym) (h : IsDef x) (hs : SameThing x s) :
    defsOf s (os ++ [x]) = defsOf s os ++ [x] := by
  rw [defsOf_snoc, if_pos ⟨h, hs⟩]

theorem insert_inv {t : SymTab} {os : List Sym} (hI : Inv t os) (s : Sym) :
    Inserted t (insertSymbol t s).2 (insertSymbol t s).1 os s := by
  have hl := locate_spec t.heap s t.order hI.sorted
  revert hl
  rw [insertSymbol]
  generalize hloc : locate t.heap s t.order = L
  obtain ⟨pre, rest, found⟩ := L
  simp only
  rintro ⟨l1, l2, l3, l4⟩
  cases found with
  | true =>
    obtain ⟨id, tl, rfl, hk⟩ := l3 rfl
    have hmem : id ∈ t.order := by rw [← l1]; simp
    change SameThing (t.get id) s at hk
    simp only
    -- nothing in the heap or the order changes
    have same (m : Nat) (hdef : ∀ j ∈ t.order, IsDef (t.get j) →
          (defsOf (t.get j) (os ++ [s])).head? = some (t.get j))
        (hund : ∀ j ∈ t.order, ¬ IsDef (t.get j) → defsOf (t.get j) (os ++ [s]) = [])
        (hm : m = 0 ↔ ∀ j ∈ t.order, (defsOf (t.get j) (os ++ [s])).length ≤ 1) :
        Inserted t ⟨t.heap, t.order, t.slots, t.alloc, m⟩ id os s :=
      ⟨hI.sorted, hI.ids, ⟨hmem, hk⟩, fun j hj => ⟨hj, SameThing.refl _⟩,
        fun j hj => by
          obtain ⟨x, hx, hx'⟩ := hI.used j hj
          exact ⟨x, by simp [hx], hx'⟩, hdef, hund, hm, rfl, rfl⟩
    by_cases hs : IsDef s
    · have hsu : s.undef = false := (undef_false s).2 hs
      by_cases hc : IsDef (t.get id)
      · -- a second definition
        have hcu : (t.get id).undef = false := (undef_false _).2 hc
        simp only [hcu, hsu, Bool.false_eq_true, if_false]
        refine same (t.multi + 1) ?_ ?_ ?_
        · intro j hj hd
          have := hI.defd j hj hd
          rw [defsOf_snoc, List.head?_append, this]
          rfl
        · intro j hj hd
          by_cases hjs : SameThing s (t.get j)
          · have := order_inj hI.sorted hmem hj (hk.trans hjs)
            subst this
            exact absurd hc hd
          · rw [defsOf_other os hjs]
            exact hI.undef j hj hd
        · constructor
          · omega
          · intro h
            have h1 := h id hmem
            rw [defsOf_def os hs hk.symm, List.length_append] at h1
            have h2 := hI.defd id hmem hc
            cases hdd : defsOf (t.get id) os with
            | nil => rw [hdd] at h2; cases h2
            | cons a b =>
              rw [hdd] at h1
              simp at h1
      · -- the first definition
        have hcu : (t.get id).undef = true := (undef_iff _).2 hc
        simp only [hcu, hsu, Bool.false_eq_true, if_false, if_true]
        have hsc : ({ s with name := (t.get id).name } : Sym) = s := by
          cases s
          simp only [Sym.mk.injEq, and_true]
          exact hk.1
        rw [hsc]
        have hlt := hI.ids id hmem
        have hget (j : Nat) : (t.heap.set id s).getD j default = if j = id then s else t.get j := by
          rw [List.getD_eq_getElem?_getD, List.getElem?_set]
          by_cases h : id = j
          · simp [h] at hlt ⊢
            simp [hlt]
          · simp only [h, if_false, Ne.symm h]
            rw [← List.getD_eq_getElem?_getD]
            rfl
        have hsame (j : Nat) : SameThing (if j = id then s else t.get j) (t.get j) := by
          split
          · next h => subst h; exact hk.symm
          · exact SameThing.refl _
        have hbef {a b : Nat} (h : SymBefore (t.get a) (t.get b)) :
            SymBefore (if a = id then s else t.get a) (if b = id then s else t.get b) := by
          have ha := hsame a
          have hb := hsame b
          unfold SymBefore
          rw [ha.1, hb.1, ha.2, hb.2]
          exact h
        have hdo (j : Nat) : defsOf (if j = id then s else t.get j) (os ++ [s]) =
            defsOf (t.get j) (os ++ [s]) := defsOf_congr (hsame j) _
        have hne {j : Nat} (hj : j ∈ t.order) (h : j ≠ id) : ¬ SameThing s (t.get j) :=
          fun h' => h (order_inj hI.sorted hj hmem (h'.symm.trans hk.symm))
        have hone : defsOf (t.get id) (os ++ [s]) = [s] := by
          rw [defsOf_def os hs hk.symm, hI.undef id hmem hc]
          rfl
        constructor
        · show t.order.Pairwise _
          refine hI.sorted.imp ?_
          intro a b h
          show SymBefore ((t.heap.set id s).getD a default) ((t.heap.set id s).getD b default)
          rw [hget, hget]
          exact hbef h
        · intro j hj
          rw [List.length_set]
          exact hI.ids j hj
        · refine ⟨hmem, ?_⟩
          show SameThing ((t.heap.set id s).getD id default) s
          rw [hget, if_pos rfl]
          exact SameThing.refl _
        · intro j hj
          refine ⟨hj, ?_⟩
          show SameThing ((t.heap.set id s).getD j default) _
          rw [hget]
          exact hsame j
        · intro j hj
          obtain ⟨x, hx, hx'⟩ := hI.used j hj
          refine ⟨x, by simp [hx], ?_⟩
          show SameThing x ((t.heap.set id s).getD j default)
          rw [hget]
          exact hx'.trans (hsame j).symm
        · intro j hj
          show IsDef ((t.heap.set id s).getD j default) →
            (defsOf ((t.heap.set id s).getD j default) _).head? =
              some ((t.heap.set id s).getD j default)
          rw [hget, hdo]
          by_cases h : j = id
          · subst h
            rw [if_pos rfl, hone]
            intro _
            rfl
          · rw [if_neg h, defsOf_other os (hne hj h)]
            exact hI.defd j hj
        · intro j hj
          show ¬ IsDef ((t.heap.set id s).getD j default) →
            (defsOf ((t.heap.set id s).getD j default) _) = []
          rw [hget, hdo]
          by_cases h : j = id
          · subst h
            rw [if_pos rfl]
            intro h
            exact absurd hs h
          · rw [if_neg h, defsOf_other os (hne hj h)]
            exact hI.undef j hj
        · show t.multi = 0 ↔ ∀ j ∈ t.order,
            (defsOf ((t.heap.set id s).getD j default) (os ++ [s])).length ≤ 1
          rw [hI.multi]
          have key : ∀ j ∈ t.order, ((defsOf (t.get j) os).length ≤ 1 ↔
              (defsOf ((t.heap.set id s).getD j default) (os ++ [s])).length ≤ 1) := by
            intro j hj
            rw [hget, hdo]
            by_cases h : j = id
            · subst h
              rw [hone, hI.undef j hj hc]
              simp
            · rw [defsOf_other os (hne hj h)]
          exact ⟨fun h j hj => (key j hj).1 (h j hj), fun h j hj => (key j hj).2 (h j hj)⟩
        · rfl
        · rfl
    · -- one more reference
      have hsu : s.undef = true := (undef_iff s).2 hs
      have := same t.multi
        (fun j hj hd => by rw [defsOf_undef os hs]; exact hI.defd j hj hd)
        (fun j hj hd => by rw [defsOf_undef os hs]; exact hI.undef j hj hd)
        (by simp only [defsOf_undef os hs]; exact hI.multi)
      simp only [hsu, if_true]
      split <;> exact this
  | false =>
    have hnew := l4 rfl
    change ∀ j ∈ rest, SymBefore s (t.get j) at hnew
    change ∀ j ∈ pre, SymBefore (t.get j) s at l2
    suffices h : Inserted t ⟨t.heap ++ [s], pre ++ t.heap.length :: rest, t.slots, t.alloc, t.multi⟩
        t.heap.length os s by
      cases rest <;> exact h
    have hpre {j : Nat} (h : j ∈ pre) : j ∈ t.order := by rw [← l1]; simp [h]
    have hrest {j : Nat} (h : j ∈ rest) : j ∈ t.order := by rw [← l1]; simp [h]
    have hmem {j : Nat} (h : j ∈ pre ++ t.heap.length :: rest) : j = t.heap.length ∨ j ∈ t.order := by
      rcases List.mem_append.1 h with h | h
      · exact .inr (hpre h)
      · rcases List.mem_cons.1 h with h | h
        · exact .inl h
        · exact .inr (hrest h)
    have hgetn : (t.heap ++ [s]).getD t.heap.length default = s := by
      simp [List.getD_eq_getElem?_getD]
    have hget {j : Nat} (h : j ∈ t.order) : (t.heap ++ [s]).getD j default = t.get j :=
      get_append (hI.ids j h) s
    have hdiff {j : Nat} (h : j ∈ t.order) : ¬ SameThing s (t.get j) := by
      intro hh
      rw [← l1] at h
      rcases List.mem_append.1 h with h | h
      · exact before_irrefl (l2 j h) hh.symm
      · exact before_irrefl (hnew j h) hh
    have hnone : defsOf s os = [] := by
      unfold defsOf
      rw [List.filter_eq_nil_iff]
      intro d hd hdd
      simp only [decide_eq_true_eq] at hdd
      obtain ⟨i, hi, rfl⟩ := List.getElem_of_mem hd
      obtain ⟨j, hj, -, hj'⟩ := hI.slots i hi
      exact hdiff hj (hdd.2.symm.trans hj'.symm)
    have hsort := hI.sorted
    rw [← l1, List.pairwise_append] at hsort
    obtain ⟨p1, p2, p3⟩ := hsort
    constructor
    · show (pre ++ t.heap.length :: rest).Pairwise fun a b =>
        SymBefore ((t.heap ++ [s]).getD a default) ((t.heap ++ [s]).getD b default)
      rw [List.pairwise_append, List.pairwise_cons]
      refine ⟨?_, ⟨?_, ?_⟩, ?_⟩
      · refine List.Pairwise.imp_of_mem ?_ p1
        intro a b ha hb h
        rw [hget (hpre ha), hget (hpre hb)]
        exact h
      · intro b hb
        rw [hgetn, hget (hrest hb)]
        exact hnew b hb
      · refine List.Pairwise.imp_of_mem ?_ p2
        intro a b ha hb h
        rw [hget (hrest ha), hget (hrest hb)]
        exact h
      · intro a ha b hb
        rw [hget (hpre ha)]
        rcases List.mem_cons.1 hb with rfl | hb
        · rw [hgetn]
          exact l2 a ha
        · rw [hget (hrest hb)]
          exact p3 a ha b hb
    · intro j hj
      rw [List.length_append]
      rcases hmem hj with rfl | hj
      · simp
      · have := hI.ids j hj
        omega
    · refine ⟨by simp, ?_⟩
      show SameThing ((t.heap ++ [s]).getD t.heap.length default) s
      rw [hgetn]
      exact SameThing.refl _
    · intro j hj
      constructor
      · show j ∈ pre ++ t.heap.length :: rest
        rw [← l1] at hj
        rcases List.mem_append.1 hj with h | h <;> simp [h]
      · show SameThing ((t.heap ++ [s]).getD j default) _
        rw [hget hj]
        exact SameThing.refl _
    · intro j hj
      show ∃ x ∈ os ++ [s], SameThing x ((t.heap ++ [s]).getD j default)
      rcases hmem hj with rfl | hj
      · exact ⟨s, by simp, by rw [hgetn]; exact SameThing.refl _⟩
      · obtain ⟨x, hx, hx'⟩ := hI.used j hj
        exact ⟨x, by simp [hx], by rw [hget hj]; exact hx'⟩
    · intro j hj
      show IsDef ((t.heap ++ [s]).getD j default) →
        (defsOf ((t.heap ++ [s]).getD j default) (os ++ [s])).head? = some ((t.heap ++ [s]).getD j default)
      rcases hmem hj with rfl | hj
      · rw [hgetn]
        intro h
        rw [defsOf_def os h (SameThing.refl _), hnone]
        rfl
      · rw [hget hj, defsOf_other os (hdiff hj)]
        exact hI.defd j hj
    · intro j hj
      show ¬ IsDef ((t.heap ++ [s]).getD j default) →
        defsOf ((t.heap ++ [s]).getD j default) (os ++ [s]) = []
      rcases hmem hj with rfl | hj
      · rw [hgetn]
        intro h
        rw [defsOf_undef os h, hnone]
      · rw [hget hj, defsOf_other os (hdiff hj)]
        exact hI.undef j hj
    · show t.multi = 0 ↔ ∀ j ∈ pre ++ t.heap.length :: rest,
        (defsOf ((t.heap ++ [s]).getD j default) (os ++ [s])).length ≤ 1
      rw [hI.multi]
      constructor
      · intro h j hj
        rcases hmem hj with rfl | hj
        · rw [hgetn, defsOf_snoc, hnone]
          split <;> simp
        · rw [hget hj, defsOf_other os (hdiff hj)]
          exact h j hj
      · intro h j hj
        have := h j (by
          rw [← l1] at hj
          rcases List.mem_append.1 hj with h | h <;> simp [h])
        rw [hget hj, defsOf_other os (hdiff hj)] at this
        exact this
    · rfl
    · rfl

theorem add_inv {t : SymTab} {os : List Sym} (hI : Inv t os) (s : Sym) :
    ∃ t', addToList (insertSymbol t s).2 (insertSymbol t s).1 os.length = .ok t' ∧
      Inv t' (os ++ [s]) := by
  have h := insert_inv hI s
  generalize hg : insertSymbol t s = r at *
  obtain ⟨id, t1⟩ := r
  simp only at h ⊢
  have ha := hI.alloc
  have hgr := hI.grain
  rw [addToList]
  simp only [h.alloc]
  generalize hA : (if os.length + 1 > (if t.alloc = 0 then 1024 else t.alloc) then
    (if t.alloc = 0 then 1024 else t.alloc) + 256 else (if t.alloc = 0 then 1024 else t.alloc)) = A
  have hA1 : os.length + 1 ≤ A := by
    subst hA
    by_cases h0 : t.alloc = 0 <;> simp only [h0, if_true, if_false] <;> split <;> omega
  have hA2 : 1024 ≤ A := by
    subst hA
    by_cases h0 : t.alloc = 0 <;> simp only [h0, if_true, if_false] <;> split <;> omega
  rw [if_pos (by omega)]
  refine ⟨_, rfl, ?_⟩
  constructor
  · exact h.sorted
  · exact h.ids
  · intro i hi
    rw [List.length_append] at hi
    by_cases hlt : i < os.length
    · obtain ⟨j, hj, hs, hk⟩ := hI.slots i hlt
      obtain ⟨hj', hk'⟩ := h.keep j hj
      refine ⟨j, hj', ?_, ?_⟩
      · show (if i = os.length then some id else t1.slots i) = some j
        rw [if_neg (by omega), h.slots, hs]
      · rw [List.getElem_append_left hlt]
        exact hk'.trans hk
    · have : i = os.length := by simp at hi; omega
      subst this
      refine ⟨id, h.here.1, by simp, ?_⟩
      simp only [List.getElem_concat_length]
      exact h.here.2
  · exact h.used
  · exact h.defd
  · exact h.undef
  · exact h.multi
  · simpa using hA1
  · exact .inr hA2

theorem mergeSymLoop_inv (base : Nat) (symOffset : Nat) (ss : List Sym) (k : Nat) (t : SymTab)
    (os : List Sym) (hI : Inv t os) (hk : os.length = k + symOffset) :
    ∃ t', mergeSymLoop base symOffset ss k t = .ok t' ∧ Inv t' (os ++ ss.map (movedSym base)) := by
  induction ss generalizing k t os with
  | nil => exact ⟨t, rfl, by simpa using hI⟩
  | cons s ss ih =>
    obtain ⟨t1, h1, hI1⟩ := add_inv hI (movedSym base s)
    obtain ⟨t2, h2, hI2⟩ := ih (k + 1) t1 _ hI1 (by simp; omega)
    refine ⟨t2, ?_, ?_⟩
    · rw [mergeSymLoop]
      simp only [offsetSymbol_eq]
      rw [← hk, h1]
      exact h2
    · simpa using hI2

theorem mergeSymbols_inv (base : Nat) (ss : List Sym) (t : SymTab) (os : List Sym) (hI : Inv t os) :
    ∃ t', mergeSymbols t ss base os.length = .ok (t', os.length + ss.length) ∧
      Inv t' (os ++ ss.map (movedSym base)) := by
  obtain ⟨t', h, hI'⟩ := mergeSymLoop_inv base os.length ss 0 t os hI (by omega)
  exact ⟨t', by rw [mergeSymbols, h]; rfl, hI'⟩

theorem mergeAll_inv (us : List (List Sym × Nat)) (t : SymTab) (os : List Sym) (hI : Inv t os) :
    ∃ t', mergeAll us os.length t = .ok (t', os.length + (symbols us).length) ∧
      Inv t' (os ++ symbols us) := by
  induction us generalizing t os with
  | nil => exact ⟨t, rfl, by simpa [symbols] using hI⟩
  | cons u us ih =>
    obtain ⟨t1, h1, hI1⟩ := mergeSymbols_inv u.2 u.1 t os hI
    obtain ⟨t2, h2, hI2⟩ := ih t1 _ hI1
    refine ⟨t2, ?_, ?_⟩
    · rw [mergeAll, h1]
      simp only [Res.ok_bind]
      rw [List.length_append, List.length_map] at h2
      rw [h2]
      simp [symbols, Nat.add_assoc]
    · simpa [symbols] using hI2

/-- What verification decides. -/
theorem verify_iff {t : SymTab} {os : List Sym} (hI : Inv t os) :
    verifySymbols t = true ↔ DefinedOnce os := by
  have h : verifySymbols t = true ↔ (∀ id ∈ t.order, IsDef (t.get id)) ∧ t.multi = 0 := by
    simp only [verifySymbols, Bool.and_eq_true, List.all_eq_true, beq_iff_eq, Bool.not_eq_true',
      undef_false]
  rw [h, hI.multi]
  constructor
  · rintro ⟨hd, hm⟩ s hs
    obtain ⟨i, hi, rfl⟩ := List.getElem_of_mem hs
    obtain ⟨id, hid, -, hk⟩ := hI.slots i hi
    have h1 := hI.defd id hid (hd id hid)
    have h2 := hm id hid
    rw [← defsOf_congr hk]
    cases hx : defsOf (t.get id) os with
    | nil => rw [hx] at h1; cases h1
    | cons a b => rw [hx] at h2; simp at h2 ⊢; exact h2
  · intro hr
    have key : ∀ id ∈ t.order, (defsOf (t.get id) os).length = 1 := by
      intro id hid
      obtain ⟨s, hs, hk⟩ := hI.used id hid
      rw [← defsOf_congr hk]
      exact hr s hs
    refine ⟨fun id hid => ?_, fun id hid => by rw [key id hid]; exact Nat.le_refl 1⟩
    refine Classical.byContradiction fun hn => ?_
    have := key id hid
    rw [hI.undef id hid hn] at this
    cases this

/-- What references resolve to. -/
theorem lookup_of {t : SymTab} {os : List Sym} (hI : Inv t os) (hr : DefinedOnce os) (i : Nat)
    (hi : i < os.length) :
    ∃ d, defsOf os[i] os = [d] ∧ symbolByIndex t i = .ok (some d) := by
  obtain ⟨id, hid, hs, hk⟩ := hI.slots i hi
  have hv := (verify_iff hI).2 hr
  have hd : IsDef (t.get id) := by
    have : (∀ id ∈ t.order, IsDef (t.get id)) ∧ t.multi = 0 := by
      simpa only [verifySymbols, Bool.and_eq_true, List.all_eq_true, beq_iff_eq, Bool.not_eq_true',
        undef_false] using hv
    exact this.1 id hid
  have h1 := hI.defd id hid hd
  have h2 := hr _ (List.getElem_mem hi)
  rw [defsOf_congr hk] at h1
  refine ⟨t.get id, ?_, ?_⟩
  · cases hx : defsOf os[i] os with
    | nil => rw [hx] at h1; cases h1
    | cons a b =>
      rw [hx] at h1 h2
      simp only [List.head?_cons, Option.some.injEq] at h1
      simp only [List.length_cons] at h2
      cases b with
      | nil => rw [h1]
      | cons => simp at h2
  · have := hI.alloc
    rw [symbolByIndex, if_neg (by omega), hs]

end Pas.Link
