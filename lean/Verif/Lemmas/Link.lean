import Verif.Spec.Link
/-! The linker's symbol table. -/
namespace Pas.Link
open Pas.Spec Pas.Poff

theorem undef_iff (s : Sym) : s.undef = true ↔ ¬ IsDef s := by
  have : ∀ b : Byte, ((b &&& 1#8 != 0#8) = true ↔ ¬ b.getLsbD 0 = false) := by decide +kernel
  exact this s.flags

theorem undef_false (s : Sym) : s.undef = false ↔ IsDef s := by
  have := undef_iff s
  cases h : s.undef <;> simp_all

theorem offsetSymbol_eq (s : Sym) (n : Nat) : offsetSymbol s n = movedSym n s := by
  unfold offsetSymbol movedSym
  by_cases h : IsDef s ∧ (s.stype = 3#8 ∨ s.stype = 4#8)
  · rw [if_pos h, if_pos ⟨(undef_false s).2 h.1, h.2⟩]
    have : s.value + BitVec.ofNat 32 n = BitVec.ofNat 32 (s.value.toNat + n) := by
      apply BitVec.eq_of_toNat_eq
      simp [BitVec.toNat_add, BitVec.toNat_ofNat]
    rw [this]
  · rw [if_neg h, if_neg (fun h' => h ⟨(undef_false s).1 h'.1, h'.2⟩)]

theorem movedSym_name (n : Nat) (s : Sym) : (movedSym n s).name = s.name := by
  unfold movedSym; split <;> rfl
theorem movedSym_stype (n : Nat) (s : Sym) : (movedSym n s).stype = s.stype := by
  unfold movedSym; split <;> rfl
theorem movedSym_flags (n : Nat) (s : Sym) : (movedSym n s).flags = s.flags := by
  unfold movedSym; split <;> rfl

/-! ### The order of names -/

theorem strcmp_eq {a b : List Byte} : strcmp a b = .eq ↔ a = b := by
  induction a generalizing b with
  | nil => cases b <;> simp [strcmp]
  | cons x xs ih =>
    cases b with
    | nil => simp [strcmp]
    | cons y ys =>
      rw [strcmp]
      by_cases h1 : x < y
      · simp only [h1, if_true, List.cons.injEq]
        exact ⟨nofun, fun h => by rw [h.1] at h1; exact absurd h1 (BitVec.lt_irrefl _)⟩
      · by_cases h2 : y < x
        · simp only [h1, h2, if_true, if_false, List.cons.injEq]
          exact ⟨nofun, fun h => by rw [h.1] at h2; exact absurd h2 (BitVec.lt_irrefl _)⟩
        · have : x = y := by
            apply BitVec.eq_of_toNat_eq
            rw [BitVec.lt_def] at h1 h2
            omega
          simp [h2, ih, this]

theorem strcmp_lt {a b : List Byte} :
    strcmp a b = .lt ↔ a.map BitVec.toNat < b.map BitVec.toNat := by
  induction a generalizing b with
  | nil => cases b <;> simp [strcmp]
  | cons x xs ih =>
    cases b with
    | nil => simp [strcmp]
    | cons y ys =>
      rw [strcmp, List.map_cons, List.map_cons, List.cons_lt_cons_iff]
      by_cases h1 : x < y
      · simp only [h1, if_true, true_iff]
        exact .inl h1
      · by_cases h2 : y < x
        · simp only [h1, h2, if_true, if_false]
          rw [BitVec.lt_def] at h1 h2
          constructor
          · nofun
          · rintro (h | ⟨h, -⟩) <;> omega
        · simp only [h1, h2, if_false, ih]
          rw [BitVec.lt_def] at h1 h2
          constructor
          · intro h
            exact .inr ⟨by omega, h⟩
          · rintro (h | ⟨-, h⟩)
            · omega
            · exact h

theorem strcmp_gt {a b : List Byte} (h : strcmp a b = .gt) : strcmp b a = .lt := by
  induction a generalizing b with
  | nil => cases b <;> simp [strcmp] at h
  | cons x xs ih =>
    cases b with
    | nil => simp [strcmp]
    | cons y ys =>
      rw [strcmp] at h ⊢
      by_cases h1 : x < y
      · simp [h1] at h
      · by_cases h2 : y < x
        · simp [h2]
        · simp only [h1, h2, if_false] at h ⊢
          exact ih h

theorem map_toNat_inj {a b : List Byte} (h : a.map BitVec.toNat = b.map BitVec.toNat) : a = b := by
  induction a generalizing b with
  | nil => cases b <;> simp at h ⊢
  | cons x xs ih =>
    cases b with
    | nil => simp at h
    | cons y ys =>
      simp only [List.map_cons, List.cons.injEq] at h
      rw [BitVec.eq_of_toNat_eq h.1, ih h.2]

theorem before_trans {a b c : Sym} (h1 : SymBefore a b) (h2 : SymBefore b c) : SymBefore a c := by
  rcases h1 with h1 | ⟨h1, h1'⟩
  · rcases h2 with h2 | ⟨h2, -⟩
    · exact .inl (List.lt_trans h1 h2)
    · rw [h2] at h1
      exact .inl h1
  · rcases h2 with h2 | ⟨h2, h2'⟩
    · rw [← h1] at h2
      exact .inl h2
    · exact .inr ⟨h1.trans h2, by omega⟩

theorem before_irrefl {a b : Sym} (h : SymBefore a b) (hs : SameThing a b) : False := by
  rcases h with h | ⟨-, h⟩
  · rw [hs.1] at h
    exact List.lt_irrefl _ h
  · rw [hs.2] at h
    omega

/-! ### Finding the place of a symbol -/

theorem locate_spec (heap : List Sym) (s : Sym) (order : List Nat)
    (hs : order.Pairwise fun a b => SymBefore (heap.getD a default) (heap.getD b default)) :
    (locate heap s order).1 ++ (locate heap s order).2.1 = order ∧
    (∀ id ∈ (locate heap s order).1, SymBefore (heap.getD id default) s) ∧
    ((locate heap s order).2.2 = true → ∃ id tl, (locate heap s order).2.1 = id :: tl ∧
      SameThing (heap.getD id default) s) ∧
    ((locate heap s order).2.2 = false → ∀ id ∈ (locate heap s order).2.1,
      SymBefore s (heap.getD id default)) := by
  induction order with
  | nil => simp [locate]
  | cons id ids ih =>
    rw [List.pairwise_cons] at hs
    obtain ⟨hs1, hs2⟩ := hs
    obtain ⟨i1, i2, i3, i4⟩ := ih hs2
    have stop (hb : SymBefore s (heap.getD id default)) :
        ∀ j ∈ id :: ids, SymBefore s (heap.getD j default) := by
      intro j hj
      rcases List.mem_cons.1 hj with rfl | hj
      · exact hb
      · exact before_trans hb (hs1 j hj)
    have go (hb : SymBefore (heap.getD id default) s)
        (he : locate heap s (id :: ids) =
          (id :: (locate heap s ids).1, (locate heap s ids).2.1, (locate heap s ids).2.2)) :
        (locate heap s (id :: ids)).1 ++ (locate heap s (id :: ids)).2.1 = id :: ids ∧
        (∀ j ∈ (locate heap s (id :: ids)).1, SymBefore (heap.getD j default) s) ∧
        ((locate heap s (id :: ids)).2.2 = true →
          ∃ j tl, (locate heap s (id :: ids)).2.1 = j :: tl ∧ SameThing (heap.getD j default) s) ∧
        ((locate heap s (id :: ids)).2.2 = false → ∀ j ∈ (locate heap s (id :: ids)).2.1,
          SymBefore s (heap.getD j default)) := by
      rw [he]
      refine ⟨by simp [i1], ?_, i3, i4⟩
      intro j hj
      rcases List.mem_cons.1 hj with rfl | hj
      · exact hb
      · exact i2 j hj
    cases hc : strcmp (heap.getD id default).name s.name with
    | gt =>
      have he : locate heap s (id :: ids) = ([], id :: ids, false) := by rw [locate, hc]
      rw [he]
      exact ⟨rfl, by simp, by simp, fun _ => stop (.inl (strcmp_lt.1 (strcmp_gt hc)))⟩
    | lt =>
      refine go (.inl (strcmp_lt.1 hc)) ?_
      rw [locate, hc]
    | eq =>
      have hn := strcmp_eq.1 hc
      by_cases h1 : (heap.getD id default).stype > s.stype
      · have he : locate heap s (id :: ids) = ([], id :: ids, false) := by
          rw [locate, hc]; simp only [h1, if_true]
        rw [he]
        exact ⟨rfl, by simp, by simp, fun _ => stop (.inr ⟨hn.symm, h1⟩)⟩
      · by_cases h2 : (heap.getD id default).stype = s.stype
        · have he : locate heap s (id :: ids) = ([], id :: ids, true) := by
            rw [locate, hc]; simp only [h1, h2, if_true, if_false]
            simp [BitVec.lt_irrefl]
          rw [he]
          exact ⟨rfl, by simp, fun _ => ⟨id, ids, rfl, hn, h2⟩, by simp⟩
        · refine go (.inr ⟨hn, ?_⟩) ?_
          · rw [gt_iff_lt, BitVec.lt_def] at h1
            have : (heap.getD id default).stype.toNat ≠ s.stype.toNat :=
              fun h => h2 (BitVec.eq_of_toNat_eq h)
            omega
          · rw [locate, hc]; simp only [h1, h2, if_false]

end Pas.Link
