import Verif.Spec.LabelTab

/-! C89: the label tables. -/
namespace Pas.LabelTab

/-- The table holds the entries `es`. -/
private def Holds (t : Table) (es : List Entry) : Prop :=
  (t = .start ∧ es = []) ∨
  ∃ c, t.ptr = .cells c ∧ t.n = es.length ∧ t.alloc = 8 * c.length ∧ es.length ≤ c.length ∧
    (c.length ≤ 1024 ∨ c.length ≤ es.length + 255) ∧
    1024 ≤ c.length ∧ ∀ i (h : i < es.length), c[i]? = some (some es[i])

private theorem add_ok {t : Table} {es : List Entry} (h : Holds t es) (l v : BitVec 32)
    (hn : es.length < 2 ^ 29 - 256) : ∃ t', addEntry t l v = .ok t' ∧ Holds t' (es ++ [(l, v)]) := by
  have key : ∀ (c : List (Option Entry)) (m : Nat), es.length < c.length → m = es.length →
      (c.length ≤ 1024 ∨ c.length ≤ es.length + 256) → 1024 ≤ c.length →
      (∀ i (h : i < es.length), c[i]? = some (some es[i])) →
      Holds ⟨.cells (c.set m (some (l, v))), 8 * c.length, (m + 1) % 2 ^ 32⟩ (es ++ [(l, v)]) := by
    intro c m h1 hm h2 h3 h4
    subst hm
    refine Or.inr ⟨c.set es.length (some (l, v)), rfl, ?_, by simp, ?_, ?_, by simpa using h3, ?_⟩
    · simp; omega
    · simp; omega
    · simp; omega
    · intro i hi
      rw [List.getElem?_set]
      simp only [List.length_append, List.length_cons, List.length_nil] at hi
      by_cases hx : es.length = i
      · subst hx; simp [h1]
      · rw [if_neg hx, h4 i (by omega)]
        rw [List.getElem_append_left (by omega)]
  have main : ∀ c : List (Option Entry), es.length ≤ c.length → (c.length ≤ 1024 ∨ c.length ≤ es.length + 255) →
      1024 ≤ c.length → (∀ i (h : i < es.length), c[i]? = some (some es[i])) →
      ∃ t', addEntry ⟨.cells c, 8 * c.length, es.length⟩ l v = .ok t' ∧ Holds t' (es ++ [(l, v)]) := by
    intro c h4 h5 h6 h7
    have hc : checkAlloc ⟨.cells c, 8 * c.length, es.length⟩ = ⟨.cells c, 8 * c.length, es.length⟩ := rfl
    by_cases hr : (es.length + 1) * 8 > 8 * c.length
    · have hl : c.length = es.length := by omega
      have hm : (8 * c.length + 256 * 8) % 2 ^ 32 = 8 * (c.length + 256) := by omega
      have hz : resize c (8 * (c.length + 256)) = c ++ List.replicate 256 none := by
        unfold resize
        rw [Nat.mul_div_cancel_left _ (by decide), List.take_of_length_le (by omega),
          Nat.add_sub_cancel_left]
      have hk : (c ++ List.replicate 256 (none : Option Entry)).length = c.length + 256 := by
        rw [List.length_append, List.length_replicate]
      have hx : checkRealloc ⟨.cells c, 8 * c.length, es.length⟩ =
          .ok ⟨.cells (c ++ List.replicate 256 none), 8 * (c.length + 256), es.length⟩ := by
        simp only [checkRealloc, if_pos hr, hm, hz]
      have := key (c ++ List.replicate 256 none) es.length (by omega) rfl (by omega) (by omega) (by
        intro i hi
        rw [List.getElem?_append_left (by omega)]
        exact h7 i hi)
      refine ⟨_, ?_, this⟩
      simp only [addEntry, hc, hx, Res.ok_bind, hk]
      rw [if_pos (by omega)]
    · have hx : checkRealloc ⟨.cells c, 8 * c.length, es.length⟩ = .ok ⟨.cells c, 8 * c.length, es.length⟩ := by
        simp only [checkRealloc, if_neg hr]
      have := key c es.length (by omega) rfl (by omega) h6 h7
      refine ⟨_, ?_, this⟩
      simp only [addEntry, hc, hx, Res.ok_bind]
      rw [if_pos (by omega)]
  rcases h with ⟨rfl, rfl⟩ | ⟨c, h1, h2, h3, h4, h5, h6, h7⟩
  · have h1024 : (List.replicate 1024 (none : Option Entry)).length = 1024 := List.length_replicate
    have := main (List.replicate 1024 none) (by simp only [List.length_nil]; omega) (by omega) (by omega)
      (fun i h => absurd h (Nat.not_lt_zero i))
    rw [h1024] at this
    exact this
  · obtain ⟨p, a, n⟩ := t
    simp only at h1 h2 h3
    subst h1; subst h2; subst h3
    exact main c h4 h5 h6 h7

private theorem search_ok (c : List (Option Entry)) (l : BitVec 32) : ∀ (es : List Entry) (i : Nat),
    (∀ j (h : j < es.length), c[i + j]? = some (some es[j])) → search c l i es.length = .ok (firstValue es l) := by
  intro es
  induction es with
  | nil => intro i _; rfl
  | cons e es ih =>
    intro i h
    have h0 := h 0 (by simp)
    simp only [Nat.add_zero, List.getElem_cons_zero] at h0
    simp only [List.length_cons, search, h0]
    by_cases he : e.1 = l
    · simp [firstValue, he]
    · rw [if_neg he, ih (i + 1) (by
        intro j hj
        have := h (j + 1) (by simp; omega)
        rw [show i + 1 + j = i + (j + 1) by omega, this]
        simp)]
      simp [firstValue, he]

private theorem get_ok {t : Table} {es : List Entry} (h : Holds t es) (l : BitVec 32) :
    getValue t l = .ok (firstValue es l) := by
  rcases h with ⟨rfl, rfl⟩ | ⟨c, h1, h2, _, _, _, _, h7⟩
  · rfl
  · simp only [getValue, h1, h2]
    exact search_ok c l es 0 (by simpa using h7)

private theorem release_ok {t : Table} {es : List Entry} (h : Holds t es) : ∃ t', release t = .ok t' := by
  rcases h with ⟨rfl, rfl⟩ | ⟨c, h1, _⟩
  · exact ⟨_, rfl⟩
  · exact ⟨_, by simp only [release, h1]; rfl⟩

private theorem run_ok : ∀ (cs before : List Call) (s : Tables), Call.release ∉ cs →
    (defs (before ++ cs)).length ≤ 2 ^ 29 - 256 → (undefs (before ++ cs)).length ≤ 2 ^ 29 - 256 →
    Holds s.defined (defs before) → Holds s.undefined (undefs before) →
    ∃ s', run s cs = .ok (s', answers before cs) ∧ Holds s'.defined (defs (before ++ cs)) ∧
      Holds s'.undefined (undefs (before ++ cs)) := by
  intro cs
  induction cs with
  | nil => intro b s _ _ _ h1 h2; exact ⟨s, rfl, by simpa using h1, by simpa using h2⟩
  | cons c cs ih =>
    intro b s hr n1 n2 h1 h2
    have hb : b ++ c :: cs = (b ++ [c]) ++ cs := by simp
    have step : ∀ s1 a, exec s c = .ok (s1, a) → a ++ answers (b ++ [c]) cs = answers b (c :: cs) →
        Holds s1.defined (defs (b ++ [c])) → Holds s1.undefined (undefs (b ++ [c])) →
        ∃ s', run s (c :: cs) = .ok (s', answers b (c :: cs)) ∧ Holds s'.defined (defs (b ++ c :: cs)) ∧
          Holds s'.undefined (undefs (b ++ c :: cs)) := by
      intro s1 a he ha g1 g2
      obtain ⟨s', r1, r2, r3⟩ := ih (b ++ [c]) s1 (fun h => hr (by simp [h])) (hb ▸ n1) (hb ▸ n2) g1 g2
      exact ⟨s', by simp only [run, he, Res.ok_bind, r1, ha], hb ▸ r2, hb ▸ r3⟩
    cases c with
    | addDefined l v =>
      obtain ⟨t, e, g⟩ := add_ok h1 l v (by simp [defs] at n1 ⊢; omega)
      exact step ⟨t, s.undefined⟩ [] (by simp only [exec, e, Res.ok_bind]) rfl (by simpa [defs] using g)
        (by simpa [undefs] using h2)
    | addUndefined l v =>
      obtain ⟨t, e, g⟩ := add_ok h2 l v (by simp [undefs] at n2 ⊢; omega)
      exact step ⟨s.defined, t⟩ [] (by simp only [exec, e, Res.ok_bind]) rfl (by simpa [defs] using h1)
        (by simpa [undefs] using g)
    | pcOf l =>
      exact step s [firstValue (defs b) l] (by simp only [exec, get_ok h1, Res.ok_bind]) rfl (by simpa [defs] using h1)
        (by simpa [undefs] using h2)
    | symOf l =>
      exact step s [firstValue (undefs b) l] (by simp only [exec, get_ok h2, Res.ok_bind]) rfl (by simpa [defs] using h1)
        (by simpa [undefs] using h2)
    | release => exact absurd (by simp) hr

/-- C89: after any additions and questions in any order, with up to 2^29 - 256 entries in each table, nothing is
undefined and every question gets the value given first with that label in that table, or -1; and the tables can be
released. -/
theorem C89_labels (cs : List Call) (hr : Call.release ∉ cs) (h1 : (defs cs).length ≤ 2 ^ 29 - 256)
    (h2 : (undefs cs).length ≤ 2 ^ 29 - 256) :
    (∃ s, run .start cs = .ok (s, answers [] cs)) ∧ ∃ s, run .start (cs ++ [.release]) = .ok (s, answers [] cs) := by
  obtain ⟨s, r1, r2, r3⟩ := run_ok cs [] .start hr h1 h2 (Or.inl ⟨rfl, rfl⟩) (Or.inl ⟨rfl, rfl⟩)
  refine ⟨⟨s, r1⟩, ?_⟩
  obtain ⟨d, hd⟩ := release_ok r2
  obtain ⟨u, hu⟩ := release_ok r3
  have happ : ∀ (l : List Call) (s0 : Tables) s1 a, run s0 l = .ok (s1, a) →
      run s0 (l ++ [.release]) = (do let (s2, b) ← exec s1 .release; .ok (s2, a ++ b)) := by
    intro l
    induction l with
    | nil =>
      intro s0 s1 a h
      simp only [run, Res.ok.injEq, Prod.mk.injEq] at h
      obtain ⟨rfl, rfl⟩ := h
      simp only [List.nil_append, run, Res.ok_bind, List.append_nil]
    | cons c l ih =>
      intro s0 s1 a h
      simp only [List.cons_append, run] at h ⊢
      cases he : exec s0 c with
      | ub => rw [he] at h; cases h
      | hang => rw [he] at h; cases h
      | ok x =>
        rw [he] at h
        simp only [Res.ok_bind] at h ⊢
        cases hx : run x.1 l with
        | ub => rw [hx] at h; cases h
        | hang => rw [hx] at h; cases h
        | ok y =>
          rw [hx] at h
          simp only [Res.ok_bind, Res.ok.injEq, Prod.mk.injEq] at h
          rw [ih x.1 y.1 y.2 hx, ← h.1, ← h.2]
          cases exec y.1 .release <;> simp
  refine ⟨⟨d, u⟩, ?_⟩
  rw [happ cs .start s _ r1]
  simp only [exec, hd, hu, Res.ok_bind, List.append_nil]

/-- C89: these are the answers the finalization of the optimizer works with (`findLabel` in C34), as long as they
are below 2^31. -/
theorem C89_finalize (es : List Entry) (l : BitVec 32) (h : ∀ e ∈ es, e.2.toNat < 2 ^ 31) :
    firstValue es l = match findLabel (es.map fun e => (e.1.toNat, e.2.toNat)) l.toNat with
      | some v => (v : Int)
      | none => -1 := by
  induction es with
  | nil => rfl
  | cons e es ih =>
    have ih := ih (fun x hx => h x (by simp [hx]))
    by_cases he : e.1 = l
    · have := h e (by simp)
      simp [firstValue, findLabel, he, BitVec.toInt_eq_toNat_of_lt (show 2 * e.2.toNat < 2 ^ 32 by omega)]
    · have hn : ¬ e.1.toNat = l.toNat := fun hx => he (BitVec.eq_of_toNat_eq hx)
      simp only [List.map_cons, findLabel, if_neg hn]
      rw [← ih]
      simp [firstValue, he]

/-- C89, the list of relocations of the linker: any number of relocations up to 2^29 - 256 is kept, each at its place;
reading one of them is always defined, there are as many as have been added, and the list can be released. -/
theorem C89_relocations (rs : List Entry) (h : rs.length ≤ 2 ^ 29 - 256) :
    ∃ t, addRelocs .start rs = .ok t ∧ t.n = rs.length ∧ (∀ i (hi : i < rs.length), relocAt t i = .ok rs[i]) ∧
      ∃ t', releaseRelocs t = .ok t' := by
  have key : ∀ (rs es : List Entry) (t : Table), Holds t es → (es ++ rs).length ≤ 2 ^ 29 - 256 →
      ∃ t', addRelocs t rs = .ok t' ∧ Holds t' (es ++ rs) := by
    intro rs
    induction rs with
    | nil => intro es t h _; exact ⟨t, rfl, by simpa using h⟩
    | cons r rs ih =>
      intro es t h hn
      obtain ⟨u, h1, h2⟩ := add_ok h r.1 r.2 (by simp at hn; omega)
      obtain ⟨t', h3, h4⟩ := ih (es ++ [r]) u h2 (by simpa using hn)
      exact ⟨t', by simp only [addRelocs, addReloc, h1, Res.ok_bind, h3], by simpa using h4⟩
  obtain ⟨t, h1, h2⟩ := key rs [] .start (Or.inl ⟨rfl, rfl⟩) (by simpa using h)
  rw [List.nil_append] at h2
  refine ⟨t, h1, ?_⟩
  rcases h2 with ⟨rfl, rfl⟩ | ⟨c, g1, g2, _, _, _, _, g7⟩
  · exact ⟨rfl, fun i hi => absurd hi (Nat.not_lt_zero i), _, rfl⟩
  · exact ⟨g2, fun i hi => by simp only [relocAt, g1, g7 i hi], _, by simp only [releaseRelocs, g1]; rfl⟩

example : [((0x103, 4) : Entry), (0x203, 8)].length ≤ 2 ^ 29 - 256 := by decide

/-- Beyond the first allocation and more: 1500 labels and a question for the last one. -/
example : (defs ((List.range 1500).map fun i => .addDefined (.ofNat 32 i) (.ofNat 32 i))).length ≤ 2 ^ 29 - 256 ∧
    answers [] [.addDefined 7 100, .addUndefined 7 3, .addDefined 7 200, .pcOf 7, .symOf 7, .pcOf 8] = [100, 3, -1] := by
  constructor
  · refine Nat.le_trans (List.length_filterMap_le _ _) ?_
    simp
  · decide

/-- Violation of C89: the tables are not empty after they have been released, and the next label is written to memory
that has been freed. -/
theorem C89_violation_release (cs : List Call) (l v : BitVec 32) :
    run .start ([.addDefined l v, .release, .addDefined l v] ++ cs) = .ub := by
  obtain ⟨t, h1, h2⟩ := add_ok (Or.inl ⟨rfl, rfl⟩) l v (by decide)
  rcases h2 with ⟨_, h⟩ | ⟨c, hp, _⟩
  · cases h
  · have hf : addEntry { t with ptr := .freed } l v = .ub := by
      have hc : checkAlloc { t with ptr := .freed } = { t with ptr := .freed } := rfl
      simp only [addEntry, hc, checkRealloc]
      split <;> rfl
    have hd : release t = .ok { t with ptr := .freed } := by simp only [release, hp]
    have hu : release Table.start = .ok Table.start := rfl
    simp only [List.cons_append, run, exec, Tables.start, h1, hd, hu, hf, Res.ok_bind, Res.ub_bind]

end Pas.LabelTab
