import Verif.Spec.PoffOwn

/-! C87: every block of the object file library is released exactly once. -/
namespace Pas.PoffOwn
open Pas.Poff Pas.Spec

private structure Core (m : Mem) : Prop where
  alive : ∀ s b, m.ptr s = some b → m.live b = true
  once : ∀ s s' b, m.ptr s = some b → m.ptr s' = some b → s = s'
  held : ∀ b, m.live b = true → ∃ s, m.ptr s = some b
  bound : ∀ b, m.live b = true → b < m.next

private theorem core_malloc {m : Mem} (c : Core m) {s : Slot} (h : m.ptr s = none) : Core (m.malloc s) := by
  have hn : ∀ x, m.ptr x ≠ some m.next := fun x hx => by
    have := c.bound _ (c.alive _ _ hx); omega
  refine ⟨?_, ?_, ?_, ?_⟩
  · intro x b hx
    simp only [Mem.malloc] at hx ⊢
    split at hx
    · injection hx with hx; simp [hx]
    · simp [c.alive _ _ hx]
  · intro x y b hx hy
    simp only [Mem.malloc] at hx hy
    split at hx <;> split at hy
    · simp_all
    · injection hx with hx; subst hx; exact absurd hy (hn y)
    · injection hy with hy; subst hy; exact absurd hx (hn x)
    · exact c.once _ _ _ hx hy
  · intro b hb
    simp only [Mem.malloc, Bool.or_eq_true, decide_eq_true_eq] at hb ⊢
    rcases hb with rfl | hb
    · exact ⟨s, by simp⟩
    · obtain ⟨x, hx⟩ := c.held b hb
      refine ⟨x, ?_⟩
      rw [if_neg, hx]
      rintro rfl
      rw [h] at hx; cases hx
  · intro b hb
    simp only [Mem.malloc, Bool.or_eq_true, decide_eq_true_eq] at hb ⊢
    rcases hb with rfl | hb
    · omega
    · have := c.bound b hb; omega

private theorem core_free {m : Mem} (c : Core m) (s : Slot) : ∃ m', m.free s = .ok m' ∧ m'.ptr = m.ptr ∧
    m'.next = m.next ∧ Core (m'.set s none) := by
  cases hp : m.ptr s with
  | none =>
    refine ⟨m, by simp [Mem.free, hp], rfl, rfl, ?_⟩
    have : m.set s none = m := by
      cases m; simp only [Mem.set, Mem.mk.injEq, and_true]
      funext x; split
      · next h => rw [h]; exact hp.symm
      · rfl
    rw [this]; exact c
  | some b =>
    refine ⟨{ m with live := fun x => m.live x && x ≠ b }, by simp [Mem.free, hp, c.alive _ _ hp], rfl, rfl, ?_⟩
    refine ⟨?_, ?_, ?_, ?_⟩
    · intro x a hx
      simp only [Mem.set] at hx ⊢
      split at hx
      · cases hx
      · next h =>
        simp only [c.alive _ _ hx, Bool.true_and, ne_eq, decide_not, Bool.not_eq_true', decide_eq_false_iff_not]
        rintro rfl
        exact h (c.once _ _ _ hx hp)
    · intro x y a hx hy
      simp only [Mem.set] at hx hy
      split at hx
      · cases hx
      split at hy
      · cases hy
      exact c.once _ _ _ hx hy
    · intro a ha
      simp only [Mem.set, ne_eq, decide_not, Bool.and_eq_true, Bool.not_eq_true', decide_eq_false_iff_not] at ha ⊢
      obtain ⟨x, hx⟩ := c.held a ha.1
      refine ⟨x, ?_⟩
      rw [if_neg, hx]
      rintro rfl
      rw [hp] at hx
      injection hx with hx
      exact ha.2 hx.symm
    · intro a ha
      simp only [Mem.set, Bool.and_eq_true] at ha ⊢
      exact c.bound a ha.1

private theorem core_move {m : Mem} (c : Core m) {s d : Slot} (h : m.ptr d = none) :
    Core ((m.set d (m.ptr s)).set s none) := by
  refine ⟨?_, ?_, ?_, c.bound⟩
  · intro x a hx
    simp only [Mem.set] at hx ⊢
    split at hx
    · cases hx
    split at hx
    · exact c.alive _ _ hx
    · exact c.alive _ _ hx
  · intro x y a hx hy
    simp only [Mem.set] at hx hy
    split at hx
    · cases hx
    split at hy
    · cases hy
    split at hx <;> split at hy
    · simp_all
    · rename_i g1 g2 _ _
      exact absurd (c.once _ _ _ hy hx) g2
    · rename_i g1 g2 _ _
      exact absurd (c.once _ _ _ hx hy) g1
    · exact c.once _ _ _ hx hy
  · intro a ha
    obtain ⟨x, hx⟩ := c.held a ha
    by_cases hs : x = s
    · subst hs
      by_cases hd : d = x
      · subst hd; rw [h] at hx; cases hx
      · exact ⟨d, by simp [Mem.set, hd, hx]⟩
    · refine ⟨x, ?_⟩
      have : x ≠ d := by rintro rfl; rw [h] at hx; cases hx
      simp [Mem.set, hs, this, hx]

private theorem core_use {m : Mem} (c : Core m) {s : Slot} (h : m.ptr s ≠ none) : m.use s = .ok () := by
  unfold Mem.use
  split
  · contradiction
  · next b hb => rw [if_pos (c.alive _ _ hb)]

private theorem malloc_set (m : Mem) (s : Slot) (v : Option Nat) : (m.set s v).malloc s = m.malloc s := by
  simp only [Mem.malloc, Mem.set, Mem.mk.injEq, and_true]
  refine ⟨?_, rfl⟩
  funext x
  split <;> rfl

private theorem core_realloc {m : Mem} (c : Core m) (s : Slot) (moves : Bool) : ∃ m', m.realloc s moves = .ok m' ∧
    Core m' ∧ m'.ptr s ≠ none ∧ ∀ x, x ≠ s → m'.ptr x = m.ptr x := by
  cases hp : m.ptr s with
  | none =>
    exact ⟨m.malloc s, by simp [Mem.realloc, hp], core_malloc c hp, by simp [Mem.malloc],
      fun x hx => by simp [Mem.malloc, hx]⟩
  | some b =>
    cases moves with
    | false =>
      exact ⟨m, by simp [Mem.realloc, hp, core_use c (s := s) (by simp [hp])], c, by simp [hp], fun _ _ => rfl⟩
    | true =>
      obtain ⟨m', h1, h2, h3, h4⟩ := core_free c s
      refine ⟨m'.malloc s, by simp [Mem.realloc, hp, core_use c (s := s) (by simp [hp]), h1], ?_,
        by simp [Mem.malloc], fun x hx => by simp [Mem.malloc, hx, h2]⟩
      rw [← malloc_set m' s none]
      exact core_malloc h4 (by simp [Mem.set])

private theorem core_grow {m : Mem} (c : Core m) (s : Slot) (moves : Option Bool) : ∃ m', m.grow s moves = .ok m' ∧
    Core m' ∧ m'.ptr s ≠ none ∧ ∀ x, x ≠ s → m'.ptr x = m.ptr x := by
  have h : ∃ m1, m.first s = m1 ∧ Core m1 ∧ m1.ptr s ≠ none ∧ ∀ x, x ≠ s → m1.ptr x = m.ptr x := by
    unfold Mem.first
    cases hp : m.ptr s with
    | none => exact ⟨_, rfl, core_malloc c hp, by simp [Mem.malloc], fun x hx => by simp [Mem.malloc, hx]⟩
    | some b => exact ⟨_, rfl, c, by simp [hp], fun _ _ => rfl⟩
  obtain ⟨m1, e, c1, n1, u1⟩ := h
  unfold Mem.grow
  simp only [e]
  cases moves with
  | none => exact ⟨m1, rfl, c1, n1, u1⟩
  | some b =>
    obtain ⟨m2, h2, c2, n2, u2⟩ := core_realloc c1 s b
    exact ⟨m2, h2, c2, n2, fun x hx => by rw [u2 x hx, u1 x hx]⟩

private theorem core_freeAll : ∀ (l done : List Slot) (m : Mem), Core (m.forget done) → l.Nodup →
    (∀ s ∈ l, s ∉ done) → ∃ m', m.freeAll l = .ok m' ∧ m'.ptr = m.ptr ∧ Core (m'.forget (done ++ l)) := by
  intro l
  induction l with
  | nil => intro done m c _ _; exact ⟨m, rfl, rfl, by simpa using c⟩
  | cons s l ih =>
    intro done m c hn hd
    obtain ⟨m1, h1, h2, _, h4⟩ := core_free c s
    have hs : (m.forget done).ptr s = m.ptr s := by simp [Mem.forget, hd s (by simp)]
    obtain ⟨m2, e1, e2, e3⟩ : ∃ m2, m.free s = .ok m2 ∧ m2.ptr = m.ptr ∧ m2.forget done = m1 := by
      unfold Mem.free at h1 ⊢
      rw [hs] at h1
      split at h1
      · next hp => injection h1 with h1; exact ⟨m, rfl, rfl, h1⟩
      · next b hp =>
        split at h1
        · next hl =>
          injection h1 with h1
          refine ⟨{ m with live := fun x => m.live x && x ≠ b }, ?_, rfl, ?_⟩
          · have : m.live b = true := hl
            simp [this]
          · rw [← h1]; rfl
        · cases h1
    have hf : m1.set s none = m2.forget (done ++ [s]) := by
      rw [← e3]
      simp only [Mem.set, Mem.forget, Mem.mk.injEq, and_true]
      funext x
      by_cases hx : x = s <;> simp [hx]
    rw [hf] at h4
    obtain ⟨m3, g1, g2, g3⟩ := ih (done ++ [s]) m2 h4 (List.nodup_cons.1 hn).2 (by
      intro x hx
      simp only [List.mem_append, List.mem_singleton, not_or]
      exact ⟨hd x (by simp [hx]), by rintro rfl; exact (List.nodup_cons.1 hn).1 hx⟩)
    exact ⟨m3, by simp only [Mem.freeAll, e1, Res.ok_bind, g1], by rw [g2, e2], by simpa using g3⟩

private theorem core_readAll (h : Nat) : ∀ (l : List Sec) (m : Mem), Core m → l.Nodup →
    (∀ k ∈ l, m.ptr (.sec h k) = none) → Core (m.readAll h l) ∧
      (∀ x, (∀ k, x ≠ .sec h k) → (m.readAll h l).ptr x = m.ptr x) := by
  intro l
  induction l with
  | nil => intro m c _ _; exact ⟨c, fun _ _ => rfl⟩
  | cons k l ih =>
    intro m c hn hd
    obtain ⟨i1, i2⟩ := ih (m.malloc (.sec h k)) (core_malloc c (hd k (by simp))) (List.nodup_cons.1 hn).2 (by
      intro k' hk'
      have : k' ≠ k := by rintro rfl; exact (List.nodup_cons.1 hn).1 hk'
      simp [Mem.malloc, this, hd k' (by simp [hk'])])
    refine ⟨i1, fun x hx => ?_⟩
    rw [Mem.readAll, i2 x hx]
    simp [Mem.malloc, hx k]

private structure Inv (K : Known) (m : Mem) : Prop where
  core : Core m
  has : ∀ s, m.ptr s ≠ none → K.Has s
  file : ∀ h ∈ K.files, m.ptr (.file h) ≠ none
  tmp : ∀ k t, (k, t) ∈ K.tmps → m.ptr (.tmp k t) ≠ none
  empty : ∀ h ∈ K.empty, ∀ k, m.ptr (.sec h k) = none

/-- A call keeps the invariant if it changes pointers of the variables `l` only. -/
private theorem inv_of {K K' : Known} {m m' : Mem} (i : Inv K m) (c : Core m') (l : List Slot)
    (hl : ∀ x, x ∉ l → m'.ptr x = m.ptr x)
    (h1 : ∀ x, x ∉ l → K.Has x → K'.Has x) (h2 : ∀ x ∈ l, m'.ptr x ≠ none → K'.Has x)
    (h3 : ∀ h ∈ K'.files, (.file h ∉ l ∧ h ∈ K.files) ∨ m'.ptr (.file h) ≠ none)
    (h4 : ∀ k t, (k, t) ∈ K'.tmps → (.tmp k t ∉ l ∧ (k, t) ∈ K.tmps) ∨ m'.ptr (.tmp k t) ≠ none)
    (h5 : ∀ h ∈ K'.empty, ∀ k, (.sec h k ∉ l ∧ h ∈ K.empty) ∨ m'.ptr (.sec h k) = none) : Inv K' m' := by
  refine ⟨c, ?_, ?_, ?_, ?_⟩
  · intro s hs
    by_cases hx : s ∈ l
    · exact h2 s hx hs
    · rw [hl s hx] at hs; exact h1 s hx (i.has s hs)
  · intro h hh
    rcases h3 h hh with ⟨a, b⟩ | a
    · rw [hl _ a]; exact i.file h b
    · exact a
  · intro k t hh
    rcases h4 k t hh with ⟨a, b⟩ | a
    · rw [hl _ a]; exact i.tmp k t b
    · exact a
  · intro h hh k
    rcases h5 h hh k with ⟨a, b⟩ | a
    · rw [hl _ a]; exact i.empty h b k
    · exact a

private theorem exec_ok {K K' : Known} {m : Mem} (i : Inv K m) {o : Call} (h : K.after o = some K') :
    ∃ m', exec m o = .ok m' ∧ Inv K' m' := by
  cases o with
  | create h' =>
    simp only [Known.after] at h
    split at h
    · cases h
    rename_i hf
    injection h with h; subst h
    have hp : m.ptr (.file h') = none := by
      cases e : m.ptr (.file h') with
      | none => rfl
      | some b => exact absurd (i.has (.file h') (by simp [e])) hf
    have hs : ∀ k, m.ptr (.sec h' k) = none := fun k => by
      cases e : m.ptr (.sec h' k) with
      | none => rfl
      | some b => exact absurd (i.has (.sec h' k) (by simp [e])) hf
    refine ⟨_, rfl, inv_of i (core_malloc i.core hp) [.file h'] ?_ ?_ ?_ ?_ ?_ ?_⟩
    · intro x hx; simp only [List.mem_singleton] at hx; simp [Mem.malloc, hx]
    · intro x _ hx
      cases x <;> simp_all [Known.Has]
    · intro x hx _; simp only [List.mem_singleton] at hx; subst hx; simp [Known.Has]
    · intro y hy
      simp only [List.mem_cons] at hy
      rcases hy with rfl | hy
      · exact .inr (by simp [Mem.malloc])
      · exact .inl ⟨by simp; rintro rfl; exact hf hy, hy⟩
    · intro k t hy; exact .inl ⟨by simp, hy⟩
    · intro y hy k
      simp only [List.mem_cons] at hy
      rcases hy with rfl | hy
      · exact .inr (by simp [Mem.malloc, hs])
      · exact .inl ⟨by simp, hy⟩
  | add h' k moves =>
    simp only [Known.after] at h
    split at h
    · rename_i hf
      injection h with h; subst h
      obtain ⟨m', g1, g2, g3, g4⟩ := core_grow i.core (.sec h' k) moves
      refine ⟨m', by simp only [exec, core_use i.core (i.file _ hf), Res.ok_bind, g1],
        inv_of i g2 [.sec h' k] (fun x hx => g4 x (by simpa using hx)) ?_ ?_ ?_ ?_ ?_⟩
      · intro x _ hx; cases x <;> exact hx
      · intro x hx _; simp only [List.mem_singleton] at hx; subst hx; exact hf
      · intro y hy; exact .inl ⟨by simp, hy⟩
      · intro k t hy; exact .inl ⟨by simp, hy⟩
      · intro y hy k'
        simp only [List.mem_filter, ne_eq, decide_not, Bool.not_eq_true', decide_eq_false_iff_not] at hy
        exact .inl ⟨by simp [hy.2], hy.1⟩
    · cases h
  | read h' l =>
    simp only [Known.after] at h
    split at h
    · rename_i hf
      injection h with h; subst h
      obtain ⟨hf, he, hn⟩ := hf
      obtain ⟨g1, g2⟩ := core_readAll h' l m i.core hn (fun k _ => i.empty h' he k)
      refine ⟨m.readAll h' l, by simp only [exec, core_use i.core (i.file _ hf), Res.ok_bind],
        inv_of i g1 (sections.map (.sec h')) (fun x hx => g2 x ?_) ?_ ?_ ?_ ?_ ?_⟩
      · rintro k rfl
        refine hx (List.mem_map.2 ⟨k, ?_, rfl⟩)
        cases k <;> simp [sections]
      · intro x _ hx; cases x <;> exact hx
      · intro x hx _; obtain ⟨k, _, rfl⟩ := List.mem_map.1 hx; exact hf
      · intro y hy; exact .inl ⟨by simp, hy⟩
      · intro k t hy; exact .inl ⟨by simp, hy⟩
      · intro y hy k'
        simp only [List.mem_filter, ne_eq, decide_not, Bool.not_eq_true', decide_eq_false_iff_not] at hy
        exact .inl ⟨by simp [Ne.symm hy.2], hy.1⟩
    · cases h
  | appendRo h' moves =>
    simp only [Known.after] at h
    split at h
    · rename_i hf
      injection h with h; subst h
      obtain ⟨m', g1, g2, g3, g4⟩ := core_realloc i.core (.sec h' .rodata) moves
      refine ⟨m', by simp only [exec, core_use i.core (i.file _ hf), Res.ok_bind, g1],
        inv_of i g2 [.sec h' .rodata] (fun x hx => g4 x (by simpa using hx)) ?_ ?_ ?_ ?_ ?_⟩
      · intro x _ hx; cases x <;> exact hx
      · intro x hx _; simp only [List.mem_singleton] at hx; subst hx; exact hf
      · intro y hy; exact .inl ⟨by simp, hy⟩
      · intro k t hy; exact .inl ⟨by simp, hy⟩
      · intro y hy k'
        simp only [List.mem_filter, ne_eq, decide_not, Bool.not_eq_true', decide_eq_false_iff_not] at hy
        exact .inl ⟨by simp [hy.2], hy.1⟩
    · cases h
  | extractProg h' n =>
    simp only [Known.after] at h
    split at h
    · rename_i hf
      injection h with h; subst h
      obtain ⟨hf, hn⟩ := hf
      have hp : m.ptr (.user n) = none := by
        cases e : m.ptr (.user n) with
        | none => rfl
        | some b => exact absurd (i.has (.user n) (by simp [e])) hn
      refine ⟨_, by simp only [exec, core_use i.core (i.file _ hf), Res.ok_bind],
        inv_of i (core_move (s := .sec h' .text) i.core hp) [.user n, .sec h' .text] ?_ ?_ ?_ ?_ ?_ ?_⟩
      · intro x hx
        simp only [List.mem_cons, List.not_mem_nil, or_false, not_or] at hx
        simp [Mem.set, hx.1, hx.2]
      · intro x _ hx
        cases x <;> simp_all [Known.Has]
      · intro x hx _
        simp only [List.mem_cons, List.not_mem_nil, or_false] at hx
        rcases hx with rfl | rfl
        · simp [Known.Has]
        · exact hf
      · intro y hy; exact .inl ⟨by simp, hy⟩
      · intro k t hy; exact .inl ⟨by simp, hy⟩
      · intro y hy k
        refine .inr ?_
        simp [Mem.set, i.empty y hy k]
    · cases h
  | extractRo h' n =>
    simp only [Known.after] at h
    split at h
    · rename_i hf
      injection h with h; subst h
      obtain ⟨hf, hn⟩ := hf
      have hp : m.ptr (.user n) = none := by
        cases e : m.ptr (.user n) with
        | none => rfl
        | some b => exact absurd (i.has (.user n) (by simp [e])) hn
      refine ⟨_, by simp only [exec, core_use i.core (i.file _ hf), Res.ok_bind],
        inv_of i (core_move (s := .sec h' .rodata) i.core hp) [.user n, .sec h' .rodata] ?_ ?_ ?_ ?_ ?_ ?_⟩
      · intro x hx
        simp only [List.mem_cons, List.not_mem_nil, or_false, not_or] at hx
        simp [Mem.set, hx.1, hx.2]
      · intro x _ hx
        cases x <;> simp_all [Known.Has]
      · intro x hx _
        simp only [List.mem_cons, List.not_mem_nil, or_false] at hx
        rcases hx with rfl | rfl
        · simp [Known.Has]
        · exact hf
      · intro y hy; exact .inl ⟨by simp, hy⟩
      · intro k t hy; exact .inl ⟨by simp, hy⟩
      · intro y hy k
        refine .inr ?_
        simp [Mem.set, i.empty y hy k]
    · cases h
  | insertProg h' n =>
    simp only [Known.after] at h
    split at h
    · rename_i hf
      injection h with h; subst h
      obtain ⟨hf, hn⟩ := hf
      obtain ⟨m1, g1, g2, _, g4⟩ := core_free i.core (.sec h' .text)
      have hm := core_move (s := .user n) (d := .sec h' .text) g4 (by simp [Mem.set])
      have e : ((m1.set (.sec h' .text) none).set (.sec h' .text) ((m1.set (.sec h' .text) none).ptr (.user n))).set
          (.user n) none = (m1.set (.sec h' .text) (m1.ptr (.user n))).set (.user n) none := by
        simp only [Mem.set, Mem.mk.injEq, and_true]
        funext x
        by_cases a : x = .user n <;> by_cases b : x = .sec h' .text <;> simp [a, b]
      rw [e] at hm
      refine ⟨_, by simp only [exec, core_use i.core (i.file _ hf), Res.ok_bind, g1],
        inv_of i hm [.user n, .sec h' .text] ?_ ?_ ?_ ?_ ?_ ?_⟩
      · intro x hx
        simp only [List.mem_cons, List.not_mem_nil, or_false, not_or] at hx
        simp [Mem.set, hx.1, hx.2, g2]
      · intro x hx' hx
        cases x <;> simp_all [Known.Has]
      · intro x hx hne
        simp only [List.mem_cons, List.not_mem_nil, or_false] at hx
        rcases hx with rfl | rfl
        · simp [Mem.set] at hne
        · exact hf
      · intro y hy; exact .inl ⟨by simp, hy⟩
      · intro k t hy; exact .inl ⟨by simp, hy⟩
      · intro y hy k
        simp only [List.mem_filter, ne_eq, decide_not, Bool.not_eq_true', decide_eq_false_iff_not] at hy
        exact .inl ⟨by simp [hy.2], hy.1⟩
    · cases h
  | releaseProg h' =>
    simp only [Known.after] at h
    split at h
    · rename_i hf
      injection h with h; subst h
      obtain ⟨m1, g1, g2, _, g4⟩ := core_free i.core (.sec h' .text)
      refine ⟨_, by simp only [exec, core_use i.core (i.file _ hf), Res.ok_bind, g1],
        inv_of i g4 [.sec h' .text] ?_ (fun _ _ hx => hx) ?_ ?_ ?_ ?_⟩
      · intro x hx; simp only [List.mem_singleton] at hx; simp [Mem.set, hx, g2]
      · intro x hx _; simp only [List.mem_singleton] at hx; subst hx; exact hf
      · intro y hy; exact .inl ⟨by simp, hy⟩
      · intro k t hy; exact .inl ⟨by simp, hy⟩
      · intro y hy k; exact .inr (by simp [Mem.set, g2, i.empty y hy k])
    · cases h
  | discardDebug h' =>
    simp only [Known.after] at h
    split at h
    · rename_i hf
      injection h with h; subst h
      obtain ⟨m1, g1, g2, _, g4⟩ := core_free i.core (.sec h' .dbgfunc)
      refine ⟨_, by simp only [exec, core_use i.core (i.file _ hf), Res.ok_bind, g1],
        inv_of i g4 [.sec h' .dbgfunc] ?_ (fun _ _ hx => hx) ?_ ?_ ?_ ?_⟩
      · intro x hx; simp only [List.mem_singleton] at hx; simp [Mem.set, hx, g2]
      · intro x hx _; simp only [List.mem_singleton] at hx; subst hx; exact hf
      · intro y hy; exact .inl ⟨by simp, hy⟩
      · intro k t hy; exact .inl ⟨by simp, hy⟩
      · intro y hy k; exact .inr (by simp [Mem.set, g2, i.empty y hy k])
    · cases h
  | destroy h' =>
    simp only [Known.after] at h
    split at h
    · rename_i hf
      injection h with h; subst h
      obtain ⟨m1, g1, g2, g3⟩ := core_freeAll (fileSlots h') [] m
        (by simpa [Mem.forget] using i.core) (by simp [fileSlots, sections]) (by simp)
      rw [List.nil_append] at g3
      have hin : ∀ x, x ∉ fileSlots h' → x ≠ .file h' ∧ ∀ k, x ≠ .sec h' k := by
        intro x hx
        refine ⟨by rintro rfl; exact hx (by simp [fileSlots]), ?_⟩
        rintro k rfl
        refine hx ?_
        cases k <;> simp [fileSlots, sections]
      refine ⟨_, by simp only [exec, core_use i.core (i.file _ hf), Res.ok_bind, g1],
        inv_of i g3 (fileSlots h') ?_ ?_ ?_ ?_ ?_ ?_⟩
      · intro x hx; simp [Mem.forget, hx, g2]
      · intro x hx' hx
        obtain ⟨a1, a2⟩ := hin x hx'
        cases x with
        | file y =>
          have : y ≠ h' := by rintro rfl; exact a1 rfl
          exact List.mem_filter.2 ⟨hx, by simp [this]⟩
        | sec y k =>
          have : y ≠ h' := by rintro rfl; exact a2 k rfl
          exact List.mem_filter.2 ⟨hx, by simp [this]⟩
        | tmp => exact hx
        | data => exact hx
        | user => exact hx
      · intro x hx hne; simp [Mem.forget, hx] at hne
      · intro y hy
        simp only [List.mem_filter, ne_eq, decide_not, Bool.not_eq_true', decide_eq_false_iff_not] at hy
        exact .inl ⟨by simp [fileSlots, sections, hy.2], hy.1⟩
      · intro k t hy; exact .inl ⟨by simp [fileSlots, sections], hy⟩
      · intro y hy k
        simp only [List.mem_filter, ne_eq, decide_not, Bool.not_eq_true', decide_eq_false_iff_not] at hy
        exact .inl ⟨by simp [fileSlots, sections, hy.2], hy.1⟩
    · cases h
  | createTmp k t =>
    simp only [Known.after] at h
    split at h
    · cases h
    rename_i hf
    injection h with h; subst h
    have hp : m.ptr (.tmp k t) = none := by
      cases e : m.ptr (.tmp k t) with
      | none => rfl
      | some b => exact absurd (i.has (.tmp k t) (by simp [e])) hf
    refine ⟨_, rfl, inv_of i (core_malloc i.core hp) [.tmp k t] ?_ ?_ ?_ ?_ ?_ ?_⟩
    · intro x hx; simp only [List.mem_singleton] at hx; simp [Mem.malloc, hx]
    · intro x _ hx
      cases x <;> simp_all [Known.Has]
    · intro x hx _; simp only [List.mem_singleton] at hx; subst hx; simp [Known.Has]
    · intro y hy; exact .inl ⟨by simp, hy⟩
    · intro k' t' hy
      simp only [List.mem_cons, Prod.mk.injEq] at hy
      rcases hy with ⟨rfl, rfl⟩ | hy
      · exact .inr (by simp [Mem.malloc])
      · exact .inl ⟨by simp; rintro rfl rfl; exact hf hy, hy⟩
    · intro y hy k; exact .inl ⟨by simp, hy⟩
  | addTmp k t moves =>
    simp only [Known.after] at h
    split at h
    · rename_i hf
      injection h with h; subst h
      obtain ⟨m', g1, g2, g3, g4⟩ := core_grow i.core (.data k t) moves
      refine ⟨m', by simp only [exec, core_use i.core (i.tmp _ _ hf), Res.ok_bind, g1],
        inv_of i g2 [.data k t] (fun x hx => g4 x (by simpa using hx)) (fun _ _ hx => hx) ?_ ?_ ?_ ?_⟩
      · intro x hx _; simp only [List.mem_singleton] at hx; subst hx; exact hf
      · intro y hy; exact .inl ⟨by simp, hy⟩
      · intro k t hy; exact .inl ⟨by simp, hy⟩
      · intro y hy k'; exact .inl ⟨by simp, hy⟩
    · cases h
  | resetTmp k t =>
    simp only [Known.after] at h
    split at h
    · rename_i hf
      injection h with h; subst h
      obtain ⟨m1, g1, g2, _, g4⟩ := core_free i.core (.data k t)
      refine ⟨_, by simp only [exec, core_use i.core (i.tmp _ _ hf), Res.ok_bind, g1],
        inv_of i g4 [.data k t] ?_ (fun _ _ hx => hx) ?_ ?_ ?_ ?_⟩
      · intro x hx; simp only [List.mem_singleton] at hx; simp [Mem.set, hx, g2]
      · intro x hx _; simp only [List.mem_singleton] at hx; subst hx; exact hf
      · intro y hy; exact .inl ⟨by simp, hy⟩
      · intro k t hy; exact .inl ⟨by simp, hy⟩
      · intro y hy k; exact .inl ⟨by simp, hy⟩
    · cases h
  | destroyTmp k t =>
    simp only [Known.after] at h
    split at h
    · rename_i hf
      injection h with h; subst h
      obtain ⟨m1, g1, g2, _, g4⟩ := core_free i.core (.data k t)
      obtain ⟨m2, f1, f2, _, f4⟩ := core_free g4 (.tmp k t)
      have e : m2.set (.tmp k t) none = m2.forget [.data k t, .tmp k t] := by
        simp only [Mem.set, Mem.forget, Mem.mk.injEq, and_true]
        funext x
        have := congrFun f2 x
        by_cases a : x = .tmp k t
        · simp [a]
        · by_cases b : x = .data k t
          · subst b; simp [this, Mem.set]
          · simp [a, b]
      rw [e] at f4
      refine ⟨_, by simp only [exec, core_use i.core (i.tmp _ _ hf), Res.ok_bind, g1, f1],
        inv_of i f4 [.data k t, .tmp k t] ?_ ?_ ?_ ?_ ?_ ?_⟩
      · intro x hx
        have hd : x ≠ .data k t := by rintro rfl; exact hx (by simp)
        simp only [Mem.forget, hx, if_false]
        rw [f2, ← g2]
        simp [Mem.set, hd]
      · intro x hx' hx
        simp only [List.mem_cons, List.not_mem_nil, or_false, not_or] at hx'
        cases x with
        | tmp k' t' =>
          simp only [Known.Has, List.mem_filter] at hx ⊢
          refine ⟨hx, decide_eq_true ?_⟩
          intro e; cases e; exact hx'.2 rfl
        | data k' t' =>
          simp only [Known.Has, List.mem_filter] at hx ⊢
          refine ⟨hx, decide_eq_true ?_⟩
          intro e; cases e; exact hx'.1 rfl
        | file => exact hx
        | sec => exact hx
        | user => exact hx
      · intro x hx hne; simp only [Mem.forget, hx, if_true] at hne; exact absurd rfl hne
      · intro y hy; exact .inl ⟨by simp, hy⟩
      · intro k' t' hy
        simp only [List.mem_filter, ne_eq, decide_not, Bool.not_eq_true', decide_eq_false_iff_not, Prod.mk.injEq,
          not_and] at hy
        exact .inl ⟨by simp; exact hy.2, hy.1⟩
      · intro y hy k; exact .inl ⟨by simp, hy⟩
    · cases h
  | replace k h' t =>
    simp only [Known.after] at h
    split at h
    · rename_i hf
      injection h with h; subst h
      obtain ⟨hf, ht⟩ := hf
      obtain ⟨m1, g1, g2, _, g4⟩ := core_free i.core (.sec h' k.sec)
      have hm := core_move (s := .data k t) (d := .sec h' k.sec) g4 (by simp [Mem.set])
      have e : ((m1.set (.sec h' k.sec) none).set (.sec h' k.sec) ((m1.set (.sec h' k.sec) none).ptr (.data k t))).set
          (.data k t) none = (m1.set (.sec h' k.sec) (m1.ptr (.data k t))).set (.data k t) none := by
        simp only [Mem.set, Mem.mk.injEq, and_true]
        funext x
        by_cases a : x = .data k t <;> by_cases b : x = .sec h' k.sec <;> simp [a, b]
      rw [e] at hm
      refine ⟨_, by simp only [exec, core_use i.core (i.file _ hf), core_use i.core (i.tmp _ _ ht), Res.ok_bind, g1],
        inv_of i hm [.data k t, .sec h' k.sec] ?_ ?_ ?_ ?_ ?_ ?_⟩
      · intro x hx
        simp only [List.mem_cons, List.not_mem_nil, or_false, not_or] at hx
        simp [Mem.set, hx.1, hx.2, g2]
      · intro x _ hx; cases x <;> exact hx
      · intro x hx hne
        simp only [List.mem_cons, List.not_mem_nil, or_false] at hx
        rcases hx with rfl | rfl
        · exact ht
        · exact hf
      · intro y hy; exact .inl ⟨by simp, hy⟩
      · intro k t hy; exact .inl ⟨by simp, hy⟩
      · intro y hy k
        simp only [List.mem_filter, ne_eq, decide_not, Bool.not_eq_true', decide_eq_false_iff_not] at hy
        exact .inl ⟨by simp [hy.2], hy.1⟩
    · cases h
  | clone h' t =>
    simp only [Known.after] at h
    split at h
    · rename_i hf
      injection h with h; subst h
      obtain ⟨hf, ht⟩ := hf
      obtain ⟨m1, g1, g2, _, g4⟩ := core_free i.core (.data .reloc t)
      have hm := core_malloc g4 (s := .data .reloc t) (by simp [Mem.set])
      rw [malloc_set] at hm
      refine ⟨_, by simp only [exec, core_use i.core (i.file _ hf), core_use i.core (i.tmp _ _ ht), Res.ok_bind, g1],
        inv_of i hm [.data .reloc t] ?_ (fun _ _ hx => hx) ?_ ?_ ?_ ?_⟩
      · intro x hx; simp only [List.mem_singleton] at hx; simp [Mem.malloc, hx, g2]
      · intro x hx _; simp only [List.mem_singleton] at hx; subst hx; exact ht
      · intro y hy; exact .inl ⟨by simp, hy⟩
      · intro k t hy; exact .inl ⟨by simp, hy⟩
      · intro y hy k; exact .inl ⟨by simp, hy⟩
    · cases h
  | freeOwn n =>
    simp only [Known.after] at h
    split at h
    · rename_i hf
      injection h with h; subst h
      obtain ⟨m1, g1, g2, _, g4⟩ := core_free i.core (.user n)
      refine ⟨_, by simp only [exec, Res.ok_bind, g1], inv_of i g4 [.user n] ?_ ?_ ?_ ?_ ?_ ?_⟩
      · intro x hx; simp only [List.mem_singleton] at hx; simp [Mem.set, hx, g2]
      · intro x hx' hx
        cases x <;> simp_all [Known.Has]
      · intro x hx hne; simp only [List.mem_singleton] at hx; subst hx; simp [Mem.set] at hne
      · intro y hy; exact .inl ⟨by simp, hy⟩
      · intro k t hy; exact .inl ⟨by simp, hy⟩
      · intro y hy k; exact .inl ⟨by simp, hy⟩
    · cases h

private theorem inv_run : ∀ (os : List Call) {K K' : Known} {m : Mem}, Inv K m → K.afterAll os = some K' →
    ∃ m', run m os = .ok m' ∧ Inv K' m' := by
  intro os
  induction os with
  | nil =>
    intro K K' m i h
    simp only [Known.afterAll, Option.some.injEq] at h
    subst h
    exact ⟨m, rfl, i⟩
  | cons o os ih =>
    intro K K' m i h
    simp only [Known.afterAll] at h
    split at h
    · cases h
    · next K1 h1 =>
      obtain ⟨m1, g1, i1⟩ := exec_ok i h1
      obtain ⟨m2, g2, i2⟩ := ih i1 h
      exact ⟨m2, by simp only [run, g1, Res.ok_bind, g2], i2⟩

/-- C87: whatever calls a program makes, if it keeps to the rules then nothing is freed twice, no handle is used that
is not allocated, and every allocated block is held by exactly one pointer, of an existing handle or container or of
the program itself: nothing is lost. -/
theorem C87_owned (os : List Call) (K : Known) (h : Known.afterAll {} os = some K) :
    ∃ m, run start os = .ok m ∧ Owned K m := by
  have i : Inv {} start := by
    refine ⟨⟨?_, ?_, ?_, ?_⟩, ?_, ?_, ?_, ?_⟩ <;> simp [start]
  obtain ⟨m, h1, h2⟩ := inv_run os i h
  exact ⟨m, h1, ⟨fun s b hb => ⟨h2.core.alive s b hb, h2.has s (by simp [hb])⟩, h2.core.once, h2.core.held⟩⟩

/-- C87: when all handles and containers have been destroyed and the program has freed what it took, no memory is left
allocated. -/
theorem C87_all_released (os : List Call) (K : Known) (h : Known.afterAll {} os = some K) (hf : K.files = [])
    (ht : K.tmps = []) (ho : K.own = []) :
    ∃ m, run start os = .ok m ∧ ∀ b, m.live b = false := by
  obtain ⟨m, h1, h2⟩ := C87_owned os K h
  refine ⟨m, h1, fun b => ?_⟩
  cases e : m.live b with
  | false => rfl
  | true =>
    obtain ⟨s, hs⟩ := h2.held b e
    have := (h2.alive s b hs).2
    cases s <;> simp [Known.Has, hf, ht, ho] at this

/-- What the optimizer and the linker do: a file is read, its relocations are copied, its program is replaced; the
program is taken out, changed and put back; its constants are taken and freed. -/
def session : List Call :=
  [.create 0, .read 0 [.text, .rodata, .strtab, .rel], .createTmp .reloc 0, .clone 0 0, .createTmp .prog 0,
   .addTmp .prog 0 none, .addTmp .prog 0 (some true), .replace .prog 0 0, .addTmp .reloc 0 (some false),
   .replace .reloc 0 0, .discardDebug 0, .add 0 .dbgfunc none, .extractProg 0 7, .insertProg 0 7, .extractRo 0 8,
   .destroyTmp .prog 0, .destroyTmp .reloc 0, .freeOwn 8, .appendRo 0 true, .releaseProg 0, .destroy 0]

/-- The rules can be kept. -/
example : ∃ K, Known.afterAll {} session = some K ∧ K.files = [] ∧ K.tmps = [] ∧ K.own = [] :=
  ⟨_, rfl, rfl, rfl, rfl⟩

/-! ### The tools keep to the rules -/

private theorem afterAll_append (K : Known) (a b : List Call) :
    K.afterAll (a ++ b) = match K.afterAll a with
      | none => none
      | some K' => K'.afterAll b := by
  induction a generalizing K with
  | nil => rfl
  | cons o os ih =>
    simp only [List.cons_append, Known.afterAll]
    cases K.after o with
    | none => rfl
    | some K' => exact ih K'

private theorem afterAll_same {K : Known} {l : List Call} (h : ∀ c ∈ l, K.after c = some K) :
    K.afterAll l = some K := by
  induction l with
  | nil => rfl
  | cons o os ih =>
    simp only [Known.afterAll, h o (by simp)]
    exact ih (fun c hc => h c (by simp [hc]))

private theorem passAdds_same {K : Known} {r : Nat} (h1 : (.prog, 0) ∈ K.tmps) (h2 : (.reloc, r) ∈ K.tmps)
    (w : List (Bool × Option Bool)) : K.afterAll (passAdds r w) = some K := by
  apply afterAll_same
  intro c hc
  obtain ⟨x, _, rfl⟩ := List.mem_map.1 hc
  split <;> simp [Known.after, h1, h2]

private theorem symbolCalls_same (ws : List (Option Bool × Option Bool)) (changed : Bool) :
    Known.afterAll ⟨[0], [(.prog, 0), (.reloc, 1), (.reloc, 0)], [], []⟩ (symbolCalls ws changed) =
      some ⟨[0], [(.prog, 0), (.reloc, 1), (.reloc, 0)], [], []⟩ := by
  have h : Known.afterAll ⟨[0], [(.sym, 0), (.prog, 0), (.reloc, 1), (.reloc, 0)], [], []⟩
      (ws.flatMap fun x => [.add 0 .strtab x.1, .addTmp .sym 0 x.2]) =
      some ⟨[0], [(.sym, 0), (.prog, 0), (.reloc, 1), (.reloc, 0)], [], []⟩ := by
    apply afterAll_same
    intro c hc
    obtain ⟨x, _, hx⟩ := List.mem_flatMap.1 hc
    simp only [List.mem_cons, List.not_mem_nil, or_false] at hx
    rcases hx with rfl | rfl <;> simp [Known.after]
  unfold symbolCalls
  rw [afterAll_append, afterAll_append, afterAll_append]
  rw [show Known.afterAll ⟨[0], [(.prog, 0), (.reloc, 1), (.reloc, 0)], [], []⟩ [.createTmp .sym 0] =
    some ⟨[0], [(.sym, 0), (.prog, 0), (.reloc, 1), (.reloc, 0)], [], []⟩ from rfl]
  simp only [h]
  cases changed <;> rfl

/-- C88: the optimizer releases all memory of the object file library, whatever the file has, whatever it adds and
whatever `realloc` does. -/
theorem C88_popt (inp : List Sec) (hinp : inp.Nodup) (w1 w2 w3 w4 : List (Bool × Option Bool))
    (ws : List (Option Bool × Option Bool)) (changed : Bool) (lines : List (Option Bool)) :
    ∃ m, run start (poptCalls inp w1 w2 w3 w4 ws changed lines) = .ok m ∧ ∀ b, m.live b = false := by
  refine C87_all_released _ {} ?_ rfl rfl rfl
  have a0 : Known.afterAll {} [.create 0, .read 0 inp, .createTmp .reloc 0, .createTmp .reloc 1, .clone 0 0] =
      some ⟨[0], [(.reloc, 1), (.reloc, 0)], [], []⟩ := by
    simp [Known.afterAll, Known.after, hinp]
  have a1 : Known.afterAll ⟨[0], [(.reloc, 1), (.reloc, 0)], [], []⟩
      ([.createTmp .prog 0] ++ passAdds 1 w1 ++ [.replace .prog 0 0, .destroyTmp .prog 0]) =
      some ⟨[0], [(.reloc, 1), (.reloc, 0)], [], []⟩ := by
    rw [afterAll_append, afterAll_append]
    rw [show Known.afterAll ⟨[0], [(.reloc, 1), (.reloc, 0)], [], []⟩ [.createTmp .prog 0] =
      some ⟨[0], [(.prog, 0), (.reloc, 1), (.reloc, 0)], [], []⟩ from rfl]
    simp only [passAdds_same (K := ⟨[0], [(.prog, 0), (.reloc, 1), (.reloc, 0)], [], []⟩) (r := 1) (by simp) (by simp)]
    rfl
  have a2 : Known.afterAll ⟨[0], [(.reloc, 1), (.reloc, 0)], [], []⟩
      ([.createTmp .prog 0, .resetTmp .reloc 0] ++ passAdds 0 w2 ++ [.replace .prog 0 0, .destroyTmp .prog 0]) =
      some ⟨[0], [(.reloc, 1), (.reloc, 0)], [], []⟩ := by
    rw [afterAll_append, afterAll_append]
    rw [show Known.afterAll ⟨[0], [(.reloc, 1), (.reloc, 0)], [], []⟩ [.createTmp .prog 0, .resetTmp .reloc 0] =
      some ⟨[0], [(.prog, 0), (.reloc, 1), (.reloc, 0)], [], []⟩ from rfl]
    simp only [passAdds_same (K := ⟨[0], [(.prog, 0), (.reloc, 1), (.reloc, 0)], [], []⟩) (r := 0) (by simp) (by simp)]
    rfl
  have al : Known.afterAll ⟨[0], [(.prog, 0), (.reloc, 1), (.reloc, 0)], [], []⟩ (lines.map (.add 0 .lineno)) =
      some ⟨[0], [(.prog, 0), (.reloc, 1), (.reloc, 0)], [], []⟩ := by
    apply afterAll_same
    intro c hc
    obtain ⟨x, _, rfl⟩ := List.mem_map.1 hc
    simp [Known.after]
  have a3 : Known.afterAll ⟨[0], [(.reloc, 1), (.reloc, 0)], [], []⟩
      ([.createTmp .prog 0, .resetTmp .reloc 1] ++ passAdds 1 w3 ++ [.replace .prog 0 0] ++ symbolCalls ws changed ++
        [.discardDebug 0] ++ passAdds 1 w4 ++ lines.map (.add 0 .lineno) ++
        [.replace .prog 0 0, .replace .reloc 0 1, .destroyTmp .prog 0]) =
      some ⟨[0], [(.reloc, 1), (.reloc, 0)], [], []⟩ := by
    rw [afterAll_append, afterAll_append, afterAll_append, afterAll_append, afterAll_append, afterAll_append,
      afterAll_append]
    rw [show Known.afterAll ⟨[0], [(.reloc, 1), (.reloc, 0)], [], []⟩ [.createTmp .prog 0, .resetTmp .reloc 1] =
      some ⟨[0], [(.prog, 0), (.reloc, 1), (.reloc, 0)], [], []⟩ from rfl]
    simp only [passAdds_same (K := ⟨[0], [(.prog, 0), (.reloc, 1), (.reloc, 0)], [], []⟩) (r := 1) (by simp) (by simp)]
    rw [show Known.afterAll ⟨[0], [(.prog, 0), (.reloc, 1), (.reloc, 0)], [], []⟩ [.replace .prog 0 0] =
      some ⟨[0], [(.prog, 0), (.reloc, 1), (.reloc, 0)], [], []⟩ from rfl]
    simp only [symbolCalls_same]
    rw [show Known.afterAll ⟨[0], [(.prog, 0), (.reloc, 1), (.reloc, 0)], [], []⟩ [.discardDebug 0] =
      some ⟨[0], [(.prog, 0), (.reloc, 1), (.reloc, 0)], [], []⟩ from rfl]
    simp only [passAdds_same (K := ⟨[0], [(.prog, 0), (.reloc, 1), (.reloc, 0)], [], []⟩) (r := 1) (by simp) (by simp), al]
    rfl
  unfold poptCalls
  rw [afterAll_append, afterAll_append, afterAll_append, afterAll_append, a0]
  simp only [a1, a2, a3]
  rfl

/-- C88: loading a program and releasing it leaves nothing of the object file library allocated. -/
theorem C88_prun (inp : List Sec) (hinp : inp.Nodup) :
    ∃ m, run start (prunCalls inp) = .ok m ∧ ∀ b, m.live b = false := by
  refine C87_all_released _ {} ?_ rfl rfl rfl
  simp [prunCalls, Known.afterAll, Known.after, hinp]

/-- C88: neither does a file that is refused. -/
theorem C88_refused (opened : Bool) (inp : List Sec) (hinp : inp.Nodup) :
    ∃ m, run start (refusedCalls opened inp) = .ok m ∧ ∀ b, m.live b = false := by
  refine C87_all_released _ {} ?_ rfl rfl rfl
  cases opened <;> simp [refusedCalls, Known.afterAll, Known.after, hinp]

/-- The sections of a file that is optimized, and the program the loader gets from it. -/
example : [Poff.Sec.text, .rodata, .strtab, .symtab].Nodup := by decide

example : ∃ m b, run start ((prunCalls [.text, .rodata]).take 5) = .ok m ∧ m.live b = true ∧ m.ptr (.user 0) = some b :=
  ⟨_, 1, rfl, rfl, rfl⟩

/-- Violation of C88 by the loader: when there is no memory for the machine the program is not freed, but a null
pointer is used. -/
theorem C88_violation_load : ∃ m, run start ((prunCalls [.text, .rodata]).take 5) = .ok m ∧ loadEnd m false = .ub ∧
    ∃ m', loadEnd m true = .ok m' :=
  ⟨_, rfl, rfl, _, rfl⟩

private theorem linkFile_after (i : Nat) (own : List Nat) (hi : i ∉ own) (inp : List Sec) (hinp : inp.Nodup)
    (ro : Option Bool) (w : List (Sec × Option Bool)) (e : List Nat) (he : ∀ x ∈ e, x = 0) :
    ∃ e', (∀ x ∈ e', x = 0) ∧ Known.afterAll ⟨[0], [], own, e⟩ (linkFile i inp ro w) = some ⟨[0], [], i :: own, e'⟩ := by
  have h1 : Known.afterAll ⟨[0], [], own, e⟩ [.create 1, .read 1 inp, .extractRo 1 i] =
      some ⟨[1, 0], [], i :: own, e⟩ := by
    have : e.filter (fun x => decide (x ≠ 1)) = e := List.filter_eq_self.2 fun x hx => by simp [he x hx]
    simp only [ne_eq, decide_not] at this
    simp [Known.afterAll, Known.after, hinp, hi, this]
  have hw : ∀ e, (∀ x ∈ e, x = 0) → ∃ e', (∀ x ∈ e', x = 0) ∧
      Known.afterAll ⟨[1, 0], [], i :: own, e⟩ (w.map (fun x => .add 0 x.1 x.2)) = some ⟨[1, 0], [], i :: own, e'⟩ := by
    induction w with
    | nil => intro e he; exact ⟨e, he, rfl⟩
    | cons x w ih =>
      intro e he
      obtain ⟨e', g1, g2⟩ := ih (e.filter (· ≠ 0)) (fun x hx => he x (List.mem_filter.1 hx).1)
      exact ⟨e', g1, by simpa [Known.afterAll, Known.after] using g2⟩
  have hr : ∃ e', (∀ x ∈ e', x = 0) ∧ Known.afterAll ⟨[1, 0], [], i :: own, e⟩ (roCalls ro) = some ⟨[1, 0], [], i :: own, e'⟩ := by
    cases ro with
    | none => exact ⟨e, he, rfl⟩
    | some mv =>
      exact ⟨e.filter (· ≠ 0), fun x hx => he x (List.mem_filter.1 hx).1, by simp [roCalls, Known.afterAll, Known.after]⟩
  obtain ⟨e1, he1, hr⟩ := hr
  obtain ⟨e2, he2, hw⟩ := hw e1 he1
  refine ⟨e2, he2, ?_⟩
  unfold linkFile
  rw [afterAll_append, afterAll_append, afterAll_append, h1]
  simp only [hr, hw]
  have : e2.filter (fun x => decide (x ≠ 1)) = e2 := List.filter_eq_self.2 fun x hx => by simp [he2 x hx]
  simp only [ne_eq, decide_not] at this
  simp [Known.afterAll, Known.after, this]

private theorem linkFiles_after : ∀ (fs : List (List Sec × Option Bool × List (Sec × Option Bool))) (i : Nat)
    (own e : List Nat), (∀ f ∈ fs, f.1.Nodup) → (∀ x ∈ own, 0 < x ∧ x < i) → 0 < i → (∀ x ∈ e, x = 0) →
    ∃ own' e', (∀ x ∈ own', 0 < x ∧ x < i + fs.length) ∧ (∀ x ∈ e', x = 0) ∧
      Known.afterAll ⟨[0], [], own, e⟩ (linkFiles i fs) = some ⟨[0], [], own', e'⟩ := by
  intro fs
  induction fs with
  | nil => intro i own e _ ho _ he; exact ⟨own, e, by simpa using ho, he, rfl⟩
  | cons f fs ih =>
    intro i own e hf ho hi he
    obtain ⟨e1, he1, h1⟩ := linkFile_after i own (fun hx => by have := ho i hx; omega) f.1 (hf f (by simp)) f.2.1 f.2.2 e he
    obtain ⟨own', e', g1, g2, g3⟩ := ih (i + 1) (i :: own) e1 (fun x hx => hf x (by simp [hx])) (by
      intro x hx
      simp only [List.mem_cons] at hx
      rcases hx with rfl | hx
      · omega
      · have := ho x hx; omega) (by omega) he1
    refine ⟨own', e', fun x hx => ?_, g2, ?_⟩
    · have := g1 x hx; simp only [List.length_cons]; omega
    · rw [linkFiles, afterAll_append, h1]
      exact g3

/-- C88: the linker frees nothing twice and uses nothing that has been freed, and it releases everything but the
constants of the input files: whatever is left was extracted as the constants of one of them. -/
theorem C88_plink_partial (fs : List (List Sec × Option Bool × List (Sec × Option Bool)))
    (w : List (Sec × Option Bool)) (hfs : ∀ f ∈ fs, f.1.Nodup) :
    ∃ m, run start (plinkCalls fs w) = .ok m ∧
      ∀ b, m.live b = true → ∃ i, 1 ≤ i ∧ i ≤ fs.length ∧ m.ptr (.user i) = some b := by
  obtain ⟨own, e, ho, he, h1⟩ := linkFiles_after fs 1 [] [0] hfs (by simp) (by omega) (by simp)
  have hn : (0 : Nat) ∉ own := fun h => by have := ho 0 h; omega
  have hw : ∀ e : List Nat, ∃ e', Known.afterAll ⟨[0], [], own, e⟩ (w.map (fun x => .add 0 x.1 x.2)) =
      some ⟨[0], [], own, e'⟩ := by
    induction w with
    | nil => intro e; exact ⟨e, rfl⟩
    | cons x w ih =>
      intro e
      obtain ⟨e', g⟩ := ih (e.filter (· ≠ 0))
      exact ⟨e', by simpa [Known.afterAll, Known.after] using g⟩
  have ho' : own.filter (fun x => decide (x ≠ 0)) = own := List.filter_eq_self.2 fun x hx => by
    have := ho x hx; simp; omega
  obtain ⟨e2, hw⟩ := hw (e.filter (· ≠ 0))
  have h : Known.afterAll {} (plinkCalls fs w) = some ⟨[], [], own, e2.filter (· ≠ 0)⟩ := by
    unfold plinkCalls
    rw [afterAll_append, afterAll_append, afterAll_append, afterAll_append]
    rw [show Known.afterAll {} [.create 0] = some ⟨[0], [], [], [0]⟩ from rfl]
    simp only [h1]
    rw [show Known.afterAll ⟨[0], [], own, e⟩ [.extractProg 0 0, .insertProg 0 0] =
      some ⟨[0], [], own, e.filter (· ≠ 0)⟩ by
        simp only [ne_eq, decide_not] at ho'
        simp [Known.afterAll, Known.after, hn, ho']]
    simp only [hw]
    simp [Known.afterAll, Known.after]
  obtain ⟨m, g1, g2⟩ := C87_owned _ _ h
  refine ⟨m, g1, fun b hb => ?_⟩
  obtain ⟨s, hs⟩ := g2.held b hb
  have := (g2.alive s b hs).2
  cases s with
  | user i =>
    have hi := ho i this
    exact ⟨i, by omega, by omega, hs⟩
  | file => simp [Known.Has] at this
  | sec => simp [Known.Has] at this
  | tmp => simp [Known.Has] at this
  | data => simp [Known.Has] at this

/-- Violation of C88 by the linker: the constants of an input file are extracted and copied, and then nobody frees
them. -/
theorem C88_violation_link :
    ∃ m b, run start (plinkCalls [([.text, .rodata], some false, [(.text, none)])] [(.symtab, none)]) = .ok m ∧
      m.live b = true :=
  ⟨_, 3, rfl, rfl⟩

/-- Violation of C87: memory is lost when a file is read into a handle that has been used before, even if this has
been for reading only. -/
theorem C87_violation_read :
    ∃ m, run start [.create 0, .read 0 [.text], .read 0 [.text], .destroy 0] = .ok m ∧ m.live 1 = true :=
  ⟨_, rfl, rfl⟩

/-- What the rules rule out is undefined: a handle that has been destroyed must not be used. -/
example : run start [.create 0, .destroy 0, .destroy 0] = .ub := rfl

end Pas.PoffOwn
