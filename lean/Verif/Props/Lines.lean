import Verif.Spec.Poff
/-! C41: finding the source line of an address. -/
namespace Pas.Props
open Pas.Poff Pas.Spec

theorem lineAt_lt {t : List LineEntry} {i : Nat} (h : i < t.length) :
    lineAt t i = .ok t[i] := by
  simp [lineAt, List.getElem?_eq_getElem h]

/-- The search never leaves the table and never ends on its last entry. -/
theorem search_total (t : List LineEntry) (off : Nat) :
    ∀ fuel first last idx, first ≤ last → last < t.length → last - first ≤ fuel →
      (first = last → idx + 2 ≤ t.length ∨ idx = 0) →
      ∃ i, searchLoop t off fuel first last idx = .ok i ∧ (i + 2 ≤ t.length ∨ i = 0) := by
  intro fuel
  induction fuel with
  | zero =>
    intro first last idx h1 h2 h3 h4
    have : first = last := by omega
    exact ⟨idx, by simp [searchLoop, this], h4 this⟩
  | succ fuel ih =>
    intro first last idx h1 h2 h3 h4
    by_cases e : first = last
    · exact ⟨idx, by simp [searchLoop, e], h4 e⟩
    · have hm : (first + last) / 2 < t.length := by omega
      have hm1 : (first + last) / 2 + 1 < t.length := by omega
      simp only [searchLoop, e, if_false, lineAt_lt hm, lineAt_lt hm1, Res.ok_bind]
      split
      · exact ih _ _ _ (by omega) (by omega) (by omega) (by omega)
      · split
        · exact ⟨_, rfl, by omega⟩
        · split
          · exact ⟨_, rfl, by omega⟩
          · exact ih _ _ _ (by omega) (by omega) (by omega) (by omega)

theorem findLine_total (t : List LineEntry) (prev off : Nat)
    (hp : prev + 2 ≤ t.length ∨ prev = 0) :
    ∃ r prev', findLine t prev off = .ok (r, prev') ∧
      (prev' + 2 ≤ t.length ∨ prev' = 0) := by
  by_cases ht : t = []
  · exact ⟨none, prev, by simp [findLine, ht], hp⟩
  · have hl : 0 < t.length := List.length_pos_iff.mpr ht
    have hpl : prev < t.length := by omega
    simp only [findLine, ht, if_false, lineAt_lt hpl, Res.ok_bind]
    generalize hf : (if t[prev].offset ≤ off then prev else 0) = first
    generalize hla : (if t[prev].offset ≤ off then t.length - 1 else prev) = last
    have hfl : first ≤ last ∧ last < t.length ∧ (first + 2 ≤ t.length ∨ first = 0) := by
      split at hf
      · rw [if_pos (by assumption)] at hla; omega
      · rw [if_neg (by assumption)] at hla; omega
    obtain ⟨i, hi, hi2⟩ := search_total t off t.length first last first hfl.1 hfl.2.1 (by omega)
      (fun _ => hfl.2.2)
    rw [hi]
    have hit : i < t.length := by omega
    simp only [Res.ok_bind, lineAt_lt hit]
    split
    · exact ⟨none, 0, rfl, Or.inr rfl⟩
    · exact ⟨_, i, rfl, hi2⟩

/-- After any history of lookups the hint is usable. -/
theorem lookups_hint (t : List LineEntry) :
    ∀ (os : List Nat) (prev : Nat), (prev + 2 ≤ t.length ∨ prev = 0) →
      ∃ rs prev', lookups t prev os = .ok (rs, prev') ∧
        (prev' + 2 ≤ t.length ∨ prev' = 0) := by
  intro os
  induction os with
  | nil => intro prev h; exact ⟨[], prev, rfl, h⟩
  | cons o os ih =>
    intro prev h
    obtain ⟨r, p1, h1, h2⟩ := findLine_total t prev o h
    obtain ⟨rs, p2, h3, h4⟩ := ih p1 h2
    exact ⟨r :: rs, p2, by simp [lookups, h1, h3], h4⟩

/-- No history of lookups leaves the table. -/
theorem C41_total (t : List LineEntry) (os : List Nat) : ∃ r, lookups t 0 os = .ok r := by
  obtain ⟨rs, p, h, _⟩ := lookups_hint t os 0 (Or.inr rfl)
  exact ⟨_, h⟩

theorem search_inner (t : List LineEntry) (off : Nat) :
    ∀ fuel first last idx, first ≤ last → (hl : last < t.length) → last - first ≤ fuel →
      off < t[last].offset → (∀ h : first < t.length, first = 0 ∨ t[first].offset ≤ off) →
      (first = last → idx = first) →
      ∃ i, searchLoop t off fuel first last idx = .ok i ∧
        ∃ h : i < t.length, (t[i].offset ≤ off ∧
            (t[i].offset = off ∨ ∃ h' : i + 1 < t.length, off < t[i + 1].offset)) ∨
          (off < t[i].offset ∧ i = 0) := by
  intro fuel
  induction fuel with
  | zero =>
    intro first last idx h1 h2 h3 h4 h5 h6
    have e : first = last := by omega
    subst e
    have := h6 rfl
    subst this
    refine ⟨idx, by simp [searchLoop], h2, Or.inr ⟨h4, ?_⟩⟩
    rcases h5 h2 with h | h
    · exact h
    · omega
  | succ fuel ih =>
    intro first last idx h1 h2 h3 h4 h5 h6
    by_cases e : first = last
    · subst e
      have := h6 rfl
      subst this
      refine ⟨idx, by simp [searchLoop], h2, Or.inr ⟨h4, ?_⟩⟩
      rcases h5 h2 with h | h
      · exact h
      · omega
    · have hm : (first + last) / 2 < t.length := by omega
      have hm1 : (first + last) / 2 + 1 < t.length := by omega
      simp only [searchLoop, e, if_false, lineAt_lt hm, lineAt_lt hm1, Res.ok_bind]
      split
      · next hgt => exact ih _ _ _ (by omega) hm (by omega) hgt h5 (by omega)
      · split
        · next hle heq => exact ⟨_, rfl, hm, Or.inl ⟨by omega, Or.inl heq⟩⟩
        · split
          · next hle _ hgt => exact ⟨_, rfl, hm, Or.inl ⟨by omega, Or.inr ⟨hm1, hgt⟩⟩⟩
          · next hle _ hng =>
            refine ih _ _ _ (by omega) h2 (by omega) h4 (fun _ => Or.inr (by omega)) ?_
            intro e2
            exfalso
            have : t[(first + last) / 2 + 1] = t[last] := by simp [e2]
            rw [this] at hng
            omega

theorem lineFor_of {t : List LineEntry} (hs : SortedLines t) {off i : Nat} (h : i < t.length)
    (h1 : t[i].offset ≤ off)
    (h2 : t[i].offset = off ∨ ∃ h' : i + 1 < t.length, off < t[i + 1].offset) :
    LineFor t off t[i] := by
  refine ⟨List.getElem_mem h, h1, ?_⟩
  intro f hf hfo
  rcases h2 with h2 | ⟨h', h2⟩
  · omega
  · obtain ⟨j, hj, rfl⟩ := List.mem_iff_getElem.mp hf
    by_cases hji : j ≤ i
    · rcases Nat.lt_or_eq_of_le hji with hlt | rfl
      · exact hs j i _ _ hlt (List.getElem?_eq_getElem hj) (List.getElem?_eq_getElem h)
      · exact Nat.le_refl _
    · by_cases hj1 : j = i + 1
      · subst hj1; omega
      · have := hs (i + 1) j _ _ (by omega) (List.getElem?_eq_getElem h')
          (List.getElem?_eq_getElem hj)
        omega

/-- In a sorted table, after any history of lookups, an address below the last entry's
address is given the closest entry at or before it, and no entry exactly when all entries
lie behind it. Missing: addresses at or behind the last entry, where the code is wrong
(`C41_violation`). -/
theorem C41_lookup_partial (t : List LineEntry) (hs : SortedLines t)
    {os : List Nat} {rs : List (Option LineEntry)} {prev : Nat}
    (hist : lookups t 0 os = .ok (rs, prev)) (off : Nat)
    (hoff : ∃ e, t.getLast? = some e ∧ off < e.offset) :
    ∃ r prev', findLine t prev off = .ok (r, prev') ∧
      ((∃ e, r = some e ∧ LineFor t off e) ∨ (r = none ∧ ∀ f ∈ t, off < f.offset)) := by
  obtain ⟨rs', p', h1, hp⟩ := lookups_hint t os 0 (Or.inr rfl)
  rw [hist] at h1
  injection h1 with h1; injection h1 with _ h1
  subst h1
  obtain ⟨e, he, hoff⟩ := hoff
  have ht : t ≠ [] := by rintro rfl; simp at he
  have hl : 0 < t.length := List.length_pos_iff.mpr ht
  have hpl : prev < t.length := by omega
  have hlast : off < t[t.length - 1].offset := by
    rw [List.getLast?_eq_getElem?, List.getElem?_eq_getElem (by omega)] at he
    injection he with he; rw [he]; exact hoff
  simp only [findLine, ht, if_false, lineAt_lt hpl, Res.ok_bind]
  generalize hf : (if t[prev].offset ≤ off then prev else 0) = first
  generalize hla : (if t[prev].offset ≤ off then t.length - 1 else prev) = last
  have hfl : first ≤ last ∧ ∃ h : last < t.length, off < t[last].offset ∧
      (∀ h : first < t.length, first = 0 ∨ t[first].offset ≤ off) := by
    split at hf
    · next h =>
      rw [if_pos h] at hla; subst hf hla
      exact ⟨by omega, by omega, hlast, fun _ => Or.inr h⟩
    · next h =>
      rw [if_neg h] at hla; subst hf hla
      exact ⟨by omega, by omega, by omega, fun _ => Or.inl rfl⟩
  obtain ⟨a1, a2, a3, a4⟩ := hfl
  obtain ⟨i, hi, hit, hi2⟩ := search_inner t off t.length first last first a1 a2 (by omega) a3 a4
    (fun _ => rfl)
  rw [hi]
  simp only [Res.ok_bind, lineAt_lt hit]
  rcases hi2 with ⟨b1, b2⟩ | ⟨b1, b2⟩
  · rw [if_neg (by omega)]
    exact ⟨_, i, rfl, Or.inl ⟨_, rfl, lineFor_of hs hit b1 b2⟩⟩
  · rw [if_pos b1]
    refine ⟨none, 0, rfl, Or.inr ⟨rfl, ?_⟩⟩
    subst b2
    intro f hf
    obtain ⟨j, hj, rfl⟩ := List.mem_iff_getElem.mp hf
    by_cases hj0 : j = 0
    · subst hj0; exact b1
    · have := hs 0 j _ _ (by omega) (List.getElem?_eq_getElem hit) (List.getElem?_eq_getElem hj)
      omega

/-- A three-line table. -/
def lines3 : List LineEntry := [⟨1, [97], 4⟩, ⟨2, [97], 10⟩, ⟨3, [97], 20⟩]

example : StrictLines lines3 ∧ SortedLines lines3 ∧
    lookups lines3 0 [15, 3] = .ok ([some ⟨2, [97], 10⟩, none], 0) ∧
    findLine lines3 0 12 = .ok (some ⟨2, [97], 10⟩, 1) := by
  have hs : StrictLines lines3 := by
    intro i j a b hij ha hb
    match i, j with
    | 0, 1 | 0, 2 | 1, 2 => simp [lines3] at ha hb; subst ha hb; decide
    | 0, 0 | 1, 0 | 1, 1 | (i+2), 0 | (i+2), 1 | (i+2), 2 => omega
    | _, (j+3) => simp [lines3] at hb
  exact ⟨hs, fun i j a b h h1 h2 => Nat.le_of_lt (hs i j a b h h1 h2), rfl, rfl⟩

/-- Addresses past the only entry of a one-entry table belong to it. -/
theorem C41_single (e : LineEntry) (os : List Nat) {rs : List (Option LineEntry)} {prev : Nat}
    (hist : lookups [e] 0 os = .ok (rs, prev)) (off : Nat) :
    findLine [e] prev off = .ok (if e.offset ≤ off then some e else none, 0) := by
  obtain ⟨rs', p', h1, hp⟩ := lookups_hint [e] os 0 (Or.inr rfl)
  rw [hist] at h1
  injection h1 with h1; injection h1 with _ h1
  subst h1
  have : prev = 0 := by simp at hp; exact hp
  subst this
  by_cases h : e.offset ≤ off
  · simp [findLine, lineAt, searchLoop, h]
  · simp [findLine, lineAt, searchLoop, h, Nat.lt_of_not_le h]

example : lookups [⟨7, [98], 5⟩] 0 [3, 9] = .ok ([none, some ⟨7, [98], 5⟩], 0) := rfl

theorem search_end (t : List LineEntry) (hs : StrictLines t) (off : Nat) (hn : 2 ≤ t.length)
    (hlast : ∀ h : t.length - 1 < t.length, t[t.length - 1].offset ≤ off) :
    ∀ fuel first idx, first ≤ t.length - 1 → t.length - 1 - first ≤ fuel →
      (first = t.length - 1 → idx = t.length - 2) →
      searchLoop t off fuel first (t.length - 1) idx = .ok (t.length - 2) := by
  intro fuel
  induction fuel with
  | zero =>
    intro first idx h1 h2 h3
    have e : first = t.length - 1 := by omega
    simp [searchLoop, e, h3 e]
  | succ fuel ih =>
    intro first idx h1 h2 h3
    by_cases e : first = t.length - 1
    · simp [searchLoop, e, h3 e]
    · have hm : (first + (t.length - 1)) / 2 < t.length - 1 := by omega
      have hlt := hs _ _ _ _ hm (List.getElem?_eq_getElem (by omega))
        (List.getElem?_eq_getElem (by omega))
      have hl := hlast (by omega)
      have hnext : t[(first + (t.length - 1)) / 2 + 1].offset ≤ off := by
        by_cases h : (first + (t.length - 1)) / 2 + 1 = t.length - 1
        · simp only [h]; exact hl
        · have := hs _ (t.length - 1) _ _ (by omega : (first + (t.length - 1)) / 2 + 1 < t.length - 1)
            (List.getElem?_eq_getElem (by omega)) (List.getElem?_eq_getElem (by omega))
          omega
      simp only [searchLoop, e, if_false, lineAt_lt (t := t) (i := (first + (t.length - 1)) / 2) (by omega),
        lineAt_lt (t := t) (i := (first + (t.length - 1)) / 2 + 1) (by omega), Res.ok_bind]
      rw [if_neg (by omega), if_neg (by omega), if_neg (by omega)]
      exact ih _ _ (by omega) (by omega) (by omega)

/-- Violation of C41: in every table with at least two entries (and distinct addresses),
after any history, an address at or behind the last entry is given the last entry but
one, which is not the entry it belongs to. -/
theorem C41_violation (t : List LineEntry) (hs : StrictLines t) (hn : 2 ≤ t.length)
    {os : List Nat} {rs : List (Option LineEntry)} {prev : Nat}
    (hist : lookups t 0 os = .ok (rs, prev)) (off : Nat)
    (hoff : ∀ e, t.getLast? = some e → e.offset ≤ off) :
    ∃ e, t[t.length - 2]? = some e ∧ findLine t prev off = .ok (some e, t.length - 2) ∧
      ¬ LineFor t off e := by
  obtain ⟨rs', p', h1, hp⟩ := lookups_hint t os 0 (Or.inr rfl)
  rw [hist] at h1
  injection h1 with h1; injection h1 with _ h1
  subst h1
  have ht : t ≠ [] := by rintro rfl; simp at hn
  have hpl : prev < t.length := by omega
  have hlast : ∀ h : t.length - 1 < t.length, t[t.length - 1].offset ≤ off := by
    intro h
    exact hoff _ (by rw [List.getLast?_eq_getElem?, List.getElem?_eq_getElem h])
  have h2 : t.length - 2 < t.length := by omega
  have hlt := hs (t.length - 2) (t.length - 1) _ _ (by omega) (List.getElem?_eq_getElem h2)
    (List.getElem?_eq_getElem (by omega))
  have hpo : t[prev].offset ≤ off := by
    have := hlast (by omega)
    have := hs prev (t.length - 1) _ _ (by omega) (List.getElem?_eq_getElem hpl)
      (List.getElem?_eq_getElem (by omega))
    omega
  refine ⟨t[t.length - 2], List.getElem?_eq_getElem h2, ?_, ?_⟩
  · simp only [findLine, ht, if_false, lineAt_lt hpl, Res.ok_bind, hpo, if_true]
    rw [search_end t hs off hn hlast t.length prev prev (by omega) (by omega) (by omega)]
    simp only [Res.ok_bind, lineAt_lt h2]
    rw [if_neg]
    have := hlast (by omega)
    omega
  · intro h
    have := h.2.2 t[t.length - 1] (List.getElem_mem _) (hlast (by omega))
    omega

example : findLine lines3 0 25 = .ok (some ⟨2, [97], 10⟩, 1) := rfl

end Pas.Props
