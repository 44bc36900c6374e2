import Verif.Lemmas.Poff
/-! C39: the string table of object files. -/
namespace Pas.Props
open Pas.Poff Pas.Spec

theorem addAll_spec {t : List Byte} {l} (h : Table t l) :
    ∀ (ss : List (Option (List Byte))), (∀ s, some s ∈ ss → IsCStr s) →
      ∀ (tab : Option (List Byte)), tab.getD [0#8] = t → (tab = none → ss ≠ []) →
      ∃ is l', Table (encStrs l') l' ∧ addAll tab ss = .ok (is, some (encStrs l')) ∧
        (∃ m, l' = l ++ m) ∧ is = ss.map (fun s => offOf l' (textOf s)) ∧
        ∀ s ∈ ss, textOf s ∈ l' := by
  intro ss
  induction ss generalizing t l with
  | nil =>
    intro _ tab ht hn
    cases tab with
    | none => exact absurd rfl (hn rfl)
    | some u =>
      simp at ht; subst ht
      refine ⟨[], l, ?_, ?_, ⟨[], by simp⟩, rfl, by simp⟩
      · exact h.1 ▸ h
      · rw [← h.1]; rfl
  | cons s ss ih =>
    intro hs tab ht _
    have hnil : ∀ {l : List (List Byte)} {t}, Table t l → [] ∈ l := by
      intro l t h
      cases l with
      | nil => simp [Table] at h
      | cons x l => have := h.2.1; simp at this; simp [this]
    obtain ⟨l1, hl1, hadd, hmem, ⟨m1, hm1⟩⟩ :
        ∃ l1, Table (encStrs l1) l1 ∧
          addString tab s = .ok (offOf l1 (textOf s), encStrs l1) ∧ textOf s ∈ l1 ∧
          (∃ m, l1 = l ++ m) := by
      have e : addString tab s = addString (some t) s := by
        cases tab with
        | none => simp at ht; subst ht; rfl
        | some u => simp at ht; rw [ht]
      rw [e]
      cases s with
      | none =>
        refine ⟨l, h.1 ▸ h, ?_, ?_, ⟨[], by simp⟩⟩
        · rw [addString_null]; simp [textOf, offOf_nil h, h.1]
        · exact hnil h
      | some s =>
        obtain ⟨l', a, b, c, d, _⟩ := addString_spec h s (hs s (by simp))
        exact ⟨l', a, b, c, d⟩
    obtain ⟨is, l', a, b, ⟨m, hm⟩, d, f⟩ :=
      ih hl1 (fun x hx => hs x (by simp [hx])) (some (encStrs l1)) rfl (by simp)
    refine ⟨offOf l1 (textOf s) :: is, l', a, ?_, ⟨m1 ++ m, by rw [hm, hm1]; simp⟩, ?_, ?_⟩
    · simp [addAll, hadd, b]
    · rw [List.map_cons, ← d, hm, offOf_append hmem]
    · intro x hx
      rcases List.mem_cons.mp hx with rfl | hx
      · rw [hm]; simp [hmem]
      · exact f x hx

/-- After any history of additions to a new table, every index handed out denotes the
string it was handed out for. -/
theorem C39_history (ss : List (Option (List Byte))) (hs : ∀ s, some s ∈ ss → IsCStr s) :
    ∃ is tab, addAll none ss = .ok (is, tab) ∧ is.length = ss.length ∧
      ∀ (k : Nat) i s, is[k]? = some i → ss[k]? = some s →
        getString tab i = .ok (textOf s) := by
  cases hss : ss with
  | nil => exact ⟨[], none, rfl, rfl, by simp⟩
  | cons s0 rest =>
    rw [← hss]
    obtain ⟨is, l', a, b, _, d, f⟩ := addAll_spec table_init ss hs none rfl (by simp [hss])
    refine ⟨is, _, b, by simp [d], ?_⟩
    intro k i s hi hk
    rw [d, List.getElem?_map, hk] at hi
    simp at hi
    have hm := f s (List.mem_of_getElem? hk)
    rw [← hi]
    exact getString_denotes (offOf_denotes hm) (a.2.2 _ hm)

example : ∃ is tab, addAll none [some [65, 66], none, some [66], some [65, 66]] = .ok (is, tab)
    ∧ is = [1, 0, 4, 1] := ⟨_, _, rfl, rfl⟩

/-- Whatever is added later, indices handed out earlier keep denoting their strings. -/
theorem C39_forever (ss more : List (Option (List Byte)))
    (hs : ∀ s, some s ∈ ss → IsCStr s) (hm : ∀ s, some s ∈ more → IsCStr s)
    {is js : List Nat} {tab tab' : Option (List Byte)}
    (h : addAll none ss = .ok (is, tab)) (h' : addAll tab more = .ok (js, tab')) :
    ∀ (k : Nat) i s, is[k]? = some i → ss[k]? = some s →
      getString tab' i = .ok (textOf s) := by
  intro k i s hi hk
  have hne : ss ≠ [] := by rintro rfl; simp at hk
  obtain ⟨is1, l1, a, b, _, d, f⟩ := addAll_spec table_init ss hs none rfl (fun _ => hne)
  rw [h] at b
  injection b with b; injection b with b1 b2
  subst b1 b2
  obtain ⟨is2, l2, a2, b2, ⟨m, hm2⟩, _, _⟩ := addAll_spec a more hm (some (encStrs l1)) rfl (by simp)
  rw [h'] at b2
  injection b2 with b2; injection b2 with b1 b2
  subst b1 b2
  rw [d, List.getElem?_map, hk] at hi
  simp at hi
  have hmem := f s (List.mem_of_getElem? hk)
  rw [← hi, ← offOf_append hmem m, ← hm2]
  have : textOf s ∈ l2 := by rw [hm2]; simp [hmem]
  exact getString_denotes (offOf_denotes this) (a2.2.2 _ this)

example : ∃ is tab js tab', addAll none [some [65], some [66]] = .ok (is, tab) ∧
    addAll tab [some [67, 65], some [66]] = .ok (js, tab') ∧ js = [5, 3] :=
  ⟨_, _, _, _, rfl, rfl, rfl⟩

/-- Adding a string that is already in the table returns the index handed out before and
leaves the table as it is. -/
theorem C39_again (ss : List (Option (List Byte))) (hs : ∀ s, some s ∈ ss → IsCStr s)
    {is : List Nat} {tab : Option (List Byte)} (h : addAll none ss = .ok (is, tab))
    {k i : Nat} {s : Option (List Byte)} (hi : is[k]? = some i) (hk : ss[k]? = some s) :
    ∃ t, tab = some t ∧ addString tab s = .ok (i, t) := by
  have hne : ss ≠ [] := by rintro rfl; simp at hk
  obtain ⟨is1, l1, a, b, _, d, f⟩ := addAll_spec table_init ss hs none rfl (fun _ => hne)
  rw [h] at b
  injection b with b; injection b with b1 b2
  subst b1 b2
  refine ⟨encStrs l1, rfl, ?_⟩
  rw [d, List.getElem?_map, hk] at hi
  simp at hi
  have hmem := f s (List.mem_of_getElem? hk)
  cases s with
  | none => rw [addString_null, ← hi]; simp [textOf, offOf_nil a]
  | some s =>
    obtain ⟨l', _, c2, _, _, c5⟩ := addString_spec a s (hs s (List.mem_of_getElem? hk))
    rw [c2, c5 hmem, ← hi]; rfl

example : ∃ is tab t, addAll none [some [65, 66], some [66]] = .ok (is, tab) ∧ tab = some t ∧
    addString tab (some [66]) = .ok (4, t) := ⟨_, _, _, rfl, rfl, rfl⟩

end Pas.Props
