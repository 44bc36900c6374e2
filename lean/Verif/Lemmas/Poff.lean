import Verif.Spec.Poff
/-! Lemmas about the string table. -/
namespace Pas.Poff
open Pas.Spec

/-- A table as the concatenation of its terminated strings. -/
def encStrs (l : List (List Byte)) : List Byte := l.flatMap (· ++ [0#8])

theorem encStrs_cons (s : List Byte) (l : List (List Byte)) :
    encStrs (s :: l) = s ++ 0#8 :: encStrs l := by
  simp [encStrs]

theorem encStrs_append (a b : List (List Byte)) :
    encStrs (a ++ b) = encStrs a ++ encStrs b := by
  simp [encStrs]

theorem cstr_spec {s : List Byte} (h : IsCStr s) (r : List Byte) :
    cstr (s ++ 0#8 :: r) = .ok s := by
  induction s with
  | nil => simp [cstr]
  | cons b s ih =>
    have hb : b ≠ 0#8 := fun e => h (by simp [e])
    have hs : IsCStr s := fun e => h (List.mem_cons_of_mem _ e)
    simp only [List.cons_append, cstr, hb, if_false, ih hs, Res.ok_bind]

theorem findLoop_spec {s : List Byte} :
    ∀ (l : List (List Byte)) (fuel off : Nat), (∀ x ∈ l, IsCStr x) →
      (encStrs l).length ≤ fuel →
      findLoop s fuel (encStrs l) off
        = .ok (if s ∈ l then some (off + (encStrs (l.takeWhile (fun x => decide (x ≠ s)))).length) else none) := by
  intro l
  induction l with
  | nil => intro fuel off _ _; simp [encStrs, findLoop]
  | cons x l ih =>
    intro fuel off hc hf
    have hx : IsCStr x := hc x (by simp)
    rw [encStrs_cons] at hf ⊢
    obtain ⟨b, bs, hb⟩ : ∃ b bs, x ++ 0#8 :: encStrs l = b :: bs := by
      cases x <;> simp
    cases fuel with
    | zero => simp at hf
    | succ fuel =>
      have hstep : findLoop s (fuel + 1) (x ++ 0#8 :: encStrs l) off
          = (if x = s then .ok (some off)
             else findLoop s fuel (encStrs l) (off + x.length + 1)) := by
        rw [hb]
        show (do let t ← cstr (b :: bs); _) = _
        rw [← hb, cstr_spec hx]
        simp only [Res.ok_bind]
        have : (x ++ 0#8 :: encStrs l).drop (x.length + 1) = encStrs l := by
          rw [List.drop_append]; simp
        rw [this]
      rw [hstep]
      by_cases hxs : x = s
      · simp [hxs, encStrs]
      · rw [if_neg hxs, ih fuel _ (fun y hy => hc y (by simp [hy])) (by simp at hf; omega)]
        by_cases hm : s ∈ l
        · have : s ∈ x :: l := by simp [hm]
          rw [if_pos hm, if_pos this]
          simp [List.takeWhile_cons, hxs, encStrs_cons]; omega
        · have : s ∉ x :: l := by simp [hm, Ne.symm hxs]
          rw [if_neg hm, if_neg this]

/-- Shape of every table built by additions: the concatenation of strings, the first of
which is empty. -/
def Table (t : List Byte) (l : List (List Byte)) : Prop :=
  t = encStrs l ∧ [] ∈ l.head? ∧ ∀ x ∈ l, IsCStr x

theorem table_init : Table [0#8] [[]] := by
  refine ⟨by simp [encStrs], by simp, ?_⟩
  intro x hx; simp at hx; simp [hx, IsCStr]

/-- Offset of a string in a table. -/
def offOf (l : List (List Byte)) (s : List Byte) : Nat :=
  (encStrs (l.takeWhile (fun x => decide (x ≠ s)))).length

theorem offOf_nil {t : List Byte} {l} (h : Table t l) : offOf l [] = 0 := by
  obtain ⟨_, h0, _⟩ := h
  cases l with
  | nil => simp at h0
  | cons x l => simp at h0; simp [offOf, h0, encStrs]

theorem offOf_denotes {l : List (List Byte)} {s} (h : s ∈ l) : Denotes (encStrs l) (offOf l s) s := by
  induction l with
  | nil => simp at h
  | cons x l ih =>
    by_cases e : x = s
    · refine ⟨[], encStrs l, ?_, ?_⟩
      · simp [encStrs_cons, e]
      · simp [offOf, e, encStrs]
    · have hm : s ∈ l := by
        rcases List.mem_cons.mp h with h | h
        · exact absurd h.symm e
        · exact h
      obtain ⟨pre, post, h1, h2⟩ := ih hm
      refine ⟨x ++ 0#8 :: pre, post, ?_, ?_⟩
      · rw [encStrs_cons, h1]; simp
      · simp only [offOf, List.takeWhile_cons, ne_eq, e, not_false_eq_true, decide_true,
          if_true, encStrs_cons] at *
        simp [h2]

theorem offOf_append {l : List (List Byte)} {s} (h : s ∈ l) (m) : offOf (l ++ m) s = offOf l s := by
  induction l with
  | nil => simp at h
  | cons x l ih =>
    by_cases e : x = s
    · simp [offOf, e]
    · have hm : s ∈ l := by
        rcases List.mem_cons.mp h with h | h
        · exact absurd h.symm e
        · exact h
      have := ih hm
      simp only [offOf, List.cons_append, List.takeWhile_cons, ne_eq, e, not_false_eq_true,
        decide_true, if_true, encStrs_cons, List.length_append, List.length_cons] at *
      omega

theorem offOf_last {l : List (List Byte)} {s} (h : s ∉ l) : offOf (l ++ [s]) s = (encStrs l).length := by
  induction l with
  | nil => simp [offOf, encStrs]
  | cons x l ih =>
    have e : x ≠ s := fun e => h (by simp [e])
    have hm : s ∉ l := fun e => h (by simp [e])
    have := ih hm
    simp only [offOf, List.cons_append, List.takeWhile_cons, ne_eq, e, not_false_eq_true,
      decide_true, if_true, encStrs_cons, List.length_append, List.length_cons] at *
    omega

/-- Effect of one addition. -/
theorem addString_spec {t : List Byte} {l} (h : Table t l) (s : List Byte) (hs : IsCStr s) :
    ∃ l', Table (encStrs l') l' ∧ addString (some t) (some s) = .ok (offOf l' s, encStrs l') ∧
      s ∈ l' ∧ (∃ m, l' = l ++ m) ∧ (s ∈ l → l' = l) := by
  obtain ⟨h1, h2, h3⟩ := h
  have hf : findString (some t) (some s)
      = .ok (if s ∈ l then some (0 + offOf l s) else none) := by
    show findLoop s t.length t 0 = _
    rw [h1]; exact findLoop_spec l _ 0 h3 (Nat.le_refl _)
  by_cases hm : s ∈ l
  · refine ⟨l, ⟨rfl, h2, h3⟩, ?_, hm, ⟨[], by simp⟩, fun _ => rfl⟩
    simp only [addString, Option.getD_some, hf, Res.ok_bind]
    simp [hm, h1]
  · have hne : s.length ≠ 0 := by
      intro e
      apply hm
      have : s = [] := List.length_eq_zero_iff.mp e
      subst this
      cases l with
      | nil => simp at h2
      | cons x l => simp at h2; simp [h2]
    refine ⟨l ++ [s], ⟨rfl, ?_, ?_⟩, ?_, by simp, ⟨[s], rfl⟩, fun e => absurd e hm⟩
    · cases l with
      | nil => simp at h2
      | cons x l => simpa using h2
    · intro x hx
      rcases List.mem_append.mp hx with hx | hx
      · exact h3 x hx
      · simp at hx; exact hx ▸ hs
    · simp only [addString, Option.getD_some, hf, if_neg hm, Res.ok_bind, if_neg hne]
      rw [offOf_last hm, encStrs_append, h1]
      simp [encStrs]

/-- Adding a NULL string gives index zero and leaves the table alone. -/
theorem addString_null (t : List Byte) : addString (some t) none = .ok (0, t) := by
  simp [addString, findString]

theorem addString_fresh (s : Option (List Byte)) : addString none s = addString (some [0#8]) s := rfl

theorem getString_denotes {t i s} (h : Denotes t i s) (hs : IsCStr s) :
    getString (some t) i = .ok s := by
  obtain ⟨pre, post, h1, h2⟩ := h
  have : i < t.length := by rw [h1]; simp; omega
  simp only [getString, this, if_true]
  rw [h1, ← h2]
  rw [List.drop_left, cstr_spec hs]

theorem denotes_append {t i s} (h : Denotes t i s) (u) : Denotes (t ++ u) i s := by
  obtain ⟨pre, post, h1, h2⟩ := h
  exact ⟨pre, post ++ u, by rw [h1]; simp, h2⟩

end Pas.Poff
