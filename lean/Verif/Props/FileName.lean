import Verif.Model.FileName
import Verif.Spec.FileName

/-! C51: file names. -/

namespace Pas

open Pas.FileName Pas.Spec

theorem strrchr_none {c : Byte} {s : List Byte} (h : c ∉ s) : strrchr c s = none := by
  induction s with
  | nil => rfl
  | cons x xs ih =>
    simp at h
    rw [strrchr, ih h.2]
    simp [Ne.symm h.1]

theorem strrchr_split (c : Byte) (a b : List Byte) (h : c ∉ b) :
    strrchr c (a ++ c :: b) = some (c :: b) := by
  induction a with
  | nil => simp [strrchr, strrchr_none h]
  | cons x xs ih => rw [List.cons_append, strrchr, ih]

theorem cstring_append {a b : List Byte} (h : 0#8 ∉ a) : cstring (a ++ 0#8 :: b) = a := by
  unfold cstring
  rw [List.takeWhile_append_of_pos (by intro x hx; simp; rintro rfl; exact h hx)]
  simp

/-- C51: the name asked for is written with its terminator into the buffer if it fits, and nothing
is written beyond the buffer; otherwise the function reports that it does not fit.  Names have no
period in the directory part, see `C51_violation`. -/
theorem C51_extension_partial (path dir file stem ext : List Byte) (old : Option (List Byte))
    (size : Nat) (force : Bool) (hp : IsPath path dir file) (hf : IsFile file stem old)
    (hdot : 46#8 ∉ dir) (hz : 0#8 ∉ path) (hze : 0#8 ∉ ext) :
    match extension path ext size force with
    | none => size < (newName dir stem old ext force).length + 1
    | some out => (newName dir stem old ext force).length + 1 ≤ out.length ∧ out.length ≤ size ∧
        cstring out = newName dir stem old ext force := by
  obtain ⟨rfl, _, _⟩ := hp
  cases hf with
  | plain h =>
    have hn : 46#8 ∉ dir ++ file := by simp [hdot, h]
    unfold extension
    rw [strrchr_none hn]
    simp only [Option.isSome_none, Bool.false_and, Bool.false_eq_true, if_false, newName]
    by_cases hc : (dir ++ file).length + ext.length + 2 > size
    · rw [if_pos (by exact hc)]; simp at hc ⊢; omega
    · rw [if_neg (by exact hc), copyLength]
      simp only [List.length_append, List.take_length] at hc ⊢
      rw [List.take_of_length_le (l := ext ++ [0#8]) (by simp)]
      refine ⟨by simp; omega, by simp; omega, ?_⟩
      rw [← List.length_append, List.take_length]
      rw [show dir ++ file ++ [46#8] ++ (ext ++ [0#8]) = (dir ++ file ++ 46#8 :: ext) ++ 0#8 :: [] by simp]
      apply cstring_append
      simp at hz ⊢
      exact ⟨hz.1, hz.2, hze⟩
  | dotted stem e h =>
    unfold extension
    rw [show dir ++ (stem ++ 46#8 :: e) = (dir ++ stem) ++ 46#8 :: e by simp, strrchr_split _ _ _ h]
    simp only [Option.isSome_some, Bool.true_and, newName]
    cases force with
    | false =>
      simp only [Bool.not_false, if_true, Bool.false_eq_true, if_false]
      by_cases hc : (dir ++ stem ++ 46#8 :: e).length + 1 > size
      · rw [if_pos hc]; simp at hc ⊢; omega
      · rw [if_neg hc]
        simp only [strncpy]
        have hl : (dir ++ stem ++ 46#8 :: e).length + 1 ≤ size := by omega
        generalize hw : dir ++ stem ++ 46#8 :: e = w at *
        have hz' : 0#8 ∉ w := by rw [← hw]; simpa using hz
        obtain ⟨k, hk⟩ : ∃ k, size - w.length = k + 1 := ⟨size - w.length - 1, by omega⟩
        rw [hk, List.replicate_succ, List.take_of_length_le (by simp; omega)]
        exact ⟨by simp, by simp; omega, cstring_append hz'⟩
    | true =>
      simp only [Bool.not_true, Bool.false_eq_true, if_false, if_true]
      have hlen : (dir ++ stem ++ 46#8 :: e).length - (46#8 :: e).length = (dir ++ stem).length := by
        simp; omega
      rw [copyLength, hlen]
      by_cases hc : (dir ++ stem).length + ext.length + 2 > size
      · rw [if_pos hc]; simp at hc ⊢; omega
      · rw [if_neg hc]
        rw [List.take_left, List.take_of_length_le (by simp)]
        refine ⟨by simp; omega, by simp at hc ⊢; omega, ?_⟩
        rw [show dir ++ stem ++ [46#8] ++ (ext ++ [0#8]) = (dir ++ stem ++ 46#8 :: ext) ++ 0#8 :: [] by simp]
        apply cstring_append
        simp at hz ⊢
        exact ⟨hz.1, hz.2.1, hze⟩

/-- Non-vacuity: `d/a.b.pas` is a path whose extension can be replaced. -/
example : IsPath [100#8, 47#8, 97#8, 46#8, 98#8, 46#8, 112#8] [100#8, 47#8] [97#8, 46#8, 98#8, 46#8, 112#8] ∧
    IsFile [97#8, 46#8, 98#8, 46#8, 112#8] [97#8, 46#8, 98#8] (some [112#8]) ∧
    extension [100#8, 47#8, 97#8, 46#8, 98#8, 46#8, 112#8] [111#8] 8 true =
      some [100#8, 47#8, 97#8, 46#8, 98#8, 46#8, 111#8, 0#8] :=
  ⟨⟨rfl, .inr ⟨[100#8], rfl⟩, by simp⟩, .dotted [97#8, 46#8, 98#8] [112#8] (by simp), by decide⟩

/-- C51: whatever the name, and wherever its periods are, the buffer is not overrun and what is in it
is terminated. -/
theorem C51_bounds (path ext out : List Byte) (size : Nat) (force : Bool)
    (h : extension path ext size force = some out) : out.length ≤ size ∧ 0#8 ∈ out := by
  unfold extension at h
  simp only at h
  split at h
  · split at h
    · cases h
    · rename_i hc
      cases h
      obtain ⟨k, hk⟩ : ∃ k, size - path.length = k + 1 := ⟨size - path.length - 1, by omega⟩
      refine ⟨by simp [strncpy]; omega, ?_⟩
      rw [strncpy, List.take_of_length_le (by simp; omega), hk, List.replicate_succ]
      simp
  · split at h
    · cases h
    · rename_i hc
      cases h
      rw [List.take_of_length_le (l := ext ++ [0#8]) (by simp)]
      refine ⟨?_, by simp⟩
      simp only [List.length_append, List.length_take, List.length_cons, List.length_nil]
      omega

/-- C51 fails when only the directory part has a period: forcing an extension on `a.b/c` cuts the
name at the period of the directory, and without forcing none is appended. -/
theorem C51_violation :
    IsPath [97#8, 46#8, 98#8, 47#8, 99#8] [97#8, 46#8, 98#8, 47#8] [99#8] ∧
    IsFile [99#8] [99#8] none ∧
    newName [97#8, 46#8, 98#8, 47#8] [99#8] none [111#8] true =
      [97#8, 46#8, 98#8, 47#8, 99#8, 46#8, 111#8] ∧
    (extension [97#8, 46#8, 98#8, 47#8, 99#8] [111#8] 80 true).map cstring =
      some [97#8, 46#8, 111#8] ∧
    (extension [97#8, 46#8, 98#8, 47#8, 99#8] [111#8] 80 false).map cstring =
      some [97#8, 46#8, 98#8, 47#8, 99#8] :=
  ⟨⟨rfl, .inr ⟨[97#8, 46#8, 98#8], rfl⟩, by simp⟩, .plain (by simp), rfl, by decide, by decide +kernel⟩

/-- C51: the base name of a path is its file part. -/
theorem C51_basename (path dir file : List Byte) (h : IsPath path dir file) :
    pbasename path = file := by
  obtain ⟨rfl, hd, hf⟩ := h
  unfold pbasename
  rcases hd with rfl | ⟨d, rfl⟩
  · rw [List.nil_append, strrchr_none hf]
  · rw [List.append_assoc, List.singleton_append, strrchr_split _ _ _ hf]
    rfl

/-- Every path has such parts. -/
theorem C51_parts (path : List Byte) : ∃ dir file, IsPath path dir file := by
  induction path with
  | nil => exact ⟨[], [], rfl, .inl rfl, by simp⟩
  | cons x xs ih =>
    obtain ⟨dir, file, rfl, hd, hf⟩ := ih
    by_cases hx : x = 47#8
    · subst hx
      refine ⟨47#8 :: dir, file, rfl, .inr ?_, hf⟩
      rcases hd with rfl | ⟨d, rfl⟩
      · exact ⟨[], rfl⟩
      · exact ⟨47#8 :: d, rfl⟩
    · rcases hd with rfl | ⟨d, rfl⟩
      · exact ⟨[], x :: file, rfl, .inl rfl, by simp [Ne.symm hx, hf]⟩
      · exact ⟨x :: (d ++ [47#8]), file, rfl, .inr ⟨x :: d, rfl⟩, hf⟩

end Pas
