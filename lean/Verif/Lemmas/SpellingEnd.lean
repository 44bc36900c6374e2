import Verif.Lemmas.SpellingFile

/-! Where reading ends: what is spelled does not go on beyond the end of the file. -/
namespace Pas.Src
open Pas.Spec Pas.Tok
open Pas.Comp (Tk Lx)

/-- Empty, or at the end of a line. -/
def AtEnd (f : List Byte) : Prop := f = [] ∨ ∃ u, f = u ++ [10#8]

theorem AtEnd.tail {c : Byte} {f : List Byte} (h : AtEnd (c :: f)) : AtEnd f := by
  rcases h with h | ⟨u, h⟩
  · cases h
  · cases u with
    | nil => injection h with _ h; exact .inl h
    | cons a u => injection h with _ h; exact .inr ⟨u, h⟩

theorem AtEnd.drop {f : List Byte} : ∀ {v : List Byte}, AtEnd (v ++ f) → AtEnd f
  | [], h => h
  | _ :: _, h => AtEnd.drop (AtEnd.tail h)

theorem AtEnd.more {c : Byte} {f : List Byte} (h : AtEnd (c :: f)) (hc : c ≠ 10#8) : f ≠ [] := by
  rintro rfl
  rcases h with h | ⟨u, h⟩
  · cases h
  · cases u with
    | nil => injection h with h _; exact hc h
    | cons a u => injection h with _ h; cases u <;> cases h

theorem AtEnd.mem {f : List Byte} (h : AtEnd f) (hne : f ≠ []) : 10#8 ∈ f := by
  rcases h with h | ⟨u, rfl⟩
  · exact absurd h hne
  · simp

/-- A character that is not in the second part is in the first. -/
theorem in_first {x : Byte} {b B : List Byte} (hx : x ∉ B) : ∀ {a F : List Byte}, a ++ x :: b = F ++ B →
    ∃ F', F = a ++ x :: F' ∧ b = F' ++ B := by
  intro a
  induction a with
  | nil =>
    intro F h
    cases F with
    | nil => exact absurd (by have h : _ = B := h; rw [← h]; simp) hx
    | cons y F => injection h with h1 h2; subst h1; exact ⟨F, rfl, h2⟩
  | cons y a ih =>
    intro F h
    cases F with
    | nil => exact absurd (by have h : _ = B := h; rw [← h]; simp) hx
    | cons z F =>
      injection h with h1 h2; subst h1
      obtain ⟨F', rfl, hb⟩ := ih h2
      exact ⟨F', rfl, hb⟩

/-- The first of its kind is in the first part if there is one. -/
theorem in_first' {x : Byte} {b B : List Byte} : ∀ {a F : List Byte}, a ++ x :: b = F ++ B → x ∉ a → x ∈ F →
    ∃ F', F = a ++ x :: F' ∧ b = F' ++ B := by
  intro a
  induction a with
  | nil =>
    intro F h _ hx
    cases F with
    | nil => cases hx
    | cons y F => injection h with h1 h2; subst h1; exact ⟨F, rfl, h2⟩
  | cons y a ih =>
    intro F h ha hx
    cases F with
    | nil => cases hx
    | cons z F =>
      injection h with h1 h2; subst h1
      obtain ⟨F', rfl, hb⟩ := ih h2 (fun h => ha (by simp [h])) (by
        rcases List.mem_cons.1 hx with h | h
        · exact absurd (by simp [h]) ha
        · exact h)
      exact ⟨F', rfl, hb⟩

/-- What comes after the file: nothing, or a question mark first, and no end of a comment. -/
structure Junk (B : List Byte) : Prop where
  first : B = [] ∨ ∃ B', B = 63#8 :: B'
  brace : 125#8 ∉ B
  star : 42#8 ∉ B

theorem Junk.not_first {B m : List Byte} {b : Byte} (h : Junk B) (e : b :: m = B) : b = 63#8 := by
  rcases h.first with h | ⟨B', h⟩
  · rw [h] at e; cases e
  · rw [h] at e; injection e

theorem gap_inside {B : List Byte} (hB : Junk B) {l : List Byte} (h : Gap l) : ∀ {F m : List Byte}, AtEnd F →
    l ++ m = F ++ B → ∃ m', F = l ++ m' ∧ m = m' ++ B := by
  induction h with
  | nil => intro F m _ e; exact ⟨F, rfl, e⟩
  | blank b hb _ ih =>
    intro F m hF e
    cases F with
    | nil =>
      have := hB.not_first e; subst this
      simp [Blank] at hb
    | cons y F =>
      injection e with e1 e2; subst e1
      obtain ⟨m', rfl, hm⟩ := ih hF.tail e2
      exact ⟨m', rfl, hm⟩
  | high b hb _ ih =>
    intro F m hF e
    cases F with
    | nil =>
      have := hB.not_first e; subst this
      simp at hb
    | cons y F =>
      injection e with e1 e2; subst e1
      obtain ⟨m', rfl, hm⟩ := ih hF.tail e2
      exact ⟨m', rfl, hm⟩
  | @brace body cs hb _ ih =>
    intro F m hF e
    have e' : (123#8 :: body) ++ 125#8 :: (cs ++ m) = F ++ B := by rw [← e]; simp
    obtain ⟨F', rfl, e2⟩ := in_first hB.brace e'
    have : AtEnd F' := AtEnd.drop (v := 123#8 :: body ++ [125#8]) (by simpa using hF)
    obtain ⟨m', rfl, hm⟩ := ih this e2
    exact ⟨m', by simp, hm⟩
  | @paren body cs hb _ ih =>
    intro F m hF e
    have e' : (40#8 :: 42#8 :: body) ++ 42#8 :: (41#8 :: (cs ++ m)) = F ++ B := by rw [← e]; simp
    obtain ⟨F', rfl, e2⟩ := in_first hB.star e'
    have h1 : AtEnd (42#8 :: F') := AtEnd.drop (v := 40#8 :: 42#8 :: body) (by simpa using hF)
    cases F' with
    | nil => exact absurd rfl (h1.more (by decide))
    | cons y F' =>
      injection e2 with e3 e4; subst e3
      obtain ⟨m', rfl, hm⟩ := ih h1.tail.tail e4
      exact ⟨m', by simp, hm⟩
  | @slash body cs hb _ ih =>
    intro F m hF e
    have e' : (47#8 :: 42#8 :: body) ++ 42#8 :: (47#8 :: (cs ++ m)) = F ++ B := by rw [← e]; simp
    obtain ⟨F', rfl, e2⟩ := in_first hB.star e'
    have h1 : AtEnd (42#8 :: F') := AtEnd.drop (v := 47#8 :: 42#8 :: body) (by simpa using hF)
    cases F' with
    | nil => exact absurd rfl (h1.more (by decide))
    | cons y F' =>
      injection e2 with e3 e4; subst e3
      obtain ⟨m', rfl, hm⟩ := ih h1.tail.tail e4
      exact ⟨m', by simp, hm⟩
  | @line body cs hb _ ih =>
    intro F m hF e
    cases F with
    | nil =>
      have := hB.not_first e; cases this
    | cons y F =>
      injection e with e1 e2; subst e1
      cases F with
      | nil => exact absurd rfl (hF.more (by decide))
      | cons y F =>
        injection e2 with e3 e4; subst e3
        have hne := hF.tail.more (by decide)
        have e5 : body ++ 10#8 :: (cs ++ m) = F ++ B := by
          have e4 : (body ++ 10#8 :: cs) ++ m = F ++ B := e4
          rw [← e4]; simp
        obtain ⟨F', rfl, e6⟩ := in_first' e5 hb (hF.tail.tail.mem hne)
        have : AtEnd F' := AtEnd.drop (v := body ++ [10#8]) (by simpa using hF.tail.tail)
        obtain ⟨m', rfl, hm⟩ := ih this e6
        exact ⟨m', by simp, hm⟩

/-! ### The characters of tokens -/

theorem upper_ten : ∀ b : Byte, upper b = 10#8 ↔ b = 10#8 := by decide +kernel
theorem upper_q : ∀ b : Byte, upper b = 63#8 ↔ b = 63#8 := by decide +kernel

theorem same_mem {x : Byte} (hx : ∀ b, upper b = x ↔ b = x) {k w : List Byte} (h : SameName k w) (hm : x ∈ w) : x ∈ k := by
  have : x ∈ w.map upper := List.mem_map.2 ⟨x, hm, (hx x).2 rfl⟩
  rw [← h] at this
  obtain ⟨b, hb, he⟩ := List.mem_map.1 this
  rw [(hx b).1 he] at hb; exact hb

theorem words_clear : ∀ p ∈ words, 10#8 ∉ p.1 ∧ 63#8 ∉ p.1 ∧ p.1 ≠ [] := by decide +kernel
theorem reserved_clear : ∀ k ∈ Names.reserved, 10#8 ∉ k.name ∧ 63#8 ∉ k.name ∧ k.name ≠ [] := by decide +kernel
theorem aliases_clear : ∀ p ∈ Names.aliases, 10#8 ∉ p.1 ∧ 63#8 ∉ p.1 ∧ p.1 ≠ [] := by decide +kernel
theorem symbols_clear : ∀ p ∈ symbols, 10#8 ∉ p.1 ∧ 63#8 ∉ p.1 ∧ p.1 ≠ [] := by decide +kernel

theorem same_ne {k w : List Byte} (h : SameName k w) (hk : k ≠ []) : w ≠ [] := by
  rintro rfl
  have : k.map upper = [] := h
  exact hk (List.map_eq_nil_iff.1 this)

theorem digit_plain {ds : List Byte} (h : ∀ d ∈ ds, Digit d) : 10#8 ∉ ds ∧ 63#8 ∉ ds :=
  ⟨fun hm => absurd (h _ hm) (by simp [Digit]), fun hm => absurd (h _ hm) (by simp [Digit])⟩

theorem scale_plain {sc : List Byte} {e : Int} (h : Scale sc e) : 10#8 ∉ sc ∧ 63#8 ∉ sc := by
  cases h with
  | none => simp
  | plain l ds hl _ hd =>
    have := digit_plain hd
    rcases hl with rfl | rfl <;> simp [this]
  | plus l ds hl _ hd =>
    have := digit_plain hd
    rcases hl with rfl | rfl <;> simp [this]
  | minus l ds hl _ hd =>
    have := digit_plain hd
    rcases hl with rfl | rfl <;> simp [this]

theorem not_doubled {x : Byte} (hx : x ≠ 39#8) {t : List Byte} (h : x ∉ t) : x ∉ doubled t := by
  unfold doubled
  intro hm
  obtain ⟨c, hc, he⟩ := List.mem_flatMap.1 hm
  split at he
  · simp at he; exact hx he
  · simp at he; subst he; exact h hc

/-- Tokens are not empty and do not contain the end of a line; those that begin with a question mark are question marks. -/
theorem token_plain {w : List Byte} {x : Lx} {stop : Byte → Byte → Prop} (h : Token w x stop) :
    w ≠ [] ∧ 10#8 ∉ w ∧ ((∃ w', w = 63#8 :: w') → x = .tk (.other 63)) := by
  cases h with
  | name hid _ =>
    obtain ⟨hall, b, r, hw, _⟩ := hid
    refine ⟨by rw [hw]; simp, fun hm => absurd (hall _ hm) (by simp [IdentChar, Letter, Digit]), ?_⟩
    rintro ⟨w', rfl⟩
    exact absurd (hall 63#8 (by simp)) (by simp [IdentChar, Letter, Digit])
  | word hm hs =>
    obtain ⟨h1, h2, h3⟩ := words_clear _ hm
    refine ⟨same_ne hs h3, fun hm => h1 (same_mem upper_ten hs hm), ?_⟩
    rintro ⟨w', rfl⟩
    exact absurd (same_mem upper_q hs (by simp)) h2
  | otherWord hk hn _ =>
    rcases hn with hs | ⟨p, hp, hs, _⟩
    · obtain ⟨h1, h2, h3⟩ := reserved_clear _ hk
      refine ⟨same_ne hs h3, fun hm => h1 (same_mem upper_ten hs hm), ?_⟩
      rintro ⟨w', rfl⟩
      exact absurd (same_mem upper_q hs (by simp)) h2
    · obtain ⟨h1, h2, h3⟩ := aliases_clear _ hp
      refine ⟨same_ne hs h3, fun hm => h1 (same_mem upper_ten hs hm), ?_⟩
      rintro ⟨w', rfl⟩
      exact absurd (same_mem upper_q hs (by simp)) h2
  | symbol hm =>
    obtain ⟨h1, h2, h3⟩ := symbols_clear _ hm
    refine ⟨h3, h1, ?_⟩
    rintro ⟨w', rfl⟩
    exact absurd (by simp) h2
  | @other b hb =>
    refine ⟨by simp, ?_, ?_⟩
    · intro hm
      rw [List.mem_singleton] at hm
      subst hm; simp at hb
    · rintro ⟨w', he⟩
      injection he with he _
      rw [he]; rfl
  | number hne hd _ =>
    obtain ⟨h1, h2⟩ := digit_plain hd
    refine ⟨hne, h1, ?_⟩
    rintro ⟨w', rfl⟩
    exact absurd (by simp) h2
  | @hex ds hne hd _ =>
    refine ⟨by simp, ?_, ?_⟩
    · intro hm
      rcases List.mem_cons.1 hm with h | h
      · cases h
      · exact absurd (hd _ h) (by decide)
    · rintro ⟨w', he⟩; injection he with he _; cases he
  | percent =>
    refine ⟨by simp, by decide, ?_⟩
    rintro ⟨w', he⟩; injection he with he _; cases he
  | real hr =>
    cases hr with
    | point ds fs sc e hd hf hne hs =>
      obtain ⟨h1, h2⟩ := digit_plain hd
      obtain ⟨h3, h4⟩ := digit_plain hf
      obtain ⟨h5, h6⟩ := scale_plain hs
      refine ⟨by simp, by simp [h1, h3, h5], ?_⟩
      rintro ⟨w', he⟩
      have : 63#8 ∈ ds ++ 46#8 :: (fs ++ sc) := by rw [he]; simp
      simp [h2, h4, h6] at this
    | whole ds sc e hd hne hs _ =>
      obtain ⟨h1, h2⟩ := digit_plain hd
      obtain ⟨h5, h6⟩ := scale_plain hs
      refine ⟨by simp [hne], by simp [h1, h5], ?_⟩
      rintro ⟨w', he⟩
      have : 63#8 ∈ ds ++ sc := by rw [he]; simp
      simp [h2, h6] at this
  | @char b hb =>
    rw [quoted_eq]
    refine ⟨by simp, ?_, ?_⟩
    · have := not_doubled (x := 10#8) (by decide) (t := [b]) (by simpa using fun h => hb h.symm)
      simp [this]
    · rintro ⟨w', he⟩; injection he with he _; cases he
  | string hl hn =>
    rw [quoted_eq]
    refine ⟨by simp, ?_, ?_⟩
    · have := not_doubled (x := 10#8) (by decide) hn
      simp [this]
    · rintro ⟨w', he⟩; injection he with he _; cases he

theorem spelled_inside {B : List Byte} (hB : Junk B) {cs : List Byte} {xs : List Lx} (h : Spelled cs xs) :
    ∀ {F : List Byte}, AtEnd F → cs = F ++ B →
    ∃ ys zs, xs = ys ++ zs ∧ Spelled (F ++ [63#8]) ys ∧ (zs = [] ∨ ∃ zs', zs = .tk (.other 63) :: zs') := by
  induction h with
  | nil => intro F _ _; exact ⟨[], [], rfl, .nil, .inl rfl⟩
  | @cons l w x stop c c' t xs hl ht hs hrest ih =>
    intro F hF e
    obtain ⟨m', rfl, hm⟩ := gap_inside hB hl hF e
    have hm' : AtEnd m' := hF.drop
    obtain ⟨hne, h10, hq⟩ := token_plain ht
    cases m' with
    | nil =>
      obtain ⟨a, w', rfl⟩ : ∃ a w', w = a :: w' := by cases w <;> simp at hne ⊢
      have := hB.not_first hm
      subst this
      exact ⟨[], x :: xs, rfl, .nil, .inr ⟨xs, by rw [hq ⟨_, rfl⟩]⟩⟩
    | cons y m =>
      have hmem := hm'.mem (by simp)
      -- the token ends before the end of the line
      obtain ⟨m2, h2⟩ : ∃ m2, y :: m = w ++ c :: m2 := by
        have gen : ∀ (w M : List Byte), w ++ c :: c' :: t = M ++ B → 10#8 ∉ w → 10#8 ∈ M → ∃ m2, M = w ++ c :: m2 := by
          intro w
          induction w with
          | nil =>
            intro M e _ hM
            cases M with
            | nil => cases hM
            | cons z M => injection e with e1 _; subst e1; exact ⟨M, rfl⟩
          | cons z w ihw =>
            intro M e hw hM
            cases M with
            | nil => cases hM
            | cons z' M =>
              injection e with e1 e2; subst e1
              obtain ⟨m2, rfl⟩ := ihw M e2 (fun h => hw (by simp [h])) (by
                rcases List.mem_cons.1 hM with h | h
                · exact absurd (by simp [h]) hw
                · exact h)
              exact ⟨m2, rfl⟩
        exact gen w _ hm h10 hmem
      rw [h2] at hm hm' ⊢
      have hF2 : AtEnd (c :: m2) := hm'.drop
      have e2 : c :: c' :: t = (c :: m2) ++ B := by
        have : w ++ (c :: c' :: t) = w ++ ((c :: m2) ++ B) := by rw [hm]; simp
        exact List.append_cancel_left this
      obtain ⟨ys, zs, rfl, hys, hzs⟩ := ih hF2 e2
      refine ⟨x :: ys, zs, rfl, ?_, hzs⟩
      obtain ⟨t2, h3⟩ : ∃ t2, m2 ++ [63#8] = c' :: t2 := by
        injection e2 with _ e3
        cases m2 with
        | nil =>
          have := hB.not_first e3
          subst this; exact ⟨[], rfl⟩
        | cons z m2 => injection e3 with e3 _; subst e3; exact ⟨_, rfl⟩
      have hys : Spelled (c :: c' :: t2) ys := by
        rw [List.cons_append, h3] at hys; exact hys
      have : l ++ (w ++ c :: m2) ++ [63#8] = l ++ (w ++ c :: c' :: t2) := by
        rw [← h3]; simp
      rw [this]
      exact .cons hl ht hs hys

theorem afterEnd_junk {lines : List (List Byte)} (h1 : 125#8 ∉ lines.getLastD []) (h2 : 42#8 ∉ lines.getLastD []) (k : Nat) :
    Junk (afterEnd lines k) := by
  unfold afterEnd
  refine ⟨?_, ?_, ?_⟩
  · cases k with
    | zero => exact .inl rfl
    | succ k => rw [List.replicate_succ, List.flatten_cons]; exact .inr ⟨_, rfl⟩
  · intro hm
    obtain ⟨l, hl, hx⟩ := List.mem_flatten.1 hm
    rw [List.eq_of_mem_replicate hl] at hx
    simp only [List.mem_cons, List.mem_append, List.not_mem_nil, or_false] at hx
    rcases hx with hx | hx | hx
    · cases hx
    · exact h1 hx
    · cases hx
  · intro hm
    obtain ⟨l, hl, hx⟩ := List.mem_flatten.1 hm
    rw [List.eq_of_mem_replicate hl] at hx
    simp only [List.mem_cons, List.mem_append, List.not_mem_nil, or_false] at hx
    rcases hx with hx | hx | hx
    · cases hx
    · exact h2 hx
    · cases hx

theorem textFile_end {file : List Byte} {lines : List (List Byte)} (h : TextFile file lines) : AtEnd file := by
  rw [h.file]
  have : ∀ ls : List (List Byte), AtEnd (ls.flatMap fun l => l ++ [10#8]) := by
    intro ls
    induction ls with
    | nil => exact .inl rfl
    | cons l ls ih =>
      rw [List.flatMap_cons]
      rcases ih with ih | ⟨u, ih⟩
      · rw [ih, List.append_nil]; exact .inr ⟨l, rfl⟩
      · rw [ih]; exact .inr ⟨l ++ [10#8] ++ u, by simp⟩
  exact this lines

end Pas.Src
