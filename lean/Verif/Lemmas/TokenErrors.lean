import Verif.Lemmas.SourceText

/-! The tokenizer never takes back an error. -/
namespace Pas.Tok
open Pas.Spec Pas.Names

theorem push_errors {s r : State} {c : Byte} (h : s.push c = .ok r) : r.errors = s.errors := by
  unfold State.push at h; split at h <;> cases h; rfl

theorem scan_errors {s r : State} {f : List Byte → Nat} (h : s.scan f = .ok r) : r.errors = s.errors := by
  unfold State.scan at h
  split at h
  · cases h; rfl
  · split at h <;> cases h; rfl

theorem takeWhile_errors {p : Byte → Bool} : ∀ {n : Nat} {s r : State}, takeWhile p n s = .ok r → r.errors = s.errors
  | 0, _, _, h => by cases h
  | n + 1, s, r, h => by
    unfold takeWhile at h
    split at h
    · simp only [Res.bind_eq_ok] at h
      obtain ⟨t, h1, h2⟩ := h
      rw [takeWhile_errors h2]; exact (push_errors h1 :)
    · cases h; rfl

theorem skipSpace_errors : ∀ {n : Nat} {s r : State}, skipSpace n s = .ok r → r.errors = s.errors
  | 0, _, _, h => by cases h
  | n + 1, s, r, h => by
    unfold skipSpace at h
    split at h
    · rw [skipSpace_errors h]; rfl
    · cases h; rfl

theorem braceLoop_errors : ∀ {n : Nat} {s r : State}, braceLoop n s = .ok r → r.errors = s.errors
  | 0, _, _, h => by cases h
  | n + 1, s, r, h => by
    unfold braceLoop at h
    dsimp only at h
    split at h
    · rw [braceLoop_errors h]; rfl
    · cases h; rfl

theorem starLoop_errors {c : Byte} : ∀ {n : Nat} {l : Byte} {s r : State}, starLoop c n l s = .ok r → r.errors = s.errors
  | 0, _, _, _, h => by cases h
  | n + 1, l, s, r, h => by
    unfold starLoop at h
    dsimp only at h
    split at h
    · cases h; rfl
    · rw [starLoop_errors h]; rfl

theorem hexLoop_errors : ∀ {n : Nat} {s r : State}, hexLoop n s = .ok r → r.errors = s.errors
  | 0, _, _, h => by cases h
  | n + 1, s, r, h => by
    unfold hexLoop at h
    dsimp only at h
    split at h
    · simp only [Res.bind_eq_ok] at h
      obtain ⟨t, h1, h2⟩ := h
      rw [hexLoop_errors h2]; exact (push_errors h1 :)
    · split at h
      · simp only [Res.bind_eq_ok] at h
        obtain ⟨t, h1, h2⟩ := h
        rw [hexLoop_errors h2]; exact (push_errors h1 :)
      · split at h
        · simp only [Res.bind_eq_ok] at h
          obtain ⟨t, h1, h2⟩ := h
          rw [hexLoop_errors h2]; exact (push_errors h1 :)
        · cases h; rfl

theorem stringLoop_errors : ∀ {n : Nat} {k : Word} {s : State} {r : Word × State}, stringLoop n k s = .ok r →
    s.errors ≤ r.2.errors
  | 0, _, _, _, h => by cases h
  | n + 1, k, s, r, h => by
    unfold stringLoop at h
    dsimp only at h
    split at h
    · split at h
      · simp only [Res.bind_eq_ok] at h
        obtain ⟨t, h1, h2⟩ := h
        have := (stringLoop_errors h2 :)
        have h1 := (push_errors h1 :)
        exact Nat.le_trans (Nat.le_of_eq h1.symm) this
      · cases h; exact Nat.le_refl _
    · split at h
      · cases h; exact Nat.le_succ _
      · simp only [Res.bind_eq_ok] at h
        obtain ⟨t, h1, h2⟩ := h
        have := (stringLoop_errors h2 :)
        have h1 := (push_errors h1 :)
        exact Nat.le_trans (Nat.le_of_eq h1.symm) this

theorem stringToken_errors {n : Nat} {s r : State} (h : stringToken n s = .ok r) : s.errors ≤ r.errors := by
  unfold stringToken at h
  simp only [Res.bind_eq_ok] at h
  obtain ⟨⟨c, t⟩, h1, u, h2, h3⟩ := h
  have h1 : s.errors ≤ t.errors := (stringLoop_errors h1 :)
  have h2 : u.errors = t.errors := (push_errors h2 :)
  split at h3
  · split at h3 <;> cases h3
    show _ ≤ u.errors
    omega
  · cases h3; omega

theorem exponentDigits_errors {n : Nat} {s r : State} (h : exponentDigits n s = .ok r) : s.errors ≤ r.errors := by
  unfold exponentDigits at h
  split at h
  · simp only [Res.bind_eq_ok] at h
    obtain ⟨t, h1, u, h2, h3⟩ := h
    cases h3
    exact Nat.le_of_eq ((push_errors h2).trans (takeWhile_errors h1)).symm
  · cases h; exact Nat.le_succ _

theorem sign_errors {s r : State} (h : sign s = .ok r) : r.errors = s.errors := by
  unfold sign at h
  split at h
  · simp only [Res.bind_eq_ok] at h
    obtain ⟨t, h1, h2⟩ := h
    cases h2
    exact (push_errors h1 :)
  · exact (push_errors h :)

theorem exponent_errors {n : Nat} {s r : State} (h : exponent n s = .ok r) : s.errors ≤ r.errors := by
  unfold exponent at h
  simp only [Res.bind_eq_ok] at h
  obtain ⟨t, h1, u, h2, h3⟩ := h
  have := (exponentDigits_errors h3 :)
  have e1 : t.errors = s.errors := (push_errors h1 :)
  have e2 : u.errors = t.errors := (sign_errors h2 :)
  omega

theorem realNumber_errors {n : Nat} {s r : State} (h : realNumber n s = .ok r) : s.errors ≤ r.errors := by
  unfold realNumber at h
  simp only [Res.bind_eq_ok] at h
  obtain ⟨t, h1, u, h2, h3⟩ := h
  have e1 : t.errors = s.errors := (push_errors h1 :)
  have e2 := (takeWhile_errors h2 :)
  unfold realTail at h3
  split at h3
  · simp only [Res.bind_eq_ok] at h3
    obtain ⟨v, h4, h5⟩ := h3
    cases h5
    have := (exponent_errors h4 :)
    show _ ≤ v.errors
    omega
  · simp only [Res.bind_eq_ok] at h3
    obtain ⟨v, h4, h5⟩ := h3
    cases h5
    have := (push_errors h4 :)
    show _ ≤ v.errors
    omega

theorem number_errors {n : Nat} {s r : State} (h : number n s = .ok r) : s.errors ≤ r.errors := by
  unfold number at h
  simp only [Res.bind_eq_ok] at h
  obtain ⟨t, h1, u, h2, h3⟩ := h
  have e1 : t.errors = s.errors := (push_errors h1 :)
  have e2 : u.errors = t.errors := (takeWhile_errors h2 :)
  have tail : ∀ {x r : State}, (do
      let s ← x.push 0#8
      let s ← s.scan decValue
      Res.ok s.pop) = .ok r → r.errors = x.errors := by
    intro x r h
    simp only [Res.bind_eq_ok] at h
    obtain ⟨v, h4, y, h5, h6⟩ := h
    cases h6
    exact (scan_errors h5).trans (push_errors h4)
  split at h3
  · have := (exponent_errors h3 :)
    omega
  · split at h3
    · have := tail h3
      omega
    · split at h3
      · have : r.errors = u.errors := (tail h3 :)
        omega
      · have : u.errors ≤ r.errors := (realNumber_errors h3 :)
        omega

theorem hexadecimal_errors {n : Nat} {s r : State} (h : hexadecimal n s = .ok r) : s.errors ≤ r.errors := by
  unfold hexadecimal at h
  simp only [Res.bind_eq_ok] at h
  obtain ⟨t, h1, u, h2, v, h3, h4⟩ := h
  cases h4
  have e1 : t.errors = s.errors := (hexLoop_errors h1 :)
  have e2 := (push_errors h2 :)
  have e3 := (scan_errors h3 :)
  show _ ≤ v.errors
  omega

theorem identifier_errors {tab : List Entry} {f : Nat} {w : Bool} {l n : Nat} {s r : State}
    (h : identifier tab f w l n s = .ok r) : s.errors ≤ r.errors := by
  unfold identifier at h
  simp only [Res.bind_eq_ok] at h
  obtain ⟨t, h1, u, h2, v, h3, h4⟩ := h
  have e1 : t.errors = s.errors := (push_errors h1 :)
  have e2 : u.errors = t.errors := (takeWhile_errors h2 :)
  have e3 := (push_errors h3 :)
  have e : v.errors = s.errors := by omega
  split at h4
  · cases h4; exact Nat.le_of_eq e.symm
  · split at h4
    · split at h4 <;> cases h4 <;> exact Nat.le_of_eq e.symm
    · cases h4; exact Nat.le_of_eq e.symm

theorem pair_errors (s : State) (c : Byte) (l : List (Byte × Nat)) : (pair s c l).errors = s.errors := by
  unfold pair
  dsimp only
  split <;> rfl

theorem dispatch_errors {tab : List Entry} {f : Nat} {w : Bool} {last n : Nat} {again : State → Res State}
    {s r : State} {c : Byte} (h : dispatch tab f w last n again s c = .ok r)
    (ih : ∀ {s}, again s = .ok r → s.errors ≤ r.errors) : s.errors ≤ r.errors := by
  have next : ∀ {x : State}, again x = .ok r → x.errors = s.errors → s.errors ≤ r.errors := fun h e => by
    have := ih h; omega
  unfold dispatch at h
  by_cases hc : (isAlpha c || c == 95#8) = true
  · rw [if_pos hc] at h
    exact (identifier_errors h :)
  rw [if_neg hc] at h
  clear hc
  by_cases hc : isDigit c = true
  · rw [if_pos hc] at h
    exact (number_errors h :)
  rw [if_neg hc] at h
  clear hc
  by_cases hc : c = 39#8
  · rw [if_pos hc] at h
    exact (stringToken_errors h :)
  rw [if_neg hc] at h
  clear hc
  by_cases hc : c = 58#8
  · rw [if_pos hc] at h
    cases h; exact Nat.le_of_eq (pair_errors ..).symm
  rw [if_neg hc] at h
  clear hc
  by_cases hc : c = 46#8
  · rw [if_pos hc] at h
    by_cases hd : isDigit s.get.inp.inChar = true
    · rw [if_pos hd] at h; exact (realNumber_errors h :)
    · rw [if_neg hd] at h; cases h; exact Nat.le_of_eq (pair_errors ..).symm
  rw [if_neg hc] at h
  clear hc
  by_cases hc : c = 60#8
  · rw [if_pos hc] at h
    cases h; exact Nat.le_of_eq (pair_errors ..).symm
  rw [if_neg hc] at h
  clear hc
  by_cases hc : c = 62#8
  · rw [if_pos hc] at h
    cases h; exact Nat.le_of_eq (pair_errors ..).symm
  rw [if_neg hc] at h
  clear hc
  by_cases hc : c = 123#8
  · rw [if_pos hc] at h
    rw [Res.bind_eq_ok] at h
    obtain ⟨u, h2, h3⟩ := h
    exact next h3 (braceLoop_errors h2 :)
  rw [if_neg hc] at h
  clear hc
  by_cases hc : c = 40#8
  · rw [if_pos hc] at h
    by_cases hd : s.get.inp.inChar ≠ 42#8
    · rw [if_pos hd] at h; cases h; exact Nat.le_refl _
    · rw [if_neg hd] at h
      rw [Res.bind_eq_ok] at h
      obtain ⟨u, h2, h3⟩ := h
      exact next h3 (starLoop_errors h2 :)
  rw [if_neg hc] at h
  clear hc
  by_cases hc : c = 47#8
  · rw [if_pos hc] at h
    by_cases hd : s.get.inp.inChar = 47#8
    · rw [if_pos hd] at h; exact next h rfl
    rw [if_neg hd] at h
    by_cases hd : s.get.inp.inChar ≠ 42#8
    · rw [if_pos hd] at h; cases h; exact Nat.le_refl _
    · rw [if_neg hd] at h
      rw [Res.bind_eq_ok] at h
      obtain ⟨u, h2, h3⟩ := h
      exact next h3 (starLoop_errors h2 :)
  rw [if_neg hc] at h
  clear hc
  by_cases hc : c = 37#8
  · rw [if_pos hc] at h
    exact (hexadecimal_errors h :)
  rw [if_neg hc] at h
  clear hc
  by_cases hc : c.toNat < 128
  · rw [if_pos hc] at h; cases h; exact Nat.le_refl _
  · rw [if_neg hc] at h; exact next h rfl

theorem getToken_errors {tab : List Entry} {f : Nat} {w : Bool} : ∀ {n : Nat} {s r : State},
    getToken tab f w n s = .ok r → s.errors ≤ r.errors
  | 0, _, _, h => by cases h
  | n + 1, s, r, h => by
    rw [getToken, Res.bind_eq_ok] at h
    obtain ⟨t, h1, h⟩ := h
    have e1 : t.errors = s.errors := (skipSpace_errors h1 :)
    rw [← e1]
    exact (dispatch_errors h (fun h => getToken_errors h) :)

/-- A string without end is an error. -/
theorem stringLoop_open {w t : List Byte} : ∀ {n : Nat} {k : Word} {s : State},
    Coming s.inp (doubled w ++ 10#8 :: t) → 10#8 ∉ w → w.length < n → s.stack.length + w.length ≤ 65536 →
    s.start ≤ s.stack.length → ∃ c i, stringLoop n k s = .ok (c, { s with
      inp := i
      stack := s.stack.take s.start
      errors := s.errors + 1 }) := by
  induction w with
  | nil =>
    intro n k s hc _ hn _ _
    obtain ⟨n, rfl⟩ : ∃ m, n = m + 1 := ⟨n - 1, by simp at hn; omega⟩
    have h1 : s.inp.inChar = 10#8 := coming_char hc
    refine ⟨k, s.inp.get, ?_⟩
    rw [stringLoop, h1, if_neg (by decide), if_pos rfl]
    rfl
  | cons a w ih =>
    intro n k s hc hw hn hr hs
    simp only [List.length_cons] at hr hn
    obtain ⟨n, rfl⟩ : ∃ m, n = m + 1 := ⟨n - 1, by omega⟩
    rw [doubled_cons] at hc
    obtain ⟨b, cs, hbc⟩ : ∃ b cs, doubled w ++ 10#8 :: t = b :: cs := by
      cases hd : doubled w with
      | nil => exact ⟨_, _, rfl⟩
      | cons x y => exact ⟨_, _, rfl⟩
    have hw' : 10#8 ∉ w := fun h => hw (List.mem_cons_of_mem _ h)
    have key : ∀ j : Input, Coming j (doubled w ++ 10#8 :: t) → ∃ c i, stringLoop n (k + 1) { s with
        inp := j
        stack := s.stack ++ [a] } = .ok (c, { s with
          inp := i
          stack := s.stack.take s.start
          errors := s.errors + 1 }) := by
      intro j hj
      obtain ⟨c, i, h⟩ := ih (n := n) (k := k + 1) (s := { s with
        inp := j
        stack := s.stack ++ [a] }) hj hw' (by omega) (by simp; omega) (by simp; omega)
      refine ⟨c, i, h.trans ?_⟩
      simp only [List.take_append_of_le_length hs]
    by_cases ha : a = 39#8
    · subst ha
      have h0 : Coming s.inp (39#8 :: 39#8 :: (doubled w ++ 10#8 :: t)) := hc
      have h1 := coming_get h0
      obtain ⟨c, i, h⟩ := key s.inp.get.get (by rw [hbc] at h1 ⊢; exact coming_get h1)
      refine ⟨c, i, ?_⟩
      rw [stringLoop, if_pos (coming_char h0)]
      dsimp only
      have h2 : s.get.inp.inChar = 39#8 := coming_char h1
      rw [if_pos h2, h2, push_ok _ (show s.get.stack.length < 65536 from by show s.stack.length < _; omega)]
      exact h
    · rw [if_neg ha] at hc
      have h0 : Coming s.inp (a :: (doubled w ++ 10#8 :: t)) := hc
      obtain ⟨c, i, h⟩ := key s.inp.get (by rw [hbc] at h0 ⊢; exact coming_get h0)
      refine ⟨c, i, ?_⟩
      rw [stringLoop, coming_char h0, if_neg ha, if_neg (fun e => hw (by simp [e])), push_ok _ (by omega)]
      exact h

/-- A string without end is an error of the token. -/
theorem getToken_open {tab : List Entry} {f : Nat} {w : Bool} {u t : List Byte} {s : State}
    (hc : Coming s.inp (39#8 :: (doubled u ++ 10#8 :: t))) (hu : 10#8 ∉ u) (hr : s.stack.length + u.length ≤ 65535) :
    ∃ r, Scans tab f w s r ∧ r.errors = s.errors + 1 := by
  obtain ⟨b, cs, hbc⟩ : ∃ b cs, doubled u ++ 10#8 :: t = b :: cs := by
    cases hd : doubled u with
    | nil => exact ⟨_, _, rfl⟩
    | cons x y => exact ⟨_, _, rfl⟩
  have hg : Coming s.inp.get (doubled u ++ 10#8 :: t) := by rw [hbc] at hc ⊢; exact coming_get hc
  have key : ∃ r, stringToken (u.length + 1) { s with
      start := s.stack.length
      sym := none } = .ok r ∧ r.errors = s.errors + 1 := by
    obtain ⟨c, i, h⟩ := stringLoop_open (n := u.length + 1) (k := 0#16) (s := { s with
      token := 6
      inp := s.inp.get
      start := s.stack.length
      sym := none }) hg hu (by omega) (by simp only []; omega) (Nat.le_refl _)
    unfold stringToken
    dsimp only
    simp only [List.take_length] at h
    simp only [State.get, h, Res.ok_bind]
    simp only [State.push, if_pos (show s.stack.length < 65536 from by omega), Res.ok_bind]
    split
    · have e : (s.stack ++ [0#8])[s.stack.length]? = some 0#8 := by simp
      simp only [e]
      exact ⟨_, rfl, rfl⟩
    · exact ⟨_, rfl, rfl⟩
  obtain ⟨r, h, e⟩ := key
  refine ⟨r, scans_of (n := u.length + 2) ?_, e⟩
  rw [getToken_start _ _ _ _ _ (coming_char hc) (by simp [Blank]), dispatch_other _ _ _ _ _ _ _ _
    (by simp [Letter]) (by simp [Digit]) (by decide), if_pos rfl, h]

end Pas.Tok

namespace Pas.Src
open Pas.Spec Pas.Comp Pas.Tok

theorem readTokens_errors : ∀ {n : Nat} {s : Tok.State} {l : List Lx} {e : Nat}, readTokens n s = .ok (l, e) →
    s.errors ≤ e
  | 0, _, _, _, h => by cases h
  | n + 1, s, l, e, h => by
    rw [readTokens, Res.bind_eq_ok] at h
    obtain ⟨t, h1, h⟩ := h
    have e1 := (getToken_errors h1 :)
    split at h
    · cases h; exact e1
    · rw [Res.bind_eq_ok] at h
      obtain ⟨⟨l', e'⟩, h2, h3⟩ := h
      cases h3
      have e2 : t.errors ≤ e := (readTokens_errors h2 :)
      omega

theorem readTokens_unclosed {cs : List Byte} (h : Unclosed cs) : ∀ {n : Nat} {s : Tok.State} {l : List Lx} {e : Nat},
    Coming s.inp cs → s.stack = [] → readTokens n s = .ok (l, e) → s.errors + 1 ≤ e := by
  induction h with
  | @here l u t hl hu hlen =>
    intro n s l' e hs hst h
    cases n with
    | zero => cases h
    | succ n =>
      obtain ⟨i, hi, hget⟩ := layout_get (tab := []) (f := 0) (w := false) hl hs (by simp)
      obtain ⟨r, h1, h2⟩ := getToken_open (tab := []) (f := 0) (w := false) (s := { s with inp := i }) hi hu
        (by simp only [hst]; simp; omega)
      rw [readTokens, Res.bind_eq_ok] at h
      obtain ⟨t, ht, h⟩ := h
      obtain rfl := scans_unique (scans_of ht) (hget r h1)
      have h2 : t.errors = s.errors + 1 := h2
      split at h
      · cases h; omega
      · rw [Res.bind_eq_ok] at h
        obtain ⟨⟨l', e'⟩, h3, h4⟩ := h
        cases h4
        have h5 : t.errors ≤ e := (readTokens_errors h3 :)
        omega
  | @later l w x stop c t hl hx hc hw hp _ ih =>
    intro n s l' e hs hst h
    cases n with
    | zero => cases h
    | succ n =>
      obtain ⟨i, hi, hget⟩ := layout_get (tab := []) (f := 0) (w := false) hl hs (by simp)
      obtain ⟨r, h1, h2, h3, h4⟩ := lexeme_scan (tab := []) (f := 0) (s := { s with inp := i }) hx hc hi
        (by simp only [hst]; simp; omega)
      have hlx := found_nil h4
      rw [readTokens, Res.bind_eq_ok] at h
      obtain ⟨t, ht, h⟩ := h
      obtain rfl := scans_unique (scans_of ht) (hget r h1)
      rw [if_neg (fun h => hp (by rw [← hlx]; exact lexOf_period.2 h)), Res.bind_eq_ok] at h
      obtain ⟨⟨l', e'⟩, h5, h6⟩ := h
      cases h6
      have := ih (s := { t with stack := [] }) h2 rfl h5
      have h3 : t.errors = s.errors := h3
      have this : t.errors + 1 ≤ e := this
      omega

end Pas.Src
