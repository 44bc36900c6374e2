import Verif.Spec.Tokens
import Verif.Lemmas.Names

/-! Lemmas about the tokenizer. -/

namespace Pas.Tok

open Pas.Spec (Coming quoted Digit Letter IdentChar Identifier Blank Layout decimal Scans)

theorem coming_char {i : Input} {a : Byte} {cs : List Byte} (h : Coming i (a :: cs)) :
    i.inChar = a := by simp [Coming] at h; exact h.1

theorem coming_ne {i : Input} {cs : List Byte} (h : Coming i cs) : cs ≠ [] := by
  rintro rfl; simp [Coming] at h

theorem skipLine_coming (buf : List Byte) (ls : List (List Byte)) {b : Byte} {cs : List Byte}
    (h : ls.flatten = b :: cs) : Coming (skipLine buf ls) (b :: cs) := by
  induction ls generalizing buf with
  | nil => simp at h
  | cons l ls ih =>
    cases l with
    | nil => exact ih [] (by simpa using h)
    | cons c r => simpa [skipLine, Coming] using h

theorem coming_get {i : Input} {a b : Byte} {cs : List Byte} (h : Coming i (a :: b :: cs)) :
    Coming i.get (b :: cs) := by
  obtain ⟨c, rest, buf, lines⟩ := i
  simp only [Coming, List.cons.injEq] at h
  obtain ⟨-, h⟩ := h
  cases rest with
  | nil => exact skipLine_coming buf lines (by simpa using h)
  | cons x r => simpa [Input.get, Coming] using h

theorem peekLine_coming (buf : List Byte) (ls : List (List Byte)) {b : Byte} {cs : List Byte}
    (h : ls.flatten = b :: cs) : Coming (peekLine buf ls) (b :: b :: cs) := by
  induction ls generalizing buf with
  | nil => simp at h
  | cons l ls ih =>
    cases l with
    | nil => exact ih [] (by simpa using h)
    | cons c r => simp [peekLine, Coming] at *; simp [h]

/-- A look at the next character. -/
theorem coming_peek {i : Input} {a b : Byte} {cs : List Byte} (h : Coming i (a :: b :: cs)) :
    Coming i.peek (b :: b :: cs) := by
  obtain ⟨c, rest, buf, lines⟩ := i
  simp only [Coming, List.cons.injEq] at h
  obtain ⟨-, h⟩ := h
  cases rest with
  | nil => exact peekLine_coming buf lines (by simpa using h)
  | cons x r => simp [Input.peek, Coming] at *; simp [h]

theorem push_ok {s : State} (c : Byte) (h : s.stack.length < 65536) :
    s.push c = .ok { s with stack := s.stack ++ [c] } := by simp [State.push, h]

theorem takeWhile_ok {p : Byte → Bool} {w : List Byte} {c : Byte} {t : List Byte} :
    ∀ {n : Nat} {s : State}, Coming s.inp (w ++ c :: t) → (∀ x ∈ w, p x = true) → p c = false →
      s.stack.length + w.length ≤ 65536 → w.length < n →
      ∃ i, takeWhile p n s = .ok { s with
        inp := i
        stack := s.stack ++ w } ∧ Coming i (c :: t) := by
  induction w with
  | nil =>
    intro n s h _ hc _ hn
    obtain ⟨m, rfl⟩ : ∃ m, n = m + 1 := ⟨n - 1, by simp at hn; omega⟩
    refine ⟨s.inp, ?_, h⟩
    simp [takeWhile, coming_char h, hc]
  | cons a w ih =>
    intro n s h hp hc hr hn
    simp only [List.length_cons] at hr hn
    obtain ⟨m, rfl⟩ : ∃ m, n = m + 1 := ⟨n - 1, by omega⟩
    have ha : s.inp.inChar = a := coming_char h
    have hg : Coming s.inp.get (w ++ c :: t) := by
      cases w <;> exact coming_get h
    obtain ⟨i, hi, hci⟩ := ih (n := m)
      (s := { s with
        inp := s.inp.get
        stack := s.stack ++ [a] }) hg (fun x hx => hp x (by simp [hx])) hc
      (by simp; omega) (by omega)
    refine ⟨i, ?_, hci⟩
    rw [takeWhile, ha, if_pos (hp a (by simp)), push_ok _ (by omega)]
    simp only [Res.ok_bind, State.get]
    rw [hi]; simp

/-- The inside of a literal. -/
def doubled (w : List Byte) : List Byte :=
  w.flatMap fun c => if c = 39#8 then [39#8, 39#8] else [c]

theorem doubled_cons (a : Byte) (w : List Byte) :
    doubled (a :: w) = (if a = 39#8 then [39#8, 39#8] else [a]) ++ doubled w := by
  simp [doubled]

theorem quoted_eq (w : List Byte) : quoted w = 39#8 :: (doubled w ++ [39#8]) := rfl

theorem doubled_tail (w : List Byte) (c : Byte) (t : List Byte) :
    ∃ b cs, doubled w ++ 39#8 :: c :: t = b :: cs := by
  cases h : doubled w ++ 39#8 :: c :: t with
  | nil => simp at h
  | cons b cs => exact ⟨b, cs, rfl⟩

theorem stringLoop_ok {w : List Byte} {c : Byte} {t : List Byte} :
    ∀ {n : Nat} {k : Word} {s : State}, Coming s.inp (doubled w ++ 39#8 :: c :: t) → c ≠ 39#8 →
      10#8 ∉ w → s.stack.length + w.length ≤ 65536 → w.length < n →
      ∃ i, stringLoop n k s = .ok (k + BitVec.ofNat 16 w.length, { s with
        inp := i
        stack := s.stack ++ w }) ∧ Coming i (c :: t) := by
  induction w with
  | nil =>
    intro n k s h hc _ _ hn
    obtain ⟨m, rfl⟩ : ∃ m, n = m + 1 := ⟨n - 1, by simp at hn; omega⟩
    have hg : Coming s.inp.get (c :: t) := coming_get h
    refine ⟨s.inp.get, ?_, hg⟩
    have h1 : s.inp.inChar = 39#8 := coming_char h
    have h2 : s.inp.get.inChar ≠ 39#8 := by rw [coming_char hg]; exact hc
    simp [stringLoop, h1, State.get, h2]
  | cons a w ih =>
    intro n k s h hc hw hr hn
    simp only [List.length_cons] at hr hn
    obtain ⟨m, rfl⟩ : ∃ m, n = m + 1 := ⟨n - 1, by omega⟩
    rw [doubled_cons] at h
    obtain ⟨b, cs, hbc⟩ := doubled_tail w c t
    have key : ∀ j : Input, Coming j (doubled w ++ 39#8 :: c :: t) →
        ∃ i, stringLoop m (k + 1) { s with
            inp := j
            stack := s.stack ++ [a] } =
          .ok (k + BitVec.ofNat 16 (w.length + 1), { s with
            inp := i
            stack := s.stack ++ a :: w }) ∧ Coming i (c :: t) := by
      intro j hj
      obtain ⟨i, hi, hci⟩ := ih (n := m) (k := k + 1) (s := { s with
        inp := j
        stack := s.stack ++ [a] }) hj hc (fun hm => hw (by simp [hm])) (by simp; omega) (by omega)
      refine ⟨i, ?_, hci⟩
      rw [hi]
      simp only [List.append_assoc, List.singleton_append, Res.ok.injEq, Prod.mk.injEq, and_true]
      rw [BitVec.ofNat_add, BitVec.add_assoc, BitVec.add_comm 1 (BitVec.ofNat 16 w.length)]; rfl
    by_cases ha : a = 39#8
    · subst ha
      simp only [if_true, List.cons_append, List.nil_append] at h
      have hg := coming_get h
      rw [hbc] at hg
      have hg2 := coming_get hg
      rw [← hbc] at hg2
      obtain ⟨i, hi, hci⟩ := key _ hg2
      refine ⟨i, ?_, hci⟩
      have hq : s.get.inp.inChar = 39#8 := coming_char hg
      rw [stringLoop, if_pos (coming_char h)]
      dsimp only
      rw [if_pos hq, hq, push_ok _ (by simp [State.get]; omega)]
      simp only [Res.ok_bind, State.get]
      exact hi
    · simp only [if_neg ha, List.cons_append, List.nil_append] at h
      have hg : Coming s.inp.get (doubled w ++ 39#8 :: c :: t) := by
        rw [hbc] at h ⊢; exact coming_get h
      obtain ⟨i, hi, hci⟩ := key _ hg
      refine ⟨i, ?_, hci⟩
      have h1 : s.inp.inChar = a := coming_char h
      rw [stringLoop, h1, if_neg ha, if_neg (fun he => hw (by simp [he])), push_ok _ (by omega)]
      simp only [Res.ok_bind, State.get]
      exact hi

theorem string_pushed {s : State} {w st : List Byte} (hst : s.stack = st ++ w ++ [0#8])
    (h0 : s.start = st.length) (hz : 0#8 ∉ w) : s.string = w := by
  rw [State.string, hst, h0, List.append_assoc, List.drop_left]
  clear hst h0
  induction w with
  | nil => rfl
  | cons a w ih =>
    have ha : a ≠ 0#8 := fun h => hz (by simp [h])
    simp only [List.cons_append, List.takeWhile_cons]
    rw [if_pos (by simpa using ha), ih (fun h => hz (by simp [h]))]

theorem isDigit_iff (b : Byte) : isDigit b = true ↔ Digit b := by
  simp only [isDigit, Digit, decide_eq_true_eq, BitVec.le_def]; rfl

theorem isAlpha_iff (b : Byte) : isAlpha b = true ↔ Letter b := by
  simp only [isAlpha, Letter, decide_eq_true_eq, BitVec.le_def]; rfl

theorem isIdent_iff (b : Byte) : isIdent b = true ↔ IdentChar b := by
  simp only [isIdent, IdentChar, Bool.or_eq_true, isAlpha_iff, isDigit_iff, beq_iff_eq]
  rw [show (b = 95#8 ↔ b.toNat = 95) from ⟨fun h => by rw [h]; rfl, fun h => BitVec.eq_of_toNat_eq h⟩]
  exact or_assoc

theorem isSpace_iff (b : Byte) : isSpace b = true ↔ Blank b := by
  simp only [isSpace, Blank, decide_eq_true_eq]
  revert b; decide +kernel

/-! ### White space and comments -/

theorem braceLoop_ok {w : List Byte} {t : List Byte} :
    ∀ {n : Nat} {s : State} {a : Byte}, Coming s.inp (a :: (w ++ 125#8 :: t)) → 125#8 ∉ w →
      w.length < n →
      ∃ i, braceLoop n s = .ok { s with inp := i } ∧ Coming i (125#8 :: t) := by
  induction w with
  | nil =>
    intro n s a h _ hn
    obtain ⟨m, rfl⟩ : ∃ m, n = m + 1 := ⟨n - 1, by simp at hn; omega⟩
    have hg : Coming s.inp.get (125#8 :: t) := coming_get h
    refine ⟨s.inp.get, ?_, hg⟩
    have h2 : s.get.inp.inChar = 125#8 := coming_char hg
    rw [braceLoop, if_neg (by simp [h2])]; rfl
  | cons b w ih =>
    intro n s a h hw hn
    simp only [List.length_cons] at hn
    obtain ⟨m, rfl⟩ : ∃ m, n = m + 1 := ⟨n - 1, by omega⟩
    have hg : Coming s.inp.get (b :: (w ++ 125#8 :: t)) := coming_get h
    have h2 : s.get.inp.inChar = b := coming_char hg
    obtain ⟨i, hi, hci⟩ := ih (n := m) (s := s.get) hg (fun hm => hw (by simp [hm])) (by omega)
    refine ⟨i, ?_, hci⟩
    rw [braceLoop, if_pos (by rw [h2]; rintro rfl; simp at hw), hi]; rfl

theorem starLoop_ok {close : Byte} (hclose : close ≠ 42#8) {w : List Byte} {t : List Byte} :
    ∀ {n : Nat} {s : State} {a last : Byte}, Coming s.inp (a :: (w ++ 42#8 :: close :: t)) →
      ¬ [42#8, close] <:+: last :: w → w.length + 1 < n →
      ∃ i, starLoop close n last s = .ok { s with inp := i } ∧ Coming i (close :: t) := by
  induction w with
  | nil =>
    intro n s a last h _ hn
    obtain ⟨m, rfl⟩ : ∃ m, n = m + 2 := ⟨n - 2, by simp at hn; omega⟩
    have hg : Coming s.inp.get (42#8 :: close :: t) := coming_get h
    have hg2 : Coming s.inp.get.get (close :: t) := coming_get hg
    refine ⟨_, ?_, hg2⟩
    have h1 : s.get.inp.inChar = 42#8 := coming_char hg
    have h2 : s.get.get.inp.inChar = close := coming_char hg2
    rw [starLoop, h1, if_neg (fun h => hclose h.2.symm), starLoop, if_pos ⟨rfl, h2⟩]; rfl
  | cons b w ih =>
    intro n s a last h hw hn
    simp only [List.length_cons] at hn
    obtain ⟨m, rfl⟩ : ∃ m, n = m + 1 := ⟨n - 1, by omega⟩
    have hg : Coming s.inp.get (b :: (w ++ 42#8 :: close :: t)) := coming_get h
    have h2 : s.get.inp.inChar = b := coming_char hg
    obtain ⟨i, hi, hci⟩ := ih (n := m) (s := s.get) (last := b) hg
      (fun hm => hw (List.IsInfix.trans hm (List.suffix_cons last (b :: w)).isInfix)) (by omega)
    refine ⟨i, ?_, hci⟩
    rw [starLoop, h2, if_neg, hi]
    · rfl
    · rintro ⟨rfl, rfl⟩
      exact hw ⟨[], w, by simp⟩

theorem infix_blank {close : Byte} {w : List Byte} (h : ¬ [42#8, close] <:+: w) :
    ¬ [42#8, close] <:+: 32#8 :: w := by
  rintro ⟨a, b, hab⟩
  cases a with
  | nil => simp at hab
  | cons x a => simp at hab; exact h ⟨a, b, by simpa using hab.2⟩

/-- Blanks before a token. -/
theorem skipSpace_step {n : Nat} {s : State} {b : Byte} (hb : s.inp.inChar = b)
    (h : Blank b) : skipSpace (n + 1) s = skipSpace n s.get := by
  rw [skipSpace, if_pos (by rw [hb]; exact (isSpace_iff b).2 h)]

theorem skipSpace_zero {n : Nat} {s : State} (h : isSpace s.inp.inChar = false) :
    skipSpace (n + 1) s = .ok s := by simp [skipSpace, h]

/-- Skipping blanks as a function of the input alone. -/
def skipInput : Nat → Input → Res Input
  | 0, _ => .hang
  | n + 1, i => if isSpace i.inChar then skipInput n i.get else .ok i

theorem skipSpace_input (n : Nat) (s : State) :
    skipSpace n s = (skipInput n s.inp).bind fun i => .ok { s with inp := i } := by
  induction n generalizing s with
  | zero => rfl
  | succ n ih =>
    rw [skipSpace, skipInput]
    split
    · rw [ih]; rfl
    · rfl

/-- The attributes of the previous symbol and the start of the previous token do not matter. -/
theorem getToken_reset (tab : List Pas.Names.Entry) (f : Nat) (inWith : Bool) (n : Nat) (s : State)
    (a : Nat) (b : Option Pas.Names.Entry) :
    getToken tab f inWith n { s with
      start := a
      sym := b } = getToken tab f inWith n s := by
  cases n with
  | zero => rfl
  | succ n =>
    rw [getToken, getToken]
    simp only [skipSpace_input]
    cases skipInput n s.inp <;> rfl

/-! More rounds than needed do not change a result. -/

theorem takeWhile_mono {p : Byte → Bool} {n : Nat} {s r : State} (h : takeWhile p n s = .ok r)
    (k : Nat) : takeWhile p (n + k) s = .ok r := by
  induction n generalizing s with
  | zero => simp [takeWhile] at h
  | succ n ih =>
    rw [Nat.succ_add, takeWhile]
    rw [takeWhile] at h
    split at h
    · rw [if_pos (by assumption)]
      simp only [Res.bind_eq_ok] at h ⊢
      obtain ⟨t, h1, h2⟩ := h
      exact ⟨t, h1, ih h2⟩
    · rw [if_neg (by assumption)]; exact h

theorem stringLoop_mono {n : Nat} {c : Word} {s : State} {r} (h : stringLoop n c s = .ok r)
    (k : Nat) : stringLoop (n + k) c s = .ok r := by
  induction n generalizing s c with
  | zero => simp [stringLoop] at h
  | succ n ih =>
    rw [Nat.succ_add, stringLoop]
    rw [stringLoop] at h
    split at h
    · rw [if_pos (by assumption)]
      dsimp only at h ⊢
      split at h
      · rw [if_pos (by assumption)]
        simp only [Res.bind_eq_ok] at h ⊢
        obtain ⟨t, h1, h2⟩ := h
        exact ⟨t, h1, ih h2⟩
      · rw [if_neg (by assumption)]; exact h
    · rw [if_neg (by assumption)]
      split at h
      · rw [if_pos (by assumption)]; exact h
      · rw [if_neg (by assumption)]
        simp only [Res.bind_eq_ok] at h ⊢
        obtain ⟨t, h1, h2⟩ := h
        exact ⟨t, h1, ih h2⟩

theorem hexLoop_mono {n : Nat} {s r : State} (h : hexLoop n s = .ok r)
    (k : Nat) : hexLoop (n + k) s = .ok r := by
  induction n generalizing s with
  | zero => simp [hexLoop] at h
  | succ n ih =>
    rw [Nat.succ_add, hexLoop]
    rw [hexLoop] at h
    split at h
    · rw [if_pos (by assumption)]
      simp only [Res.bind_eq_ok] at h ⊢
      obtain ⟨t, h1, h2⟩ := h
      exact ⟨t, h1, ih h2⟩
    · rw [if_neg (by assumption)]
      split at h
      · rw [if_pos (by assumption)]
        simp only [Res.bind_eq_ok] at h ⊢
        obtain ⟨t, h1, h2⟩ := h
        exact ⟨t, h1, ih h2⟩
      · rw [if_neg (by assumption)]
        split at h
        · rw [if_pos (by assumption)]
          simp only [Res.bind_eq_ok] at h ⊢
          obtain ⟨t, h1, h2⟩ := h
          exact ⟨t, h1, ih h2⟩
        · rw [if_neg (by assumption)]; exact h

theorem skipSpace_mono {n : Nat} {s r : State} (h : skipSpace n s = .ok r)
    (k : Nat) : skipSpace (n + k) s = .ok r := by
  induction n generalizing s with
  | zero => simp [skipSpace] at h
  | succ n ih =>
    rw [Nat.succ_add, skipSpace]
    rw [skipSpace] at h
    split at h
    · rw [if_pos (by assumption)]; exact ih h
    · rw [if_neg (by assumption)]; exact h

theorem braceLoop_mono {n : Nat} {s r : State} (h : braceLoop n s = .ok r)
    (k : Nat) : braceLoop (n + k) s = .ok r := by
  induction n generalizing s with
  | zero => simp [braceLoop] at h
  | succ n ih =>
    rw [Nat.succ_add, braceLoop]
    rw [braceLoop] at h
    split at h
    · rw [if_pos (by assumption)]; exact ih h
    · rw [if_neg (by assumption)]; exact h

theorem starLoop_mono {c : Byte} {n : Nat} {l : Byte} {s r : State} (h : starLoop c n l s = .ok r)
    (k : Nat) : starLoop c (n + k) l s = .ok r := by
  induction n generalizing s l with
  | zero => simp [starLoop] at h
  | succ n ih =>
    rw [Nat.succ_add, starLoop]
    rw [starLoop] at h
    split at h
    · rw [if_pos (by assumption)]; exact h
    · rw [if_neg (by assumption)]; exact ih h

theorem identifier_mono {tab : List Pas.Names.Entry} {f : Nat} {w : Bool} {last n : Nat}
    {s r : State} (h : identifier tab f w last n s = .ok r) (k : Nat) :
    identifier tab f w last (n + k) s = .ok r := by
  unfold identifier at *
  simp only [Res.bind_eq_ok] at h ⊢
  obtain ⟨t, h1, u, h2, h3⟩ := h
  exact ⟨t, h1, u, takeWhile_mono h2 k, h3⟩

theorem stringToken_mono {n : Nat} {s r : State} (h : stringToken n s = .ok r) (k : Nat) :
    stringToken (n + k) s = .ok r := by
  unfold stringToken at *
  simp only [Res.bind_eq_ok] at h ⊢
  obtain ⟨t, h1, h2⟩ := h
  exact ⟨t, stringLoop_mono h1 k, h2⟩

theorem hexadecimal_mono {n : Nat} {s r : State} (h : hexadecimal n s = .ok r) (k : Nat) :
    hexadecimal (n + k) s = .ok r := by
  unfold hexadecimal at *
  simp only [Res.bind_eq_ok] at h ⊢
  obtain ⟨t, h1, h2⟩ := h
  exact ⟨t, hexLoop_mono h1 k, h2⟩

theorem exponent_mono {n : Nat} {s r : State} (h : exponent n s = .ok r) (k : Nat) :
    exponent (n + k) s = .ok r := by
  unfold exponent at *
  simp only [Res.bind_eq_ok] at h ⊢
  obtain ⟨t, h1, u, h2, h3⟩ := h
  refine ⟨t, h1, u, h2, ?_⟩
  unfold exponentDigits at *
  split at h3
  · rw [if_pos (by assumption)]
    simp only [Res.bind_eq_ok] at h3 ⊢
    obtain ⟨v, h4, h5⟩ := h3
    exact ⟨v, takeWhile_mono h4 k, h5⟩
  · rw [if_neg (by assumption)]; exact h3

theorem realNumber_mono {n : Nat} {s r : State} (h : realNumber n s = .ok r) (k : Nat) :
    realNumber (n + k) s = .ok r := by
  unfold realNumber at *
  simp only [Res.bind_eq_ok] at h ⊢
  obtain ⟨t, h1, u, h2, h3⟩ := h
  refine ⟨t, h1, u, takeWhile_mono h2 k, ?_⟩
  unfold realTail at *
  split at h3
  · rw [if_pos (by assumption)]
    simp only [Res.bind_eq_ok] at h3 ⊢
    obtain ⟨v, h4, h5⟩ := h3
    exact ⟨v, exponent_mono h4 k, h5⟩
  · rw [if_neg (by assumption)]; exact h3

theorem number_mono {n : Nat} {s r : State} (h : number n s = .ok r) (k : Nat) :
    number (n + k) s = .ok r := by
  unfold number at *
  simp only [Res.bind_eq_ok] at h ⊢
  obtain ⟨t, h1, u, h2, h3⟩ := h
  refine ⟨t, h1, u, takeWhile_mono h2 k, ?_⟩
  split at h3
  · rw [if_pos (by assumption)]; exact exponent_mono h3 k
  · rw [if_neg (by assumption)]
    split at h3
    · rw [if_pos (by assumption)]; exact h3
    · rw [if_neg (by assumption)]
      split at h3
      · rw [if_pos (by assumption)]; exact h3
      · rw [if_neg (by assumption)]; exact realNumber_mono h3 k

theorem dispatch_mono {tab : List Pas.Names.Entry} {f : Nat} {w : Bool} {last n : Nat}
    {again again' : State → Res State} {s r : State} {c : Byte}
    (h : dispatch tab f w last n again s c = .ok r) (k : Nat)
    (ih : ∀ {s r}, again s = .ok r → again' s = .ok r) :
    dispatch tab f w last (n + k) again' s c = .ok r := by
  unfold dispatch at *
  by_cases hc : (isAlpha c || c == 95#8) = true
  · rw [if_pos hc] at h ⊢
    exact identifier_mono h k
  rw [if_neg hc] at h ⊢
  clear hc
  by_cases hc : isDigit c = true
  · rw [if_pos hc] at h ⊢
    exact number_mono h k
  rw [if_neg hc] at h ⊢
  clear hc
  by_cases hc : c = 39#8
  · rw [if_pos hc] at h ⊢
    exact stringToken_mono h k
  rw [if_neg hc] at h ⊢
  clear hc
  by_cases hc : c = 58#8
  · rw [if_pos hc] at h ⊢
    exact h
  rw [if_neg hc] at h ⊢
  clear hc
  by_cases hc : c = 46#8
  · rw [if_pos hc] at h ⊢
    by_cases hd : isDigit s.get.inp.inChar = true
    · rw [if_pos hd] at h ⊢; exact realNumber_mono h k
    · rw [if_neg hd] at h ⊢; exact h
  rw [if_neg hc] at h ⊢
  clear hc
  by_cases hc : c = 60#8
  · rw [if_pos hc] at h ⊢
    exact h
  rw [if_neg hc] at h ⊢
  clear hc
  by_cases hc : c = 62#8
  · rw [if_pos hc] at h ⊢
    exact h
  rw [if_neg hc] at h ⊢
  clear hc
  by_cases hc : c = 123#8
  · rw [if_pos hc] at h ⊢
    simp only [Res.bind_eq_ok] at h ⊢
    obtain ⟨s2, h2, h⟩ := h
    exact ⟨s2, braceLoop_mono h2 k, ih h⟩
  rw [if_neg hc] at h ⊢
  clear hc
  by_cases hc : c = 40#8
  · rw [if_pos hc] at h ⊢
    by_cases hd : s.get.inp.inChar ≠ 42#8
    · rw [if_pos hd] at h ⊢; exact h
    · rw [if_neg hd] at h ⊢
      simp only [Res.bind_eq_ok] at h ⊢
      obtain ⟨s2, h2, h⟩ := h
      exact ⟨s2, starLoop_mono h2 k, ih h⟩
  rw [if_neg hc] at h ⊢
  clear hc
  by_cases hc : c = 47#8
  · rw [if_pos hc] at h ⊢
    by_cases he : s.get.inp.inChar = 47#8
    · rw [if_pos he] at h ⊢; exact ih h
    rw [if_neg he] at h ⊢
    by_cases hd : s.get.inp.inChar ≠ 42#8
    · rw [if_pos hd] at h ⊢; exact h
    · rw [if_neg hd] at h ⊢
      simp only [Res.bind_eq_ok] at h ⊢
      obtain ⟨s2, h2, h⟩ := h
      exact ⟨s2, starLoop_mono h2 k, ih h⟩
  rw [if_neg hc] at h ⊢
  clear hc
  by_cases hc : c = 37#8
  · rw [if_pos hc] at h ⊢
    exact hexadecimal_mono h k
  rw [if_neg hc] at h ⊢
  clear hc
  by_cases hc : c.toNat < 128
  · rw [if_pos hc] at h ⊢
    exact h
  rw [if_neg hc] at h ⊢
  clear hc
  exact ih h

theorem getToken_mono {tab : List Pas.Names.Entry} {f : Nat} {w : Bool} {n : Nat} {s r : State}
    (h : getToken tab f w n s = .ok r) (k : Nat) : getToken tab f w (n + k) s = .ok r := by
  induction n generalizing s r with
  | zero => simp [getToken] at h
  | succ n ih =>
    rw [Nat.succ_add, getToken]
    rw [getToken] at h
    simp only [Res.bind_eq_ok] at h ⊢
    obtain ⟨s1, h1, h⟩ := h
    exact ⟨s1, skipSpace_mono h1 k, dispatch_mono h k ih⟩

theorem scans_of {tab : List Pas.Names.Entry} {f : Nat} {w : Bool} {n : Nat} {s r : State}
    (h : getToken tab f w n s = .ok r) : Scans tab f w s r := by
  refine ⟨n, fun m hm => ?_⟩
  obtain ⟨k, rfl⟩ : ∃ k, m = n + k := ⟨m - n, by omega⟩
  exact getToken_mono h k

theorem scans_unique {tab : List Pas.Names.Entry} {f : Nat} {w : Bool} {s r r' : State}
    (h : Scans tab f w s r) (h' : Scans tab f w s r') : r = r' := by
  obtain ⟨N, h⟩ := h
  obtain ⟨M, h'⟩ := h'
  have h1 := h (N + M) (by omega)
  rw [h' (N + M) (by omega)] at h1
  exact (Res.ok.inj h1).symm

/-- The first thing a token does when it does not start with a blank. -/
theorem getToken_start (tab : List Pas.Names.Entry) (f : Nat) (w : Bool) (n : Nat) (s : State)
    {c : Byte} (hc : s.inp.inChar = c) (hb : ¬ Blank c) :
    getToken tab f w (n + 2) s = dispatch tab f w s.token (n + 1) (getToken tab f w (n + 1))
      { s with
        start := s.stack.length
        sym := none } c := by
  have hs : isSpace s.inp.inChar = false := by
    rw [hc]; cases h : isSpace c
    · rfl
    · exact absurd ((isSpace_iff c).1 h) hb
  rw [getToken, skipSpace_zero (by exact hs)]
  simp only [Res.ok_bind, hc]

theorem dispatch_other (tab : List Pas.Names.Entry) (f : Nat) (w : Bool) (last n : Nat)
    (again : State → Res State) (s : State) (c : Byte) (h1 : ¬ Letter c) (h2 : ¬ Digit c)
    (h3 : c ≠ 95#8) :
    dispatch tab f w last n again s c =
      (if c = 39#8 then stringToken n s
  else if c = 58#8 then .ok (pair s c [(61#8, 0x0a)])
  else if c = 46#8 then
    if isDigit s.get.inp.inChar then realNumber n s.get
    else .ok (pair s c [(46#8, 0x0b)])
  else if c = 60#8 then .ok (pair s c [(62#8, 35), (61#8, 8), (60#8, 0xa1)])
  else if c = 62#8 then .ok (pair s c [(60#8, 0x0c), (61#8, 9), (62#8, 0xa2)])
  else if c = 123#8 then do
    let s ← braceLoop n s
    again s.get
  else if c = 40#8 then
    if s.get.inp.inChar ≠ 42#8 then .ok { s.get with token := 40 }
    else do
      let s ← starLoop 41#8 n 32#8 s.get
      again s.get
  else if c = 47#8 then
    if s.get.inp.inChar = 47#8 then
      again { s with inp := skipLine s.get.inp.buf s.get.inp.lines }
    else if s.get.inp.inChar ≠ 42#8 then .ok { s.get with token := 47 }
    else do
      let s ← starLoop 47#8 n 32#8 s.get
      again s.get
  else if c = 37#8 then hexadecimal n s
  else if c.toNat < 128 then .ok { s with token := c.toNat }.get
  else again s.get) := by
  unfold dispatch
  rw [if_neg, if_neg]
  · exact fun h => h2 ((isDigit_iff c).1 h)
  · rw [Bool.or_eq_true, isAlpha_iff]
    rintro (h | h)
    · exact h1 h
    · exact h3 (by simpa using h)

theorem blank_get {tab : List Pas.Names.Entry} {f : Nat} {w : Bool} {s r : State} {b : Byte}
    (hc : s.inp.inChar = b) (hb : Blank b) (h : Scans tab f w s.get r) : Scans tab f w s r := by
  obtain ⟨N, h⟩ := h
  have h := h (N + 1) (by omega)
  apply scans_of (n := N + 2)
  rw [getToken] at h ⊢
  simp only [Res.bind_eq_ok] at h ⊢
  obtain ⟨t, h1, h2⟩ := h
  refine ⟨t, ?_, ?_⟩
  · rw [skipSpace_step (b := b) (by exact hc) hb]; exact h1
  · exact dispatch_mono h2 1 fun h => getToken_mono h 1

theorem brace_get {tab : List Pas.Names.Entry} {f : Nat} {w : Bool} {s : State}
    {body t : List Byte} (h : Coming s.inp (123#8 :: (body ++ 125#8 :: t))) (hb : 125#8 ∉ body)
    (ht : t ≠ []) :
    ∃ i, Coming i t ∧ ∀ r, Scans tab f w { s with inp := i } r → Scans tab f w s r := by
  obtain ⟨x, t, rfl⟩ : ∃ x t', t = x :: t' := by cases t <;> simp at ht ⊢
  obtain ⟨i, hi, hci⟩ := braceLoop_ok (n := body.length + 1) (s := { s with
    start := s.stack.length
    sym := none }) h hb (by omega)
  refine ⟨i.get, coming_get hci, ?_⟩
  rintro r ⟨N, hN⟩
  have hN := hN (N + body.length + 1) (by omega)
  apply scans_of (n := N + body.length + 2)
  rw [getToken_start _ _ _ _ _ (coming_char h) (by simp [Blank]), dispatch_other _ _ _ _ _ _ _ _
    (by simp [Letter]) (by simp [Digit]) (by decide)]
  simp only [show ((123#8 : Byte) = 39#8) = False by simp, show ((123#8 : Byte) = 58#8) = False by simp,
    show ((123#8 : Byte) = 46#8) = False by simp, show ((123#8 : Byte) = 60#8) = False by simp,
    show ((123#8 : Byte) = 62#8) = False by simp, if_false, if_true]
  have := braceLoop_mono hi N
  rw [show N + body.length + 1 = body.length + 1 + N by omega] at hN ⊢
  rw [this]
  simp only [Res.ok_bind, State.get]
  rw [← getToken_reset _ _ _ _ _ s.stack.length none] at hN
  exact hN

theorem star_get {tab : List Pas.Names.Entry} {f : Nat} {w : Bool} {s : State} {o c : Byte}
    (hoc : (o = 40#8 ∧ c = 41#8) ∨ (o = 47#8 ∧ c = 47#8)) {body t : List Byte}
    (h : Coming s.inp (o :: 42#8 :: (body ++ 42#8 :: c :: t))) (hb : ¬ [42#8, c] <:+: body)
    (ht : t ≠ []) :
    ∃ i, Coming i t ∧ ∀ r, Scans tab f w { s with inp := i } r → Scans tab f w s r := by
  obtain ⟨x, t, rfl⟩ : ∃ x t', t = x :: t' := by cases t <;> simp at ht ⊢
  have hg := coming_get h
  have hc42 : c ≠ 42#8 := by rcases hoc with ⟨_, rfl⟩ | ⟨_, rfl⟩ <;> decide
  obtain ⟨i, hi, hci⟩ := starLoop_ok hc42 (n := body.length + 2) (s := { s with
    inp := s.inp.get
    start := s.stack.length
    sym := none }) hg (infix_blank hb) (by omega)
  refine ⟨i.get, coming_get hci, ?_⟩
  rintro r ⟨N, hN⟩
  have hN := hN (N + body.length + 2) (by omega)
  have hm := starLoop_mono hi N
  rw [← getToken_reset _ _ _ _ _ s.stack.length none] at hN
  rw [show body.length + 2 + N = N + body.length + 2 by omega] at hm
  apply scans_of (n := N + body.length + 3)
  have h42 : s.inp.get.inChar = 42#8 := coming_char hg
  rcases hoc with ⟨rfl, rfl⟩ | ⟨rfl, rfl⟩
  · rw [getToken_start _ _ _ _ _ (coming_char h) (by simp [Blank]), dispatch_other _ _ _ _ _ _ _ _
      (by simp [Letter]) (by simp [Digit]) (by decide)]
    simp only [State.get, h42, show ((40#8 : Byte) = 39#8) = False by simp,
      show ((40#8 : Byte) = 58#8) = False by simp,
      show ((40#8 : Byte) = 46#8) = False by simp, show ((40#8 : Byte) = 60#8) = False by simp,
      show ((40#8 : Byte) = 62#8) = False by simp, show ((40#8 : Byte) = 123#8) = False by simp,
      if_false, if_true, ne_eq, not_true]
    rw [hm]
    exact hN
  · rw [getToken_start _ _ _ _ _ (coming_char h) (by simp [Blank]), dispatch_other _ _ _ _ _ _ _ _
      (by simp [Letter]) (by simp [Digit]) (by decide)]
    simp only [State.get, h42, show ((47#8 : Byte) = 39#8) = False by simp,
      show ((47#8 : Byte) = 58#8) = False by simp,
      show ((47#8 : Byte) = 46#8) = False by simp, show ((47#8 : Byte) = 60#8) = False by simp,
      show ((47#8 : Byte) = 62#8) = False by simp, show ((47#8 : Byte) = 123#8) = False by simp,
      show ((47#8 : Byte) = 40#8) = False by simp, show ((42#8 : Byte) = 47#8) = False by simp,
      if_false, if_true, ne_eq, not_true]
    rw [hm]
    exact hN

theorem layout_get {tab : List Pas.Names.Entry} {f : Nat} {w : Bool} {l : List Byte}
    (hl : Layout l) : ∀ {s : State} {t : List Byte}, Coming s.inp (l ++ t) → t ≠ [] →
      ∃ i, Coming i t ∧ ∀ r, Scans tab f w { s with inp := i } r → Scans tab f w s r := by
  induction hl with
  | nil => intro s t h _; exact ⟨s.inp, h, fun _ h => h⟩
  | @blank b cs hb _ ih =>
    intro s t h ht
    obtain ⟨x, y, hxy⟩ : ∃ x y, cs ++ t = x :: y := by
      cases cs with
      | nil => cases t <;> simp at ht ⊢
      | cons => exact ⟨_, _, rfl⟩
    have hg : Coming s.get.inp (cs ++ t) := by
      rw [hxy]; rw [List.cons_append, hxy] at h; exact coming_get h
    obtain ⟨i, hi, hr⟩ := ih hg ht
    exact ⟨i, hi, fun r h' => blank_get (coming_char h) hb (hr r h')⟩
  | @brace body cs hb _ ih =>
    intro s t h ht
    simp only [List.cons_append, List.append_assoc] at h
    obtain ⟨i, hi, hr⟩ := brace_get (tab := tab) (f := f) (w := w) h hb (by cases cs <;> simp [ht])
    obtain ⟨j, hj, hr'⟩ := ih (s := { s with inp := i }) hi ht
    exact ⟨j, hj, fun r h' => hr r (hr' r h')⟩
  | @paren body cs hb _ ih =>
    intro s t h ht
    simp only [List.cons_append, List.append_assoc] at h
    obtain ⟨i, hi, hr⟩ := star_get (tab := tab) (f := f) (w := w) (Or.inl ⟨rfl, rfl⟩) h hb
      (by cases cs <;> simp [ht])
    obtain ⟨j, hj, hr'⟩ := ih (s := { s with inp := i }) hi ht
    exact ⟨j, hj, fun r h' => hr r (hr' r h')⟩
  | @slash body cs hb _ ih =>
    intro s t h ht
    simp only [List.cons_append, List.append_assoc] at h
    obtain ⟨i, hi, hr⟩ := star_get (tab := tab) (f := f) (w := w) (Or.inr ⟨rfl, rfl⟩) h hb
      (by cases cs <;> simp [ht])
    obtain ⟨j, hj, hr'⟩ := ih (s := { s with inp := i }) hi ht
    exact ⟨j, hj, fun r h' => hr r (hr' r h')⟩

/-! ### The tokens -/

/-- The state after a literal. -/
def literal (s : State) (i : Input) : List Byte → State
  | [b] => { s with
      inp := i
      token := 3
      uint := b.signExtend 32 }
  | w => { s with
      inp := i
      token := 6
      stack := s.stack ++ w ++ [0#8] }

theorem stringToken_ok {w : List Byte} {c : Byte} {t : List Byte} {n : Nat} {s : State}
    (h : Coming s.inp (quoted w ++ c :: t)) (hc : c ≠ 39#8) (hw : 10#8 ∉ w)
    (hr : s.stack.length + w.length + 1 ≤ 65536) (hn : w.length < n)
    (hs : s.start = s.stack.length) :
    ∃ i, Coming i (c :: t) ∧ stringToken n s = .ok (literal s i w) := by
  rw [quoted_eq] at h
  simp only [List.cons_append, List.append_assoc, List.nil_append] at h
  have hg : Coming s.inp.get (doubled w ++ 39#8 :: c :: t) := by
    obtain ⟨b, cs, hbc⟩ := doubled_tail w c t
    rw [hbc] at h ⊢
    exact coming_get h
  obtain ⟨i, hi, hci⟩ := stringLoop_ok (n := n) (k := 0#16) (s := { s with
    inp := s.inp.get
    token := 6 }) hg hc hw (by simp; omega) hn
  refine ⟨i, hci, ?_⟩
  unfold stringToken
  simp only [State.get]
  rw [hi]
  simp only [Res.ok_bind]
  rw [push_ok _ (by simp; omega)]
  simp only [Res.ok_bind]
  match w, hr with
  | [b], _ =>
    rw [if_pos (by simp)]
    simp only [hs, List.append_assoc, List.singleton_append]
    rw [show (s.stack ++ [b, 0#8])[s.stack.length]? = some b by simp]
    simp [State.pop, hs, literal]
  | [], _ =>
    rw [if_neg (by simp)]; rfl
  | a :: b :: r, hr =>
    rw [if_neg]
    · rfl
    simp only [List.length_cons, BitVec.zero_add] at hr ⊢
    intro he
    have := congrArg BitVec.toNat he
    simp only [BitVec.toNat_ofNat] at this
    rw [Nat.mod_eq_of_lt (by omega)] at this
    omega

theorem foldl_dec (ds : List Byte) (v : Nat) :
    ds.foldl (fun v d => 10 * v + (d.toNat - 48)) v = v * 10 ^ ds.length + decimal ds := by
  induction ds generalizing v with
  | nil => simp [decimal]
  | cons d ds ih =>
    simp only [List.foldl_cons, ih, decimal, List.length_cons, Nat.pow_succ]
    rw [Nat.add_mul, Nat.mul_comm 10 v, Nat.mul_assoc, Nat.mul_comm 10 (10 ^ ds.length),
      Nat.add_assoc]

theorem decValue_eq (ds : List Byte) : decValue ds = decimal ds := by
  rw [decValue, foldl_dec]; simp

theorem scan_ok {s : State} {st ds : List Byte} {value : List Byte → Nat}
    (hst : s.stack = st ++ ds ++ [0#8]) (h0 : s.start = st.length) (hz : 0#8 ∉ ds) (hne : ds ≠ [])
    (hv : value ds < 2 ^ 32) : s.scan value = .ok { s with uint := BitVec.ofNat 32 (value ds) } := by
  rw [State.scan, string_pushed hst h0 hz, if_neg hne, if_pos hv]

theorem digit_ne_zero {ds : List Byte} (h : ∀ d ∈ ds, Digit d) : 0#8 ∉ ds := by
  intro hm
  have := h _ hm
  simp [Digit] at this

theorem number_ok {ds : List Byte} {c : Byte} {t : List Byte} {n : Nat} {s : State}
    (h : Coming s.inp (ds ++ c :: t)) (hd : ∀ d ∈ ds, Digit d) (hne : ds ≠ []) (hc : ¬ Digit c)
    (he : c ≠ 101#8 ∧ c ≠ 69#8) (hdot : c = 46#8 → ∃ t', t = 46#8 :: t')
    (hv : decimal ds < 2 ^ 32)
    (hr : s.stack.length + ds.length + 1 ≤ 65536) (hn : ds.length ≤ n)
    (hs : s.start = s.stack.length) :
    ∃ i, Coming i (c :: t) ∧ number n s = .ok { s with
      inp := i
      token := 2
      uint := BitVec.ofNat 32 (decimal ds) } := by
  cases ds with
  | nil => exact absurd rfl hne
  | cons d ds =>
    have hp : ∀ x ∈ ds, isDigit x = true := fun x hx => (isDigit_iff x).2 (hd x (by simp [hx]))
    have hcf : isDigit c = false := by
      cases hq : isDigit c
      · rfl
      · exact absurd ((isDigit_iff c).1 hq) hc
    have hg : Coming s.inp.get (ds ++ c :: t) := by cases ds <;> exact coming_get h
    simp only [List.length_cons] at hr hn
    obtain ⟨i, hi, hci⟩ := takeWhile_ok (n := n) (s := { s with
      inp := s.inp.get
      stack := s.stack ++ [d]
      token := 2 }) hg hp hcf (by simp; omega) (by omega)
    have hic : i.inChar = c := coming_char hci
    have fin : ∀ j : Input, (State.push { s with
          inp := j
          stack := s.stack ++ [d] ++ ds
          token := 2 } 0#8 >>= fun s => s.scan decValue >>= fun s => .ok s.pop)
        = .ok { s with
          inp := j
          token := 2
          uint := BitVec.ofNat 32 (decimal (d :: ds)) } := by
      intro j
      rw [push_ok _ (by simp; omega)]
      simp only [Res.ok_bind]
      rw [scan_ok (st := s.stack) (ds := d :: ds) (by simp) (by exact hs) (digit_ne_zero hd) (by simp)
        (by rw [decValue_eq]; exact hv)]
      simp [State.pop, hs, decValue_eq]
    by_cases hcd : c = 46#8
    · obtain ⟨t', rfl⟩ := hdot hcd
      subst hcd
      have hpk := coming_peek hci
      refine ⟨i.peek, hpk, ?_⟩
      unfold number
      simp only [coming_char h]
      rw [push_ok _ (by simp; omega)]
      simp only [Res.ok_bind, State.get]
      rw [hi]
      simp only [Res.ok_bind, hic, coming_char hpk, if_true, ne_eq, not_true, if_false,
        show ((46#8 : Byte) = 101#8 ∨ (46#8 : Byte) = 69#8) = False by simp]
      exact fin _
    · refine ⟨i, hci, ?_⟩
      unfold number
      simp only [coming_char h]
      rw [push_ok _ (by simp; omega)]
      simp only [Res.ok_bind, State.get]
      rw [hi]
      simp only [Res.ok_bind, hic]
      rw [if_neg (by simp [he]), if_pos hcd]
      exact fin _

/-- Upper case of a hexadecimal digit, as pushed. -/
def hexUp (b : Byte) : Byte := if 97#8 ≤ b ∧ b ≤ 102#8 then b - 32#8 else b

theorem hex_none : ∀ c : Byte, Pas.Spec.hexDigit c = none →
    isDigit c = false ∧ ¬ (65#8 ≤ c ∧ c ≤ 70#8) ∧ ¬ (97#8 ≤ c ∧ c ≤ 102#8) := by decide +kernel

theorem hex_some : ∀ b : Byte, (Pas.Spec.hexDigit b).isSome → (isDigit b = true ∧ hexUp b = b) ∨
    (isDigit b = false ∧ (65#8 ≤ b ∧ b ≤ 70#8) ∧ hexUp b = b) ∨
    (isDigit b = false ∧ ¬ (65#8 ≤ b ∧ b ≤ 70#8) ∧ (97#8 ≤ b ∧ b ≤ 102#8) ∧
      hexUp b = b - 32#8) := by decide +kernel

theorem hex_val : ∀ d : Byte, (Pas.Spec.hexDigit d).isSome →
    (if (hexUp d).toNat ≤ 57 then (hexUp d).toNat - 48 else (hexUp d).toNat - 55)
      = (Pas.Spec.hexDigit d).getD 0 := by decide +kernel

theorem hex_nonzero : ∀ d : Byte, (Pas.Spec.hexDigit d).isSome → hexUp d ≠ 0#8 := by decide +kernel

theorem hexLoop_ok {ds : List Byte} {c : Byte} {t : List Byte} :
    ∀ {n : Nat} {s : State} {a : Byte}, Coming s.inp (a :: (ds ++ c :: t)) →
      (∀ d ∈ ds, (Pas.Spec.hexDigit d).isSome) → Pas.Spec.hexDigit c = none →
      s.stack.length + ds.length ≤ 65536 → ds.length < n →
      ∃ i, hexLoop n s = .ok { s with
        inp := i
        stack := s.stack ++ ds.map hexUp } ∧ Coming i (c :: t) := by
  induction ds with
  | nil =>
    intro n s a h _ hc _ hn
    obtain ⟨m, rfl⟩ : ∃ m, n = m + 1 := ⟨n - 1, by simp at hn; omega⟩
    have hg : Coming s.inp.get (c :: t) := coming_get h
    refine ⟨s.inp.get, ?_, hg⟩
    have h2 : s.get.inp.inChar = c := coming_char hg
    have := hex_none c hc
    rw [hexLoop]
    simp only [h2, this.1, this.2.1, this.2.2, if_false]
    simp [State.get]
  | cons b w ih =>
    intro n s a h hd hc hr hn
    simp only [List.length_cons] at hr hn
    obtain ⟨m, rfl⟩ : ∃ m, n = m + 1 := ⟨n - 1, by omega⟩
    have hg : Coming s.inp.get (b :: (w ++ c :: t)) := coming_get h
    have h2 : s.get.inp.inChar = b := coming_char hg
    obtain ⟨i, hi, hci⟩ := ih (n := m) (s := { s with
        inp := s.inp.get
        stack := s.stack ++ [hexUp b] }) hg (fun x hx => hd x (by simp [hx])) hc (by simp; omega)
        (by omega)
    refine ⟨i, ?_, hci⟩
    have hb := hd b (by simp)
    have := hex_some b hb
    have hpush : s.get.push (hexUp b) = .ok { s with
        inp := s.inp.get
        stack := s.stack ++ [hexUp b] } := push_ok _ (by simp only [State.get]; omega)
    rw [hexLoop]
    rw [List.map_cons]
    simp only [List.append_assoc, List.singleton_append] at hi
    rcases this with ⟨h1, h3⟩ | ⟨h1, h3, h4⟩ | ⟨h1, h3, h4, h5⟩
    · rw [h3] at hpush hi ⊢
      rw [h2, if_pos h1, hpush]; exact hi
    · rw [h4] at hpush hi ⊢
      rw [h2, if_neg (by simp [h1]), if_pos h3, hpush]; exact hi
    · rw [h2, if_neg (by simp [h1]), if_neg h3, if_pos h4, ← h5, hpush]; exact hi

theorem foldl_hex (ds : List Byte) (h : ∀ d ∈ ds, (Pas.Spec.hexDigit d).isSome) (v : Nat) :
    (ds.map hexUp).foldl
      (fun v d => 16 * v + (if d.toNat ≤ 57 then d.toNat - 48 else d.toNat - 55)) v
      = v * 16 ^ ds.length + Pas.Spec.hexadecimal ds := by
  induction ds generalizing v with
  | nil => simp [Pas.Spec.hexadecimal]
  | cons d ds ih =>
    have hd := hex_val d (h d (by simp))
    simp only [List.map_cons, List.foldl_cons, hd, ih fun x hx => h x (by simp [hx]),
      Pas.Spec.hexadecimal, List.length_cons, Nat.pow_succ]
    rw [Nat.add_mul, Nat.mul_comm 16 v, Nat.mul_assoc, Nat.mul_comm 16 (16 ^ ds.length),
      Nat.add_assoc]

theorem hexadecimal_ok {ds : List Byte} {c : Byte} {t : List Byte} {n : Nat} {s : State}
    (h : Coming s.inp (37#8 :: (ds ++ c :: t))) (hd : ∀ d ∈ ds, (Pas.Spec.hexDigit d).isSome)
    (hne : ds ≠ []) (hc : Pas.Spec.hexDigit c = none) (hv : Pas.Spec.hexadecimal ds < 2 ^ 32)
    (hr : s.stack.length + ds.length + 1 ≤ 65536) (hn : ds.length < n)
    (hs : s.start = s.stack.length) :
    ∃ i, Coming i (c :: t) ∧ hexadecimal n s = .ok { s with
      inp := i
      token := 2
      uint := BitVec.ofNat 32 (Pas.Spec.hexadecimal ds) } := by
  obtain ⟨i, hi, hci⟩ := hexLoop_ok (n := n) (s := { s with token := 2 }) h hd hc (by simp; omega) hn
  refine ⟨i, hci, ?_⟩
  have hval : hexValue (ds.map hexUp) = Pas.Spec.hexadecimal ds := by
    rw [hexValue, foldl_hex _ hd]; simp
  unfold hexadecimal
  simp only
  rw [hi]
  simp only [Res.ok_bind]
  rw [push_ok _ (by simp; omega)]
  simp only [Res.ok_bind]
  rw [scan_ok (st := s.stack) (ds := ds.map hexUp) (by simp) (by exact hs) ?_ (by simpa using hne)
    (by rw [hval]; exact hv)]
  · simp [State.pop, hs, hval]
  · intro hm
    obtain ⟨x, hx, h0⟩ := List.mem_map.1 hm
    exact hex_nonzero x (hd x hx) h0

theorem ident_zero {w : List Byte} (h : ∀ b ∈ w, IdentChar b) : 0#8 ∉ w := by
  intro hm
  have := h _ hm
  simp [IdentChar, Letter, Digit] at this

/-- The token of a name that has been read, and its attributes. -/
def named (tab : List Pas.Names.Entry) (f : Nat) (inWith : Bool) (last : Nat) (w : List Byte)
    (s : State) : State :=
  match Pas.Names.findReserved (Pas.Names.mapToAlias w) with
  | some r => { s with
      token := r.type
      sub := r.sub }
  | none =>
    match Pas.Names.identSymbol tab (Pas.Names.mapToAlias w) f (last == 46 || inWith) with
    | some e =>
      if e.kind = 5 then { s with
        token := e.kind
        sub := 0
        sym := some e }
      else { s with
        token := e.kind
        sub := 0
        uint := e.value
        sym := some e }
    | none => { s with
        token := 1
        sub := 0
        sym := none
        stack := s.stack ++ w ++ [0#8] }

theorem identifier_ok {tab : List Pas.Names.Entry} {f : Nat} {inWith : Bool} {last : Nat}
    {w : List Byte} {c : Byte} {t : List Byte} {n : Nat} {s : State}
    (h : Coming s.inp (w ++ c :: t)) (hw : ∀ b ∈ w, IdentChar b) (hne : w ≠ [])
    (hc : ¬ IdentChar c) (hr : s.stack.length + w.length + 1 ≤ 65536) (hn : w.length ≤ n)
    (hs : s.start = s.stack.length) :
    ∃ i, Coming i (c :: t) ∧ identifier tab f inWith last n s
      = .ok (named tab f inWith last w { s with inp := i }) := by
  cases w with
  | nil => exact absurd rfl hne
  | cons d w =>
    have hp : ∀ x ∈ w, isIdent x = true := fun x hx => (isIdent_iff x).2 (hw x (by simp [hx]))
    have hcf : isIdent c = false := by
      cases hq : isIdent c
      · rfl
      · exact absurd ((isIdent_iff c).1 hq) hc
    have hg : Coming s.inp.get (w ++ c :: t) := by cases w <;> exact coming_get h
    simp only [List.length_cons] at hr hn
    obtain ⟨i, hi, hci⟩ := takeWhile_ok (n := n) (s := { s with
      inp := s.inp.get
      stack := s.stack ++ [d]
      sub := 0 }) hg hp hcf (by simp; omega) (by omega)
    refine ⟨i, hci, ?_⟩
    unfold identifier named
    simp only [coming_char h]
    rw [push_ok _ (by simp; omega)]
    simp only [Res.ok_bind, State.get]
    rw [hi]
    simp only [Res.ok_bind]
    rw [push_ok _ (by simp; omega)]
    simp only [Res.ok_bind]
    rw [string_pushed (st := s.stack) (w := d :: w) (by simp) (by exact hs) (ident_zero hw)]
    cases Pas.Names.findReserved (Pas.Names.mapToAlias (d :: w)) with
    | some r => simp [State.pop, hs]
    | none =>
      simp only
      cases Pas.Names.identSymbol tab (Pas.Names.mapToAlias (d :: w)) f (last == 46 || inWith) with
      | none => simp
      | some e =>
        simp only
        split <;> simp [State.pop, hs]

theorem word_scan {tab : List Pas.Names.Entry} {f : Nat} {inWith : Bool}
    {w : List Byte} {c : Byte} {t : List Byte} {s : State}
    (h : Coming s.inp (w ++ c :: t)) (hw : Identifier w) (hc : ¬ IdentChar c)
    (hr : s.stack.length + w.length + 1 ≤ 65536) :
    ∃ i, Coming i (c :: t) ∧ Scans tab f inWith s (named tab f inWith s.token w { s with
      inp := i
      start := s.stack.length
      sym := none }) := by
  obtain ⟨hw, b, rest, rfl, hb⟩ := hw
  obtain ⟨i, hi, hs⟩ := identifier_ok (tab := tab) (f := f) (inWith := inWith)
    (last := s.token) (n := (b :: rest).length) (s := { s with
    start := s.stack.length
    sym := none }) h hw (by simp) hc hr (by omega) rfl
  refine ⟨i, hi, scans_of (n := rest.length + 2) ?_⟩
  have hbi := hw b (by simp)
  rw [getToken_start _ _ _ _ _ (coming_char h), dispatch, if_pos]
  · exact hs
  · rcases hbi with h | h | h
    · simp [(isAlpha_iff b).2 h]
    · exact absurd h hb
    · have : b = 95#8 := BitVec.eq_of_toNat_eq h
      simp [this]
  · intro hbl
    revert hbi hbl hb; clear h hw hr hc hs hi
    unfold IdentChar Blank Letter Digit
    revert b; decide +kernel

theorem number_scan {tab : List Pas.Names.Entry} {f : Nat} {inWith : Bool}
    {ds : List Byte} {c : Byte} {t : List Byte} {s : State}
    (h : Coming s.inp (ds ++ c :: t)) (hd : ∀ d ∈ ds, Digit d) (hne : ds ≠ []) (hc : ¬ Digit c)
    (he : c ≠ 101#8 ∧ c ≠ 69#8) (hdot : c = 46#8 → ∃ t', t = 46#8 :: t')
    (hv : decimal ds < 2 ^ 32) (hr : s.stack.length + ds.length + 1 ≤ 65536) :
    ∃ i, Coming i (c :: t) ∧ Scans tab f inWith s { s with
      inp := i
      token := 2
      start := s.stack.length
      sym := none
      uint := BitVec.ofNat 32 (decimal ds) } := by
  obtain ⟨i, hi, hs⟩ := number_ok (n := ds.length + 1) (s := { s with
    start := s.stack.length
    sym := none }) h hd hne hc he hdot hv hr (by omega) rfl
  refine ⟨i, hi, scans_of (n := ds.length + 2) ?_⟩
  cases ds with
  | nil => exact absurd rfl hne
  | cons b rest =>
    have hbd := hd b (by simp)
    rw [getToken_start _ _ _ _ _ (coming_char h), dispatch, if_neg, if_pos ((isDigit_iff b).2 hbd)]
    · exact hs
    · rw [Bool.or_eq_true, isAlpha_iff]
      rintro (h | h)
      · simp only [Letter, Digit] at h hbd; omega
      · have : b = 95#8 := by simpa using h
        subst this; simp [Digit] at hbd
    · intro hbl
      simp only [Blank, List.mem_cons, List.not_mem_nil, or_false] at hbl
      rcases hbl with rfl | rfl | rfl | rfl | rfl | rfl <;> simp [Digit] at hbd

theorem hex_scan {tab : List Pas.Names.Entry} {f : Nat} {inWith : Bool}
    {ds : List Byte} {c : Byte} {t : List Byte} {s : State}
    (h : Coming s.inp (37#8 :: (ds ++ c :: t))) (hd : ∀ d ∈ ds, (Pas.Spec.hexDigit d).isSome)
    (hne : ds ≠ []) (hc : Pas.Spec.hexDigit c = none) (hv : Pas.Spec.hexadecimal ds < 2 ^ 32)
    (hr : s.stack.length + ds.length + 1 ≤ 65536) :
    ∃ i, Coming i (c :: t) ∧ Scans tab f inWith s { s with
      inp := i
      token := 2
      start := s.stack.length
      sym := none
      uint := BitVec.ofNat 32 (Pas.Spec.hexadecimal ds) } := by
  obtain ⟨i, hi, hs⟩ := hexadecimal_ok (n := ds.length + 1) (s := { s with
    start := s.stack.length
    sym := none }) h hd hne hc hv hr (by omega) rfl
  refine ⟨i, hi, scans_of (n := ds.length + 2) ?_⟩
  rw [getToken_start _ _ _ _ _ (coming_char h) (by simp [Blank]), dispatch_other _ _ _ _ _ _ _ _
    (by simp [Letter]) (by simp [Digit]) (by decide)]
  iterate 8 rw [if_neg (by decide)]
  rw [if_pos rfl]
  exact hs

/-- A character that starts none of the longer tokens is a token by itself. -/
theorem char_scan {tab : List Pas.Names.Entry} {f : Nat} {inWith : Bool} {b c : Byte}
    {t : List Byte} {s : State} (h : Coming s.inp (b :: c :: t)) (h1 : ¬ Letter b) (h2 : ¬ Digit b)
    (h3 : ¬ Blank b) (h4 : b ∉ [95#8, 39#8, 58#8, 46#8, 60#8, 62#8, 123#8, 40#8, 47#8, 37#8])
    (h5 : b.toNat < 128) :
    ∃ i, Coming i (c :: t) ∧ Scans tab f inWith s { s with
      inp := i
      token := b.toNat
      start := s.stack.length
      sym := none } := by
  refine ⟨s.inp.get, coming_get h, scans_of (n := 2) ?_⟩
  simp only [List.mem_cons, List.not_mem_nil, or_false, not_or] at h4
  rw [getToken_start _ _ _ _ _ (coming_char h) h3, dispatch_other _ _ _ _ _ _ _ _ h1 h2 h4.1]
  simp only [h4, h5, if_false, if_true]
  rfl

/-- The two-character symbols and their first characters alone. -/
theorem pair_scan {tab : List Pas.Names.Entry} {f : Nat} {inWith : Bool} {b c : Byte}
    {t : List Byte} {s : State} (h : Coming s.inp (b :: c :: t)) {l : List (Byte × Nat)}
    (hl : (b, l) ∈ [(58#8, [(61#8, 0x0a)]), (46#8, [(46#8, 0x0b)]),
      (60#8, [(62#8, 35), (61#8, 8), (60#8, 0xa1)]), (62#8, [(60#8, 0x0c), (61#8, 9), (62#8, 0xa2)])])
    (hd : b = 46#8 → ¬ Digit c) :
    Scans tab f inWith s (pair { s with
      start := s.stack.length
      sym := none } b l) := by
  have hg : s.inp.get.inChar = c := coming_char (coming_get h)
  refine scans_of (n := 2) ?_
  simp only [List.mem_cons, List.not_mem_nil, or_false, Prod.mk.injEq] at hl
  rcases hl with ⟨rfl, rfl⟩ | ⟨rfl, rfl⟩ | ⟨rfl, rfl⟩ | ⟨rfl, rfl⟩
  · rw [getToken_start _ _ _ _ _ (coming_char h) (by simp [Blank]), dispatch_other _ _ _ _ _ _ _ _
      (by simp [Letter]) (by simp [Digit]) (by decide)]
    rfl
  · have : isDigit c = false := by
      cases hq : isDigit c
      · rfl
      · exact absurd ((isDigit_iff c).1 hq) (hd rfl)
    rw [getToken_start _ _ _ _ _ (coming_char h) (by simp [Blank]), dispatch_other _ _ _ _ _ _ _ _
      (by simp [Letter]) (by simp [Digit]) (by decide)]
    simp only [State.get, hg, this]
    rfl
  · rw [getToken_start _ _ _ _ _ (coming_char h) (by simp [Blank]), dispatch_other _ _ _ _ _ _ _ _
      (by simp [Letter]) (by simp [Digit]) (by decide)]
    rfl
  · rw [getToken_start _ _ _ _ _ (coming_char h) (by simp [Blank]), dispatch_other _ _ _ _ _ _ _ _
      (by simp [Letter]) (by simp [Digit]) (by decide)]
    rfl

end Pas.Tok
