import Verif.Spec.Spelling
import Verif.Lemmas.TokenErrors
import Verif.Lemmas.TokenReal
import Verif.Props.Names

/-! What the tokenizer has read, whatever is in front of it. -/
namespace Pas.Tok
open Pas.Spec Pas.Src
open Pas.Comp (lexOf codeTk Tk Lx)
open Pas.Names (Entry mapToAlias findReserved identSymbol)

/-- `Reads i w j`: the characters `w` are read from `i` on, up to `j`. -/
def Reads : Input → List Byte → Input → Prop
  | i, [], j => i = j
  | i, c :: w, j => i.inChar = c ∧ Reads i.get w j

theorem Reads.append {v w : List Byte} : ∀ {i j k : Input}, Reads i v j → Reads j w k → Reads i (v ++ w) k := by
  induction v with
  | nil => intro i j k h h'; cases h; exact h'
  | cons c v ih => intro i j k h h'; exact ⟨h.1, ih h.2 h'⟩

theorem Reads.one (i : Input) : Reads i [i.inChar] i.get := ⟨rfl, rfl⟩

theorem Reads.cons {i j : Input} {w : List Byte} {c : Byte} (hc : i.inChar = c) (h : Reads i.get w j) : Reads i (c :: w) j :=
  ⟨hc, h⟩

theorem Reads.snoc {i j : Input} {w : List Byte} {c : Byte} (h : Reads i w j) (hc : j.inChar = c) :
    Reads i (w ++ [c]) j.get := h.append ⟨hc, rfl⟩

/-- A line with its end. -/
def IsLine (l : List Byte) : Prop := ∃ u, l = u ++ [10#8] ∧ ∀ c ∈ u, TextChar c

/-- The buffers are lines of a text file. -/
structure Good (i : Input) : Prop where
  cur : IsLine (i.inChar :: i.rest)
  buf : IsLine i.buf
  lines : ∀ l ∈ i.lines, IsLine l

theorem textChar_q : TextChar 63#8 := ⟨by decide, .inr (by decide)⟩

theorem isLine_ne {l : List Byte} (h : IsLine l) : ∃ c r, l = c :: r := by
  obtain ⟨u, rfl, _⟩ := h
  cases u with
  | nil => exact ⟨_, _, rfl⟩
  | cons c u => exact ⟨_, _, rfl⟩

theorem skipLine_good {buf : List Byte} (hb : IsLine buf) {ls : List (List Byte)} (hl : ∀ l ∈ ls, IsLine l) :
    Good (skipLine buf ls) := by
  cases ls with
  | nil =>
    obtain ⟨u, rfl, hu⟩ := hb
    refine ⟨⟨63#8 :: u, rfl, ?_⟩, ⟨u, rfl, hu⟩, hl⟩
    intro c hc
    rcases List.mem_cons.1 hc with rfl | hc
    · exact textChar_q
    · exact hu c hc
  | cons l ls =>
    obtain ⟨c, r, rfl⟩ := isLine_ne (hl l (by simp))
    have h1 : IsLine (c :: r) := hl _ (by simp)
    exact ⟨h1, h1, fun x hx => hl x (List.mem_cons_of_mem _ hx)⟩

theorem Good.get {i : Input} (h : Good i) : Good i.get := by
  unfold Input.get
  split
  · rename_i c r hr
    obtain ⟨u, hu, ht⟩ := h.cur
    rw [hr] at hu
    cases u with
    | nil => simp at hu
    | cons a u =>
      rw [List.cons_append] at hu
      injection hu with _ hu
      exact ⟨⟨u, hu, fun x hx => ht x (by simp [hx])⟩, h.buf, h.lines⟩
  · exact skipLine_good h.buf h.lines

theorem Reads.good {w : List Byte} : ∀ {i j : Input}, Reads i w j → Good i → Good j := by
  induction w with
  | nil => intro i j h g; cases h; exact g
  | cons c w ih => intro i j h g; exact ih h.2 g.get

theorem Good.char {i : Input} (h : Good i) : i.inChar = 10#8 ∨ TextChar i.inChar := by
  obtain ⟨u, hu, ht⟩ := h.cur
  cases u with
  | nil => injection hu with hu _; exact .inl hu
  | cons a u => injection hu with hu _; exact .inr (hu ▸ ht a (by simp))

theorem Good.nonzero {i : Input} (h : Good i) : i.inChar ≠ 0#8 := by
  rcases h.char with h | ⟨_, h | h⟩
  · rw [h]; decide
  · intro h0; rw [h0] at h; simp [Blank] at h
  · intro h0; rw [h0] at h; simp at h

theorem Reads.nonzero {w : List Byte} : ∀ {i j : Input}, Reads i w j → Good i → 0#8 ∉ w := by
  induction w with
  | nil => intro i j h g; simp
  | cons c w ih =>
    intro i j h g hm
    rcases List.mem_cons.1 hm with h0 | hm
    · exact g.nonzero (h.1.trans h0.symm)
    · exact ih h.2 g.get hm

theorem Good.rest {i : Input} (h : Good i) (hc : i.inChar ≠ 10#8) : ∃ c r, i.rest = c :: r := by
  obtain ⟨u, hu, ht⟩ := h.cur
  cases u with
  | nil => injection hu with hu _; exact absurd hu hc
  | cons a u => injection hu with _ hu; rw [hu]; exact isLine_ne ⟨u, rfl, fun x hx => ht x (by simp [hx])⟩

theorem Good.peek {i : Input} (h : Good i) (hc : i.inChar ≠ 10#8) :
    i.peek.inChar = i.get.inChar ∧ i.peek.get = i.get ∧ (i.get.inChar = i.inChar → i.peek = i) := by
  obtain ⟨c, r, hr⟩ := h.rest hc
  obtain ⟨a, b, d, e⟩ := i
  simp only at hr; subst hr
  refine ⟨rfl, rfl, ?_⟩
  intro h; simp only [Input.get] at h; subst h; rfl

/-- The rest of a line. -/
theorem skipLine_reads (i : Input) (g : Good i) : ∃ u, 10#8 ∉ u ∧ Reads i (u ++ [10#8]) (skipLine i.buf i.lines) := by
  obtain ⟨u, hu, ht⟩ := g.cur
  have key : ∀ (u : List Byte) (i : Input), i.inChar :: i.rest = u ++ [10#8] →
      Reads i (u ++ [10#8]) (skipLine i.buf i.lines) := by
    intro u
    induction u with
    | nil =>
      intro i h
      injection h with h1 h2
      refine ⟨h1, ?_⟩
      show i.get = _
      unfold Input.get; rw [h2]
    | cons a u ih =>
      intro i h
      injection h with h1 h2
      refine ⟨h1, ?_⟩
      obtain ⟨c, r, hr⟩ : ∃ c r, i.rest = c :: r := by rw [h2]; cases u <;> exact ⟨_, _, rfl⟩
      have hg : i.get = ⟨c, r, i.buf, i.lines⟩ := by unfold Input.get; rw [hr]
      have := ih ⟨c, r, i.buf, i.lines⟩ (by rw [hr] at h2; exact h2)
      rw [hg]; exact this
  exact ⟨u, fun h => (ht _ h).1 rfl, key u i hu⟩

/-! ### The loops -/

theorem push_eq {s r : State} {c : Byte} (h : s.push c = .ok r) :
    r = { s with stack := s.stack ++ [c] } ∧ s.stack.length < 65536 := by
  unfold State.push at h
  split at h
  · cases h; exact ⟨rfl, by assumption⟩
  · cases h

theorem takeWhile_reads {p : Byte → Bool} : ∀ {n : Nat} {s r : State}, takeWhile p n s = .ok r →
    ∃ w, Reads s.inp w r.inp ∧ (∀ c ∈ w, p c = true) ∧ p r.inp.inChar = false ∧
      r = { s with inp := r.inp, stack := s.stack ++ w }
  | 0, _, _, h => by cases h
  | n + 1, s, r, h => by
    unfold takeWhile at h
    split at h
    · rename_i hp
      simp only [Res.bind_eq_ok] at h
      obtain ⟨t, h1, h2⟩ := h
      obtain ⟨rfl, _⟩ := push_eq h1
      obtain ⟨w, hw, hall, hst, hr⟩ := takeWhile_reads h2
      refine ⟨s.inp.inChar :: w, ⟨rfl, hw⟩, ?_, hst, ?_⟩
      · intro c hc
        rcases List.mem_cons.1 hc with rfl | hc
        · exact hp
        · exact hall c hc
      · rw [hr]; simp [State.get]
    · rename_i hp
      cases h
      exact ⟨[], rfl, by simp, by simpa using hp, by simp⟩

theorem skipSpace_reads : ∀ {n : Nat} {s r : State}, skipSpace n s = .ok r →
    ∃ w, Reads s.inp w r.inp ∧ (∀ c ∈ w, Blank c) ∧ ¬ Blank r.inp.inChar ∧ r = { s with inp := r.inp }
  | 0, _, _, h => by cases h
  | n + 1, s, r, h => by
    unfold skipSpace at h
    split at h
    · rename_i hp
      obtain ⟨w, hw, hall, hst, hr⟩ := skipSpace_reads h
      refine ⟨s.inp.inChar :: w, ⟨rfl, hw⟩, ?_, hst, ?_⟩
      · intro c hc
        rcases List.mem_cons.1 hc with rfl | hc
        · exact (isSpace_iff _).1 hp
        · exact hall c hc
      · rw [hr]; simp [State.get]
    · rename_i hp
      cases h
      exact ⟨[], rfl, by simp, fun hb => hp ((isSpace_iff _).2 hb), rfl⟩

theorem braceLoop_reads : ∀ {n : Nat} {s r : State}, braceLoop n s = .ok r →
    ∃ w, Reads s.inp.get w r.inp ∧ 125#8 ∉ w ∧ r.inp.inChar = 125#8 ∧ r = { s with inp := r.inp }
  | 0, _, _, h => by cases h
  | n + 1, s, r, h => by
    unfold braceLoop at h
    dsimp only at h
    split at h
    · rename_i hp
      obtain ⟨w, hw, hall, hst, hr⟩ := braceLoop_reads h
      refine ⟨s.inp.get.inChar :: w, ⟨rfl, hw⟩, ?_, hst, ?_⟩
      · intro hm
        rcases List.mem_cons.1 hm with he | hc
        · exact hp he.symm
        · exact hall hc
      · rw [hr]; simp [State.get]
    · rename_i hp
      cases h
      exact ⟨[], rfl, by simp, by simpa using hp, rfl⟩

theorem starLoop_reads {close : Byte} : ∀ {n : Nat} {last : Byte} {s r : State}, starLoop close n last s = .ok r →
    ∃ w, Reads s.inp.get w r.inp ∧ r.inp.inChar = close ∧ (last :: w).getLast (by simp) = 42#8 ∧
      ¬ [42#8, close] <:+: last :: w ∧ r = { s with inp := r.inp }
  | 0, _, _, _, h => by cases h
  | n + 1, last, s, r, h => by
    unfold starLoop at h
    dsimp only at h
    split at h
    · rename_i hp
      cases h
      refine ⟨[], rfl, hp.2, hp.1, ?_, rfl⟩
      intro hi
      have := hi.length_le
      simp at this
    · rename_i hp
      obtain ⟨w, hw, hc, hl, hi, hr⟩ := starLoop_reads h
      refine ⟨s.inp.get.inChar :: w, ⟨rfl, hw⟩, hc, ?_, ?_, ?_⟩
      · rw [List.getLast_cons (by simp)]; exact hl
      · intro hx
        rcases List.infix_cons_iff.1 hx with hx | hx
        · obtain ⟨t, ht⟩ := hx
          injection ht with h1 h2
          injection h2 with h2 _
          exact hp ⟨h1.symm, h2.symm⟩
        · exact hi hx
      · rw [hr]; simp [State.get]

theorem hex_step : ∀ c : Byte, (isDigit c = true → (hexDigit c).isSome ∧ hexUp c = c) ∧
    ((65#8 ≤ c ∧ c ≤ 70#8) → (hexDigit c).isSome ∧ hexUp c = c) ∧
    ((97#8 ≤ c ∧ c ≤ 102#8) → (hexDigit c).isSome ∧ hexUp c = c - 32#8) ∧
    (isDigit c = false → ¬ (65#8 ≤ c ∧ c ≤ 70#8) → ¬ (97#8 ≤ c ∧ c ≤ 102#8) → hexDigit c = none) := by decide +kernel

theorem hexLoop_reads : ∀ {n : Nat} {s r : State}, hexLoop n s = .ok r →
    ∃ w, Reads s.inp.get w r.inp ∧ (∀ c ∈ w, (hexDigit c).isSome) ∧ hexDigit r.inp.inChar = none ∧
      r = { s with inp := r.inp, stack := s.stack ++ w.map hexUp }
  | 0, _, _, h => by cases h
  | n + 1, s, r, h => by
    have step : ∀ {x : Byte} {t : State}, s.get.push x = .ok t → hexLoop n t = .ok r →
        (hexDigit s.inp.get.inChar).isSome → hexUp s.inp.get.inChar = x →
        ∃ w, Reads s.inp.get w r.inp ∧ (∀ c ∈ w, (hexDigit c).isSome) ∧ hexDigit r.inp.inChar = none ∧
          r = { s with inp := r.inp, stack := s.stack ++ w.map hexUp } := by
      intro x t h1 h2 hd hx
      obtain ⟨rfl, _⟩ := push_eq h1
      obtain ⟨w, hw, hall, hst, hr⟩ := hexLoop_reads h2
      refine ⟨s.inp.get.inChar :: w, ⟨rfl, hw⟩, ?_, hst, ?_⟩
      · intro c hc
        rcases List.mem_cons.1 hc with rfl | hc
        · exact hd
        · exact hall c hc
      · rw [hr]; simp [State.get, hx]
    have hs := hex_step s.inp.get.inChar
    unfold hexLoop at h
    dsimp only at h
    split at h
    · rename_i hp
      simp only [Res.bind_eq_ok] at h
      obtain ⟨t, h1, h2⟩ := h
      have := hs.1 hp
      exact step h1 h2 this.1 this.2
    · rename_i hp1
      split at h
      · rename_i hp
        simp only [Res.bind_eq_ok] at h
        obtain ⟨t, h1, h2⟩ := h
        have := hs.2.1 hp
        exact step h1 h2 this.1 this.2
      · rename_i hp2
        split at h
        · rename_i hp
          simp only [Res.bind_eq_ok] at h
          obtain ⟨t, h1, h2⟩ := h
          have := hs.2.2.1 hp
          exact step h1 h2 this.1 this.2
        · rename_i hp3
          cases h
          exact ⟨[], rfl, by simp, hs.2.2.2 (Bool.eq_false_iff.2 hp1) hp2 hp3, by simp [State.get]⟩

theorem stringLoop_reads : ∀ {n : Nat} {k : Word} {s : State} {r : Word × State}, stringLoop n k s = .ok r →
    s.errors < r.2.errors ∨ ∃ t, Reads s.inp (doubled t ++ [39#8]) r.2.inp ∧ r.2.inp.inChar ≠ 39#8 ∧ 10#8 ∉ t ∧
      r.1 = k + BitVec.ofNat 16 t.length ∧ (s.stack.length ≤ 65536 → s.stack.length + t.length ≤ 65536) ∧
      r.2 = { s with inp := r.2.inp, stack := s.stack ++ t }
  | 0, _, _, _, h => by cases h
  | n + 1, k, s, r, h => by
    unfold stringLoop at h
    dsimp only at h
    split at h
    · rename_i hq
      split at h
      · rename_i hq2
        simp only [Res.bind_eq_ok] at h
        obtain ⟨t, h1, h2⟩ := h
        obtain ⟨rfl, hlen⟩ := push_eq h1
        have hlen : s.stack.length < 65536 := hlen
        rcases stringLoop_reads h2 with he | ⟨u, hu, hc, hn, hk, hle, hr⟩
        · exact .inl he
        · refine .inr ⟨39#8 :: u, ?_, hc, ?_, ?_, ?_, ?_⟩
          · rw [doubled_cons, if_pos rfl]
            exact ⟨hq, hq2, hu⟩
          · intro hm
            rcases List.mem_cons.1 hm with hm | hm
            · cases hm
            · exact hn hm
          · rw [hk, List.length_cons]; apply BitVec.eq_of_toNat_eq; simp; omega
          · simp only [State.get, List.length_append, List.length_cons, List.length_nil] at hle ⊢; omega
          · rw [hr]; simp [State.get, show s.get.inp.inChar = 39#8 from hq2, show s.inp.get.inChar = 39#8 from hq2]
      · rename_i hq2
        cases h
        exact .inr ⟨[], ⟨hq, rfl⟩, hq2, by simp, by simp, by simp, by simp [State.get]⟩
    · rename_i hq
      split at h
      · cases h
        left
        show s.errors < s.errors + 1
        omega
      · rename_i hq2
        simp only [Res.bind_eq_ok] at h
        obtain ⟨t, h1, h2⟩ := h
        obtain ⟨rfl, hlen⟩ := push_eq h1
        have hlen : s.stack.length < 65536 := hlen
        rcases stringLoop_reads h2 with he | ⟨u, hu, hc, hn, hk, hle, hr⟩
        · exact .inl he
        · refine .inr ⟨s.inp.inChar :: u, ?_, hc, ?_, ?_, ?_, ?_⟩
          · rw [doubled_cons, if_neg hq]
            exact ⟨rfl, hu⟩
          · intro hm
            rcases List.mem_cons.1 hm with hm | hm
            · exact hq2 hm.symm
            · exact hn hm
          · rw [hk, List.length_cons]; apply BitVec.eq_of_toNat_eq; simp; omega
          · simp only [State.get, List.length_append, List.length_cons, List.length_nil] at hle ⊢; omega
          · rw [hr]; simp [State.get]

end Pas.Tok
