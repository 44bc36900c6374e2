import Verif.Lemmas.SpellingToken
import Verif.Lemmas.Source

/-! What the tokenizer has read: `getToken` and files. -/
namespace Pas.Tok
open Pas.Spec Pas.Src
open Pas.Comp (lexOf codeTk Tk Lx readTokens startOfFile)
open Pas.Names (Entry)

theorem gap_blanks {l : List Byte} (h : Gap l) : ∀ {w : List Byte}, (∀ c ∈ w, Blank c) → Gap (w ++ l)
  | [], _ => h
  | c :: _, hw => .blank c (hw c (by simp)) (gap_blanks h fun x hx => hw x (by simp [hx]))

/-- The characters that are tokens by themselves. -/
theorem single_chars : ∀ c : Byte, (isAlpha c || c == 95#8) = false → isDigit c = false → c ≠ 39#8 → c ≠ 58#8 →
    c ≠ 46#8 → c ≠ 60#8 → c ≠ 62#8 → c ≠ 123#8 → c ≠ 40#8 → c ≠ 47#8 → c ≠ 37#8 → c.toNat < 128 → 32 < c.toNat →
    c ∈ [33#8, 34#8, 36#8, 63#8, 64#8, 92#8, 94#8, 96#8, 125#8, 127#8] ∨
      c ∈ [35#8, 38#8, 41#8, 42#8, 43#8, 44#8, 45#8, 59#8, 61#8, 91#8, 93#8, 124#8, 126#8] := by
  have h : ∀ c : Byte, (isAlpha c || c == 95#8 || isDigit c || decide (c.toNat ≤ 32) || decide (128 ≤ c.toNat) ||
      [39#8, 58#8, 46#8, 60#8, 62#8, 123#8, 40#8, 47#8, 37#8].contains c ||
      [33#8, 34#8, 36#8, 63#8, 64#8, 92#8, 94#8, 96#8, 125#8, 127#8].contains c ||
      [35#8, 38#8, 41#8, 42#8, 43#8, 44#8, 45#8, 59#8, 61#8, 91#8, 93#8, 124#8, 126#8].contains c) = true := by
    decide +kernel
  intro c ha hd h1 h2 h3 h4 h5 h6 h7 h8 h9 hlt hgt
  have h := h c
  rw [ha, hd] at h
  simp only [Bool.or_eq_true, decide_eq_true_eq, List.contains_iff_mem, Bool.false_eq_true, false_or] at h
  rcases h with (((h | h) | h) | h) | h
  · omega
  · omega
  · simp only [List.mem_cons, List.not_mem_nil, or_false] at h
    rcases h with h | h | h | h | h | h | h | h | h <;> contradiction
  · exact .inl h
  · exact .inr h

theorem single_reads {s : State} {c : Byte} (hc : s.inp.inChar = c)
    (h : c ∈ [33#8, 34#8, 36#8, 63#8, 64#8, 92#8, 94#8, 96#8, 125#8, 127#8] ∨
      c ∈ [35#8, 38#8, 41#8, 42#8, 43#8, 44#8, 45#8, 59#8, 61#8, 91#8, 93#8, 124#8, 126#8]) :
    Result s { s with token := c.toNat }.get := by
  have hr : Reads s.inp [c] s.inp.get := ⟨hc, rfl⟩
  rcases h with h | h
  · refine Result.of (.other h) ?_ hr trivial
    simp only [List.mem_cons, List.not_mem_nil, or_false] at h
    rcases h with rfl | rfl | rfl | rfl | rfl | rfl | rfl | rfl | rfl | rfl <;> rfl
  · simp only [List.mem_cons, List.not_mem_nil, or_false] at h
    rcases h with rfl | rfl | rfl | rfl | rfl | rfl | rfl | rfl | rfl | rfl | rfl | rfl | rfl
    · exact Result.of (.symbol (t := .ne) (no := []) (by decide)) rfl hr (by simp)
    · exact Result.of (.symbol (t := .amp) (no := []) (by decide)) rfl hr (by simp)
    · exact Result.of (.symbol (t := .rparen) (no := []) (by decide)) rfl hr (by simp)
    · exact Result.of (.symbol (t := .mul) (no := []) (by decide)) rfl hr (by simp)
    · exact Result.of (.symbol (t := .plus) (no := []) (by decide)) rfl hr (by simp)
    · exact Result.of (.symbol (t := .comma) (no := []) (by decide)) rfl hr (by simp)
    · exact Result.of (.symbol (t := .minus) (no := []) (by decide)) rfl hr (by simp)
    · exact Result.of (.symbol (t := .semi) (no := []) (by decide)) rfl hr (by simp)
    · exact Result.of (.symbol (t := .eq) (no := []) (by decide)) rfl hr (by simp)
    · exact Result.of (.symbol (t := .lbracket) (no := []) (by decide)) rfl hr (by simp)
    · exact Result.of (.symbol (t := .rbracket) (no := []) (by decide)) rfl hr (by simp)
    · exact Result.of (.symbol (t := .bar) (no := []) (by decide)) rfl hr (by simp)
    · exact Result.of (.symbol (t := .tilde) (no := []) (by decide)) rfl hr (by simp)

/-- A symbol of one or two characters. -/
theorem pair_reads {s : State} {c : Byte} {pairs : List (Byte × Nat)} (hc : s.inp.inChar = c)
    (h2 : ∀ p ∈ pairs, ∃ t, ([c, p.1], t, []) ∈ symbols ∧ ∀ q : State, q.token = p.2 → lexOf q = .tk t)
    (h1 : (∀ p ∈ pairs, p.1 ≠ s.inp.get.inChar) → ∃ t no, ([c], t, no) ∈ symbols ∧ s.inp.get.inChar ∉ no ∧
      ∀ q : State, q.token = c.toNat → lexOf q = .tk t) : Result s (pair s c pairs) := by
  unfold pair
  dsimp only
  split
  · rename_i p hp
    have hm := List.mem_of_find?_eq_some hp
    have he := List.find?_some hp
    obtain ⟨t, ht, hl⟩ := h2 p hm
    have he : s.inp.get.inChar = p.1 := by
      have he : decide (p.1 = s.get.inp.inChar) = true := he
      exact (of_decide_eq_true he).symm
    exact Result.of (.symbol ht) (hl _ rfl) (w := [c, p.1]) ⟨hc, he, rfl⟩ (by simp)
  · rename_i hp
    obtain ⟨t, no, ht, hno, hl⟩ := h1 (fun p hm he => by
      have := List.find?_eq_none.1 hp p hm
      exact this (decide_eq_true (by exact he)))
    exact Result.of (.symbol ht) (hl _ rfl) (w := [c]) ⟨hc, rfl⟩ hno

theorem lexOf_code {q : State} {c : Nat} {t : Tk} (hq : q.token = c) (hc : c ≠ 1 ∧ c ≠ 2 ∧ c ≠ 3 ∧ c ≠ 6) (h9 : c ≠ 0xa9)
    (ht : ∀ u, codeTk c u = t) : lexOf q = .tk t := by
  rw [lexOf_word hq rfl hc, if_neg h9, ht]

/-- More characters in front of a token. -/
theorem Result.before {s r : State} {i : Input} {v : List Byte} (hv : Reads s.inp v i)
    (hg : ∀ l, Gap l → Gap (v ++ l)) {s' : State} (hi : s'.inp = i) (h : Result s' r) : Result s r := by
  obtain ⟨l, w, stop, hl, ht, hr, hs⟩ := h
  subst hi
  exact ⟨v ++ l, w, stop, hg l hl, ht, by rw [List.append_assoc]; exact hv.append hr, hs⟩

theorem star_body {close : Byte} {w : List Byte} (hl : (32#8 :: w).getLast (by simp) = 42#8)
    (hi : ¬ [42#8, close] <:+: 32#8 :: w) : ∃ u, w = u ++ [42#8] ∧ ¬ [42#8, close] <:+: u := by
  cases w with
  | nil => simp at hl
  | cons a w =>
    rw [List.getLast_cons (by simp)] at hl
    refine ⟨(a :: w).dropLast, ?_, ?_⟩
    · rw [← hl, List.dropLast_concat_getLast]
    · intro h
      exact hi ((h.trans (List.dropLast_prefix _).isInfix).trans (List.suffix_cons _ _).isInfix)

theorem get_rest {i : Input} {x : Byte} {y : List Byte} (h : i.rest = x :: y) : i.get = ⟨x, y, i.buf, i.lines⟩ := by
  unfold Input.get; rw [h]

theorem dispatch_reads {last n : Nat} {again : State → Res State} {s r : State}
    (h : dispatch [] 0 false last n again s s.inp.inChar = .ok r) (g : Good s.inp) (hb : ¬ Blank s.inp.inChar)
    (hst : s.stack = []) (h0 : s.start = 0)
    (ih : ∀ {t : State}, again t = .ok r → Good t.inp → t.stack = [] → t.errors < r.errors ∨ Result t r) :
    s.errors < r.errors ∨ Result s r := by
  have next : ∀ {t : State} {i : Input} {v : List Byte}, again t = .ok r → t.inp = i → t.stack = s.stack →
      t.errors = s.errors → Reads s.inp v i → (∀ l, Gap l → Gap (v ++ l)) → s.errors < r.errors ∨ Result s r := by
    intro t i v ht hi hs he hv hg
    rcases ih ht (by rw [hi]; exact hv.good g) (hs.trans hst) with h | h
    · left; omega
    · exact .inr (Result.before hv hg hi h)
  generalize hc : s.inp.inChar = c at h
  rw [hc] at hb
  unfold dispatch at h
  by_cases ha : (isAlpha c || c == 95#8) = true
  · rw [if_pos ha] at h
    exact .inr (identifier_reads h g hst h0 (by rw [hc]; exact ha))
  rw [if_neg ha] at h
  by_cases hd : isDigit c = true
  · rw [if_pos hd] at h
    exact number_reads h g hst h0 (by rw [hc]; exact (isDigit_iff c).1 hd)
  rw [if_neg hd] at h
  by_cases hq : c = 39#8
  · rw [if_pos hq] at h
    exact stringToken_reads h g hst h0 (hc.trans hq)
  have h39 := hq
  rw [if_neg hq] at h
  by_cases hq : c = 58#8
  · rw [if_pos hq] at h
    subst hq
    cases h
    refine .inr (pair_reads hc ?_ ?_)
    · intro p hp
      simp only [List.mem_cons, List.not_mem_nil, or_false] at hp
      subst hp
      exact ⟨.assign, by decide, fun q hq => lexOf_code hq (by decide) (by decide) fun _ => rfl⟩
    · intro hno
      refine ⟨.colon, [61], by decide, ?_, fun q hq => lexOf_code hq (by decide) (by decide) fun _ => rfl⟩
      have := hno (61#8, 0x0a) (by simp)
      simp only [List.mem_cons, List.not_mem_nil, or_false]
      exact fun h => this h.symm
  have h58 := hq
  rw [if_neg hq] at h
  by_cases hq : c = 46#8
  · rw [if_pos hq] at h
    subst hq
    split at h
    · rename_i hdg
      rcases realNumber_reads h with hx | ⟨fs, sc, e, hfs, hsc, hr, hdn, ht⟩
      · exact .inl hx
      · right
        have hne : fs ≠ [] := by
          rintro rfl
          have hdg : Digit s.inp.get.inChar := (isDigit_iff _).1 hdg
          cases hsc with
          | none =>
            have hr : s.inp.get = r.inp := hr
            rw [hr] at hdg; exact hdn hdg
          | plain l ds hl _ _ =>
            have hr : s.inp.get.inChar = l := hr.1
            rw [hr] at hdg
            rcases hl with rfl | rfl <;> simp [Digit] at hdg
          | plus l ds hl _ _ =>
            have hr : s.inp.get.inChar = l := hr.1
            rw [hr] at hdg
            rcases hl with rfl | rfl <;> simp [Digit] at hdg
          | minus l ds hl _ _ =>
            have hr : s.inp.get.inChar = l := hr.1
            rw [hr] at hdg
            rcases hl with rfl | rfl <;> simp [Digit] at hdg
        exact Result.of (.real (.point [] fs sc e (by simp) hfs (by simpa using hne) hsc)) (lexOf_real ht)
          (w := [] ++ 46#8 :: (fs ++ sc)) ⟨hc, hr⟩ hdn
    · rename_i hdg
      cases h
      refine .inr (pair_reads hc ?_ ?_)
      · intro p hp
        simp only [List.mem_cons, List.not_mem_nil, or_false] at hp
        subst hp
        exact ⟨.other 0x0b, by decide, fun q hq => lexOf_code hq (by decide) (by decide) fun _ => rfl⟩
      · intro hno
        refine ⟨.period, [46, 48, 49, 50, 51, 52, 53, 54, 55, 56, 57], by decide, ?_,
          fun q hq => lexOf_code hq (by decide) (by decide) fun _ => rfl⟩
        have h46 := hno (46#8, 0x0b) (by simp)
        have tab : ∀ x : Byte, x ∈ ([46, 48, 49, 50, 51, 52, 53, 54, 55, 56, 57] : List Byte) →
            x = 46#8 ∨ isDigit x = true := by decide +kernel
        intro hm
        rcases tab _ hm with h | h
        · exact h46 h.symm
        · exact hdg h
  have h46 := hq
  rw [if_neg hq] at h
  by_cases hq : c = 60#8
  · rw [if_pos hq] at h
    subst hq
    cases h
    refine .inr (pair_reads hc ?_ ?_)
    · intro p hp
      simp only [List.mem_cons, List.not_mem_nil, or_false] at hp
      rcases hp with rfl | rfl | rfl
      · exact ⟨.ne, by decide, fun q hq => lexOf_code hq (by decide) (by decide) fun _ => rfl⟩
      · exact ⟨.le, by decide, fun q hq => lexOf_code hq (by decide) (by decide) fun _ => rfl⟩
      · exact ⟨.shl, by decide, fun q hq => lexOf_code hq (by decide) (by decide) fun _ => rfl⟩
    · intro hno
      refine ⟨.lt, [60, 61, 62], by decide, ?_, fun q hq => lexOf_code hq (by decide) (by decide) fun _ => rfl⟩
      have e1 := hno (62#8, 35) (by simp)
      have e2 := hno (61#8, 8) (by simp)
      have e3 := hno (60#8, 0xa1) (by simp)
      simp only [List.mem_cons, List.not_mem_nil, or_false]
      rintro (h | h | h)
      · exact e3 h.symm
      · exact e2 h.symm
      · exact e1 h.symm
  have h60 := hq
  rw [if_neg hq] at h
  by_cases hq : c = 62#8
  · rw [if_pos hq] at h
    subst hq
    cases h
    refine .inr (pair_reads hc ?_ ?_)
    · intro p hp
      simp only [List.mem_cons, List.not_mem_nil, or_false] at hp
      rcases hp with rfl | rfl | rfl
      · exact ⟨.symdiff, by decide, fun q hq => lexOf_code hq (by decide) (by decide) fun _ => rfl⟩
      · exact ⟨.ge, by decide, fun q hq => lexOf_code hq (by decide) (by decide) fun _ => rfl⟩
      · exact ⟨.shr, by decide, fun q hq => lexOf_code hq (by decide) (by decide) fun _ => rfl⟩
    · intro hno
      refine ⟨.gt, [60, 61, 62], by decide, ?_, fun q hq => lexOf_code hq (by decide) (by decide) fun _ => rfl⟩
      have e1 := hno (60#8, 0x0c) (by simp)
      have e2 := hno (61#8, 9) (by simp)
      have e3 := hno (62#8, 0xa2) (by simp)
      simp only [List.mem_cons, List.not_mem_nil, or_false]
      rintro (h | h | h)
      · exact e1 h.symm
      · exact e2 h.symm
      · exact e3 h.symm
  have h62 := hq
  rw [if_neg hq] at h
  by_cases hq : c = 123#8
  · rw [if_pos hq] at h
    subst hq
    simp only [Res.bind_eq_ok] at h
    obtain ⟨t, h1, h2⟩ := h
    obtain ⟨w, hw, hn, hend, ht⟩ := braceLoop_reads h1
    refine next h2 rfl (by rw [ht]; rfl) (by rw [ht]; rfl)
      (v := 123#8 :: (w ++ [125#8])) ⟨hc, hw.snoc hend⟩ ?_
    intro l hl
    have := Gap.brace w hn hl
    simpa using this
  have h123 := hq
  rw [if_neg hq] at h
  by_cases hq : c = 40#8
  · rw [if_pos hq] at h
    subst hq
    split at h
    · rename_i hne
      cases h
      exact .inr (Result.of (.symbol (t := .lparen) (no := [42]) (w := [40]) (by decide)) rfl ⟨hc, rfl⟩
        (by simpa using hne))
    · rename_i hstar
      have hstar : s.inp.get.inChar = 42#8 := by simpa [State.get] using hstar
      simp only [Res.bind_eq_ok] at h
      obtain ⟨t, h1, h2⟩ := h
      obtain ⟨w, hw, hend, hlast, hi, ht⟩ := starLoop_reads h1
      obtain ⟨u, rfl, hu⟩ := star_body hlast hi
      refine next h2 rfl (by rw [ht]; rfl) (by rw [ht]; rfl)
        (v := 40#8 :: 42#8 :: (u ++ [42#8] ++ [41#8])) ⟨hc, hstar, hw.snoc hend⟩ ?_
      intro l hl
      have := Gap.paren u hu hl
      simpa using this
  have h40 := hq
  rw [if_neg hq] at h
  by_cases hq : c = 47#8
  · rw [if_pos hq] at h
    subst hq
    split at h
    · rename_i hsl
      have hsl : s.inp.get.inChar = 47#8 := hsl
      obtain ⟨u, hu, hrd⟩ := skipLine_reads s.inp.get.get g.get.get
      have e : skipLine s.inp.get.get.buf s.inp.get.get.lines = skipLine s.inp.get.buf s.inp.get.lines := by
        obtain ⟨x, y, hxy⟩ := g.get.rest (by rw [hsl]; decide)
        rw [get_rest hxy]
      rw [e] at hrd
      refine next h rfl rfl rfl (v := 47#8 :: 47#8 :: (u ++ [10#8])) ⟨hc, hsl, hrd⟩ ?_
      intro l hl
      have := Gap.line u hu hl
      simpa using this
    · rename_i hsl
      split at h
      · rename_i hne
        cases h
        refine .inr (Result.of (.symbol (t := .fdiv) (no := [42, 47]) (w := [47]) (by decide)) rfl ⟨hc, rfl⟩ ?_)
        simp only [List.mem_cons, List.not_mem_nil, or_false]
        rintro (h | h)
        · exact hne h
        · exact hsl h
      · rename_i hstar
        have hstar : s.inp.get.inChar = 42#8 := by simpa [State.get] using hstar
        simp only [Res.bind_eq_ok] at h
        obtain ⟨t, h1, h2⟩ := h
        obtain ⟨w, hw, hend, hlast, hi, ht⟩ := starLoop_reads h1
        obtain ⟨u, rfl, hu⟩ := star_body hlast hi
        refine next h2 rfl (by rw [ht]; rfl) (by rw [ht]; rfl)
          (v := 47#8 :: 42#8 :: (u ++ [42#8] ++ [47#8])) ⟨hc, hstar, hw.snoc hend⟩ ?_
        intro l hl
        have := Gap.slash u hu hl
        simpa using this
  have h47 := hq
  rw [if_neg hq] at h
  by_cases hq : c = 37#8
  · rw [if_pos hq] at h
    exact .inr (hexadecimal_reads h hst h0 (hc.trans hq))
  have h37 := hq
  rw [if_neg hq] at h
  by_cases hlt : c.toNat < 128
  · rw [if_pos hlt] at h
    cases h
    refine .inr (single_reads hc (single_chars c (Bool.eq_false_iff.2 ha) (Bool.eq_false_iff.2 hd) h39 h58 h46 h60 h62 h123 h40 h47 h37
      hlt ?_))
    rcases g.char with hx | ⟨_, hx | hx⟩
    · rw [hc] at hx; exact absurd (by rw [hx]; simp [Blank]) hb
    · rw [hc] at hx; exact absurd hx hb
    · rw [hc] at hx
      refine Nat.lt_of_le_of_ne hx fun he => hb ?_
      have : c = 32#8 := BitVec.eq_of_toNat_eq he.symm
      rw [this]; simp [Blank]
  · have hge := hlt
    rw [if_neg hlt] at h
    refine next h rfl rfl rfl (v := [c]) ⟨hc, rfl⟩ ?_
    intro l hl
    exact Gap.high c (by omega) hl

theorem getToken_reads : ∀ {n : Nat} {s r : State}, getToken [] 0 false n s = .ok r → Good s.inp → s.stack = [] →
    s.errors < r.errors ∨ Result s r
  | 0, _, _, h, _, _ => by cases h
  | n + 1, s, r, h, g, hst => by
    rw [getToken, Res.bind_eq_ok] at h
    obtain ⟨t, h1, h⟩ := h
    obtain ⟨w, hw, hall, hend, ht⟩ := skipSpace_reads h1
    have hts : t.stack = [] := by rw [ht]; exact hst
    have hte : t.errors = s.errors := by rw [ht]
    rcases dispatch_reads (s := { t with start := t.stack.length }) h (hw.good g) hend hts (by simp [hts])
        (fun h' g' hs' => getToken_reads h' g' hs') with hx | hx
    · left; have hx : t.errors < r.errors := hx; omega
    · exact .inr (Result.before hw (fun l hl => gap_blanks hl hall) (s' := { t with start := t.stack.length }) rfl hx)

/-! ### Files -/

theorem readTokens_reads : ∀ {n : Nat} {s : State} {toks : List Lx} {e : Nat}, readTokens n s = .ok (toks, e) →
    e = s.errors → Good s.inp → s.stack = [] →
    ∃ v j, Reads s.inp v j ∧ ∀ t c c', Reads j [c, c'] t → ∀ u, Spelled (v ++ c :: c' :: u) toks
  | 0, _, _, _, h, _, _, _ => by cases h
  | n + 1, s, toks, e, h, he, g, hst => by
    rw [readTokens, Res.bind_eq_ok] at h
    obtain ⟨t, h1, h⟩ := h
    have hmono := getToken_errors h1
    rcases getToken_reads h1 g hst with hx | ⟨l, w, stop, hl, ht, hr, hs⟩
    · exfalso
      split at h
      · cases h; omega
      · rw [Res.bind_eq_ok] at h
        obtain ⟨⟨l', e'⟩, h2, h⟩ := h
        cases h
        have := readTokens_errors h2
        have : t.errors ≤ e := this
        omega
    · split at h
      · cases h
        refine ⟨l ++ w, t.inp, hr, ?_⟩
        intro t' c c' hcc u
        obtain ⟨rfl, rfl, _⟩ := hcc
        rw [List.append_assoc]
        exact .cons hl ht hs .nil
      · rw [Res.bind_eq_ok] at h
        obtain ⟨⟨l', e'⟩, h2, h⟩ := h
        cases h
        have hle := readTokens_errors h2
        have hle : t.errors ≤ e := hle
        obtain ⟨v, j, hv, hsp⟩ := readTokens_reads h2 (by show e = t.errors; omega) (hr.good g) rfl
        have hv : Reads t.inp v j := hv
        refine ⟨l ++ w ++ v, j, hr.append hv, ?_⟩
        intro t' c c' hcc u
        have h3 := hsp t' c c' hcc u
        -- the two characters behind the token
        have two : ∃ t2, v ++ c :: c' :: u = t.inp.inChar :: t.inp.get.inChar :: t2 := by
          have hall := hv.append hcc
          obtain ⟨d, d', v', hd⟩ : ∃ d d' v', v ++ [c, c'] = d :: d' :: v' := by
            match v with
            | [] => exact ⟨_, _, _, rfl⟩
            | [x] => exact ⟨_, _, _, rfl⟩
            | x :: y :: v => exact ⟨_, _, _, rfl⟩
          rw [hd] at hall
          obtain ⟨a1, a2, _⟩ := hall
          refine ⟨v' ++ u, ?_⟩
          have : v ++ c :: c' :: u = (v ++ [c, c']) ++ u := by simp
          rw [this, hd, a1, a2]; rfl
        obtain ⟨t2, h4⟩ := two
        have h5 : l ++ w ++ v ++ c :: c' :: u = l ++ (w ++ (v ++ c :: c' :: u)) := by simp
        rw [h5, h4]
        rw [h4] at h3
        exact .cons hl ht hs h3

/-- The characters delivered after the present line. -/
def ahead (last : List Byte) (lines : List (List Byte)) (k : Nat) : List Byte :=
  lines.flatten ++ (List.replicate k (63#8 :: lines.getLastD last)).flatten

theorem reads_prefix (w : List Byte) : ∀ (i j : Input), Reads i w j → i.buf ≠ [] → (∀ l ∈ i.lines, l ≠ []) →
    ∃ k u, i.inChar :: (i.rest ++ ahead i.buf i.lines k) = w ++ u := by
  induction w with
  | nil => intro i j _ _ _; exact ⟨0, _, rfl⟩
  | cons c w ih =>
    intro i j h hb hl
    obtain ⟨h1, h2⟩ := h
    obtain ⟨a, rest, buf, lines⟩ := i
    have h1 : a = c := h1
    subst h1
    cases rest with
    | cons x r =>
      obtain ⟨k, u, hu⟩ := ih ⟨x, r, buf, lines⟩ j h2 hb hl
      exact ⟨k, u, by simp only [List.cons_append] at hu ⊢; rw [hu]⟩
    | nil =>
      cases lines with
      | nil =>
        obtain ⟨k, u, hu⟩ := ih ⟨63#8, buf, buf, []⟩ j h2 hb hl
        refine ⟨k + 1, u, ?_⟩
        simp only [ahead, List.flatten_nil, List.nil_append, List.getLastD_nil, List.replicate_succ, List.flatten_cons] at hu ⊢
        rw [List.cons_append, List.cons_append, hu]
      | cons l ls =>
        cases l with
        | nil => exact absurd rfl (hl [] (by simp))
        | cons x r =>
          obtain ⟨k, u, hu⟩ := ih ⟨x, r, x :: r, ls⟩ j h2 (by simp) (fun l' h' => hl l' (by exact List.mem_cons_of_mem _ h'))
          refine ⟨k, u, ?_⟩
          have e : ahead buf ((x :: r) :: ls) k = (x :: r) ++ ahead (x :: r) ls k := by
            unfold ahead
            rw [List.flatten_cons, List.append_assoc]
            cases ls <;> rfl
          simp only [List.nil_append]
          rw [e, List.cons_append, List.cons_append, hu]

theorem buffers_lines {lines : List (List Byte)} (hc : ∀ l ∈ lines, ∀ c ∈ l, c ≠ 10#8) (hs : ∀ l ∈ lines, l.length ≤ 254) :
    buffers (lines.flatMap fun l => l ++ [10#8]) = lines.map fun l => l ++ [10#8] := by
  have one : ∀ (l cur t : List Byte), (∀ c ∈ l, c ≠ 10#8) → cur.length + l.length ≤ 254 →
      buffers.go cur (l ++ 10#8 :: t) = (cur ++ l ++ [10#8]) :: buffers.go [] t := by
    intro l
    induction l with
    | nil =>
      intro cur t _ _
      rw [List.nil_append, buffers.go, if_pos (.inl rfl), List.append_nil]
    | cons c l ih =>
      intro cur t h1 h2
      simp only [List.length_cons] at h2
      rw [List.cons_append, buffers.go, if_neg (by
        rintro (h | h)
        · exact h1 c (by simp) h
        · omega), ih (cur ++ [c]) t (fun x hx => h1 x (by simp [hx])) (by simp; omega)]
      simp
  unfold buffers
  induction lines with
  | nil => rfl
  | cons l ls ih =>
    rw [List.flatMap_cons, List.append_assoc, List.singleton_append, one l [] _ (hc l (by simp)) (by simpa using hs l (by simp)),
      ih (fun x hx => hc x (by simp [hx])) (fun x hx => hs x (by simp [hx]))]
    rfl

theorem start_good {file : List Byte} {lines : List (List Byte)} (h : TextFile file lines) :
    Good (startOfFile file).inp ∧ ∃ l ls, lines = l :: ls ∧ ∃ c r, l ++ [10#8] = c :: r ∧
      (startOfFile file).inp = ⟨c, r, c :: r, ls.map fun l => l ++ [10#8]⟩ := by
  obtain ⟨hne, hc, hs, rfl⟩ := h
  cases lines with
  | nil => exact absurd rfl hne
  | cons l ls =>
    have hb := buffers_lines (lines := l :: ls) (fun l hl c hm => (hc l hl c hm).1) hs
    obtain ⟨c, r, hl⟩ : ∃ c r, l ++ [10#8] = c :: r := by cases l <;> exact ⟨_, _, rfl⟩
    have hi : (startOfFile ((l :: ls).flatMap fun l => l ++ [10#8])).inp = ⟨c, r, c :: r, ls.map fun l => l ++ [10#8]⟩ := by
      show skipLine [] (buffers _) = _
      rw [hb, List.map_cons, hl]; rfl
    have line : ∀ l' ∈ l :: ls, IsLine (l' ++ [10#8]) := fun l' hl' => ⟨l', rfl, hc l' hl'⟩
    refine ⟨?_, l, ls, rfl, c, r, hl, hi⟩
    rw [hi]
    have h1 := line l (by simp)
    rw [hl] at h1
    refine ⟨h1, h1, ?_⟩
    intro x hx
    obtain ⟨l', hl', rfl⟩ := List.mem_map.1 hx
    exact line l' (by simp [hl'])

/-- All that is read from a text file. -/
theorem readTokens_file {file : List Byte} {lines : List (List Byte)} (hf : TextFile file lines) {n : Nat} {toks : List Lx}
    (h : readTokens n (startOfFile file) = .ok (toks, 0)) : ∃ k, Spelled (file ++ afterEnd lines k) toks := by
  obtain ⟨g, l, ls, rfl, c, r, hl, hi⟩ := start_good hf
  obtain ⟨v, j, hv, hsp⟩ := readTokens_reads h rfl g rfl
  have hall : Reads (startOfFile file).inp (v ++ [j.inChar, j.get.inChar]) j.get.get :=
    hv.append ⟨rfl, rfl, rfl⟩
  obtain ⟨k, u, hu⟩ := reads_prefix _ _ _ hall (by rw [hi]; simp) (by
    rw [hi]
    intro x hx
    obtain ⟨l', _, rfl⟩ := List.mem_map.1 hx
    simp)
  refine ⟨k, ?_⟩
  have hsp := hsp j.get.get _ _ ⟨rfl, rfl, rfl⟩ u
  have e : v ++ j.inChar :: j.get.inChar :: u = v ++ [j.inChar, j.get.inChar] ++ u := by simp
  rw [e, ← hu, hi] at hsp
  have e2 : c :: (r ++ ahead (c :: r) (ls.map fun l => l ++ [10#8]) k) = file ++ afterEnd (l :: ls) k := by
    rw [hf.file, ← List.cons_append, ← hl]
    unfold ahead afterEnd
    rw [List.flatMap_cons, ← List.append_assoc]
    congr 1
    have : (ls.map fun l => l ++ [10#8]).getLastD (l ++ [10#8]) = (l :: ls).getLastD [] ++ [10#8] := by
      have gen : ∀ (ls : List (List Byte)) (l : List Byte),
          (ls.map fun l => l ++ [10#8]).getLastD (l ++ [10#8]) = (l :: ls).getLastD [] ++ [10#8] := by
        intro ls
        induction ls with
        | nil => intro l; rfl
        | cons a ls ih =>
          intro l
          have := ih a
          simp only [List.map_cons, List.getLastD_cons] at this ⊢
          exact this
      exact gen ls l
    rw [this]
  have hsp' : Spelled (c :: (r ++ ahead (c :: r) (ls.map fun l => l ++ [10#8]) k)) toks := hsp
  rw [e2] at hsp'
  exact hsp'

end Pas.Tok
