import Verif.Model.Source
import Verif.Spec.Source
import Verif.Props.Tokens

/-! Reading the tokens of a source file. -/
namespace Pas.Src
open Pas.Comp Pas.Spec Pas.Tok
open Pas.Names (Entry identSymbol findReserved mapToAlias)

/-- `lexOf` without the attributes. -/
def lexCode (token sub : Nat) : Lx := if token = 0xa9 then .var_ else .tk (codeTk token sub)

theorem lexOf_code {s : Tok.State} (h : s.token ∉ [1, 2, 3, 6]) : lexOf s = lexCode s.token s.sub := by
  simp only [List.mem_cons, List.not_mem_nil, or_false, not_or] at h
  unfold lexOf lexCode
  split <;> simp_all

/-- `lexOf` does not depend on the rest of the state. -/
theorem lexOf_of {s : Tok.State} {k sub : Nat} {x : Lx} (h : s.token = k) (hs : s.sub = sub) (hk : k ∉ [1, 2, 3, 6])
    (hx : lexCode k sub = x) : lexOf s = x := by
  rw [lexOf_code (by rw [h]; exact hk), h, hs, hx]

/-- The table of words agrees with the one of the tokenizer. -/
theorem words_reserved : ∀ p ∈ words, ∃ k ∈ Names.reserved, k.name = p.1 ∧ k.type ∉ [1, 2, 3, 6] ∧
    lexCode k.type k.sub = p.2 := by decide +kernel

theorem words_plain : ∀ p ∈ words, ∀ q ∈ Names.aliases, ¬ SameName q.1 p.1 := by decide +kernel

theorem words_names : ∀ p ∈ words, ∀ n, p.2 ≠ .name n := by
  have h : ∀ p ∈ words, (match p.2 with | .name _ => false | _ => true) = true := by decide +kernel
  intro p hp n hn
  have := h p hp
  rw [hn] at this
  cases this

theorem words_letters : ∀ p ∈ words, p.1 ≠ [] ∧ ∀ b ∈ p.1, 65 ≤ b.toNat ∧ b.toNat ≤ 90 := by decide +kernel

theorem letter_same : ∀ a b : Byte, 65 ≤ a.toNat → a.toNat ≤ 90 → upper a = upper b →
    (65 ≤ b.toNat ∧ b.toNat ≤ 90) ∨ (97 ≤ b.toNat ∧ b.toNat ≤ 122) := by
  intro a b h1 h2 h
  unfold upper at h
  rw [if_neg (by intro ⟨h3, _⟩; rw [BitVec.le_def] at h3; simp at h3; omega)] at h
  split at h
  · rename_i hb
    simp only [BitVec.le_def] at hb
    exact .inr ⟨by simpa using hb.1, by simpa using hb.2⟩
  · subst h; exact .inl ⟨h1, h2⟩

theorem identifier_same {k w : List Byte} (h : SameName k w)
    (hk : k ≠ [] ∧ ∀ b ∈ k, 65 ≤ b.toNat ∧ b.toNat ≤ 90) : Identifier w := by
  have key : ∀ (k w : List Byte), SameName k w → (∀ b ∈ k, 65 ≤ b.toNat ∧ b.toNat ≤ 90) →
      ∀ b ∈ w, Letter b := by
    intro k
    induction k with
    | nil => intro w h _ b hb; cases w with
      | nil => cases hb
      | cons => simp [SameName] at h
    | cons a k ih =>
      intro w h hk b hb
      cases w with
      | nil => cases hb
      | cons c w =>
        simp only [SameName, List.map_cons, List.cons.injEq] at h
        rcases List.mem_cons.1 hb with rfl | hb
        · exact letter_same a b (hk a List.mem_cons_self).1 (hk a List.mem_cons_self).2 h.1
        · exact ih w h.2 (fun b hb => hk b (List.mem_cons_of_mem _ hb)) b hb
  have hw := key k w h hk.2
  refine ⟨fun b hb => .inl (hw b hb), ?_⟩
  cases w with
  | nil => exfalso; cases k with
    | nil => exact hk.1 rfl
    | cons => simp [SameName] at h
  | cons b r =>
    refine ⟨b, r, rfl, ?_⟩
    have := hw b List.mem_cons_self
    unfold Letter at this
    unfold Digit
    omega

theorem doubled_length (u : List Byte) :
    u.length ≤ (u.flatMap fun c => if c = 39#8 then [39#8, 39#8] else [c]).length := by
  induction u with
  | nil => simp
  | cons a u ih =>
    rw [List.flatMap_cons, List.length_append, List.length_cons]
    have : 1 ≤ (if a = 39#8 then [39#8, 39#8] else [a]).length := by split <;> simp
    omega

/-- For every symbol: its code, and how it is read. -/
def symbolCode (w : List Byte) : Nat :=
  match w with
  | [58, 61] => 0x0a
  | [60, 62] => 35
  | [60, 61] => 8
  | [60, 60] => 0xa1
  | [62, 60] => 0x0c
  | [62, 61] => 9
  | [62, 62] => 0xa2
  | [46, 46] => 0x0b
  | [b] => b.toNat
  | _ => 0

theorem symbolCode_one : ∀ b : Byte, symbolCode [b] = b.toNat := by decide +kernel

theorem special_chars : ∀ b : Byte, b ∈ [126#8, 124#8, 38#8, 35#8] →
    ¬ Letter b ∧ ¬ Digit b ∧ ¬ Spec.Blank b ∧
    b ∉ [95#8, 39#8, 58#8, 46#8, 60#8, 62#8, 123#8, 40#8, 47#8, 37#8] ∧ b.toNat < 128 := by
  unfold Letter Digit Spec.Blank
  decide +kernel

theorem symbols_code : ∀ p ∈ symbols, symbolCode p.1 ∉ [1, 2, 3, 6] ∧ ∀ sub, lexCode (symbolCode p.1) sub = .tk p.2.1 := by
  simp only [symbols, List.forall_mem_cons, List.not_mem_nil, false_implies, implies_true, and_true]
  repeat' apply And.intro
  all_goals first | decide | (intro sub; rfl)

theorem symbols_read : ∀ p ∈ symbols, (p.1, symbolCode p.1) ∈ specialSymbols ∨
    (∃ b : Byte, p.1 = [b] ∧ b ∈ [126#8, 124#8, 38#8, 35#8]) ∨
    ∃ b : Byte, p.1 = [b] ∧ ∀ c ∉ p.2.2, (b = 58#8 ∧ c ≠ 61#8) ∨ (b = 46#8 ∧ c ≠ 46#8 ∧ ¬ Digit c) ∨
      (b = 60#8 ∧ c ∉ [60#8, 61#8, 62#8]) ∨ (b = 62#8 ∧ c ∉ [60#8, 61#8, 62#8]) ∨
      (b = 40#8 ∧ c ≠ 42#8) ∨ (b = 47#8 ∧ c ∉ [42#8, 47#8]) := by
  simp only [symbols, List.forall_mem_cons, List.not_mem_nil, false_implies, implies_true, and_true]
  unfold Digit
  repeat' apply And.intro
  all_goals first
    | exact .inl (by decide)
    | exact .inr (.inl ⟨_, rfl, by decide⟩)
    | exact .inr (.inr ⟨_, rfl, by decide +kernel⟩)

/-- What the tokenizer has found for a token. -/
def Found (tab : List Entry) (first last : Nat) (x : Lx) (r : Tok.State) : Prop :=
  match x with
  | .name n => match identSymbol tab (mapToAlias n) first (last == 46) with
    | some e => r.token = e.kind ∧ r.sym = some e ∧ (e.kind ≠ 5 → r.uint = e.value)
    | none => r.token = 1 ∧ r.string = n
  | x => lexOf r = x

theorem digit_not_ident {c : Byte} (h : ¬ IdentChar c) : ¬ Digit c ∧ c ≠ 101#8 ∧ c ≠ 69#8 := by
  unfold IdentChar Letter at h
  refine ⟨fun hd => h (.inr (.inl hd)), ?_, ?_⟩ <;> rintro rfl <;> simp at h

/-- A number, read. -/
theorem lexOf_number {r : Tok.State} {ds : List Byte} (g2 : r.token = 2) (g3 : r.uint.toNat = decimal ds)
    (hv : decimal ds < 2 ^ 32) : lexOf r = .tk (.int (BitVec.ofNat 32 (decimal ds))) := by
  unfold lexOf
  rw [g2]
  show Lx.tk (.int r.uint) = _
  have : r.uint = BitVec.ofNat 32 (decimal ds) := BitVec.eq_of_toNat_eq (by
    rw [g3, BitVec.toNat_ofNat, Nat.mod_eq_of_lt hv])
  rw [this]

theorem lexeme_scan {tab : List Entry} {f : Nat} {s : Tok.State} {w t : List Byte} {x : Lx} {stop : Byte → Prop}
    {c : Byte} (hl : Lexeme w x stop) (hc : stop c) (h : Coming s.inp (w ++ c :: t))
    (hr : s.stack.length + w.length + 1 ≤ 65536) :
    ∃ r, Scans tab f false s r ∧ Coming r.inp (c :: t) ∧ r.errors = s.errors ∧ Found tab f s.token x r := by
  cases hl with
  | @name _ hw hp hres =>
    obtain ⟨i, hi, hs⟩ := word_scan (tab := tab) (f := f) (inWith := false) h hw hc hr
    have ha : mapToAlias w = w := (C45_alias w).2 hp
    have hf : findReserved (mapToAlias w) = none := by
      rw [ha]
      cases hf : findReserved w with
      | none => rfl
      | some k => exact absurd ((C45_recognised w k).1 hf).2 (hres k ((C45_recognised w k).1 hf).1)
    refine ⟨_, hs, ?_, ?_, ?_⟩
    · unfold named; rw [hf]
      dsimp only
      split
      · split <;> exact hi
      · exact hi
    · unfold named; rw [hf]
      dsimp only
      split
      · split <;> rfl
      · rfl
    · unfold named Found; rw [hf]
      simp only [Bool.or_false]
      cases he : identSymbol tab (mapToAlias w) f (s.token == 46) with
      | some e =>
        simp only
        split
        · rename_i h5; exact ⟨rfl, rfl, fun h => absurd h5 h⟩
        · exact ⟨rfl, rfl, fun _ => rfl⟩
      | none =>
        exact ⟨rfl, string_pushed rfl rfl (ident_zero hw.1)⟩
  | @word _ k _ hk hsame =>
    obtain ⟨rw, hrw, hn, hne, hx⟩ := words_reserved _ hk
    have hw : Identifier w := identifier_same hsame (words_letters _ hk)
    obtain ⟨r, h1, h2, h3, h4, _, h5⟩ := C45_token tab f false s w t c h hw hc hr rw hrw
      (.inl ⟨by rw [hn]; exact hsame, fun q hq hs => words_plain _ hk q hq (by
        unfold SameName at *; rw [hs, hsame])⟩)
    have hlx := lexOf_of h3 h4 hne hx
    refine ⟨r, h1, h2, h5, ?_⟩
    unfold Found
    split
    · rename_i n
      exact absurd rfl (words_names _ hk n)
    · exact hlx
  | @symbol _ tk no hm =>
    obtain ⟨hne, hx⟩ := symbols_code _ hm
    have fin : ∀ r, Scans tab f false s r → r.token = symbolCode w → Coming r.inp (c :: t) →
        r.errors = s.errors → ∃ r, Scans tab f false s r ∧ Coming r.inp (c :: t) ∧ r.errors = s.errors ∧
          Found tab f s.token (.tk tk) r := fun r h1 h2 h3 h4 =>
      ⟨r, h1, h3, h4, lexOf_of h2 rfl hne (hx _)⟩
    rcases symbols_read _ hm with h1 | ⟨b, hb, h1⟩ | ⟨b, hb, h1⟩
    · obtain ⟨r, g1, g2, g3, g4, _⟩ := C56_symbols tab f false s w _ h1 t c h
      exact fin r g1 g2 g3 g4
    · simp only at hb; subst hb
      obtain ⟨i, hi, hs⟩ := char_scan (tab := tab) (f := f) (inWith := false) h
        (special_chars b h1).1
        (special_chars b h1).2.1
        (special_chars b h1).2.2.1
        (special_chars b h1).2.2.2.1
        (special_chars b h1).2.2.2.2
      exact fin _ hs (symbolCode_one b).symm hi rfl
    · simp only at hb; subst hb
      obtain ⟨r, g1, g2, g3, g4, _⟩ := C56_single tab f false s b c t h (h1 c hc)
      exact fin r g1 (by rw [g2, symbolCode_one]) g3 g4
  | number hne hd hv =>
    have h5 := digit_not_ident hc.1
    obtain ⟨r, g1, g2, g3, g4, g5, _⟩ := C44_decimal tab f false s w t c h hd hne h5.1 h5.2
      (fun h => absurd h hc.2) hv hr
    refine ⟨r, g1, g4, g5, ?_⟩
    exact lexOf_number g2 g3 hv
  | @char b hb hn =>
    obtain ⟨r, g1, g2, g3, g4, _, g6⟩ := C43_char_partial tab f false s b t c h hc hn (by
      have : 1 ≤ (quoted [b]).length := by unfold quoted; simp
      omega)
    refine ⟨r, g1, g3, g4, ?_⟩
    show lexOf r = _
    unfold lexOf
    rw [g2]
    show Lx.tk (.char r.uint) = _
    have : r.uint = b.zeroExtend 32 := BitVec.eq_of_toNat_eq (by
      rw [g6.2 hb]; simp; omega)
    rw [this]
  | @string u h1 hn hz =>
    have hlen : u.length + 1 ≤ (quoted u).length := by
      have := doubled_length u
      rw [quoted, List.length_cons, List.length_append]
      omega
    obtain ⟨r, g1, g2, g3, g4, g5, _⟩ := C43_string tab f false s u t c h hc hn hz (by omega) h1
    refine ⟨r, g1, g4, g5, ?_⟩
    show lexOf r = _
    unfold lexOf
    rw [g2]
    show Lx.tk (.str r.string) = _
    rw [g3]

/-- Without a symbol table, names are only read. -/
theorem found_nil {f last : Nat} {x : Lx} {r : Tok.State} (h : Found [] f last x r) : lexOf r = x := by
  unfold Found at h
  split at h
  · have : ∀ n b, identSymbol [] n f b = none := by
      intro n b
      simp [identSymbol, Names.symbolToken, Names.findNext, Names.symbolLoop]
    rw [this] at h
    simp only at h
    unfold lexOf
    rw [h.1]
    show Lx.name r.string = _
    rw [h.2]
  · exact h

theorem code_period {k sub : Nat} : codeTk k sub = .period ↔ k = 46 := by
  constructor
  · intro h
    unfold codeTk at h
    split at h <;> first | rfl | cases h | (split at h <;> cases h)
  · rintro rfl; rfl

theorem lexOf_period {r : Tok.State} : lexOf r = .tk .period ↔ r.token = 46 := by
  constructor
  · intro h
    unfold lexOf at h
    split at h
    all_goals first
      | cases h
      | exact code_period.1 (by simpa using h)
  · intro h
    unfold lexOf
    rw [h]
    rfl

/-- The tokens of a text are read, up to the period. -/
theorem readTokens_written {cs : List Byte} {xs : List Lx} (h : Written cs xs) :
    ∀ (s : Tok.State), Coming s.inp cs → s.stack = [] → (∀ x ∈ xs.dropLast, x ≠ .tk .period) →
    xs.getLast? = some (.tk .period) → ∃ N, ∀ n, N ≤ n → readTokens n s = .ok (xs, s.errors) := by
  induction h with
  | @last l w x stop c t hl hx hc hw =>
    intro s hs hst _ hp
    obtain ⟨i, hi, hget⟩ := layout_get (tab := []) (f := 0) (w := false) hl hs (by simp)
    obtain ⟨r, h1, _, h3, h4⟩ := lexeme_scan (tab := []) (f := 0) (s := { s with inp := i }) hx hc hi
      (by simp only [hst]; simp; omega)
    obtain ⟨N, hN⟩ := hget r h1
    have hlx := found_nil h4
    have hx' : x = .tk .period := by simpa using hp
    refine ⟨N + 1, fun n hn => ?_⟩
    obtain ⟨m, rfl⟩ : ∃ m, n = m + 1 := ⟨n - 1, by omega⟩
    unfold readTokens
    rw [hN m (by omega)]
    show (if r.token = 46 then _ else _) = _
    rw [if_pos (lexOf_period.1 (by rw [hlx, hx'])), hlx, h3]
  | @cons l w x stop c t y xs hl hx hc hw _ ih =>
    intro s hs hst hd hp
    obtain ⟨i, hi, hget⟩ := layout_get (tab := []) (f := 0) (w := false) hl hs (by simp)
    obtain ⟨r, h1, h2, h3, h4⟩ := lexeme_scan (tab := []) (f := 0) (s := { s with inp := i }) hx hc hi
      (by simp only [hst]; simp; omega)
    obtain ⟨N, hN⟩ := hget r h1
    have hlx := found_nil h4
    obtain ⟨M, hM⟩ := ih { r with stack := [] } h2 rfl
      (fun z hz => hd z (by simp only [List.dropLast_cons_cons]; exact List.mem_cons_of_mem _ hz))
      (by simpa using hp)
    refine ⟨max N M + 1, fun n hn => ?_⟩
    obtain ⟨m, rfl⟩ : ∃ m, n = m + 1 := ⟨n - 1, by omega⟩
    unfold readTokens
    rw [hN m (by omega)]
    show (if r.token = 46 then _ else _) = _
    rw [if_neg (fun h => hd x (by simp) (by rw [← hlx]; exact lexOf_period.2 h)), hM m (by omega)]
    show Res.ok (lexOf r :: y :: xs, r.errors) = _
    rw [hlx, h3]
  | @range l ds t y xs hl hne hdig hv hw _ ih =>
    intro s hs hst hd hp
    obtain ⟨i, hi, hget⟩ := layout_get (tab := []) (f := 0) (w := false) hl hs (by simp)
    obtain ⟨r, h1, g2, g3, h2, h3, _⟩ := C44_decimal [] 0 false { s with inp := i } ds (46#8 :: t) 46#8 hi hdig hne
      (by simp [Digit]) ⟨by decide, by decide⟩ (fun _ => ⟨t, rfl⟩) hv (by simp only [hst]; simp; omega)
    obtain ⟨N, hN⟩ := hget r h1
    have hlx := lexOf_number g2 g3 hv
    obtain ⟨M, hM⟩ := ih { r with stack := [] } h2 rfl
      (fun z hz => hd z (by simp only [List.dropLast_cons_cons]; exact List.mem_cons_of_mem _ hz))
      (by simpa using hp)
    refine ⟨max N M + 1, fun n hn => ?_⟩
    obtain ⟨m, rfl⟩ : ∃ m, n = m + 1 := ⟨n - 1, by omega⟩
    unfold readTokens
    rw [hN m (by omega)]
    show (if r.token = 46 then _ else _) = _
    rw [if_neg (by rw [g2]; decide), hM m (by omega)]
    show Res.ok (lexOf r :: y :: xs, r.errors) = _
    rw [hlx, h3]

end Pas.Src
