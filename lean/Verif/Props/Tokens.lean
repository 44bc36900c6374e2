import Verif.Lemmas.Token
import Verif.Lemmas.TokenReal
import Verif.Props.Names

/-! C43, C44, C45, C46, C56: the tokens of a source text. -/

namespace Pas

open Names Spec
open Tok (State Input)

/-- C56: white space and complete comments in front of a token, in any number, do not matter: the
token read is the one read from the characters that follow them, in a state that differs only in
the position in the input. -/
theorem C56_layout (tab : List Entry) (first : Nat) (inWith : Bool) (s : State) (l t : List Byte)
    (hl : Layout l) (h : Coming s.inp (l ++ t)) (ht : t ≠ []) :
    ∃ i, Coming i t ∧ ∀ r, Scans tab first inWith { s with inp := i } r →
      Scans tab first inWith s r :=
  Tok.layout_get hl h ht

/-- The result of a scan is determined. -/
theorem C56_determined (tab : List Entry) (first : Nat) (inWith : Bool) (s r r' : State)
    (h : Scans tab first inWith s r) (h' : Scans tab first inWith s r') : r = r' :=
  Tok.scans_unique h h'

/-- C43: for every text other than a single character, with no newline and no NUL, the literal that
quotes it is read as a string constant with exactly that text, and exactly the literal is read. -/
theorem C43_string (tab : List Entry) (first : Nat) (inWith : Bool) (s : State)
    (w t : List Byte) (c : Byte) (h : Coming s.inp (quoted w ++ c :: t)) (hc : c ≠ 39#8)
    (hnl : 10#8 ∉ w) (hz : 0#8 ∉ w) (hroom : s.stack.length + w.length + 1 ≤ 65536)
    (h1 : w.length ≠ 1) :
    ∃ r, Scans tab first inWith s r ∧ r.token = 6 ∧ r.string = w ∧ Coming r.inp (c :: t) ∧
      r.errors = s.errors ∧ r.stack = s.stack ++ w ++ [0#8] := by
  have hq : s.inp.inChar = 39#8 := by rw [Tok.quoted_eq] at h; exact Tok.coming_char h
  obtain ⟨i, hi, hs⟩ := Tok.stringToken_ok (n := w.length + 1) (s := { s with
    start := s.stack.length
    sym := none }) h hc hnl hroom (by omega) rfl
  refine ⟨{ s with
    inp := i
    token := 6
    start := s.stack.length
    sym := none
    stack := s.stack ++ w ++ [0#8] }, Tok.scans_of (n := w.length + 2) ?_, rfl,
    Tok.string_pushed rfl rfl hz, hi, rfl, rfl⟩
  rw [Tok.getToken_start _ _ _ _ _ hq (by simp [Blank]), Tok.dispatch_other _ _ _ _ _ _ _ _
    (by simp [Letter]) (by simp [Digit]) (by decide), if_pos rfl, hs]
  match w, h1 with
  | [], _ => rfl
  | a :: b :: w, _ => rfl

theorem char_value : ∀ b : Byte, (b.signExtend 32).toNat = b.toNat ↔ b.toNat < 128 := by decide +kernel

/-- C43: the literal of a single character is read as a character constant.  The value is right for
the ASCII characters. -/
theorem C43_char_partial (tab : List Entry) (first : Nat) (inWith : Bool) (s : State)
    (b : Byte) (t : List Byte) (c : Byte) (h : Coming s.inp (quoted [b] ++ c :: t)) (hc : c ≠ 39#8)
    (hnl : b ≠ 10#8) (hroom : s.stack.length + 2 ≤ 65536) :
    ∃ r, Scans tab first inWith s r ∧ r.token = 3 ∧ Coming r.inp (c :: t) ∧
      r.errors = s.errors ∧ r.stack = s.stack ∧ (r.uint.toNat = b.toNat ↔ b.toNat < 128) := by
  have hq : s.inp.inChar = 39#8 := by rw [Tok.quoted_eq] at h; exact Tok.coming_char h
  obtain ⟨i, hi, hs⟩ := Tok.stringToken_ok (n := 2) (s := { s with
    start := s.stack.length
    sym := none }) h hc (by simpa using Ne.symm hnl) (by simpa using hroom) (by simp) rfl
  refine ⟨{ s with
    inp := i
    token := 3
    uint := b.signExtend 32
    start := s.stack.length
    sym := none }, Tok.scans_of (n := 3) ?_, rfl, hi, rfl, rfl, ?_⟩
  · rw [Tok.getToken_start _ _ _ _ _ hq (by simp [Blank]), Tok.dispatch_other _ _ _ _ _ _ _ _
      (by simp [Letter]) (by simp [Digit]) (by decide), if_pos rfl, hs]
    rfl
  · exact char_value b

/-- C43 fails for characters beyond ASCII: the literal of the character 233 is read with the value
4294967273. -/
theorem C43_violation (tab : List Entry) (first : Nat) (inWith : Bool) (s : State)
    (t : List Byte) (c : Byte) (h : Coming s.inp (quoted [233#8] ++ c :: t)) (hc : c ≠ 39#8)
    (hroom : s.stack.length + 2 ≤ 65536) :
    ∃ r, Scans tab first inWith s r ∧ r.token = 3 ∧ r.uint.toNat ≠ 233 := by
  obtain ⟨r, hr, ht, _, _, _, hv⟩ := C43_char_partial tab first inWith s 233#8 t c h hc (by decide) hroom
  exact ⟨r, hr, ht, fun he => by have := hv.1 he; simp at this⟩

/-- What an identifier stands for where it is used: after a period, and inside a `with` statement,
first a record field; then any other name. -/
def wanted (env : Env) (name : List Byte) (fields : Bool) : Option Decl :=
  if fields then (meaning env name true).or (meaning env name false) else meaning env name false

/-- C44: an identifier is read to its last character and no further, whatever follows. -/
theorem C44_identifier (tab : List Entry) (first : Nat) (inWith : Bool) (s : State)
    (w t : List Byte) (c : Byte) (h : Coming s.inp (w ++ c :: t)) (hw : Identifier w)
    (hc : ¬ IdentChar c) (hroom : s.stack.length + w.length + 1 ≤ 65536) :
    ∃ r, Scans tab first inWith s r ∧ Coming r.inp (c :: t) ∧ r.errors = s.errors ∧
      r.start = s.stack.length := by
  obtain ⟨i, hi, hs⟩ := Tok.word_scan (tab := tab) (f := first) (inWith := inWith) h hw hc hroom
  refine ⟨_, hs, ?_, ?_, ?_⟩ <;>
  · unfold Tok.named
    cases findReserved (mapToAlias w) with
    | some r => first | rfl | exact hi
    | none =>
      simp only
      cases identSymbol tab (mapToAlias w) first (s.token == 46 || inWith) with
      | none => first | rfl | exact hi
      | some e => simp only; split <;> first | rfl | exact hi

/-- C45: a reserved word, or another spelling that stands for one, in any case, is read as its token,
whatever has been declared. -/
theorem C45_token (tab : List Entry) (first : Nat) (inWith : Bool) (s : State)
    (w t : List Byte) (c : Byte) (h : Coming s.inp (w ++ c :: t)) (hw : Identifier w)
    (hc : ¬ IdentChar c) (hroom : s.stack.length + w.length + 1 ≤ 65536)
    (k : RWord) (hk : k ∈ reserved)
    (hname : (SameName k.name w ∧ ∀ p ∈ aliases, ¬ SameName p.1 w) ∨
      ∃ p ∈ aliases, SameName p.1 w ∧ SameName k.name p.2) :
    ∃ r, Scans tab first inWith s r ∧ Coming r.inp (c :: t) ∧ r.token = k.type ∧ r.sub = k.sub ∧
      r.stack = s.stack ∧ r.errors = s.errors := by
  obtain ⟨i, hi, hs⟩ := Tok.word_scan (tab := tab) (f := first) (inWith := inWith) h hw hc hroom
  have hf : findReserved (mapToAlias w) = some k := by
    rcases hname with ⟨h1, h2⟩ | ⟨p, hp, h1, h2⟩
    · rw [(C45_alias w).2 h2]; exact (C45_recognised w k).2 ⟨hk, h1⟩
    · rw [(C45_alias w).1 p hp h1]; exact (C45_recognised p.2 k).2 ⟨hk, h2⟩
  refine ⟨_, hs, ?_⟩
  unfold Tok.named
  rw [hf]
  exact ⟨hi, rfl, rfl, rfl, rfl⟩

/-- The reserved words are not among the other spellings. -/
theorem C45_disjoint : ∀ k ∈ reserved, ∀ p ∈ aliases, ¬ SameName p.1 k.name := by decide +kernel

theorem identSymbol_wanted {predefined : List Decl} {evs : List Event} {sc : Scopes} {env : Env}
    (h : steps (start predefined) evs = some sc)
    (he : history (programEnv predefined) evs = some env) (name : List Byte) (fields : Bool) :
    (identSymbol sc.tab name 0 fields).bind toDecl = wanted env name fields := by
  obtain ⟨env', he', hl⟩ := C46_lookup predefined evs sc h
  rw [he] at he'
  cases he'
  unfold identSymbol wanted
  rw [← hl, ← hl]
  cases fields with
  | false => cases hh : symbolToken sc.tab name 0 false <;> simp
  | true =>
    cases hh : symbolToken sc.tab name 0 true with
    | none => simp
    | some e =>
      obtain ⟨d, hd⟩ := symbolToken_named hh
      simp [hd]

/-- C46: an identifier that is neither reserved nor another spelling of a predefined name is read as
what its innermost declaration says, or as an undeclared identifier with its text.  The missing part
is the names that stand for others: see `C46_violation`. -/
theorem C46_token_partial (predefined : List Decl) (evs : List Event) (sc : Scopes)
    (hsc : steps (start predefined) evs = some sc) (env : Env)
    (henv : history (programEnv predefined) evs = some env) (inWith : Bool) (s : State)
    (w t : List Byte) (c : Byte) (h : Coming s.inp (w ++ c :: t)) (hw : Identifier w)
    (hc : ¬ IdentChar c) (hroom : s.stack.length + w.length + 1 ≤ 65536)
    (hres : ∀ k ∈ reserved, ¬ SameName k.name w) (hali : ∀ p ∈ aliases, ¬ SameName p.1 w) :
    ∃ r, Scans sc.tab 0 inWith s r ∧ Coming r.inp (c :: t) ∧ r.errors = s.errors ∧ r.sub = 0 ∧
      match wanted env w (s.token == 46 || inWith) with
      | some d => r.token = d.kind ∧ r.sym.bind toDecl = some d ∧ (d.kind ≠ 5 → r.uint = d.value) ∧
          r.stack = s.stack
      | none => r.token = 1 ∧ r.sym = none ∧ r.string = w ∧ r.stack = s.stack ++ w ++ [0#8] := by
  obtain ⟨i, hi, hs⟩ := Tok.word_scan (tab := sc.tab) (f := 0) (inWith := inWith) h hw hc hroom
  have hf : findReserved w = none := by
    cases hf : findReserved w with
    | none => rfl
    | some k => exact absurd ((C45_recognised w k).1 hf).2 (hres k ((C45_recognised w k).1 hf).1)
  have hl := identSymbol_wanted hsc henv w (s.token == 46 || inWith)
  refine ⟨_, hs, ?_⟩
  unfold Tok.named
  rw [(C45_alias w).2 hali, hf]
  simp only
  rw [← hl]
  cases hh : identSymbol sc.tab w 0 (s.token == 46 || inWith) with
  | none =>
    exact ⟨hi, rfl, rfl, rfl, rfl, Tok.string_pushed rfl rfl (Tok.ident_zero hw.1), rfl⟩
  | some e =>
    have hn : ∃ d, toDecl e = some d := by
      unfold identSymbol at hh
      cases h1 : symbolToken sc.tab w 0 (s.token == 46 || inWith) with
      | some e' => rw [h1] at hh; cases hh; exact symbolToken_named h1
      | none =>
        rw [h1] at hh
        simp only at hh
        split at hh
        · exact symbolToken_named hh
        · cases hh
    obtain ⟨d, hd⟩ := hn
    have hkind : d.kind = e.kind ∧ d.value = e.value := by
      unfold toDecl at hd
      cases hn : e.name with
      | none => rw [hn] at hd; cases hd
      | some n => rw [hn] at hd; cases hd; exact ⟨rfl, rfl⟩
    simp only [Option.bind_some, hd, hkind]
    by_cases h5 : e.kind = 5
    · rw [if_pos h5]; exact ⟨hi, rfl, rfl, rfl, hd, fun h => absurd h5 h, rfl⟩
    · rw [if_neg h5]; exact ⟨hi, rfl, rfl, rfl, hd, fun _ => rfl, rfl⟩

/-- C46 fails for names that stand for others: a program that declares a variable `text` (kind 0x40,
value 7) and then uses it gets the predefined `TEXTFILE` (kind 0x4a). -/
theorem C46_violation : ∃ (predefined : List Decl) (evs : List Event) (sc : Scopes) (env : Env)
    (s r : State),
    steps (start predefined) evs = some sc ∧ history (programEnv predefined) evs = some env ∧
    Coming s.inp ([116#8, 101#8, 120#8, 116#8] ++ [59#8, 10#8]) ∧
    wanted env [116#8, 101#8, 120#8, 116#8] false = some ⟨[84, 101, 120, 116], 0x40, 7⟩ ∧
    Scans sc.tab 0 false s r ∧ r.token = 0x4a := by
  refine ⟨[⟨[84, 69, 88, 84, 70, 73, 76, 69], 0x4a, 0⟩], [.declare ⟨[84, 101, 120, 116], 0x40, 7⟩], _, _,
    ⟨⟨116#8, [101#8, 120#8, 116#8, 59#8, 10#8], [116#8, 101#8, 120#8, 116#8, 59#8, 10#8], []⟩,
      [], 0, 0, 0, 0, [], none, 0⟩, _, rfl, rfl, rfl, by decide +kernel,
    Tok.scans_of (n := 9) (r := ⟨⟨59#8, [10#8], [116#8, 101#8, 120#8, 116#8, 59#8, 10#8], []⟩,
      [], 0, 0x4a, 0, 0, [], some ⟨some [84, 69, 88, 84, 70, 73, 76, 69], 0x4a, 0⟩, 0⟩)
      (by decide +kernel), rfl⟩

/-- Non-vacuity of C44, C45, C46: `x1_` followed by `:=` after a comment and blanks. -/
example : Identifier [120#8, 49#8, 95#8] ∧ ¬ IdentChar 58#8 ∧
    Layout [123#8, 99#8, 125#8, 32#8, 40#8, 42#8, 42#8, 42#8, 41#8, 10#8] ∧
    Coming ⟨120#8, [49#8], [120#8, 49#8], [[95#8, 58#8], [61#8]]⟩
      ([120#8, 49#8, 95#8] ++ 58#8 :: [61#8]) ∧
    (∀ k ∈ reserved, ¬ SameName k.name [120#8, 49#8, 95#8]) ∧
    (∀ p ∈ aliases, ¬ SameName p.1 [120#8, 49#8, 95#8]) := by
  refine ⟨⟨?_, 120#8, _, rfl, by simp [Digit]⟩, by simp [IdentChar, Letter, Digit], ?_, rfl,
    by decide +kernel, by decide +kernel⟩
  · intro b hb
    simp only [List.mem_cons, List.not_mem_nil, or_false] at hb
    rcases hb with rfl | rfl | rfl <;> simp [IdentChar, Letter, Digit]
  · exact .brace [99#8] (by simp) (.blank _ (by simp [Blank]) (.paren [42#8]
      (by decide) (.blank _ (by simp [Blank]) .nil)))

/-- C44: a decimal literal is read to its last digit and denotes its value when it fits in 32 bits.
It may be followed by anything but a letter `e` or a single period, which make it a real number. -/
theorem C44_decimal (tab : List Entry) (first : Nat) (inWith : Bool) (s : State)
    (ds t : List Byte) (c : Byte) (h : Coming s.inp (ds ++ c :: t)) (hd : ∀ d ∈ ds, Digit d)
    (hne : ds ≠ []) (hc : ¬ Digit c) (he : c ≠ 101#8 ∧ c ≠ 69#8)
    (hdot : c = 46#8 → ∃ t', t = 46#8 :: t') (hv : decimal ds < 2 ^ 32)
    (hroom : s.stack.length + ds.length + 1 ≤ 65536) :
    ∃ r, Scans tab first inWith s r ∧ r.token = 2 ∧ r.uint.toNat = decimal ds ∧
      Coming r.inp (c :: t) ∧ r.errors = s.errors ∧ r.stack = s.stack := by
  obtain ⟨i, hi, hs⟩ := Tok.number_scan (tab := tab) (f := first) (inWith := inWith) h hd hne hc he hdot
    hv hroom
  exact ⟨_, hs, rfl, by simp only [BitVec.toNat_ofNat]; exact Nat.mod_eq_of_lt hv, hi, rfl, rfl⟩

/-- Non-vacuity: `42..` and `007;`. -/
example : decimal [52#8, 50#8] = 42 ∧ decimal [48#8, 48#8, 55#8] = 7 ∧
    (∀ d ∈ [52#8, 50#8], Digit d) ∧ (46#8 = 46#8 → ∃ t', [46#8, 57#8] = 46#8 :: t') := by
  refine ⟨rfl, rfl, ?_, fun _ => ⟨_, rfl⟩⟩
  intro d hd
  simp only [List.mem_cons, List.not_mem_nil, or_false] at hd
  rcases hd with rfl | rfl <;> simp [Digit]

/-- C44: a real number is read to its last character, in all its forms, and what is handed to the host's
conversion is a text for the same number `m * 10 ^ e`.  (A period behind it is excluded: `1..2` is a range.) -/
theorem C44_real (tab : List Entry) (first : Nat) (inWith : Bool) (s : State)
    (w t : List Byte) (c : Byte) (m : Nat) (e : Int) (h : Coming s.inp (w ++ c :: t)) (hw : RealNumber w m e)
    (hc : ¬ Digit c) (he : c ≠ 101#8 ∧ c ≠ 69#8) (hdot : c ≠ 46#8) (hroom : s.stack.length + w.length + 2 < 65536) :
    ∃ r, Scans tab first inWith s r ∧ r.token = 5 ∧ RealNumber r.real m e ∧
      Coming r.inp (c :: t) ∧ r.errors = s.errors ∧ r.stack = s.stack := by
  obtain ⟨i, w', hi, hw', hs⟩ := Tok.real_scan (tab := tab) (f := first) (inWith := inWith) h hw hc he hdot hroom
  exact ⟨_, hs, rfl, hw', hi, rfl, rfl⟩

/-- Non-vacuity: `3.25`, `.5`, `7.`, `1E6` and `2.5e-3`. -/
example : RealNumber [51#8, 46#8, 50#8, 53#8] 325 (-2) ∧ RealNumber [46#8, 53#8] 5 (-1) ∧
    RealNumber [55#8, 46#8] 7 0 ∧ RealNumber [49#8, 69#8, 54#8] 1 6 ∧
    RealNumber [50#8, 46#8, 53#8, 101#8, 45#8, 51#8] 25 (-4) :=
  ⟨.point [51#8] [50#8, 53#8] [] 0 (by simp [Digit]) (by simp [Digit]) (by simp) .none,
   .point [] [53#8] [] 0 (by simp) (by simp [Digit]) (by simp) .none,
   .point [55#8] [] [] 0 (by simp [Digit]) (by simp) (by simp) .none,
   .whole [49#8] [69#8, 54#8] 6 (by simp [Digit]) (by simp) (.plain _ [54#8] (.inr rfl) (by simp) (by simp [Digit])) (by simp),
   .point [50#8] [53#8] [101#8, 45#8, 51#8] (-3) (by simp [Digit]) (by simp [Digit]) (by simp)
     (.minus _ [51#8] (.inl rfl) (by simp) (by simp [Digit]))⟩

/-- C44: a hexadecimal literal is read, but it has to be written with a percent sign. -/
theorem C44_hexadecimal_partial (tab : List Entry) (first : Nat) (inWith : Bool) (s : State)
    (ds t : List Byte) (c : Byte) (h : Coming s.inp (37#8 :: (ds ++ c :: t)))
    (hd : ∀ d ∈ ds, (hexDigit d).isSome) (hne : ds ≠ []) (hc : hexDigit c = none)
    (hv : Spec.hexadecimal ds < 2 ^ 32) (hroom : s.stack.length + ds.length + 1 ≤ 65536) :
    ∃ r, Scans tab first inWith s r ∧ r.token = 2 ∧ r.uint.toNat = Spec.hexadecimal ds ∧
      Coming r.inp (c :: t) ∧ r.errors = s.errors ∧ r.stack = s.stack := by
  obtain ⟨i, hi, hs⟩ := Tok.hex_scan (tab := tab) (f := first) (inWith := inWith) h hd hne hc hv hroom
  exact ⟨_, hs, rfl, by simp only [BitVec.toNat_ofNat]; exact Nat.mod_eq_of_lt hv, hi, rfl, rfl⟩

/-- Non-vacuity: `%fF;`. -/
example : Spec.hexadecimal [102#8, 70#8] = 255 ∧ hexDigit 59#8 = none ∧
    ∀ d ∈ [102#8, 70#8], (hexDigit d).isSome := by decide +kernel

/-- C44 fails for literals with a dollar sign: whatever follows, the sign is a token of its own. -/
theorem C44_violation_dollar (tab : List Entry) (first : Nat) (inWith : Bool) (s : State)
    (t : List Byte) (c : Byte) (h : Coming s.inp (36#8 :: c :: t)) :
    ∃ r, Scans tab first inWith s r ∧ r.token = 36 ∧ Coming r.inp (c :: t) := by
  obtain ⟨i, hi, hs⟩ := Tok.char_scan (tab := tab) (f := first) (inWith := inWith) h
    (by simp [Letter]) (by simp [Digit]) (by simp [Blank]) (by decide) (by decide)
  exact ⟨_, hs, rfl, hi⟩

/-- C44 fails for binary literals, which the comments of the source announce: `%101;` is read as the
hexadecimal 257. -/
theorem C44_violation_binary (tab : List Entry) (first : Nat) (inWith : Bool) (s : State)
    (t : List Byte) (h : Coming s.inp ([37#8, 49#8, 48#8, 49#8, 59#8] ++ t))
    (hroom : s.stack.length + 4 ≤ 65536) :
    ∃ r, Scans tab first inWith s r ∧ r.token = 2 ∧ r.uint.toNat = 257 := by
  obtain ⟨r, hr, ht, hv, _⟩ := C44_hexadecimal_partial tab first inWith s [49#8, 48#8, 49#8] t 59#8 h
    (by decide) (by simp) (by decide) (by decide) (by simpa using hroom)
  exact ⟨r, hr, ht, by rw [hv]; decide⟩

/-- C56: the symbols made of special characters are read as such, the longest first. -/
theorem C56_symbols (tab : List Entry) (first : Nat) (inWith : Bool) (s : State)
    (sym : List Byte) (code : Nat) (hsym : (sym, code) ∈ specialSymbols) (t : List Byte) (c : Byte)
    (h : Coming s.inp (sym ++ c :: t)) :
    ∃ r, Scans tab first inWith s r ∧ r.token = code ∧ Coming r.inp (c :: t) ∧
      r.errors = s.errors ∧ r.stack = s.stack := by
  have two : ∀ (b d : Byte) (l : List (Byte × Nat)), Coming s.inp (b :: d :: c :: t) →
      (b, l) ∈ [(58#8, [(61#8, 0x0a)]), (46#8, [(46#8, 0x0b)]),
      (60#8, [(62#8, 35), (61#8, 8), (60#8, 0xa1)]), (62#8, [(60#8, 0x0c), (61#8, 9), (62#8, 0xa2)])] →
      (b = 46#8 → ¬ Digit d) → ∀ p, (l.find? fun p => p.1 = d) = some p → p.2 = code →
      ∃ r, Scans tab first inWith s r ∧ r.token = code ∧ Coming r.inp (c :: t) ∧
        r.errors = s.errors ∧ r.stack = s.stack := by
    intro b d l h hl hd p hp hc
    refine ⟨_, Tok.pair_scan h hl hd, ?_⟩
    have hg : s.inp.get.inChar = d := Tok.coming_char (Tok.coming_get h)
    have hg2 := Tok.coming_get (Tok.coming_get h)
    unfold Tok.pair
    simp only [State.get, hg]
    rw [hp]
    exact ⟨hc, hg2, rfl, rfl⟩
  have one : ∀ b : Byte, Coming s.inp (b :: c :: t) → ¬ Letter b → ¬ Digit b → ¬ Blank b →
      b ∉ [95#8, 39#8, 58#8, 46#8, 60#8, 62#8, 123#8, 40#8, 47#8, 37#8] → b.toNat < 128 →
      b.toNat = code →
      ∃ r, Scans tab first inWith s r ∧ r.token = code ∧ Coming r.inp (c :: t) ∧
        r.errors = s.errors ∧ r.stack = s.stack := by
    intro b h h1 h2 h3 h4 h5 h6
    obtain ⟨i, hi, hs⟩ := Tok.char_scan (tab := tab) (f := first) (inWith := inWith) h h1 h2 h3 h4 h5
    exact ⟨_, hs, h6, hi, rfl, rfl⟩
  simp only [specialSymbols, List.mem_cons, List.not_mem_nil, or_false, Prod.mk.injEq] at hsym
  rcases hsym with ⟨rfl, rfl⟩ | ⟨rfl, rfl⟩ | ⟨rfl, rfl⟩ | ⟨rfl, rfl⟩ | ⟨rfl, rfl⟩ | ⟨rfl, rfl⟩ |
    ⟨rfl, rfl⟩ | ⟨rfl, rfl⟩ | ⟨rfl, rfl⟩ | ⟨rfl, rfl⟩ | ⟨rfl, rfl⟩ | ⟨rfl, rfl⟩ | ⟨rfl, rfl⟩ |
    ⟨rfl, rfl⟩ | ⟨rfl, rfl⟩ | ⟨rfl, rfl⟩ | ⟨rfl, rfl⟩ | ⟨rfl, rfl⟩ | ⟨rfl, rfl⟩
  · exact two 58#8 61#8 [(61#8, 0x0a)] h (by simp) (by simp) _ rfl rfl
  · exact two 46#8 46#8 [(46#8, 0x0b)] h (by simp) (by simp [Digit]) _ rfl rfl
  · exact two 60#8 62#8 [(62#8, 35), (61#8, 8), (60#8, 0xa1)] h (by simp) (by simp) _ rfl rfl
  · exact two 60#8 61#8 [(62#8, 35), (61#8, 8), (60#8, 0xa1)] h (by simp) (by simp) _ rfl rfl
  · exact two 60#8 60#8 [(62#8, 35), (61#8, 8), (60#8, 0xa1)] h (by simp) (by simp) _ rfl rfl
  · exact two 62#8 60#8 [(60#8, 0x0c), (61#8, 9), (62#8, 0xa2)] h (by simp) (by simp) _ rfl rfl
  · exact two 62#8 61#8 [(60#8, 0x0c), (61#8, 9), (62#8, 0xa2)] h (by simp) (by simp) _ rfl rfl
  · exact two 62#8 62#8 [(60#8, 0x0c), (61#8, 9), (62#8, 0xa2)] h (by simp) (by simp) _ rfl rfl
  all_goals
    exact one _ h (by simp [Letter]) (by simp [Digit]) (by simp [Blank]) (by decide) (by decide) rfl

/-- C56: the first characters of the two-character symbols, alone. -/
theorem C56_single (tab : List Entry) (first : Nat) (inWith : Bool) (s : State)
    (b c : Byte) (t : List Byte) (h : Coming s.inp (b :: c :: t))
    (hbc : (b = 58#8 ∧ c ≠ 61#8) ∨ (b = 46#8 ∧ c ≠ 46#8 ∧ ¬ Digit c) ∨
      (b = 60#8 ∧ c ∉ [60#8, 61#8, 62#8]) ∨ (b = 62#8 ∧ c ∉ [60#8, 61#8, 62#8]) ∨
      (b = 40#8 ∧ c ≠ 42#8) ∨ (b = 47#8 ∧ c ∉ [42#8, 47#8])) :
    ∃ r, Scans tab first inWith s r ∧ r.token = b.toNat ∧ Coming r.inp (c :: t) ∧
      r.errors = s.errors ∧ r.stack = s.stack := by
  have hg : s.inp.get.inChar = c := Tok.coming_char (Tok.coming_get h)
  have hg2 := Tok.coming_get h
  have two : ∀ l : List (Byte × Nat),
      (b, l) ∈ [(58#8, [(61#8, 0x0a)]), (46#8, [(46#8, 0x0b)]),
      (60#8, [(62#8, 35), (61#8, 8), (60#8, 0xa1)]), (62#8, [(60#8, 0x0c), (61#8, 9), (62#8, 0xa2)])] →
      (b = 46#8 → ¬ Digit c) → (l.find? fun p => p.1 = c) = none →
      ∃ r, Scans tab first inWith s r ∧ r.token = b.toNat ∧ Coming r.inp (c :: t) ∧
        r.errors = s.errors ∧ r.stack = s.stack := by
    intro l hl hd hp
    refine ⟨_, Tok.pair_scan h hl hd, ?_⟩
    unfold Tok.pair
    simp only [State.get, hg]
    rw [hp]
    exact ⟨rfl, hg2, rfl, rfl⟩
  rcases hbc with ⟨rfl, hc⟩ | ⟨rfl, hc, hd⟩ | ⟨rfl, hc⟩ | ⟨rfl, hc⟩ | ⟨rfl, hc⟩ | ⟨rfl, hc⟩
  · exact two [(61#8, 0x0a)] (by simp) (by simp) (by simpa using hc.symm)
  · exact two [(46#8, 0x0b)] (by simp) (fun _ => hd) (by simpa using hc.symm)
  · simp only [List.mem_cons, List.not_mem_nil, or_false, not_or] at hc
    exact two [(62#8, 35), (61#8, 8), (60#8, 0xa1)] (by simp) (by simp) (by simp [Ne.symm hc.1, Ne.symm hc.2.1, Ne.symm hc.2.2])
  · simp only [List.mem_cons, List.not_mem_nil, or_false, not_or] at hc
    exact two [(60#8, 0x0c), (61#8, 9), (62#8, 0xa2)] (by simp) (by simp) (by simp [Ne.symm hc.1, Ne.symm hc.2.1, Ne.symm hc.2.2])
  · refine ⟨{ s with
      inp := s.inp.get
      token := 40
      start := s.stack.length
      sym := none }, Tok.scans_of (n := 2) ?_, rfl, hg2, rfl, rfl⟩
    rw [Tok.getToken_start _ _ _ _ _ (Tok.coming_char h) (by simp [Blank]),
      Tok.dispatch_other _ _ _ _ _ _ _ _ (by simp [Letter]) (by simp [Digit]) (by decide)]
    iterate 6 rw [if_neg (by decide)]
    rw [if_pos rfl, if_pos (by simp only [State.get, hg]; exact hc)]
    rfl
  · simp only [List.mem_cons, List.not_mem_nil, or_false, not_or] at hc
    refine ⟨{ s with
      inp := s.inp.get
      token := 47
      start := s.stack.length
      sym := none }, Tok.scans_of (n := 2) ?_, rfl, hg2, rfl, rfl⟩
    rw [Tok.getToken_start _ _ _ _ _ (Tok.coming_char h) (by simp [Blank]),
      Tok.dispatch_other _ _ _ _ _ _ _ _ (by simp [Letter]) (by simp [Digit]) (by decide)]
    iterate 7 rw [if_neg (by decide)]
    rw [if_pos rfl, if_neg (by simp only [State.get, hg]; exact hc.2),
      if_pos (by simp only [State.get, hg]; exact hc.1)]
    rfl

/-- C56 fails for control characters: the codes 1 to 8 are read as tokens that stand for an
identifier, an integer constant, a character constant and so on. -/
theorem C56_violation_control (tab : List Entry) (first : Nat) (inWith : Bool) (s : State)
    (b c : Byte) (t : List Byte) (h : Coming s.inp (b :: c :: t)) (hb : 1 ≤ b.toNat ∧ b.toNat ≤ 8) :
    ∃ r, Scans tab first inWith s r ∧ r.token = b.toNat := by
  obtain ⟨i, hi, hs⟩ := Tok.char_scan (tab := tab) (f := first) (inWith := inWith) h
    (by simp [Letter]; omega) (by simp [Digit]; omega)
    (by intro hbl
        simp only [Blank, List.mem_cons, List.not_mem_nil, or_false] at hbl
        rcases hbl with rfl | rfl | rfl | rfl | rfl | rfl <;> simp at hb)
    (by simp only [List.mem_cons, List.not_mem_nil, or_false, not_or]
        refine ⟨?_, ?_, ?_, ?_, ?_, ?_, ?_, ?_, ?_, ?_⟩ <;> rintro rfl <;> simp at hb) (by omega)
  exact ⟨_, hs, rfl⟩

theorem no_brace_get {i : Input} (h1 : 125#8 ∉ i.rest) (h2 : 125#8 ∉ i.buf)
    (h3 : 125#8 ∉ i.lines.flatten) : i.get.inChar ≠ 125#8 ∧ 125#8 ∉ i.get.rest ∧
      125#8 ∉ i.get.buf ∧ 125#8 ∉ i.get.lines.flatten := by
  have key : ∀ (ls : List (List Byte)) (buf : List Byte), 125#8 ∉ buf → 125#8 ∉ ls.flatten →
      (Tok.skipLine buf ls).inChar ≠ 125#8 ∧ 125#8 ∉ (Tok.skipLine buf ls).rest ∧
      125#8 ∉ (Tok.skipLine buf ls).buf ∧ 125#8 ∉ (Tok.skipLine buf ls).lines.flatten := by
    intro ls
    induction ls with
    | nil => intro buf hb _; simp [Tok.skipLine, hb]
    | cons l ls ih =>
      intro buf hb hl
      cases l with
      | nil => exact ih [] (by simp) (by simpa using hl)
      | cons c r =>
        simp [Tok.skipLine] at hl ⊢
        exact ⟨fun h => hl.1 h.symm, hl.2.1, ⟨hl.1, hl.2.1⟩, hl.2.2⟩
  obtain ⟨ch, rest, buf, lines⟩ := i
  cases rest with
  | nil => exact key lines buf h2 h3
  | cons c r =>
    simp [Input.get] at h1 h2 h3 ⊢
    exact ⟨fun h => h1.1 h.symm, h1.2, h2, h3⟩

/-- C56 fails for a comment that is never closed: the compiler does not end, whatever the number of
rounds. -/
theorem C56_violation_hang (tab : List Entry) (first : Nat) (inWith : Bool) (s : State)
    (h0 : s.inp.inChar = 123#8) (h1 : 125#8 ∉ s.inp.rest) (h2 : 125#8 ∉ s.inp.buf)
    (h3 : 125#8 ∉ s.inp.lines.flatten) (n : Nat) :
    Tok.getToken tab first inWith n s = .hang := by
  have loop : ∀ n (s : State), 125#8 ∉ s.inp.rest → 125#8 ∉ s.inp.buf → 125#8 ∉ s.inp.lines.flatten →
      Tok.braceLoop n s = .hang := by
    intro n
    induction n with
    | zero => intros; rfl
    | succ n ih =>
      intro s h1 h2 h3
      obtain ⟨g0, g1, g2, g3⟩ := no_brace_get h1 h2 h3
      rw [Tok.braceLoop, if_pos (by exact g0)]
      exact ih s.get g1 g2 g3
  match n with
  | 0 => rfl
  | 1 => rfl
  | n + 2 =>
    rw [Tok.getToken_start _ _ _ _ _ h0 (by simp [Blank]), Tok.dispatch_other _ _ _ _ _ _ _ _
      (by simp [Letter]) (by simp [Digit]) (by decide)]
    iterate 5 rw [if_neg (by decide)]
    rw [if_pos rfl, loop _ _ (by exact h1) (by exact h2) (by exact h3)]
    rfl

/-- C56: a comment with two slashes ends with the line, provided the rest of the line is in the line
buffer. -/
theorem C56_line_comment_partial (tab : List Entry) (first : Nat) (inWith : Bool) (s : State)
    (body t : List Byte) (h0 : s.inp.inChar = 47#8) (h1 : s.inp.rest = 47#8 :: body)
    (ht : s.inp.lines.flatten = t) (hne : t ≠ []) :
    ∃ i, Coming i t ∧ ∀ r, Scans tab first inWith { s with inp := i } r →
      Scans tab first inWith s r := by
  obtain ⟨x, t', rfl⟩ : ∃ x t', t = x :: t' := by cases t <;> simp at hne ⊢
  have hget : s.inp.get = ⟨47#8, body, s.inp.buf, s.inp.lines⟩ := by simp [Input.get, h1]
  refine ⟨Tok.skipLine s.inp.buf s.inp.lines, Tok.skipLine_coming _ _ ht, ?_⟩
  rintro r ⟨N, hN⟩
  have hN := hN (N + 1) (by omega)
  apply Tok.scans_of (n := N + 2)
  rw [← Tok.getToken_reset _ _ _ _ _ s.stack.length none] at hN
  rw [Tok.getToken_start _ _ _ _ _ h0 (by simp [Blank]), Tok.dispatch_other _ _ _ _ _ _ _ _
    (by simp [Letter]) (by simp [Digit]) (by decide)]
  iterate 7 rw [if_neg (by decide)]
  rw [if_pos rfl]
  simp only [State.get, hget, if_true]
  exact hN

/-- C56: the buffers in which the lines of a file are read contain the file, and reading starts with
its first character. -/
theorem C56_file (file : List Byte) (hne : file ≠ []) :
    Coming (Tok.skipLine [] (buffers file)) file ∧ ∀ b ∈ buffers file, b.length ≤ 255 := by
  have key : ∀ (fs cur : List Byte), cur.length ≤ 254 →
      (buffers.go cur fs).flatten = cur ++ fs ∧ ∀ b ∈ buffers.go cur fs, b.length ≤ 255 := by
    intro fs
    induction fs with
    | nil =>
      intro cur hc
      unfold buffers.go
      split
      · rename_i h; simp [h]
      · simp; omega
    | cons x fs ih =>
      intro cur hc
      unfold buffers.go
      split
      · obtain ⟨i1, i2⟩ := ih [] (by simp)
        simp [i1]
        exact ⟨by omega, i2⟩
      · rename_i h
        obtain ⟨i1, i2⟩ := ih (cur ++ [x]) (by simp at h ⊢; omega)
        exact ⟨by simp [i1], i2⟩
  obtain ⟨x, r, rfl⟩ : ∃ x r, file = x :: r := by cases file <;> simp at hne ⊢
  have := key (x :: r) [] (by simp)
  exact ⟨Tok.skipLine_coming _ _ (by simpa [buffers] using this.1), this.2⟩

/-- C56 fails for a comment with two slashes that makes the line longer than 255 characters: what is
beyond is read as program text. -/
theorem C56_violation_long_line : ∃ (body : List Byte) (r : State), 10#8 ∉ body ∧
    Scans [] 0 false ⟨Tok.skipLine [] (buffers ([47#8, 47#8] ++ body ++ [10#8])),
      [], 0, 0, 0, 0, [], none, 0⟩ r ∧ r.token = 1 ∧ r.string = [121#8] := by
  refine ⟨List.replicate 253 120#8 ++ [121#8, 59#8],
    ⟨⟨59#8, [10#8], [121#8, 59#8, 10#8], []⟩, [121#8, 0#8], 0, 1, 0, 0, [], none, 0⟩,
    by decide +kernel, Tok.scans_of (n := 9) (by decide +kernel), rfl, by decide +kernel⟩

end Pas
