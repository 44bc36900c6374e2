import Verif.Lemmas.Spelling

/-! What the tokenizer has read: the tokens. -/
namespace Pas.Tok
open Pas.Spec Pas.Src
open Pas.Comp (lexOf codeTk Tk Lx)
open Pas.Names (Entry mapToAlias findReserved identSymbol)

/-- A token has been read: a gap and the characters of the token. -/
def Result (s r : State) : Prop :=
  ∃ l w stop, Gap l ∧ Token w (lexOf r) stop ∧ Reads s.inp (l ++ w) r.inp ∧ stop r.inp.inChar r.inp.get.inChar

theorem Result.of {s r : State} {w : List Byte} {x : Lx} {stop : Byte → Byte → Prop} (ht : Token w x stop) (hx : lexOf r = x)
    (hr : Reads s.inp w r.inp) (hs : stop r.inp.inChar r.inp.get.inChar) : Result s r :=
  ⟨[], w, stop, .nil, hx ▸ ht, hr, hs⟩

theorem lexOf_int {r : State} (h : r.token = 2) : lexOf r = .tk (.int r.uint) := by
  unfold lexOf; rw [h]; rfl

theorem lexOf_str {r : State} (h : r.token = 6) : lexOf r = .tk (.str r.string) := by
  unfold lexOf; rw [h]; rfl

theorem not_isDigit {c : Byte} (h : isDigit c = false) : ¬ Digit c := fun hd => by
  rw [(isDigit_iff c).2 hd] at h; cases h

/-! ### Names and words -/

/-- The code of a token that is not modelled further. -/
def otherCode : Lx → Option Nat
  | .tk (.other c) => some c
  | _ => none

theorem otherCode_some {x : Lx} {c : Nat} (h : otherCode x = some c) : x = .tk (.other c) := by
  unfold otherCode at h
  split at h
  · cases h; rfl
  · cases h

theorem word_table : ∀ k ∈ Names.reserved, (k.type ≠ 1 ∧ k.type ≠ 2 ∧ k.type ≠ 3 ∧ k.type ≠ 6) ∧
    ((k.name, if k.type = 0xa9 then Lx.var_ else .tk (codeTk k.type k.sub)) ∈ words ∨
      (otherCode (if k.type = 0xa9 then Lx.var_ else .tk (codeTk k.type k.sub))).any
        (fun c => decide (∀ p ∈ words, p.1 ≠ k.name ∧ p.2 ≠ .tk (.other c))) = true) := by decide +kernel

theorem alias_words : ∀ p ∈ Names.aliases, ∀ q ∈ words, ¬ SameName q.1 p.2 := by decide +kernel

theorem lexOf_word {r : State} {t u : Nat} (ht : r.token = t) (hu : r.sub = u)
    (h : t ≠ 1 ∧ t ≠ 2 ∧ t ≠ 3 ∧ t ≠ 6) : lexOf r = if t = 0xa9 then Lx.var_ else .tk (codeTk t u) := by
  subst ht hu
  unfold lexOf
  split
  · rename_i h1; exact absurd h1 h.1
  · rename_i h1; exact absurd h1 h.2.1
  · rename_i h1; exact absurd h1 h.2.2.1
  · rename_i h1; exact absurd h1 h.2.2.2
  · rename_i h1; rw [if_pos h1]
  · rename_i h1; rw [if_neg (by simpa using h1)]


theorem identifier_reads {last n : Nat} {s r : State} (h : identifier [] 0 false last n s = .ok r) (g : Good s.inp)
    (hst : s.stack = []) (h0 : s.start = 0) (hc : (isAlpha s.inp.inChar || s.inp.inChar == 95#8) = true) :
    Result s r := by
  unfold identifier at h
  simp only [Res.bind_eq_ok] at h
  obtain ⟨t, h1, u, h2, v, h3, h4⟩ := h
  obtain ⟨rfl, _⟩ := push_eq h1
  obtain ⟨w, hw, hall, hend, hu⟩ := takeWhile_reads h2
  obtain ⟨rfl, _⟩ := push_eq h3
  have hrd : Reads s.inp (s.inp.inChar :: w) u.inp := ⟨rfl, hw⟩
  have hid : Identifier (s.inp.inChar :: w) := by
    refine ⟨?_, _, _, rfl, ?_⟩
    · intro b hb
      rcases List.mem_cons.1 hb with rfl | hb
      · rw [← isIdent_iff]; unfold isIdent
        rw [Bool.or_eq_true] at hc
        rcases hc with hc | hc <;> simp [hc]
      · exact (isIdent_iff b).1 (hall b hb)
    · intro hd
      rw [Bool.or_eq_true, isAlpha_iff, beq_iff_eq] at hc
      simp only [Letter, Digit] at hc hd
      rcases hc with hc | hc
      · omega
      · rw [hc] at hd; simp at hd
  have hstr : State.string { u with stack := u.stack ++ [0#8] } = s.inp.inChar :: w := by
    refine string_pushed (st := []) ?_ ?_ (ident_zero hid.1)
    · rw [hu]; simp [State.get, hst]
    · rw [hu]; simp [State.get, h0]
  have hend : ¬ IdentChar u.inp.inChar := fun hi => by rw [(isIdent_iff _).2 hi] at hend; cases hend
  rw [hstr] at h4
  generalize hn : s.inp.inChar :: w = nm at *
  have hal := C45_alias nm
  cases hf : findReserved (mapToAlias nm) with
  | some k =>
    rw [hf] at h4
    simp only at h4
    cases h4
    have hk := (C45_recognised (mapToAlias nm) k).1 hf
    have hnm : (SameName k.name nm ∧ ∀ p ∈ Names.aliases, ¬ SameName p.1 nm) ∨
        ∃ p ∈ Names.aliases, SameName p.1 nm ∧ SameName k.name p.2 := by
      by_cases ha : ∃ p ∈ Names.aliases, SameName p.1 nm
      · obtain ⟨p, hp, hpn⟩ := ha
        refine .inr ⟨p, hp, hpn, ?_⟩
        have := hk.2; rw [hal.1 p hp hpn] at this; exact this
      · have ha' : ∀ p ∈ Names.aliases, ¬ SameName p.1 nm := fun p hp h => ha ⟨p, hp, h⟩
        have := hk.2; rw [hal.2 ha'] at this; exact .inl ⟨this, ha'⟩
    have htab := word_table k hk.1
    have hlx := lexOf_word (r := { (State.pop { u with stack := u.stack ++ [0#8] }) with
      token := k.type, sub := k.sub }) rfl rfl htab.1
    rcases htab.2 with hw' | hw'
    · refine Result.of (.word hw' ?_) hlx hrd hend
      rcases hnm with hnm | ⟨p, hp, hpn, hkp⟩
      · exact hnm.1
      · exact absurd hkp (alias_words p hp _ hw')
    · generalize (if k.type = 0xa9 then Lx.var_ else Lx.tk (codeTk k.type k.sub)) = x at hw' hlx
      cases ho : otherCode x with
      | none => rw [ho] at hw'; cases hw'
      | some c =>
        rw [ho] at hw'
        rw [otherCode_some ho] at hlx
        refine Result.of (.otherWord hk.1 ?_ (of_decide_eq_true hw')) hlx hrd hend
        rcases hnm with hnm | hnm
        · exact .inl hnm.1
        · exact .inr hnm
  | none =>
    rw [hf] at h4
    have hsym : ∀ b, identSymbol [] (mapToAlias nm) 0 b = none := by
      intro b
      cases b <;> rfl
    simp only [hsym] at h4
    cases h4
    refine Result.of (.name hid ?_) ?_ hrd hend
    · intro k hk hw'
      have hnone : ¬ SameName k.name (mapToAlias nm) := fun hs => by
        have := (C45_recognised (mapToAlias nm) k).2 ⟨hk, hs⟩
        rw [hf] at this; cases this
      by_cases ha : ∃ p ∈ Names.aliases, SameName p.1 nm
      · obtain ⟨p, hp, hpn⟩ := ha
        rcases hw' with hw' | ⟨q, hq, hqn, hkq⟩
        · have : SameName p.1 k.name := by unfold SameName at *; rw [hpn, hw']
          exact C45_disjoint k hk p hp this
        · rw [hal.1 q hq hqn] at hnone; exact hnone hkq
      · have ha' : ∀ p ∈ Names.aliases, ¬ SameName p.1 nm := fun p hp h => ha ⟨p, hp, h⟩
        rw [hal.2 ha'] at hnone
        rcases hw' with hw' | ⟨q, hq, hqn, _⟩
        · exact hnone hw'
        · exact ha' q hq hqn
    · exact congrArg Lx.name hstr

/-! ### Strings -/

theorem mem_doubled {c : Byte} {t : List Byte} (h : c ∈ t) : c ∈ doubled t := by
  unfold doubled
  refine List.mem_flatMap.2 ⟨c, h, ?_⟩
  split
  · rename_i hc; subst hc; simp
  · simp

theorem stringToken_reads {n : Nat} {s r : State} (h : stringToken n s = .ok r) (g : Good s.inp) (hst : s.stack = [])
    (h0 : s.start = 0) (hc : s.inp.inChar = 39#8) : s.errors < r.errors ∨ Result s r := by
  unfold stringToken at h
  simp only [Res.bind_eq_ok] at h
  obtain ⟨⟨k, t⟩, h1, u, h2, h3⟩ := h
  dsimp only at h2 h3
  obtain ⟨rfl, hlen⟩ := push_eq h2
  rcases stringLoop_reads h1 with he | ⟨w, hw, hcw, hn, hk, hle, ht⟩
  · left
    have he : s.errors < t.errors := he
    split at h3
    · split at h3 <;> cases h3
      exact he
    · cases h3; exact he
  · right
    dsimp only at hw hcw hk ht
    have hts : t.stack = w := by rw [ht]; simp [State.get, hst]
    have ht0 : t.start = 0 := by rw [ht]; exact h0
    have hz : 0#8 ∉ w := fun hm => hw.nonzero g.get (by simp [mem_doubled hm])
    have hrd : Reads s.inp (quoted w) t.inp := by rw [quoted_eq]; exact ⟨hc, hw⟩
    rw [hts] at hlen
    have hk1 : k = 1#16 ↔ w.length = 1 := by
      rw [hk, ← BitVec.toNat_inj]; simp; omega
    split at h3
    · rename_i hk'
      have hl := hk1.1 hk'
      match w, hl with
      | [b], _ =>
        have hb : b ≠ 10#8 := fun hb => hn (by simp [hb])
        simp only [ht0, hts] at h3
        cases h3
        exact Result.of (.char hb) rfl hrd hcw
    · rename_i hk'
      cases h3
      refine Result.of (.string (fun hl => hk' (hk1.2 hl)) hn) ?_ hrd hcw
      have hstr : State.string { t with stack := t.stack ++ [0#8] } = w :=
        string_pushed (st := []) (by simp [hts]) (by simp [ht0]) hz
      have htok : t.token = 6 := by rw [ht]; rfl
      exact (lexOf_str (r := { t with stack := t.stack ++ [0#8] }) htok).trans (by rw [hstr])

/-! ### Numbers -/

theorem takeWhile_digits {n : Nat} {s r : State} (h : takeWhile isDigit n s = .ok r) :
    ∃ w, Reads s.inp w r.inp ∧ (∀ c ∈ w, Digit c) ∧ ¬ Digit r.inp.inChar ∧
      r = { s with inp := r.inp, stack := s.stack ++ w } := by
  obtain ⟨w, h1, h2, h3, h4⟩ := takeWhile_reads h
  exact ⟨w, h1, fun c hc => (isDigit_iff c).1 (h2 c hc), not_isDigit h3, h4⟩

theorem exponent_reads {n : Nat} {s r : State} (h : exponent n s = .ok r) (hc : s.inp.inChar = 101#8 ∨ s.inp.inChar = 69#8) :
    s.errors < r.errors ∨ ∃ sc e, Scale sc e ∧ sc ≠ [] ∧ Reads s.inp sc r.inp ∧ ¬ Digit r.inp.inChar ∧ r.token = 5 := by
  unfold exponent at h
  simp only [Res.bind_eq_ok] at h
  obtain ⟨t, h1, u, h2, h3⟩ := h
  obtain ⟨rfl, _⟩ := push_eq h1
  have hsign : ∃ sg, (sg = [] ∨ sg = [43#8] ∨ sg = [45#8]) ∧ Reads s.inp.get sg u.inp ∧ u.token = 5 ∧ u.errors = s.errors := by
    unfold sign at h2
    split at h2
    · rename_i hs
      simp only [Res.bind_eq_ok] at h2
      obtain ⟨v, h4, h5⟩ := h2
      obtain ⟨rfl, _⟩ := push_eq h4
      cases h5
      rcases hs with hs | hs
      · exact ⟨[45#8], by simp, ⟨hs, rfl⟩, rfl, rfl⟩
      · exact ⟨[43#8], by simp, ⟨hs, rfl⟩, rfl, rfl⟩
    · obtain ⟨rfl, _⟩ := push_eq h2
      exact ⟨[], by simp, rfl, rfl, rfl⟩
  obtain ⟨sg, hsg, hrd, htok, herr⟩ := hsign
  unfold exponentDigits at h3
  split at h3
  · rename_i hd
    simp only [Res.bind_eq_ok] at h3
    obtain ⟨v, h4, x, h5, h6⟩ := h3
    obtain ⟨ds, hds, hall, hend, hv⟩ := takeWhile_digits h4
    obtain ⟨rfl, _⟩ := push_eq h5
    cases h6
    right
    have hne : ds ≠ [] := by
      rintro rfl
      have : u.inp = v.inp := hds
      rw [← this] at hend
      exact hend ((isDigit_iff _).1 hd)
    have hvt : v.token = 5 := by rw [hv]; exact htok
    have hall' : Reads s.inp (s.inp.inChar :: (sg ++ ds)) v.inp := ⟨rfl, hrd.append hds⟩
    rcases hsg with rfl | rfl | rfl
    · exact ⟨_, _, .plain s.inp.inChar ds hc hne hall, by simp, hall', hend, hvt⟩
    · exact ⟨_, _, .plus s.inp.inChar ds hc hne hall, by simp, hall', hend, hvt⟩
    · exact ⟨_, _, .minus s.inp.inChar ds hc hne hall, by simp, hall', hend, hvt⟩
  · cases h3
    left
    show s.errors < u.errors + 1
    omega

theorem realNumber_reads {n : Nat} {s r : State} (h : realNumber n s = .ok r) :
    s.errors < r.errors ∨ ∃ fs sc e, (∀ d ∈ fs, Digit d) ∧ Scale sc e ∧ Reads s.inp (fs ++ sc) r.inp ∧
      ¬ Digit r.inp.inChar ∧ r.token = 5 := by
  unfold realNumber at h
  simp only [Res.bind_eq_ok] at h
  obtain ⟨t, h1, u, h2, h3⟩ := h
  obtain ⟨rfl, _⟩ := push_eq h1
  obtain ⟨fs, hfs, hall, hend, hu⟩ := takeWhile_digits h2
  have htok : u.token = 5 := by rw [hu]
  have herr : u.errors = s.errors := by rw [hu]
  unfold realTail at h3
  split at h3
  · rename_i hc
    simp only [Res.bind_eq_ok] at h3
    obtain ⟨v, h4, h5⟩ := h3
    cases h5
    rcases exponent_reads h4 hc with he | ⟨sc, e, hsc, _, hrd, hd, ht⟩
    · left; show s.errors < v.errors; omega
    · exact .inr ⟨fs, sc, e, hall, hsc, hfs.append hrd, hd, ht⟩
  · simp only [Res.bind_eq_ok] at h3
    obtain ⟨v, h4, h5⟩ := h3
    obtain ⟨rfl, _⟩ := push_eq h4
    cases h5
    exact .inr ⟨fs, [], 0, hall, .none, by rw [List.append_nil]; exact hfs, hend, htok⟩

theorem lexOf_real {r : State} (h : r.token = 5) : lexOf r = .tk (.other 5) := by
  unfold lexOf; rw [h]; rfl

theorem scan_eq {s r : State} {f : List Byte → Nat} (h : s.scan f = .ok r) :
    (s.string = [] ∧ r = s) ∨ (s.string ≠ [] ∧ f s.string < 2 ^ 32 ∧ r = { s with uint := BitVec.ofNat 32 (f s.string) }) := by
  unfold State.scan at h
  split at h
  · cases h; exact .inl ⟨by assumption, rfl⟩
  · split at h
    · cases h; exact .inr ⟨by assumption, by assumption, rfl⟩
    · cases h

theorem number_reads {n : Nat} {s r : State} (h : number n s = .ok r) (g : Good s.inp) (hst : s.stack = [])
    (h0 : s.start = 0) (hc : Digit s.inp.inChar) : s.errors < r.errors ∨ Result s r := by
  unfold number at h
  simp only [Res.bind_eq_ok] at h
  obtain ⟨t, h1, u, h2, h3⟩ := h
  obtain ⟨rfl, _⟩ := push_eq h1
  obtain ⟨w, hw, hall, hend, hu⟩ := takeWhile_digits h2
  have hrd : Reads s.inp (s.inp.inChar :: w) u.inp := ⟨rfl, hw⟩
  have herr : u.errors = s.errors := by rw [hu]; rfl
  have hds : ∀ d ∈ s.inp.inChar :: w, Digit d := by
    intro d hd
    rcases List.mem_cons.1 hd with rfl | hd
    · exact hc
    · exact hall d hd
  have hstr : ∀ i, State.string { u with stack := u.stack ++ [0#8], inp := i } = s.inp.inChar :: w := by
    intro i
    refine string_pushed (st := []) ?_ ?_ (digit_ne_zero hds)
    · rw [hu]; simp [State.get, hst]
    · rw [hu]; simp [State.get, h0]
  have htok : u.token = 2 := by rw [hu]; rfl
  have gu : Good u.inp := hrd.good g
  -- a decimal number is complete
  have fin : ∀ {i : Input} {v x : State}, State.push { u with inp := i } 0#8 = .ok v → v.scan decValue = .ok x →
      i = u.inp → (u.inp.inChar ≠ 101#8 ∧ u.inp.inChar ≠ 69#8) → (u.inp.inChar = 46#8 → u.inp.get.inChar = 46#8) →
      Result s x.pop := by
    intro i v x hv hx hi he hdot
    subst hi
    obtain ⟨rfl, _⟩ := push_eq hv
    rcases scan_eq hx with ⟨hx, _⟩ | ⟨_, hlt, rfl⟩
    · have hs := hstr u.inp
      rw [hs] at hx; cases hx
    · have hs := hstr u.inp
      rw [hs, decValue_eq] at hlt
      refine Result.of (.number (by simp) hds hlt) ?_ hrd ⟨hend, he.1, he.2, hdot⟩
      refine (lexOf_int (by exact htok)).trans ?_
      show Lx.tk (.int (BitVec.ofNat 32 (decValue _))) = _
      rw [decValue_eq, hs]
  split at h3
  · rename_i he
    rcases exponent_reads h3 he with hx | ⟨sc, e, hsc, hne, hr, hd, ht⟩
    · left; omega
    · exact .inr (Result.of (.real (.whole _ sc e hds (by simp) hsc hne)) (lexOf_real ht) (hrd.append hr) hd)
  · rename_i he
    have he : u.inp.inChar ≠ 101#8 ∧ u.inp.inChar ≠ 69#8 := ⟨fun h => he (.inl h), fun h => he (.inr h)⟩
    split at h3
    · rename_i hp
      simp only [Res.bind_eq_ok] at h3
      obtain ⟨v, h4, x, h5, h6⟩ := h3
      cases h6
      exact .inr (fin (i := u.inp) h4 h5 rfl he (fun h => absurd h hp))
    · rename_i hp
      have hp : u.inp.inChar = 46#8 := by simpa using hp
      obtain ⟨p1, p2, p3⟩ := gu.peek (by rw [hp]; decide)
      split at h3
      · rename_i hq
        have hq : u.inp.get.inChar = 46#8 := by rw [← p1]; exact hq
        simp only [Res.bind_eq_ok] at h3
        obtain ⟨v, h4, x, h5, h6⟩ := h3
        cases h6
        exact .inr (fin (i := u.inp.peek) h4 h5 (p3 (by rw [hq, hp])) he (fun _ => hq))
      · rcases realNumber_reads h3 with hx | ⟨fs, sc, e, hfs, hsc, hr, hd, ht⟩
        · left; have hx : u.errors < r.errors := hx; omega
        · right
          have hr : Reads u.inp.get (fs ++ sc) r.inp := by
            have hr : Reads u.inp.peek.get (fs ++ sc) r.inp := hr
            rw [p2] at hr; exact hr
          exact Result.of (.real (.point _ fs sc e hds hfs (by simp) hsc)) (lexOf_real ht)
            (hrd.append ⟨hp, hr⟩) hd

theorem hexadecimal_reads {n : Nat} {s r : State} (h : hexadecimal n s = .ok r) (hst : s.stack = [])
    (h0 : s.start = 0) (hc : s.inp.inChar = 37#8) : Result s r := by
  unfold hexadecimal at h
  simp only [Res.bind_eq_ok] at h
  obtain ⟨t, h1, u, h2, v, h3, h4⟩ := h
  cases h4
  obtain ⟨w, hw, hall, hend, ht⟩ := hexLoop_reads h1
  obtain ⟨rfl, _⟩ := push_eq h2
  have hw : Reads s.inp.get w t.inp := hw
  have htok : t.token = 2 := by rw [ht]
  have hstr : State.string { t with stack := t.stack ++ [0#8] } = w.map hexUp := by
    refine string_pushed (st := []) ?_ ?_ ?_
    · rw [ht]; simp [hst]
    · rw [ht]; simp [h0]
    · intro hm
      obtain ⟨x, hx, hz⟩ := List.mem_map.1 hm
      exact hex_nonzero x (hall x hx) hz
  have hrd : Reads s.inp (37#8 :: w) t.inp := ⟨hc, hw⟩
  rcases scan_eq h3 with ⟨hx, rfl⟩ | ⟨hx, hlt, rfl⟩
  · rw [hstr, List.map_eq_nil_iff] at hx
    subst hx
    refine Result.of (.percent (v := t.uint)) ?_ hrd hend
    exact lexOf_int (by exact htok)
  · rw [hstr] at hx hlt
    have hval : hexValue (w.map hexUp) = Spec.hexadecimal w := by rw [hexValue, foldl_hex _ hall]; simp
    rw [hval] at hlt
    refine Result.of (.hex (by simpa using hx) hall hlt) ?_ hrd hend
    refine (lexOf_int (by exact htok)).trans ?_
    show Lx.tk (.int (BitVec.ofNat 32 (hexValue _))) = _
    rw [hstr, hval]

end Pas.Tok
