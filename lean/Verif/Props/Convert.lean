import Verif.Model.Library
import Verif.Spec.Convert
import Verif.Props.FileOpen

/-! Property C69: STR and VAL. -/
namespace Pas
open Spec SysIo Convert

theorem number_digits (d : List Byte) : ∀ v, (∀ b ∈ d, 48 ≤ b.toNat ∧ b.toNat ≤ 57) →
    number 10 v d = (d.foldl (fun v b => 10 * v + (b.toNat - 48)) v, []) := by
  induction d with
  | nil => intro v _; rfl
  | cons b d ih =>
    intro v h
    obtain ⟨h1, h2⟩ := h b List.mem_cons_self
    have hd : digitVal b = b.toNat - 48 := by
      unfold digitVal
      dsimp only
      rw [if_pos ⟨h1, h2⟩]
    unfold number
    rw [if_pos (by rw [hd]; omega), hd, ih _ fun b hb => h b (List.mem_cons_of_mem _ hb)]
    rfl

/-- `strtol` behind the blanks and the sign. -/
theorem strtol_digits (l : List Byte) (blanks sg d : List Byte) (n : Nat) (hl : l = blanks ++ (sg ++ d))
    (hb : ∀ b ∈ blanks, BlankChar b) (hs : sg = [] ∨ sg = [43#8] ∨ sg = [45#8]) (h : Decimal d n) :
    strtol l = (if sg = [45#8] then -(n : Int) else n, []) := by
  obtain ⟨hd1, hd2, hd3, hd4⟩ := h
  cases d with
  | nil => exact absurd rfl hd2
  | cons b r =>
    obtain ⟨b1, b2⟩ := hd1 b List.mem_cons_self
    have hnb : ¬ BlankChar b := by unfold BlankChar; omega
    have h43 : b ≠ 43#8 := by rintro rfl; exact absurd b1 (by decide)
    have h45 : b ≠ 45#8 := by rintro rfl; exact absurd b1 (by decide)
    have hdrop : l.dropWhile isspace = sg ++ b :: r := by
      rw [hl]
      apply dropWhile_blanks _ _ hb
      intro c hc
      rcases hs with rfl | rfl | rfl
      · cases hc; exact hnb
      · cases hc; unfold BlankChar; decide
      · cases hc; unfold BlankChar; decide
    have key : ∀ sign : Nat → Int, (match b :: r with
      | [] => (0, l)
      | b :: r =>
        if b = 48#8 then
          match r with
          | x :: y :: r' =>
              if (x = 120#8 ∨ x = 88#8) ∧ digitVal y < 16 then
                let (v, e) := number 16 0 (y :: r')
                (sign v, e)
              else
                let (v, e) := number 8 0 r
                (sign v, e)
          | _ =>
              let (v, e) := number 8 0 r
              (sign v, e)
        else if isdigit b then
          let (v, e) := number 10 0 (b :: r)
          (sign v, e)
        else (0, l) : Int × List Byte) = (sign n, []) := by
      intro sign
      dsimp only
      by_cases h0 : b = 48#8
      · have : r = [] := by
          have := hd3 (by rw [h0]; rfl)
          simpa using this
        subst this
        subst h0
        rw [if_pos rfl]
        have : n = 0 := by rw [← hd4]; rfl
        subst this
        rfl
      · rw [if_neg h0, if_pos ((isdigit_iff b).mpr ⟨b1, b2⟩), number_digits _ 0 hd1, hd4]
    unfold strtol
    rw [hdrop]
    dsimp only
    rcases hs with rfl | rfl | rfl
    · have c1 : ¬ ((([] : List Byte) ++ b :: r).head? = some 43#8 ∨ (([] : List Byte) ++ b :: r).head? = some 45#8) := by
        rintro (h | h)
        · exact h43 (Option.some.inj h)
        · exact h45 (Option.some.inj h)
      have c2 : ¬ ((([] : List Byte) ++ b :: r).head? = some 45#8) := fun h => h45 (Option.some.inj h)
      rw [if_neg c1, if_neg (show ¬ (([] : List Byte) = [45#8]) by simp)]
      have := key fun v => if (([] : List Byte) ++ b :: r).head? = some 45#8 then -(v : Int) else v
      rw [if_neg c2] at this
      exact this
    · rw [if_neg (show ¬ ([43#8] : List Byte) = [45#8] by decide)]
      exact key fun v => if (([43#8] : List Byte) ++ b :: r).head? = some 45#8 then -(v : Int) else v
    · rw [if_pos (rfl : ([45#8] : List Byte) = [45#8])]
      exact key fun v => if (([45#8] : List Byte) ++ b :: r).head? = some 45#8 then -(v : Int) else v

theorem strtol_text {l : List Byte} {i : Int} (h : DecimalText l i) : strtol l = (i, []) := by
  cases h with
  | plain hb h => exact strtol_digits _ _ [] _ _ rfl hb (.inl rfl) h
  | plus hb h => exact strtol_digits _ _ [43#8] _ _ rfl hb (.inr (.inl rfl)) h
  | minus hb h => exact strtol_digits _ _ [45#8] _ _ rfl hb (.inr (.inr rfl)) h

theorem _root_.Pas.Spec.DecimalText.noNul {l : List Byte} {i : Int} (h : DecimalText l i) : ∀ c ∈ l, c ≠ 0#8 := by
  have hb : ∀ {bl : List Byte}, (∀ b ∈ bl, BlankChar b) → ∀ c ∈ bl, c ≠ 0#8 := by
    rintro bl h c hc rfl
    exact absurd (h _ hc) (by unfold BlankChar; decide)
  have hd : ∀ {d : List Byte} {n : Nat}, Decimal d n → ∀ c ∈ d, c ≠ 0#8 := by
    rintro d n h c hc rfl
    exact absurd (h.digits _ hc).1 (by decide)
  intro c hc
  cases h with
  | plain h1 h2 =>
    rcases List.mem_append.mp hc with h | h
    · exact hb h1 c h
    · exact hd h2 c h
  | plus h1 h2 =>
    rcases List.mem_append.mp hc with h | h
    · exact hb h1 c h
    · rcases List.mem_cons.mp h with rfl | h
      · decide
      · exact hd h2 c h
  | minus h1 h2 =>
    rcases List.mem_append.mp hc with h | h
    · exact hb h1 c h
    · rcases List.mem_cons.mp h with rfl | h
      · decide
      · exact hd h2 c h

theorem number_suffix (base : Nat) (l : List Byte) : ∀ v, (number base v l).2 <:+ l := by
  induction l with
  | nil => intro v; exact List.suffix_refl _
  | cons b r ih =>
    intro v
    unfold number
    split
    · exact (ih _).trans (List.suffix_cons _ _)
    · exact List.suffix_refl _

theorem digit_hex {b : Byte} {base : Nat} (hb : base ≤ 16) (h : digitVal b < base) : HexDigit b := by
  unfold digitVal at h
  unfold HexDigit
  dsimp only at h
  split at h
  · omega
  · split at h
    · omega
    · split at h <;> omega

theorem number_last (base : Nat) (hb : base ≤ 16) {c : Byte} (hc : ¬HexDigit c) (l : List Byte) : ∀ v,
    l.getLast? = some c → (number base v l).2.getLast? = some c := by
  induction l with
  | nil => intro v h; exact h
  | cons b r ih =>
    intro v h
    unfold number
    split
    · rename_i hd
      cases r with
      | nil =>
        cases h
        exact absurd (digit_hex hb hd) hc
      | cons b' r' => exact ih _ h
    · exact h

/-- The text `strtol` leaves is the end of its argument. -/
theorem strtol_cases (l : List Byte) (Q : Int × List Byte → Prop) (h0 : Q (0, l))
    (h1 : ∀ base v w t i, base ≤ 16 → t <:+ l → (number base v t = w) → (l.getLast? ≠ none → t = [] → l.getLast? = some 48#8) →
      Q (i, w.2)) : Q (strtol l) := by
  unfold strtol
  have hs1 : l.dropWhile isspace <:+ l := List.dropWhile_suffix _
  generalize l.dropWhile isspace = t at hs1
  dsimp only
  have hs2 : (if t.head? = some 43#8 ∨ t.head? = some 45#8 then t.tail else t) <:+ l := by
    split
    · exact (List.tail_suffix t).trans hs1
    · exact hs1
  generalize (if t.head? = some 43#8 ∨ t.head? = some 45#8 then t.tail else t) = u at hs2
  cases u with
  | nil => exact h0
  | cons b r =>
    have hr : r <:+ l := (List.suffix_cons _ _).trans hs2
    dsimp only
    by_cases hz : b = 48#8
    · rw [if_pos hz]
      have hlast : l.getLast? ≠ none → r = [] → l.getLast? = some 48#8 := by
        intro _ hr0
        obtain ⟨p, hp⟩ := hs2
        rw [← hp, hr0, hz]
        simp
      have oct : ∀ i, Q (i, (number 8 0 r).2) := fun i => h1 8 0 _ r i (by omega) hr rfl hlast
      split
      · rename_i x y r'
        split
        · exact h1 16 0 _ (y :: r') _ (by omega) ((List.suffix_cons _ _).trans hr) rfl fun _ h => absurd h (by simp)
        · exact oct _
      · exact oct _
    · rw [if_neg hz]
      split
      · exact h1 10 0 _ (b :: r) _ (by omega) hs2 rfl fun _ h => absurd h (by simp)
      · exact h0

theorem strtol_suffix (l : List Byte) : (strtol l).2 <:+ l :=
  strtol_cases l (fun r => r.2 <:+ l) (List.suffix_refl _) fun base v w t i _ ht hw _ => by
    subst hw
    exact (number_suffix base t v).trans ht

theorem strtol_last (l : List Byte) (c : Byte) (hl : l.getLast? = some c) (hc : ¬HexDigit c) :
    (strtol l).2.getLast? = some c :=
  strtol_cases l (fun r => r.2.getLast? = some c) hl fun base v w t i hb ht hw hz => by
    subst hw
    apply number_last base hb hc
    obtain ⟨p, hp⟩ := ht
    cases t with
    | nil =>
      have := hz (by rw [hl]; simp) rfl
      rw [hl] at this
      cases this
      exact absurd (show HexDigit 48#8 by unfold HexDigit; decide) hc
    | cons b r =>
      rw [← hp, List.getLast?_append] at hl
      simpa using hl

/-- The text is appended to the variable when there is room for it and a NUL. -/
theorem appendText_ok {s : VM} {v : Word} {mask : Bool} {l : List Byte} (hv : StrVar s v.toNat)
    (hmask : mask = false → (s.mem (v.toNat / 2 + 2)).toNat < 4096)
    (hl : strLen s.mem v.toNat + l.length < strCap s.mem v.toNat) :
    ∃ m, appendText s v mask l = .ok (eNOERROR, { s with mem := m }) ∧
      strVal m v.toNat = strVal s.mem v.toNat ++ l ∧ OnlyString s.mem m v.toNat := by
  obtain ⟨hv1, hv2, hv3, hv4⟩ := hv
  have hcp : strCap s.mem v.toNat < 4096 := Nat.mod_lt _ (by omega)
  have hbuf : (s.mem (v.toNat / 2 + 1)).toNat = strBuf s.mem v.toNat := rfl
  have hlen : (s.mem (v.toNat / 2 + 0)).toNat = strLen s.mem v.toNat := rfl
  have hcap : (if mask then Str.capacity (BitVec.ofNat 16 (s.mem (v.toNat / 2 + 2)).toNat)
      else (s.mem (v.toNat / 2 + 2)).toNat) = strCap s.mem v.toNat := by
    cases mask with
    | true =>
      rw [if_pos rfl, capacity_eq, BitVec.ofNat_toNat, BitVec.setWidth_eq]; rfl
    | false =>
      rw [if_neg (by decide)]
      exact (Nat.mod_eq_of_lt (hmask rfl)).symm
  have hll : (l ++ [0#8]).length = l.length + 1 := by simp
  unfold appendText
  rw [Str.rdF_eq s hv1 (by omega), Res.ok_bind, Str.rdF_eq s hv1 (by omega), Res.ok_bind,
    Str.rdF_eq s hv1 (by omega), Res.ok_bind]
  rw [hcap, hbuf, hlen, if_pos (by omega)]
  unfold snprintf
  rw [if_neg (by omega), List.take_of_length_le (by omega)]
  obtain ⟨m1, hm1, hm2, hm3⟩ := copyIn_spec (l ++ [0#8]) s (strBuf s.mem v.toNat + strLen s.mem v.toNat)
    (by rw [hll]; omega)
  rw [hm1, Res.ok_bind, Str.wrF_eq { s with mem := m1 } _ hv1 (by show _ < s.words; omega), Res.ok_bind]
  unfold Apart at hv4
  rw [hll] at hm3
  have hf : ∀ x, (x < v.toNat ∨ v.toNat + 2 ≤ x) →
      byte (updW m1 (v.toNat / 2 + 0) (BitVec.ofNat 16 (strLen s.mem v.toNat + l.length))) x = byte m1 x :=
    fun x hx => Str.byte_updW _ _ (by omega)
  refine ⟨_, rfl, ?_, fun x hx1 hx2 => ?_⟩
  · have hb' : strBuf (updW m1 (v.toNat / 2 + 0) (BitVec.ofNat 16 (strLen s.mem v.toNat + l.length))) v.toNat = strBuf s.mem v.toNat := by
      unfold strBuf
      rw [updW_other _ _ (by omega)]
      rw [Str.word_of_bytes (m := m1) (m' := s.mem) (i := v.toNat / 2 + 1) (hm3 _ (by omega)) (hm3 _ (by omega))]
    have hl' : strLen (updW m1 (v.toNat / 2 + 0) (BitVec.ofNat 16 (strLen s.mem v.toNat + l.length))) v.toNat = strLen s.mem v.toNat + l.length := by
      unfold strLen
      rw [Nat.add_zero, updW_same, BitVec.toNat_ofNat]
      unfold strLen at hl
      omega
    unfold strVal
    rw [hb', hl']
    apply List.ext_getElem
    · rw [List.length_append, Str.text_length, Str.text_length]
    · intro i h1 h2
      rw [Str.text_length] at h1
      rw [Str.text_getElem, hf _ (by omega)]
      by_cases hi : i < strLen s.mem v.toNat
      · rw [List.getElem_append_left (by rw [Str.text_length]; exact hi), Str.text_getElem]
        exact hm3 _ (by omega)
      · rw [List.getElem_append_right (by rw [Str.text_length]; omega)]
        have := hm2 (i - strLen s.mem v.toNat) (by rw [hll]; omega)
        rw [show strBuf s.mem v.toNat + strLen s.mem v.toNat + (i - strLen s.mem v.toNat) = strBuf s.mem v.toNat + i by omega] at this
        rw [this, List.getElem_append_left (by omega)]
        simp only [Str.text_length]
  · rw [hf _ hx1]
    exact hm3 _ (by omega)

/-- STR leaves the text behind the old contents of the variable. -/
theorem str_exec {lib : Lib} {cfg : Str.Cfg} {h : Host} (hlib : lib.strOps = Str.strOps cfg)
    (hcfg : cfg.other = conversions h) {code : List Byte} {maxpc : Word} {s : VM} {sub v : Word} {mask : Bool} {k : Nat}
    {l : List Byte} (hi : Insn code maxpc s .strlib 0 sub) (hs : Str.strOps cfg s sub = cfg.other s sub)
    (hpop : conversions h s sub = appendText { s with sp := s.sp - BitVec.ofNat 16 (2 * k) } v mask l)
    (hv : StrVar s v.toNat) (hmask : mask = false → (s.mem (v.toNat / 2 + 2)).toNat < 4096)
    (hl : strLen s.mem v.toNat + l.length < strCap s.mem v.toNat) :
    ∃ s', execute lib code maxpc s = .ok (eNOERROR, s') ∧ Ran s s' k 0 ∧
      strVal s'.mem v.toNat = strVal s.mem v.toNat ++ l ∧ OnlyString s.mem s'.mem v.toNat := by
  obtain ⟨m, h1, h2, h3⟩ := appendText_ok (s := { s with sp := s.sp - BitVec.ofNat 16 (2 * k) }) (v := v)
    (mask := mask) (l := l) ⟨hv.even, hv.fields, hv.buffer, hv.apart⟩ hmask hl
  rw [strlib_exec hlib hi, hs, hcfg, hpop, h1]
  exact ⟨_, rfl, ⟨rfl, by simp, rfl⟩, h2, h3⟩

/-- **C69** (partial): STR puts the decimal notation of the value, right-justified in the field, behind the
contents of the string variable and changes nothing else.  Partial: the contents of the variable should be
*replaced* (`C69_violation_str_append`), the result must fit with a byte to spare (`C69_violation_str_long`), an
integer must not be negative (`C69_violation_str_negative`), and a long value must be below 65536
(`C69_violation_str_upper`). -/
theorem C69_str_partial (lib : Lib) (cfg : Str.Cfg) (h : Host) (hlib : lib.strOps = Str.strOps cfg)
    (hcfg : cfg.other = conversions h) (code : List Byte) (maxpc : Word) (s : VM) (sub : Word) (k : Nat)
    (P : List Byte → Prop) (hc : StrCall s sub k P) (hr : Room s k) (hi : Insn code maxpc s .strlib 0 sub)
    (v : Nat) (hv : v = (opnd s 0).toNat) (hvar : StrVar s v) (halloc : (s.mem (v / 2 + 2)).toNat < 4096)
    (hroom : ∀ out, P out → strLen s.mem v + out.length < strCap s.mem v)
    (hint : sub = 0x15#16 → 0 ≤ (opnd s 2).toInt) (hlong : k = 4 → opnd s 2 = 0#16) :
    ∃ s' out, execute lib code maxpc s = .ok (eNOERROR, s') ∧ Ran s s' k 0 ∧ P out ∧
      strVal s'.mem v = strVal s.mem v ++ out ∧ OnlyString s.mem s'.mem v := by
  subst hv
  obtain ⟨r1, r2⟩ := hr
  have htop : s.top = s.sp.toNat / 2 := rfl
  have hx2 := (opnd s 2).isLt
  have hx3 := (opnd s 3).isLt
  cases hc with
  | integer =>
    have hnn := hint rfl
    have hval : (opnd s 2).toInt = ((opnd s 2).toNat : Int) := by
      rw [BitVec.toInt_eq_toNat_cond] at hnn ⊢; split at hnn <;> rename_i hh
      · rw [if_pos hh]
      · omega
    have hP : ∃ l, DecimalInt l (opnd s 2).toInt ∧
        Justified ((opnd s 1).toNat / 256) l (pad (width (opnd s 1)) (fmtD ((opnd s 2).toNat : Nat))) :=
      ⟨_, by rw [hval]; exact decimalInt_fmtD (by omega) (by omega), justified_width _ _⟩
    obtain ⟨s', e1, e2, e3, e4⟩ := str_exec (k := 3) (mask := false) hlib hcfg hi rfl
      (show conversions h s 0x15#16 = appendText _ (opnd s 0) false (pad (width (opnd s 1)) (fmtD ((opnd s 2).toNat : Nat))) by
        simp only [conversions, show (0x15#16).toNat = 21 from rfl]
        rw [Str.pop0 s r2, Res.ok_bind, Str.pop1 s (by omega) r2, Res.ok_bind, Str.pop2 s (by omega) r2, Res.ok_bind]
        rfl) hvar (fun _ => halloc) (hroom _ hP)
    exact ⟨s', _, e1, e2, hP, e3, e4⟩
  | word =>
    have hP : ∃ l, Decimal l (opnd s 2).toNat ∧
        Justified ((opnd s 1).toNat / 256) l (pad (width (opnd s 1)) (fmtU (opnd s 2).toNat)) :=
      ⟨_, decimal_fmtU (by omega), justified_width _ _⟩
    obtain ⟨s', e1, e2, e3, e4⟩ := str_exec (k := 3) (mask := false) hlib hcfg hi rfl
      (show conversions h s 0x16#16 = appendText _ (opnd s 0) false (pad (width (opnd s 1)) (fmtU (opnd s 2).toNat)) by
        simp only [conversions, show (0x16#16).toNat = 22 from rfl]
        rw [Str.pop0 s r2, Res.ok_bind, Str.pop1 s (by omega) r2, Res.ok_bind, Str.pop2 s (by omega) r2, Res.ok_bind]
        rfl) hvar (fun _ => halloc) (hroom _ hP)
    exact ⟨s', _, e1, e2, hP, e3, e4⟩
  | longInteger =>
    have h0 := hlong rfl
    have hn : (opnd s 2 ++ opnd s 3 : BitVec 32).toNat % 65536 = (opnd s 3).toNat := by
      rw [h0, BitVec.toNat_append]; simp; omega
    have hP : ∃ l, DecimalInt l ((opnd s 2).toInt * 65536 + (opnd s 3).toNat) ∧
        Justified ((opnd s 1).toNat / 256) l
          (pad (width (opnd s 1)) (fmtD ((opnd s 2 ++ opnd s 3 : BitVec 32).toNat % 65536 : Nat))) :=
      ⟨_, by rw [hn, h0]; simpa using decimalInt_fmtD (i := (opnd s 3).toNat) (by omega) (by omega), justified_width _ _⟩
    obtain ⟨s', e1, e2, e3, e4⟩ := str_exec (k := 4) (mask := true) hlib hcfg hi rfl
      (show conversions h s 0x17#16 = appendText _ (opnd s 0) true
          (pad (width (opnd s 1)) (fmtD ((opnd s 2 ++ opnd s 3 : BitVec 32).toNat % 65536 : Nat))) by
        simp only [conversions, show (0x17#16).toNat = 23 from rfl, LongOps.pop32]
        rw [Str.pop0 s r2, Res.ok_bind, Str.pop1 s (by omega) r2, Res.ok_bind, Str.pop2 s (by omega) r2, Res.ok_bind,
          Str.pop3 s (by omega) r2, Res.ok_bind]
        rfl) hvar (fun h => absurd h (by decide)) (hroom _ hP)
    exact ⟨s', _, e1, e2, hP, e3, e4⟩
  | longWord =>
    have h0 := hlong rfl
    have hn : (opnd s 2 ++ opnd s 3 : BitVec 32).toNat % 65536 = (opnd s 3).toNat := by
      rw [h0, BitVec.toNat_append]; simp; omega
    have hP : ∃ l, Decimal l ((opnd s 2).toNat * 65536 + (opnd s 3).toNat) ∧
        Justified ((opnd s 1).toNat / 256) l
          (pad (width (opnd s 1)) (fmtU ((opnd s 2 ++ opnd s 3 : BitVec 32).toNat % 65536))) :=
      ⟨_, by rw [hn, h0]; simpa using decimal_fmtU (n := (opnd s 3).toNat) (by omega), justified_width _ _⟩
    obtain ⟨s', e1, e2, e3, e4⟩ := str_exec (k := 4) (mask := true) hlib hcfg hi rfl
      (show conversions h s 0x18#16 = appendText _ (opnd s 0) true
          (pad (width (opnd s 1)) (fmtU ((opnd s 2 ++ opnd s 3 : BitVec 32).toNat % 65536))) by
        simp only [conversions, show (0x18#16).toNat = 24 from rfl, LongOps.pop32]
        rw [Str.pop0 s r2, Res.ok_bind, Str.pop1 s (by omega) r2, Res.ok_bind, Str.pop2 s (by omega) r2, Res.ok_bind,
          Str.pop3 s (by omega) r2, Res.ok_bind]
        rfl) hvar (fun h => absurd h (by decide)) (hroom _ hP)
    exact ⟨s', _, e1, e2, hP, e3, e4⟩

/-- What VAL does once the text has been copied and read. -/
theorem val_start {lib : Lib} {cfg : Str.Cfg} {h : Host} (hlib : lib.strOps = Str.strOps cfg)
    (hcfg : cfg.other = conversions h) {code : List Byte} {maxpc : Word} {s : VM} (hc : ValCall s)
    (hi : Insn code maxpc s .strlib 0 0x1a#16) {str : List Byte}
    (hstr : str = text s.mem (opnd s 3).toNat (opnd s 4).toNat) (hz : ∀ c ∈ str, c ≠ 0#8) {v : Int} {e : List Byte}
    (hv : strtol str = (v, e)) :
    ∃ m, (∀ x, (x < s.csp.toNat ∨ s.csp.toNat + (opnd s 4).toNat + 1 ≤ x) → byte m x = byte s.mem x) ∧
      execute lib code maxpc s = if v < -32768 ∨ v > 32767 then
          .ok (eINTEGEROVERFLOW, { s with
            sp := s.sp - 10#16
            pc := s.pc + 3#16
            mem := m })
        else
          .ok (eNOERROR, { s with
            sp := s.sp - 10#16
            pc := s.pc + 3#16
            mem := updW (updW m ((opnd s 0).toNat / 2) (signExtend8 (e.headD 0#8))) ((opnd s 1).toNat / 2) (BitVec.ofInt 16 v) }) := by
  obtain ⟨⟨r1, r2⟩, ht, hroom, hmem, hsrc, hap, hw0, hw1, hd⟩ := hc
  have htop : s.top = s.sp.toNat / 2 := rfl
  rw [strlib_exec hlib hi]
  have hs : Str.strOps cfg s 0x1a#16 = cfg.other s 0x1a#16 := rfl
  rw [hs, hcfg]
  simp only [conversions, show (0x1a#16).toNat = 26 from rfl, Convert.val]
  rw [Str.pop0 s r2, Res.ok_bind, Str.pop1 s (by omega) r2, Res.ok_bind,
    Str.pop2 s (by omega) r2, Res.ok_bind, Str.pop3 s (by omega) r2, Res.ok_bind,
    Str.pop4 s (by omega) r2, Res.ok_bind]
  have e0 : s.mem (s.top - 0) = opnd s 0 := rfl
  have e1 : s.mem (s.top - 1) = opnd s 1 := rfl
  have e2 : s.mem (s.top - 2) = opnd s 2 := rfl
  have e3 : s.mem (s.top - 3) = opnd s 3 := rfl
  have e4 : s.mem (s.top - 4) = opnd s 4 := rfl
  simp only [e0, e1, e2, e3, e4]
  obtain ⟨n, hn⟩ : ∃ n, n = (opnd s 4).toNat := ⟨_, rfl⟩
  rw [← hn] at hstr hroom hsrc hap ⊢
  obtain ⟨m, m1, m2, m3, m4⟩ := Str.mkCString_ok (s := { s with sp := s.sp - 10#16 })
    (src := (opnd s 3).toNat) (size := n) (keep := false) hroom hmem hsrc hap
  refine ⟨m, m4, ?_⟩
  rw [m1, Res.ok_bind]
  simp only [Bool.false_eq_true, if_false]
  have htx : text m s.csp.toNat n = str := by
    rw [hstr]
    apply List.ext_getElem
    · rw [Str.text_length, Str.text_length]
    · intro i h1 h2
      rw [Str.text_length] at h1
      rw [Str.text_getElem, Str.text_getElem]
      exact m2 i h1
  rw [Str.cString_eq { s with sp := s.sp - 10#16, mem := m } n _ _ (by show n < 2 * s.words + 1; omega)
    (by show s.csp.toNat + n < 2 * s.words; omega) (fun i hi' => by
      have h3 : byte m (s.csp.toNat + i) = byte s.mem ((opnd s 3).toNat + i) := m2 i hi'
      show byte m _ ≠ _
      rw [h3, ← Str.text_getElem (n := n) (h := by rw [Str.text_length]; exact hi')]
      exact hz _ (by rw [hstr]; exact List.getElem_mem _)) m3, Res.ok_bind]
  simp only [htx, hv]
  by_cases hov : v < -32768 ∨ v > 32767
  · rw [if_pos hov, if_pos hov, Str.freeTmp_plain _ ht]; rfl
  · rw [if_neg hov, if_neg hov]
    simp only [VM.putStack]
    rw [VM.wr_eq { s with sp := s.sp - 10#16, mem := m } _ hw0, Res.ok_bind, VM.wr_eq { s with sp := s.sp - 10#16, mem := updW m ((opnd s 0).toNat / 2) (signExtend8 (e.headD 0#8)) } _ hw1, Res.ok_bind, Str.freeTmp_plain _ ht]; rfl

/-- **C69** (partial): VAL of the decimal notation of an integer in range stores the integer and the code 0, and
apart from its scratch copy of the text changes nothing else.  Partial: no superfluous zeros in front
(`C69_violation_val_octal`), room for a copy of the text on the string stack, and the text is no temporary. -/
theorem C69_val_partial (lib : Lib) (cfg : Str.Cfg) (h : Host) (hlib : lib.strOps = Str.strOps cfg)
    (hcfg : cfg.other = conversions h) (code : List Byte) (maxpc : Word) (s : VM) (hc : ValCall s)
    (hi : Insn code maxpc s .strlib 0 0x1a#16) (i : Int)
    (ht : DecimalText (text s.mem (opnd s 3).toNat (opnd s 4).toNat) i) (h1 : -32768 ≤ i) (h2 : i ≤ 32767) :
    ∃ s', execute lib code maxpc s = .ok (eNOERROR, s') ∧ Ran s s' 5 0 ∧
      (s'.mem ((opnd s 1).toNat / 2)).toInt = i ∧ s'.mem ((opnd s 0).toNat / 2) = 0#16 ∧
      ∀ x, (x < s.csp.toNat ∨ s.csp.toNat + (opnd s 4).toNat + 1 ≤ x) →
        x / 2 ≠ (opnd s 0).toNat / 2 → x / 2 ≠ (opnd s 1).toNat / 2 → byte s'.mem x = byte s.mem x := by
  obtain ⟨m, m1, m2⟩ := val_start hlib hcfg hc hi rfl ht.noNul (strtol_text ht)
  rw [m2, if_neg (by omega)]
  refine ⟨_, rfl, ⟨rfl, by simp, rfl⟩, ?_, ?_, fun x hx hx0 hx1 => ?_⟩
  · show (updW (updW m _ _) _ _ _).toInt = i
    rw [updW_same, BitVec.toInt_ofInt, Int.bmod_def]
    split <;> omega
  · show updW (updW m _ _) _ _ _ = _
    rw [updW_other _ _ hc.targets, updW_same]; rfl
  · show byte (updW (updW m _ _) _ _) x = _
    rw [Str.byte_updW _ _ (by omega), Str.byte_updW _ _ (by omega)]
    exact m1 x hx

/-- **C69**: VAL of the decimal notation of an integer out of range ends the program with the error "integer
overflow"; neither the value nor the code is stored. -/
theorem C69_val_overflow (lib : Lib) (cfg : Str.Cfg) (h : Host) (hlib : lib.strOps = Str.strOps cfg)
    (hcfg : cfg.other = conversions h) (code : List Byte) (maxpc : Word) (s : VM) (hc : ValCall s)
    (hi : Insn code maxpc s .strlib 0 0x1a#16) (i : Int)
    (ht : DecimalText (text s.mem (opnd s 3).toNat (opnd s 4).toNat) i) (hov : i < -32768 ∨ 32767 < i) :
    ∃ s', execute lib code maxpc s = .ok (0xab, s') ∧
      ∀ x, (x < s.csp.toNat ∨ s.csp.toNat + (opnd s 4).toNat + 1 ≤ x) → byte s'.mem x = byte s.mem x := by
  obtain ⟨m, m1, m2⟩ := val_start hlib hcfg hc hi rfl ht.noNul (strtol_text ht)
  rw [m2, if_pos (by omega)]
  exact ⟨_, rfl, m1⟩

/-- **C69**: a text that does not end in a digit or a letter from A to F is no number, and VAL does not report
success: it stores a code other than 0 or ends the program. -/
theorem C69_val_refused (lib : Lib) (cfg : Str.Cfg) (h : Host) (hlib : lib.strOps = Str.strOps cfg)
    (hcfg : cfg.other = conversions h) (code : List Byte) (maxpc : Word) (s : VM) (hc : ValCall s)
    (hi : Insn code maxpc s .strlib 0 0x1a#16) (str : List Byte)
    (hstr : str = text s.mem (opnd s 3).toNat (opnd s 4).toNat) (hz : ∀ c ∈ str, c ≠ 0#8)
    (c : Byte) (hlast : str.getLast? = some c) (hno : ¬HexDigit c) :
    ∃ e s', execute lib code maxpc s = .ok (e, s') ∧ (e = eNOERROR → s'.mem ((opnd s 0).toNat / 2) ≠ 0#16) := by
  obtain ⟨v, e, he⟩ : ∃ v e, strtol str = (v, e) := ⟨_, _, rfl⟩
  obtain ⟨m, m1, m2⟩ := val_start hlib hcfg hc hi hstr hz he
  rw [m2]
  split
  · exact ⟨_, _, rfl, fun h => absurd h (by decide)⟩
  · refine ⟨_, _, rfl, fun _ => ?_⟩
    show updW (updW m _ _) _ _ _ ≠ _
    rw [updW_other _ _ hc.targets, updW_same]
    have hl : e.getLast? = some c := by
      have := strtol_last str c hlast hno
      rw [he] at this
      exact this
    cases e with
    | nil => simp at hl
    | cons b r =>
      have hb : b ∈ str := by
        have := strtol_suffix str
        rw [he] at this
        exact this.subset List.mem_cons_self
      have := hz b hb
      show b.signExtend 16 ≠ 0#16
      intro h0
      apply this
      have : (b.signExtend 16).setWidth 8 = b := by
        apply BitVec.eq_of_getLsbD_eq; intro i hi; simp [BitVec.getLsbD_signExtend, hi]; omega
      rw [← this, h0]; rfl

/-! ### Concrete cases -/

/-- The stack holds the variable at 60, the field width `w`, and the words `x` and `y`.  The variable has the value "AB"
in a buffer of 12 bytes at 70. -/
def strState (w : Byte) (x y : Word) : VM :=
  sampleMem fun i => if i = 20 then 60#16 else if i = 19 then (w ++ 0#8 : BitVec 16) else if i = 18 then x else if i = 17 then y else
    if i = 30 then 2#16 else if i = 31 then 70#16 else if i = 32 then 12#16 else if i = 35 then 0x4241#16 else 9#16

/-- STR(7 : 3, v) appends two blanks and "7"; STR(40000, v) of a word appends "40000". -/
example : StrVar (strState 3#8 7#16 0#16) 60 ∧ Room (strState 3#8 7#16 0#16) 4 ∧
    strVal (strState 3#8 7#16 0#16).mem 60 = [65#8, 66#8] ∧
    Insn [Op.strlib.toByte, 0, 0x15] 3#16 (strState 3#8 7#16 0#16) .strlib 0 0x15#16 ∧
    (∃ s', execute (machine barePlatform) [Op.strlib.toByte, 0, 0x15] 3#16 (strState 3#8 7#16 0#16) = .ok (eNOERROR, s') ∧
      strVal s'.mem 60 = [65#8, 66#8, 32#8, 32#8, 55#8]) ∧
    (∃ s', execute (machine barePlatform) [Op.strlib.toByte, 0, 0x16] 3#16 (strState 0#8 40000#16 0#16) = .ok (eNOERROR, s') ∧
      strVal s'.mem 60 = [65#8, 66#8, 52#8, 48#8, 48#8, 48#8, 48#8]) ∧
    ∃ s', execute (machine barePlatform) [Op.strlib.toByte, 0, 0x17] 3#16 (strState 0#8 0#16 12#16) = .ok (eNOERROR, s') ∧
      strVal s'.mem 60 = [65#8, 66#8, 49#8, 50#8] :=
  ⟨⟨by decide, by decide, by decide, by unfold Apart; decide⟩, ⟨by decide, by decide⟩, by decide,
   ⟨⟨by decide, rfl⟩, by decide, fun _ => ⟨0, 0x15, rfl, rfl, rfl⟩⟩, ⟨_, rfl, by decide⟩, ⟨_, rfl, by decide⟩, _, rfl, by decide⟩

/-- A text of at most 5 digits: there is room in the variable (the hypothesis of `C69_str_partial`). -/
example (out : List Byte) (h : ∃ l, Decimal l (opnd (strState 3#8 7#16 0#16) 2).toNat ∧
      Justified ((opnd (strState 3#8 7#16 0#16) 1).toNat / 256) l out) :
    strLen (strState 3#8 7#16 0#16).mem 60 + out.length < strCap (strState 3#8 7#16 0#16).mem 60 := by
  obtain ⟨l, h1, k, h2, h3⟩ := h
  have hl : l.length = 1 := by
    obtain ⟨d1, d2, d3, d4⟩ := h1
    have e7 : (opnd (strState 3#8 7#16 0#16) 2).toNat = 7 := rfl
    rw [e7] at d4
    match l, d1, d2, d3, d4 with
    | [_], _, _, _, _ => rfl
    | b :: c :: r, d1, _, d3, d4 =>
      have hb := d1 b (by simp)
      have hb0 : b.toNat ≠ 48 := by
        intro h
        have : b = 48#8 := BitVec.eq_of_toNat_eq h
        have := d3 (by rw [this]; rfl)
        simp at this
      have mono : ∀ (r : List Byte) (v : Nat), v ≤ r.foldl (fun v b => 10 * v + (b.toNat - 48)) v := by
        intro r
        induction r with
        | nil => intro v; exact Nat.le_refl _
        | cons a r ih => intro v; exact Nat.le_trans (by show v ≤ 10 * v + (a.toNat - 48); omega) (ih _)
      have := mono r (10 * (10 * 0 + (b.toNat - 48)) + (c.toNat - 48))
      simp only [List.foldl_cons] at d4
      omega
  have hw : (opnd (strState 3#8 7#16 0#16) 1).toNat / 256 = 3 := rfl
  rw [h3, hl, hw]
  decide

/-- The stack holds the addresses 60 and 62 of the code and the value, and the text of `n` bytes at 70. -/
def valState (n : Word) (a b c : Word) : VM :=
  sampleMem fun i => if i = 20 then 60#16 else if i = 19 then 62#16 else if i = 18 then 8#16 else if i = 17 then 70#16 else
    if i = 16 then n else if i = 35 then a else if i = 36 then b else if i = 37 then c else 9#16

/-- Non-vacuity: VAL(' -12', v, c) stores -12 and 0; VAL('99999', v, c) overflows; VAL('12?', v, c) stores a code. -/
example : ValCall (valState 4#16 0x2d20#16 0x3231#16 0#16) ∧
    DecimalText (text (valState 4#16 0x2d20#16 0x3231#16 0#16).mem 70 4) (-12) ∧
    Insn [Op.strlib.toByte, 0, 0x1a] 3#16 (valState 4#16 0x2d20#16 0x3231#16 0#16) .strlib 0 0x1a#16 ∧
    (∃ s', execute (machine barePlatform) [Op.strlib.toByte, 0, 0x1a] 3#16 (valState 4#16 0x2d20#16 0x3231#16 0#16) =
      .ok (eNOERROR, s') ∧ (s'.mem 31).toInt = -12 ∧ s'.mem 30 = 0#16) ∧
    DecimalText (text (valState 5#16 0x3939#16 0x3939#16 0x39#16).mem 70 5) 99999 ∧
    (∃ s', execute (machine barePlatform) [Op.strlib.toByte, 0, 0x1a] 3#16 (valState 5#16 0x3939#16 0x3939#16 0x39#16) =
      .ok (0xab, s')) ∧
    (text (valState 3#16 0x3231#16 0x3f#16 0#16).mem 70 3).getLast? = some 63#8 ∧ ¬HexDigit 63#8 ∧
    ∃ s', execute (machine barePlatform) [Op.strlib.toByte, 0, 0x1a] 3#16 (valState 3#16 0x3231#16 0x3f#16 0#16) =
      .ok (eNOERROR, s') ∧ s'.mem 30 ≠ 0#16 :=
  ⟨⟨⟨by decide, by decide⟩, by unfold Temp; decide, by decide, by decide, by decide, by unfold Apart; decide, by decide, by decide, by decide⟩,
   DecimalText.minus (blanks := [32#8]) (d := [49#8, 50#8]) (n := 12) (by simp [BlankChar]) ⟨by decide, by decide, by decide, rfl⟩,
   ⟨⟨by decide, rfl⟩, by decide, fun _ => ⟨0, 0x1a, rfl, rfl, rfl⟩⟩, ⟨_, rfl, by decide, by decide⟩,
   DecimalText.plain (blanks := []) (d := [57#8, 57#8, 57#8, 57#8, 57#8]) (n := 99999) (by simp) ⟨by decide, by decide, by decide, rfl⟩,
   ⟨_, rfl⟩, by decide, by unfold HexDigit; decide, _, rfl, by decide⟩

/-- **C69** fails: STR does not replace the contents of the variable.  STR(7, v) with v = 'AB' leaves 'AB7'. -/
theorem C69_violation_str_append :
    strVal (strState 0#8 7#16 0#16).mem 60 = [65#8, 66#8] ∧
    ∃ s', execute (machine barePlatform) [Op.strlib.toByte, 0, 0x15] 3#16 (strState 0#8 7#16 0#16) = .ok (eNOERROR, s') ∧
      strVal s'.mem 60 = [65#8, 66#8, 55#8] :=
  ⟨by decide, _, rfl, by decide⟩

/-- **C69** fails for negative integers: STR(-1, v) appends "65535". -/
theorem C69_violation_str_negative :
    (opnd (strState 0#8 0xffff#16 0#16) 2).toInt = -1 ∧
    ∃ s', execute (machine barePlatform) [Op.strlib.toByte, 0, 0x15] 3#16 (strState 0#8 0xffff#16 0#16) = .ok (eNOERROR, s') ∧
      strVal s'.mem 60 = [65#8, 66#8, 54#8, 53#8, 53#8, 51#8, 53#8] :=
  ⟨by decide, _, rfl, by decide⟩

/-- **C69** fails for long values from 65536 on: STR of the long integer 65537 appends "1". -/
theorem C69_violation_str_upper :
    (opnd (strState 0#8 1#16 1#16) 2).toInt * 65536 + (opnd (strState 0#8 1#16 1#16) 3).toNat = 65537 ∧
    ∃ s', execute (machine barePlatform) [Op.strlib.toByte, 0, 0x17] 3#16 (strState 0#8 1#16 1#16) = .ok (eNOERROR, s') ∧
      strVal s'.mem 60 = [65#8, 66#8, 49#8] :=
  ⟨by decide, _, rfl, by decide⟩

/-- **C69** fails when the text does not fit: after STR(7 : 20, v) the variable claims 22 characters, but its buffer has
12 bytes. -/
theorem C69_violation_str_long :
    ∃ s', execute (machine barePlatform) [Op.strlib.toByte, 0, 0x15] 3#16 (strState 20#8 7#16 0#16) = .ok (eNOERROR, s') ∧
      strLen s'.mem 60 = 22 ∧ strCap s'.mem 60 = 12 :=
  ⟨_, rfl, by decide, by decide⟩

/-- **C69** fails for superfluous zeros: VAL('010', v, c) stores 8 and the code 0. -/
theorem C69_violation_val_octal :
    text (valState 3#16 0x3130#16 0x30#16 0#16).mem 70 3 = [48#8, 49#8, 48#8] ∧
    ∃ s', execute (machine barePlatform) [Op.strlib.toByte, 0, 0x1a] 3#16 (valState 3#16 0x3130#16 0x30#16 0#16) =
      .ok (eNOERROR, s') ∧ s'.mem 31 = 8#16 ∧ s'.mem 30 = 0#16 :=
  ⟨by decide, _, rfl, by decide, by decide⟩

/-- **C69** fails for the position of the error: VAL('12?', v, c) stores 63, the character itself, not its position 3. -/
theorem C69_violation_val_code :
    text (valState 3#16 0x3231#16 0x3f#16 0#16).mem 70 3 = [49#8, 50#8, 63#8] ∧
    ∃ s', execute (machine barePlatform) [Op.strlib.toByte, 0, 0x1a] 3#16 (valState 3#16 0x3231#16 0x3f#16 0#16) =
      .ok (eNOERROR, s') ∧ s'.mem 30 = 63#16 :=
  ⟨by decide, _, rfl, by decide⟩

/-- **C69** fails for the empty text: VAL('', v, c) stores 0 and the code 0, as if '' were a number. -/
theorem C69_violation_val_empty :
    text (valState 0#16 0#16 0#16 0#16).mem 70 0 = [] ∧
    ∃ s', execute (machine barePlatform) [Op.strlib.toByte, 0, 0x1a] 3#16 (valState 0#16 0#16 0#16 0#16) =
      .ok (eNOERROR, s') ∧ s'.mem 31 = 0#16 ∧ s'.mem 30 = 0#16 :=
  ⟨by decide, _, rfl, by decide, by decide⟩

end Pas
