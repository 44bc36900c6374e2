import Verif.Lemmas.Files
import Verif.Lemmas.Ok

/-! Helper lemmas about reading lines and numbers. -/
namespace Pas.SysIo
open Pas.Spec

theorem takeLine_line (line more : List Byte) : ∀ k, 10#8 ∉ line → line.length < k →
    takeLine k (line ++ 10#8 :: more) = line ++ [10#8] := by
  induction line with
  | nil =>
    intro k _ h
    obtain ⟨k, rfl⟩ : ∃ j, k = j + 1 := ⟨k - 1, by simp at h; omega⟩
    simp [takeLine]
  | cons b line ih =>
    intro k hn h
    obtain ⟨k, rfl⟩ : ∃ j, k = j + 1 := ⟨k - 1, by simp at h; omega⟩
    simp only [List.cons_append, takeLine]
    rw [if_neg (fun e => hn (by rw [e]; exact List.mem_cons_self)),
      ih k (fun h => hn (List.mem_cons_of_mem _ h)) (by simp at h; omega)]

theorem takeLine_part (line more : List Byte) : ∀ k, 10#8 ∉ line → k ≤ line.length →
    takeLine k (line ++ more) = line.take k := by
  induction line with
  | nil =>
    intro k _ h
    obtain rfl : k = 0 := by simp at h; omega
    simp [takeLine]
  | cons b line ih =>
    intro k hn h
    cases k with
    | zero => simp [takeLine]
    | succ k =>
      simp only [List.cons_append, takeLine, List.take_succ_cons]
      rw [if_neg (fun e => hn (by rw [e]; exact List.mem_cons_self)),
        ih k (fun h => hn (List.mem_cons_of_mem _ h)) (by simp at h; omega)]

theorem cstr_all (l : List Byte) (h : 0#8 ∉ l) : cstr l = l := by
  unfold cstr
  induction l with
  | nil => rfl
  | cons b l ih =>
    rw [List.takeWhile_cons_of_pos, ih (fun h' => h (List.mem_cons_of_mem _ h'))]
    rw [bne_iff_ne]
    intro e
    exact h (by rw [e]; exact List.mem_cons_self)

theorem isdigit_iff (b : Byte) : isdigit b = true ↔ 48 ≤ b.toNat ∧ b.toNat ≤ 57 := by
  unfold isdigit
  rw [decide_eq_true_iff]

theorem isspace_iff (b : Byte) : isspace b = true ↔ BlankChar b := by
  unfold isspace BlankChar
  rw [decide_eq_true_iff]
  omega

theorem convDigits_ok (neg : Bool) (d tail : List Byte) : ∀ v, (∀ b ∈ d, 48 ≤ b.toNat ∧ b.toNat ≤ 57) →
    (∀ c, tail.head? = some c → ¬(48 ≤ c.toNat ∧ c.toNat ≤ 57)) → val d v ≤ 32767 →
    convDigits neg v (d ++ tail) = val d v := by
  induction d with
  | nil =>
    intro v _ ht _
    rw [List.nil_append]
    cases tail with
    | nil => rfl
    | cons c t =>
      have := ht c rfl
      rw [convDigits, if_neg (by rw [isdigit_iff]; exact this)]
      rfl
  | cons b d ih =>
    intro v hd ht hv
    have hb := hd b List.mem_cons_self
    have hv : val d (10 * v + (b.toNat - 48)) ≤ 32767 := hv
    have := val_ge d (10 * v + (b.toNat - 48))
    rw [List.cons_append, convDigits, if_pos ((isdigit_iff b).mpr hb)]
    dsimp only
    rw [if_neg (by omega), ih _ (fun x hx => hd x (List.mem_cons_of_mem _ hx)) ht hv]
    rfl

theorem dropWhile_blanks (blanks l : List Byte) (hb : ∀ b ∈ blanks, BlankChar b) (hl : ∀ c, l.head? = some c → ¬BlankChar c) :
    (blanks ++ l).dropWhile isspace = l := by
  induction blanks with
  | nil =>
    rw [List.nil_append]
    cases l with
    | nil => rfl
    | cons c t =>
      rw [List.dropWhile_cons_of_neg]
      rw [isspace_iff]
      exact hl c rfl
  | cons b r ih =>
    rw [List.cons_append, List.dropWhile_cons_of_pos ((isspace_iff b).mpr (hb b List.mem_cons_self))]
    exact ih fun x hx => hb x (List.mem_cons_of_mem _ hx)

theorem convertInteger_ok {line : List Byte} {i : Int} (h : BeginsWith line i) (h1 : -32767 ≤ i) (h2 : i ≤ 32767) :
    convertInteger line = BitVec.ofInt 16 i := by
  obtain ⟨blanks, num, tail, rfl, hb, hn, ht⟩ := h
  have sign : ∀ (c : Byte) (d : List Byte) (n : Nat), Digits d n → n ≤ 32767 → (c = 43#8 ∨ c = 45#8) →
      convertInteger (blanks ++ c :: d ++ tail) = BitVec.ofInt 16 (if c = 45#8 then -(n : Int) else n) := by
    intro c d n hd hn hc
    unfold convertInteger
    rw [List.append_assoc, dropWhile_blanks _ _ hb (by
      intro x hx
      have hx : c = x := by simpa using hx
      subst hx
      rcases hc with rfl | rfl <;> (unfold BlankChar; decide))]
    have hc' : (c :: d ++ tail).head? = some 43#8 ∨ (c :: d ++ tail).head? = some 45#8 := by
      rcases hc with rfl | rfl
      · exact .inl rfl
      · exact .inr rfl
    dsimp only
    rw [if_pos hc']
    have hv : val d 0 = n := hd.2.2
    have := convDigits_ok (decide ((c :: d ++ tail).head? = some 45#8)) d tail 0 hd.2.1 ht (by omega)
    have ht' : (c :: d ++ tail).tail = d ++ tail := rfl
    rw [ht', this, hv]
    rcases hc with rfl | rfl <;> rfl
  cases hn with
  | plain hd =>
    rename_i n
    unfold convertInteger
    obtain ⟨hd1, hd2, hd3⟩ := hd
    cases num with
    | nil => exact absurd rfl hd1
    | cons c d =>
      have hc := hd2 c List.mem_cons_self
      rw [List.append_assoc, dropWhile_blanks _ _ hb (by
        intro x hx
        have hx : c = x := by simpa using hx
        subst hx
        unfold BlankChar
        omega)]
      have h43 : ¬ (c :: d ++ tail).head? = some 43#8 := by
        intro e
        have e : c = 43#8 := by simpa using e
        subst e
        exact absurd hc (by decide)
      have h45 : ¬ (c :: d ++ tail).head? = some 45#8 := by
        intro e
        have e : c = 45#8 := by simpa using e
        subst e
        exact absurd hc (by decide)
      dsimp only
      have hor : ¬((c :: d ++ tail).head? = some 43#8 ∨ (c :: d ++ tail).head? = some 45#8) :=
        fun h => h.elim h43 h45
      rw [if_neg h45, if_neg hor]
      have hv : val (c :: d) 0 = n := hd3
      rw [convDigits_ok _ (c :: d) tail 0 hd2 ht (by omega), hv]
  | plus hd =>
    have := sign 43#8 _ _ hd (by omega) (.inl rfl)
    rw [this]
    rfl
  | minus hd =>
    have := sign 45#8 _ _ hd (by omega) (.inr rfl)
    rw [this]
    rfl

theorem checkEoln_line {line : List Byte} (h : line ≠ []) : checkEoln (line ++ [10#8]) = (line, true) := by
  unfold checkEoln
  rw [if_pos ⟨by cases line; exact absurd rfl h; simp, by simp⟩]
  simp

theorem checkEoln_no {line : List Byte} (h : 10#8 ∉ line) : checkEoln line = (line, false) := by
  unfold checkEoln
  rw [if_neg]
  rintro ⟨_, h2⟩
  exact h (List.mem_of_getLast? h2)

/-- The line up to its end is read. -/
theorem fgets_line {s : VM} {n : Word} {t : Stream} {line more : List Byte} {size : Nat}
    (hl : LineComes s t.file t.pos line more) (hs : line.length + 2 ≤ size) :
    fgets s n.toNat t size = (some (line ++ [10#8]), advance s n.toNat t (line.length + 1) false) := by
  unfold fgets
  have hr : rest s t = line ++ 10#8 :: more := hl.text
  rw [if_neg (by omega), hr, takeLine_line line more _ hl.oneLine (by omega)]
  simp

/-- A file number open for reading passes the check. -/
theorem withRead_ok {s : VM} {n : Word} {t : Stream} (h : n.toNat < 8) (hm : (s.io.table n.toNat).openMode = .read)
    (ht : (s.io.table n.toNat).stream = some t) (f : Stream → Res (Nat × VM)) : withRead s n.toNat f = f t := by
  unfold withRead
  rw [if_neg (by unfold maxFiles; omega)]
  have ht : (entry s n.toNat).stream = some t := ht
  have hm : (entry s n.toNat).openMode = .read := hm
  rw [ht]
  dsimp only
  rw [if_neg (by rw [hm]; simp)]

/-- The files after a line has been read. -/
def afterLine (s : VM) (n : Nat) (t : Stream) (k : Nat) (e : Bool) (buf : List Byte) : Io :=
  ⟨fun i => if i = n then
      { s.io.table n with stream := some ⟨t.file, t.pos + k, t.eof || false⟩, eoln := e }
      else s.io.table i, buf, s.io.files⟩

theorem eoln_advance (s : VM) (n : Nat) (t : Stream) (k : Nat) (e : Bool) (m : Nat → Word) (l : List Byte) :
    setEoln (setBuffer { advance s n t k false with mem := m } l) n e =
      { s with
        mem := m
        io := afterLine s n t k e l } := by
  simp only [setEoln, setEntry, setBuffer, advance, entry, afterLine, if_pos]
  congr 2
  funext i
  split <;> rfl

theorem readBuffer_line {s : VM} {n : Word} {t : Stream} {line more : List Byte}
    (hl : LineComes s t.file t.pos line more) (h0 : line ≠ []) (hlen : line.length ≤ 254) :
    readBuffer s n.toNat t = { s with io := afterLine s n.toNat t (line.length + 1) true line } := by
  unfold readBuffer
  rw [fgets_line hl (by unfold lineSize; omega)]
  dsimp only
  rw [cstr_all _ (by
    intro h
    rw [List.mem_append] at h
    rcases h with h | h
    · exact hl.noNul h
    · exact absurd (List.mem_singleton.mp h) (by decide)), checkEoln_line h0]
  exact eoln_advance s n.toNat t _ true s.mem line

theorem readInteger_line {s : VM} {n dest : Word} {t : Stream} {line more : List Byte} (h : n.toNat < 8)
    (hm : (s.io.table n.toNat).openMode = .read) (ht : (s.io.table n.toNat).stream = some t)
    (hl : LineComes s t.file t.pos line more) (h0 : line ≠ []) (hlen : line.length ≤ 254)
    (he : dest.toNat % 2 = 0) (hd : dest.toNat / 2 < s.words) :
    readInteger s n.toNat dest = .ok (eNOERROR, { s with
      mem := updW s.mem (dest.toNat / 2) (convertInteger line)
      io := afterLine s n.toNat t (line.length + 1) true line }) := by
  unfold readInteger
  rw [withRead_ok h hm ht, readBuffer_line hl h0 hlen]
  dsimp only
  rw [Str.wrF_eq _ _ he (by exact hd), Res.ok_bind, BitVec.ofNat_toNat, BitVec.setWidth_eq]
  rfl

theorem readChar_line {s : VM} {n dest : Word} {t : Stream} {c : Byte} {line more : List Byte} (h : n.toNat < 8)
    (hm : (s.io.table n.toNat).openMode = .read) (ht : (s.io.table n.toNat).stream = some t)
    (hl : LineComes s t.file t.pos (c :: line) more) (hlen : (c :: line).length ≤ 254)
    (hd : dest.toNat < 2 * s.words) :
    readChar s n.toNat dest = .ok (eNOERROR, { s with
      mem := updB s.mem dest.toNat c
      io := afterLine s n.toNat t ((c :: line).length + 1) true (c :: line) }) := by
  unfold readChar
  rw [withRead_ok h hm ht, readBuffer_line hl (List.cons_ne_nil _ _) hlen]
  dsimp only
  rw [Str.wrB_eq _ _ (by exact hd), Res.ok_bind]
  rfl

theorem fgets_part {s : VM} {n : Word} {t : Stream} {line more : List Byte} {size : Nat}
    (hr : rest s t = line ++ more) (hn : 10#8 ∉ line) (h1 : 2 ≤ size) (hs : size - 1 ≤ line.length) :
    fgets s n.toNat t size = (some (line.take (size - 1)), advance s n.toNat t (size - 1) false) := by
  unfold fgets
  rw [if_neg (by omega), hr, takeLine_part line more _ hn hs]
  have : (line.take (size - 1)).length = size - 1 := by simp; omega
  simp only [this]
  simp

theorem capacity_eq (w : Word) : Str.capacity w = w.toNat % 4096 := by
  unfold Str.capacity
  rw [BitVec.toNat_and]
  exact Nat.and_two_pow_sub_one_eq_mod w.toNat 12

/-- What `libexec_ReadString` does when `fgets` stores `l`, of which `l'` is kept. -/
theorem readString_of {s : VM} {n v : Word} {t : Stream} {l l' : List Byte} {k : Nat} {e : Bool} (h : n.toNat < 8)
    (hm : (s.io.table n.toNat).openMode = .read) (ht : (s.io.table n.toNat).stream = some t)
    (hv : StrVar s v.toNat)
    (hg : fgets s n.toNat t (strCap s.mem v.toNat) = (some l, advance s n.toNat t k false))
    (hl : l.length < strCap s.mem v.toNat) (h0 : 0#8 ∉ l)
    (hc : checkEoln l = (l', e)) :
    ∃ m, readString s n.toNat v = .ok (eNOERROR, { s with
        mem := m
        io := afterLine s n.toNat t k e s.io.buffer }) ∧
      strVal m v.toNat = l' ∧ OnlyString s.mem m v.toNat := by
  obtain ⟨hv1, hv2, hv3, hv4⟩ := hv
  have hcap : Str.capacity (BitVec.ofNat 16 (s.mem (v.toNat / 2 + 2)).toNat) = strCap s.mem v.toNat := by
    rw [capacity_eq, BitVec.ofNat_toNat, BitVec.setWidth_eq]; rfl
  have hbuf : (s.mem (v.toNat / 2 + 1)).toNat = strBuf s.mem v.toNat := rfl
  have hcp : strCap s.mem v.toNat < 4096 := Nat.mod_lt _ (by omega)
  have hll : (l ++ [0#8]).length = l.length + 1 := by simp
  unfold readString
  rw [withRead_ok h hm ht]
  rw [Str.rdF_eq s hv1 (by omega), Res.ok_bind, Str.rdF_eq s hv1 (by omega), Res.ok_bind, hcap, hg]
  dsimp only [storeLine]
  rw [hbuf]
  obtain ⟨m1, hm1, hm2, hm3⟩ := copyIn_spec (l ++ [0#8]) (advance s n.toNat t k false) (strBuf s.mem v.toNat)
    (by rw [hll]; show _ ≤ 2 * s.words; omega)
  have hm3 : ∀ b, (b < strBuf s.mem v.toNat ∨ strBuf s.mem v.toNat + (l ++ [0#8]).length ≤ b) →
      byte m1 b = byte s.mem b := hm3
  have hb : ∀ i (hi : i < l.length), byte m1 (strBuf s.mem v.toNat + i) = l[i] := by
    intro i hi
    rw [hm2 i (by rw [hll]; omega), List.getElem_append_left hi]
  have htxt : text m1 (strBuf s.mem v.toNat) l.length = l := by
    apply List.ext_getElem
    · rw [Str.text_length]
    · intro i h1 h2
      rw [Str.text_getElem, hb i h2]
  rw [hm1, Res.ok_bind]
  rw [Str.cString_eq { advance s n.toNat t k false with mem := m1 } l.length _ _
    (by show _ < 2 * s.words + 1; omega) (by show _ < 2 * s.words; omega)
    (fun i hi => by
      show byte m1 _ ≠ _
      rw [hb i hi]
      intro e
      exact h0 (e ▸ List.getElem_mem hi))
    (by show byte m1 _ = _
        rw [hm2 l.length (by rw [hll]; omega)]
        simp), Res.ok_bind]
  dsimp only
  rw [htxt, hc]
  dsimp only
  have hd : ∃ m2, dropNewline { advance s n.toNat t k false with mem := m1 } (strBuf s.mem v.toNat) l =
      .ok { advance s n.toNat t k false with mem := m2 } ∧ l'.length ≤ l.length ∧
      (∀ i (hi : i < l'.length), byte m2 (strBuf s.mem v.toNat + i) = l'[i]) ∧
      ∀ b, (b < strBuf s.mem v.toNat ∨ strBuf s.mem v.toNat + strCap s.mem v.toNat ≤ b) →
        byte m2 b = byte s.mem b := by
    unfold dropNewline
    rw [hc]
    unfold checkEoln at hc
    by_cases hx : l.length > 1 ∧ l.getLast? = some 10#8
    · rw [if_pos hx] at hc
      cases hc
      dsimp only
      rw [if_pos rfl, Str.wrB_eq _ _ (by show _ < 2 * s.words; omega)]
      refine ⟨_, rfl, by simp, fun i hi => ?_, fun b hb' => ?_⟩
      · have hi' : i < l.length - 1 := by simpa using hi
        rw [byte_updB, if_neg (by omega), List.getElem_dropLast]
        exact hb i (by omega)
      · rw [byte_updB, if_neg (by omega)]
        exact hm3 b (by rw [hll]; omega)
    · rw [if_neg hx] at hc
      cases hc
      dsimp only
      rw [if_neg (by decide)]
      exact ⟨m1, rfl, Nat.le_refl _, hb, fun b hb' => hm3 b (by rw [hll]; omega)⟩
  obtain ⟨m2, hd1, hlen, hd2, hd3⟩ := hd
  rw [hd1, Res.ok_bind]
  have hstate : setEoln { advance s n.toNat t k false with mem := m2 } n.toNat e =
      { s with
        mem := m2
        io := afterLine s n.toNat t k e s.io.buffer } := eoln_advance s n.toNat t k e m2 s.io.buffer
  rw [hstate, Str.wrF_eq _ _ hv1 (by show _ < s.words; omega), Res.ok_bind]
  refine ⟨_, rfl, ?_, ?_⟩
  · have e0 : (updW m2 (v.toNat / 2 + 0) (BitVec.ofNat 16 l'.length)) (v.toNat / 2) = BitVec.ofNat 16 l'.length := by
      rw [Nat.add_zero, updW_same]
    have e1 : (updW m2 (v.toNat / 2 + 0) (BitVec.ofNat 16 l'.length)) (v.toNat / 2 + 1) = s.mem (v.toNat / 2 + 1) := by
      rw [updW_other _ _ (by omega)]
      exact Str.field_of_bytes hv1 fun x h1 h2 => hd3 x (by unfold Apart at hv4; omega)
    unfold strVal strLen strBuf
    rw [e0, e1, BitVec.toNat_ofNat, Nat.mod_eq_of_lt (by omega), hbuf]
    apply List.ext_getElem
    · rw [Str.text_length]
    · intro i h1 h2
      rw [Str.text_getElem, Str.byte_updW _ _ (by unfold Apart at hv4; omega), hd2 i h2]
  · intro x hx hx'
    rw [Str.byte_updW _ _ (by omega), hd3 x hx']

end Pas.SysIo
