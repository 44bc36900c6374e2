import Verif.Lemmas.LinkSym
import Verif.Lemmas.Encoding
import Verif.Spec.LinkAll
/-! Applying relocations. -/
namespace Pas.Link
open Pas.Spec Pas.Poff

theorem hi_ofNat (v : Nat) (h : v ≤ 0xffff) : hiByte (BitVec.ofNat 16 v) = BitVec.ofNat 8 (v / 256) := by
  apply BitVec.eq_of_toNat_eq
  simp only [hiByte, BitVec.toNat_setWidth, BitVec.toNat_ushiftRight, BitVec.toNat_ofNat,
    Nat.shiftRight_eq_div_pow]
  omega

theorem lo_ofNat (v : Nat) : loByte (BitVec.ofNat 16 v) = BitVec.ofNat 8 v := by
  apply BitVec.eq_of_toNat_eq
  have : (0xff#16).toNat = 2 ^ 8 - 1 := rfl
  simp only [loByte, BitVec.toNat_setWidth, BitVec.toNat_and, this, Nat.and_two_pow_sub_one_eq_mod,
    BitVec.toNat_ofNat]
  omega

/-- The instruction with a new 16-bit operand. -/
abbrev withOperand (i : OpType) (v : Nat) : OpType := ⟨i.op, i.arg1, BitVec.ofNat 16 v⟩

theorem fixupCall_op {i : OpType} (hi : i.op = Op.pcal.toByte) (rest : List Byte) (v : Nat) :
    fixupCall (opBytes i ++ rest) v =
      .ok (if v ≤ 0xffff then some (opBytes (withOperand i v) ++ rest) else none) := by
  obtain ⟨op, a1, a2⟩ := i
  simp only at hi
  subst hi
  have e : opBytes ⟨Op.pcal.toByte, a1, a2⟩ = [Op.pcal.toByte, a1, hiByte a2, loByte a2] := by
    simp [opBytes, show hasArg8 Op.pcal.toByte = true by decide, show hasArg16 Op.pcal.toByte = true by decide]
  have e' : opBytes (withOperand ⟨Op.pcal.toByte, a1, a2⟩ v) =
    [Op.pcal.toByte, a1, hiByte (BitVec.ofNat 16 v), loByte (BitVec.ofNat 16 v)] := by
    simp [opBytes, show hasArg8 Op.pcal.toByte = true by decide, show hasArg16 Op.pcal.toByte = true by decide]
  rw [e, e']
  by_cases h : v ≤ 0xffff
  · simp only [fixupCall, List.cons_append, List.nil_append]
    rw [if_neg (by simp), if_neg (by omega), if_pos h, hi_ofNat v h, lo_ofNat]
  · simp only [fixupCall, List.cons_append, List.nil_append]
    rw [if_neg (by simp), if_pos (by omega), if_neg h]

theorem fixupFrame_op {i : OpType} (hi : hasArg16 i.op = true) (rest : List Byte) (v : Nat) :
    fixupFrame (opBytes i ++ rest) v =
      .ok (if v ≤ 0xffff then some (opBytes (withOperand i v) ++ rest) else none) := by
  obtain ⟨op, a1, a2⟩ := i
  simp only at hi
  by_cases h : v ≤ 0xffff
  · rw [if_pos h]
    cases h8 : hasArg8 op
    · have e : opBytes ⟨op, a1, a2⟩ = [op, hiByte a2, loByte a2] := by simp [opBytes, h8, hi]
      have e' : opBytes (withOperand ⟨op, a1, a2⟩ v) =
        [op, hiByte (BitVec.ofNat 16 v), loByte (BitVec.ofNat 16 v)] := by simp [opBytes, h8, hi]
      rw [e, e', hi_ofNat v h, lo_ofNat]
      simp only [fixupFrame, List.cons_append, List.nil_append, hi, h8]
      rw [if_neg (by simp), if_neg (by omega)]
      simp
    · have e : opBytes ⟨op, a1, a2⟩ = [op, a1, hiByte a2, loByte a2] := by simp [opBytes, h8, hi]
      have e' : opBytes (withOperand ⟨op, a1, a2⟩ v) =
        [op, a1, hiByte (BitVec.ofNat 16 v), loByte (BitVec.ofNat 16 v)] := by simp [opBytes, h8, hi]
      rw [e, e', hi_ofNat v h, lo_ofNat]
      simp only [fixupFrame, List.cons_append, List.nil_append, hi, h8]
      rw [if_neg (by simp), if_neg (by omega)]
      simp
  · rw [if_neg h]
    simp only [opBytes, fixupFrame, List.cons_append]
    rw [if_neg (by simp [hi]), if_pos (by omega)]

/-! ### Addresses of instructions -/

theorem byteSize_pos (i : OpType) : 0 < byteSize i := by rw [byteSize]; omega

theorem startOf_lt {l : List OpType} {m n : Nat} (hmn : m < n) (hn : n ≤ l.length) :
    startOf l m < startOf l n := by
  induction n with
  | zero => omega
  | succ n ih =>
    rw [startOf_succ (by omega)]
    have := byteSize_pos (l[n]'(by omega))
    rcases Nat.lt_or_ge m n with h | h
    · have := ih h (by omega)
      omega
    · have : m = n := by omega
      subst this
      omega

theorem startOf_inj {l : List OpType} {m n : Nat} (hm : m < l.length) (hn : n < l.length)
    (h : startOf l m = startOf l n) : m = n := by
  rcases Nat.lt_trichotomy m n with h' | h' | h'
  · have := startOf_lt h' (Nat.le_of_lt hn); omega
  · exact h'
  · have := startOf_lt h' (Nat.le_of_lt hm); omega

theorem setOperand_eq {l : List OpType} {n : Nat} (hn : n < l.length) (v : Nat) :
    setOperand l (startOf l n, v) = l.set n (withOperand l[n] v) := by
  apply List.ext_getElem
  · simp [setOperand]
  · intro m h1 h2
    simp only [setOperand, List.getElem_mapIdx, List.getElem_set]
    have hm : m < l.length := by simpa using h2
    by_cases h : n = m
    · subst h
      simp
    · have : startOf l m ≠ startOf l n := fun h' => h (startOf_inj hm hn h').symm
      simp [h, this]

theorem setOperand_length (l : List OpType) (r : Nat × Nat) : (setOperand l r).length = l.length := by
  simp [setOperand]

theorem setOperand_op (l : List OpType) (r : Nat × Nat) (n : Nat) (h : n < (setOperand l r).length) :
    (setOperand l r)[n].op = (l[n]'(by rwa [setOperand_length] at h)).op := by
  simp only [setOperand, List.getElem_mapIdx]
  split <;> rfl

theorem byteSize_op {i j : OpType} (h : i.op = j.op) : byteSize i = byteSize j := by
  rw [byteSize, byteSize, h]

theorem setOperand_sizes (l : List OpType) (r : Nat × Nat) :
    (setOperand l r).map byteSize = l.map byteSize := by
  apply List.ext_getElem
  · simp [setOperand]
  · intro n h1 h2
    rw [List.getElem_map, List.getElem_map]
    exact byteSize_op (setOperand_op l r n _)

theorem setOperand_startOf (l : List OpType) (r : Nat × Nat) (n : Nat) :
    startOf (setOperand l r) n = startOf l n := by
  rw [startOf, startOf, List.map_take, List.map_take, setOperand_sizes]

theorem encode_set {l : List OpType} {n : Nat} (hn : n < l.length) (i : OpType) :
    encode (l.set n i) = encode (l.take n) ++ (opBytes i ++ encode (l.drop (n + 1))) := by
  rw [List.set_eq_take_append_cons_drop, if_pos hn, encode_append, encode_cons]

theorem encode_split {l : List OpType} {n : Nat} (hn : n < l.length) :
    encode l = encode (l.take n) ++ (opBytes l[n] ++ encode (l.drop (n + 1))) := by
  rw [← encode_cons, ← encode_append, ← split_at hn]

theorem encode_take_length (l : List OpType) (n : Nat) : (encode (l.take n)).length = startOf l n :=
  encode_length _

/-! ### Relocations at instructions -/

theorem rel_type (r : Rel) : r.type.toNat = r.info.toNat % 256 := by
  have : (0xff#32).toNat = 2 ^ 8 - 1 := rfl
  rw [Rel.type, BitVec.toNat_and, this, Nat.and_two_pow_sub_one_eq_mod]

theorem rel_sym (r : Rel) : r.sym.toNat = r.info.toNat / 256 := by
  rw [Rel.sym, BitVec.toNat_ushiftRight, Nat.shiftRight_eq_div_pow]

/-- A relocation fits a program. -/
structure Fits (t : SymTab) (l : List OpType) (r : Rel) (v : Nat) : Prop where
  look : ∃ d, symbolByIndex t r.sym.toNat = .ok (some d) ∧ IsDef d ∧ d.value.toNat = v
  kind : r.type = 1 ∨ r.type = 2
  target : ∃ n, ∃ h : n + 1 < l.length, r.offset.toNat = startOf l n ∧
    hasArg16 l[n].op = true ∧ (r.type = 1 → l[n].op = Op.pcal.toByte)

theorem Fits.set {t : SymTab} {l : List OpType} {r : Rel} {v : Nat} (h : Fits t l r v)
    (x : Nat × Nat) : Fits t (setOperand l x) r v := by
  obtain ⟨n, hn, h1, h2, h3⟩ := h.target
  refine ⟨h.look, h.kind, n, by rw [setOperand_length]; exact hn, ?_, ?_, ?_⟩
  · rw [setOperand_startOf]; exact h1
  · rw [setOperand_op]; exact h2
  · rw [setOperand_op]; exact h3

theorem byteSize_three {i : OpType} (h : hasArg16 i.op = true) : 3 ≤ byteSize i := by
  rw [← addSize_eq, addSize, h]
  simp

theorem applyOne_fits {t : SymTab} {l : List OpType} {r : Rel} {v : Nat} (h : Fits t l r v)
    (hlen : (encode l).length < 2 ^ 32) :
    applyOne t (encode l) r =
      .ok (if v ≤ 0xffff then some (encode (setOperand l (r.offset.toNat, v))) else none) := by
  obtain ⟨d, hd, hdef, hv⟩ := h.look
  obtain ⟨n, hn, h1, h2, h3⟩ := h.target
  have hn' : n < l.length := by omega
  have hsz := byteSize_three h2
  have hle : startOf l n + byteSize l[n] + 1 ≤ (encode l).length := by
    have a := startOf_succ hn'
    have b := startOf_succ hn
    have c := byteSize_pos l[n + 1]
    have := startOf_le l (n + 1 + 1)
    rw [encode_length]
    omega
  have hchk : ¬ (d.undef = true ∨ r.offset > BitVec.ofNat 32 (encode l).length - 4#32) := by
    rw [(undef_false d).2 hdef]
    simp only [Bool.false_eq_true, false_or, gt_iff_lt, BitVec.lt_def, BitVec.toNat_sub,
      BitVec.toNat_ofNat]
    omega
  have hdrop : (encode l).drop r.offset.toNat = opBytes l[n] ++ encode (l.drop (n + 1)) := by
    rw [h1, ← encode_take_length]
    conv => lhs; rw [encode_split hn']
    rw [List.drop_left]
  have htake : (encode l).take r.offset.toNat = encode (l.take n) := by
    rw [h1, ← encode_take_length]
    conv => lhs; rw [encode_split hn']
    rw [List.take_left]
  have hset : encode (setOperand l (r.offset.toNat, v)) =
      encode (l.take n) ++ (opBytes (withOperand l[n] v) ++ encode (l.drop (n + 1))) := by
    rw [h1, setOperand_eq hn', encode_set hn']
  rw [applyOne, hd]
  simp only [Res.ok_bind]
  rw [if_neg hchk, hdrop, htake, hset, hv]
  by_cases hk : r.type = 1
  · rw [if_pos hk, fixupCall_op (h3 hk)]
    by_cases hvv : v ≤ 0xffff <;> simp [hvv]
  · rw [if_neg hk, if_pos (h.kind.resolve_left hk), fixupFrame_op h2]
    by_cases hvv : v ≤ 0xffff <;> simp [hvv]

theorem encode_setOperand_length (l : List OpType) (r : Nat × Nat) :
    (encode (setOperand l r)).length = (encode l).length := by
  rw [encode_length, encode_length, setOperand_sizes]

/-- Applying relocations that fit. -/
theorem applyAll_fits {t : SymTab} (val : Rel → Nat) :
    ∀ (rs : List Rel) (l : List OpType), (∀ r ∈ rs, Fits t l r (val r)) →
      (encode l).length < 2 ^ 32 →
      applyAll t (encode l) rs = .ok (if ∀ r ∈ rs, val r ≤ 0xffff then
        some (encode (setOperands l (rs.map fun r => (r.offset.toNat, val r)))) else none) := by
  intro rs
  induction rs with
  | nil => intro l _ _; simp [applyAll, setOperands]
  | cons r rs ih =>
    intro l hf hl
    rw [applyAll, applyOne_fits (hf r (by simp)) hl]
    simp only [Res.ok_bind]
    by_cases hv : val r ≤ 0xffff
    · rw [if_pos hv]
      simp only
      rw [ih _ (fun x hx => (hf x (by simp [hx])).set _) (by rw [encode_setOperand_length]; exact hl)]
      simp [hv, setOperands]
    · rw [if_neg hv]
      simp only
      rw [if_neg (fun h => hv (h r (by simp)))]

end Pas.Link
