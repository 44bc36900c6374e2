import Verif.Spec.Encoding
import Verif.Lemmas.Shift
import Verif.Props.Memory

/-! Helper lemmas about instruction streams. -/
namespace Pas
open Spec

theorem hi_lo (w : Word) : hiByte w ++ loByte w = w := by
  apply BitVec.eq_of_getLsbD_eq
  intro i hi
  rw [BitVec.getLsbD_append]
  simp only [hiByte, loByte, BitVec.getLsbD_setWidth, BitVec.getLsbD_ushiftRight,
    BitVec.getLsbD_and]
  have h255 : ∀ j < 16, (0xff#16).getLsbD j = decide (j < 8) := by decide
  by_cases h : i < 8
  · simp [h, h255 i hi]
  · have : i - 8 < 8 := by omega
    have e : 8 + (i - 8) = i := by omega
    simp [h, this, e]

theorem hi_lo_nat (w : Word) : w.toNat = (hiByte w).toNat * 256 + (loByte w).toNat := by
  have h1 : (hiByte w).toNat = w.toNat / 256 := by
    simp only [hiByte, BitVec.toNat_setWidth, BitVec.toNat_ushiftRight, Nat.shiftRight_eq_div_pow]
    have := w.isLt
    omega
  have h2 : (loByte w).toNat = w.toNat % 256 := by
    simp only [loByte, BitVec.toNat_setWidth, BitVec.toNat_and]
    show (w.toNat &&& 2 ^ 8 - 1) % 2 ^ 8 = _
    rw [Nat.and_two_pow_sub_one_eq_mod]
    omega
  omega

theorem addSize_eq (i : OpType) : addSize i = byteSize i := by
  have h : ∀ b : Byte, (1 + (if hasArg8 b then 1 else 0) + (if hasArg16 b then 2 else 0) : Nat) =
      1 + byteSize.operandBytes16 b := by decide +kernel
  exact h i.op

theorem opBytes_length (i : OpType) : (opBytes i).length = byteSize i := by
  rw [← addSize_eq, opBytes, addSize]
  split <;> split <;> rfl

theorem emitAll_eq (l : List OpType) (out : List Byte) :
    emitAll l out = (out ++ l.flatMap opBytes, (l.map byteSize).sum) := by
  induction l generalizing out with
  | nil => simp [emitAll]
  | cons i l ih =>
    simp [emitAll, ih, addOpCode, addSize_eq]

theorem encode_eq (l : List OpType) : encode l = l.flatMap opBytes := by
  rw [encode, emitAll_eq]; simp

theorem encode_length (l : List OpType) : (encode l).length = (l.map byteSize).sum := by
  rw [encode_eq]
  induction l with
  | nil => rfl
  | cons i l ih => simp [opBytes_length, ih]

theorem encode_append (a b : List OpType) : encode (a ++ b) = encode a ++ encode b := by
  simp [encode_eq]

theorem encode_cons (i : OpType) (l : List OpType) : encode (i :: l) = opBytes i ++ encode l := by
  simp [encode_eq]

theorem getOpCode_bytes {i : OpType} (h : WellFormed i) (rest : List Byte) :
    getOpCode ⟨opBytes i ++ rest, false⟩ = (i, byteSize i, ⟨rest, i.op == Op.end_.toByte⟩) := by
  obtain ⟨op, a1, a2⟩ := i
  have hs := addSize_eq ⟨op, a1, a2⟩
  rw [← hs]
  have h8 := h.no8
  have h16 := h.no16
  simp only at h8 h16
  cases e8 : hasArg8 op <;> cases e16 : hasArg16 op <;>
    simp_all [getOpCode, opBytes, addSize, getByte, eofByte, hi_lo]

theorem split_at {l : List OpType} {n : Nat} (h : n < l.length) :
    l = l.take n ++ l[n] :: l.drop (n + 1) := by
  rw [List.getElem_cons_drop h, List.take_append_drop]

/-- The bytes at the address of instruction `n`. -/
theorem encode_at {l : List OpType} {n : Nat} (h : n < l.length) (pre post : List Byte) (j : Nat)
    (hj : j < byteSize l[n]) :
    (pre ++ encode l ++ post)[pre.length + startOf l n + j]? = (opBytes l[n])[j]? := by
  have hl : (encode (l.take n)).length = startOf l n := encode_length _
  rw [show encode l = encode (l.take n) ++ (opBytes l[n] ++ encode (l.drop (n + 1))) by
    rw [← encode_cons, ← encode_append, ← split_at h]]
  rw [List.append_assoc, List.getElem?_append_right (by omega), List.append_assoc,
    List.getElem?_append_right (by omega), List.append_assoc,
    List.getElem?_append_left (by rw [opBytes_length]; omega)]
  congr 1
  omega

theorem startOf_succ {l : List OpType} {n : Nat} (h : n < l.length) :
    startOf l (n + 1) = startOf l n + byteSize l[n] := by
  rw [startOf, startOf, List.take_add_one, List.getElem?_eq_getElem h, List.map_append,
    List.sum_append]
  rfl

theorem startOf_le (l : List OpType) (n : Nat) : startOf l n ≤ (l.map byteSize).sum := by
  rw [startOf]
  conv => rhs; rw [← List.take_append_drop n l]
  rw [List.map_append, List.sum_append]
  omega

/-- The machine positioned at instruction `n` sees that instruction. -/
theorem insn_at {l : List OpType} {n : Nat} (h : n < l.length) (pre post : List Byte)
    (maxpc : Word) (s : VM) (hs : s.pc.toNat = pre.length + startOf l n)
    (hm : s.pc.toNat < maxpc.toNat) {o : Op} (ho : o.toByte = l[n].op) :
    Insn (pre ++ encode l ++ post) maxpc s o l[n].arg1 l[n].arg2 := by
  have hsz := addSize_eq l[n]
  have key := fun j hj => encode_at h pre post j hj
  rw [← hs] at key
  rw [← hsz, addSize, ← ho] at key
  have k0 := key 0 (by omega)
  rw [opBytes, ← ho] at key
  refine ⟨⟨hm, ?_⟩, fun h8 => ?_, fun h16 => ?_⟩
  · rw [Nat.add_zero] at k0; rw [k0, ho]; rfl
  · have := key 1 (by rw [h8]; simp; omega)
    rw [this, h8]; rfl
  · cases h8 : hasArg8 o.toByte
    · have k1 := key 1 (by rw [h8, h16]; simp)
      have k2 := key 2 (by rw [h8, h16]; simp)
      rw [h8, h16] at k1 k2
      exact ⟨hiByte l[n].arg2, loByte l[n].arg2, k1, k2, hi_lo_nat _⟩
    · have k1 := key 2 (by rw [h8, h16]; simp)
      have k2 := key 3 (by rw [h8, h16]; simp)
      rw [h8, h16] at k1 k2
      exact ⟨hiByte l[n].arg2, loByte l[n].arg2, k1, k2, hi_lo_nat _⟩

/-- Instructions whose effect does not mention their own address. -/
def Movable (o : Op) : Prop := o ≠ .pcal ∧ o ≠ .ret ∧ o ≠ .longop24

theorem movedArg_eq (k ro : Nat) (i : OpType) {o : Op} (hp : o ≠ .pcal) :
    (moved o i k ro).arg2 = movedArg (BitVec.ofNat 16 k) (BitVec.ofNat 16 ro) i.arg2 o ∧
    (moved o i k ro).arg1 = i.arg1 ∧ (moved o i k ro).op = i.op := by
  cases o
  case pcal => exact absurd rfl hp
  all_goals exact ⟨rfl, rfl, rfl⟩

theorem isJump_iff (o : Op) (hp : o ≠ .pcal) (h : isJump o = true) : operandKind o = .program := by
  cases o
  case pcal => exact absurd rfl hp
  all_goals first | rfl | cases h

theorem movedArg_32 (o : Op) (h8 : hasArg8 o.toByte = true) (h16 : hasArg16 o.toByte = true)
    (k ro w : Word) : movedArg k ro w o = w := by
  cases o <;> first | rfl | (exact absurd h8 (by decide)) | (exact absurd h16 (by decide))

/-- One instruction and its moved copy do the same thing. -/
theorem step_shift {lib : Lib} (hl : lib.NoPc) {code code' : List Byte} {maxpc maxpc' : Word}
    {s : VM} {o : Op} {a : Byte} {w k ro : Word} (hm : Movable o)
    (h : Insn code maxpc s o a w)
    (h' : Insn code' maxpc' (shift k ro s) o a (movedArg k ro w o)) :
    ∃ n : Nat, (∀ i : OpType, i.op = o.toByte → byteSize i = n) ∧
    Out k ro (s.pc + BitVec.ofNat 16 n) (if isJump o then w else s.pc + BitVec.ofNat 16 n)
      (execute lib code maxpc s) (execute lib code' maxpc' (shift k ro s)) := by
  obtain ⟨m1, m2, m3⟩ := hm
  have hsz : ∀ i : OpType, i.op = o.toByte → byteSize i =
      1 + (if hasArg8 o.toByte then 1 else 0) + (if hasArg16 o.toByte then 2 else 0) := by
    intro i hi; rw [← addSize_eq, addSize, hi]
  refine ⟨_, hsz, ?_⟩
  cases h8 : hasArg8 o.toByte <;> cases h16 : hasArg16 o.toByte
  · rw [insn_8 h h8 h16, insn_8 h' h8 h16]
    exact pexec8_shift k ro _ s (some o) (by simpa using m2)
  · rw [insn_24 h h8 h16, insn_24 h' h8 h16]
    exact pexec24_shift hl k ro s o w
  · rw [insn_16 h h8 h16, insn_16 h' h8 h16]
    exact pexec16_shift hl k ro _ s (some o) a
  · rw [insn_32 h h8 h16, insn_32 h' h8 h16, movedArg_32 o h8 h16]
    exact pexec32_shift k ro _ s o a w m1 m3

theorem movedI_of {i : OpType} {o : Op} (ho : o.toByte = i.op) (k ro : Nat) :
    movedI i k ro = moved o i k ro := by
  rw [movedI, ← ho, Op.ofByte_toByte]

theorem byteSize_moved {i : OpType} {o : Op} (ho : o.toByte = i.op) (k ro : Nat) :
    byteSize (movedI i k ro) = byteSize i := by
  rw [movedI_of ho, moved]
  cases operandKind o <;> rfl

theorem byteSize_movedI (i : OpType) (k ro : Nat) : byteSize (movedI i k ro) = byteSize i := by
  rw [movedI]
  split
  · rename_i o _; rw [moved]; cases operandKind o <;> rfl
  · rfl

theorem startOf_moved (l : List OpType) (k ro n : Nat) :
    startOf (l.map fun i => movedI i k ro) n = startOf l n := by
  rw [startOf, startOf, ← List.map_take, List.map_map]
  congr 1
  apply List.map_congr_left
  intro i _
  exact byteSize_movedI i k ro

theorem relocate_moved {i : OpType} {o : Op} (ho : o.toByte = i.op) (k ro : Nat)
    (hu : ¬ UnsignedJump o) :
    relocate i k ro = (movedI i k ro, if o = .end_ then 1 else 0) := by
  obtain ⟨op, a1, a2⟩ := i
  simp only at ho
  subst ho
  rw [movedI_of rfl, relocate, Op.ofByte_toByte]
  cases o <;> first | rfl | (exact absurd (by simp [UnsignedJump]) hu)

theorem mergeLoop_eq (l : List OpType) (k ro : Nat) (hw : ∀ i ∈ l, WellFormed i)
    (hu : ∀ i ∈ l, ∀ o : Op, o.toByte = i.op → ¬ UnsignedJump o)
    (he : EndsOnce l) (hend : (l.getLast?.map (·.op)) = some Op.end_.toByte) (tail : List Byte) :
    ∀ (fuel : Nat) (out : List Byte) (pc : Nat), l.length ≤ fuel →
      mergeLoop k ro fuel (openReader (encode l ++ tail)) out pc =
        .ok (out ++ encode (l.map fun i => movedI i k ro), pc + (encode l).length) := by
  induction l with
  | nil => simp at hend
  | cons i l ih =>
    intro fuel out pc hf
    obtain ⟨fuel, rfl⟩ : ∃ f, fuel = f + 1 := ⟨fuel - 1, by simp at hf; omega⟩
    have hi := hw i (by simp)
    obtain ⟨o, ho⟩ := hi.known
    rw [mergeLoop, openReader, encode_cons, List.append_assoc, getOpCode_bytes hi]
    simp only
    rw [relocate_moved ho k ro (hu i (by simp) o ho)]
    simp only [addOpCode, List.map_cons, encode_cons]
    cases l with
    | nil =>
      simp at hend
      have : o = .end_ := Op.toByte_inj (ho.trans hend)
      simp [this, encode_eq, opBytes_length]
    | cons j l =>
      have hne : i.op ≠ Op.end_.toByte := he i (by simp)
      have hoe : o ≠ .end_ := by rintro rfl; exact hne ho.symm
      have hb : (i.op == Op.end_.toByte) = false := by simpa using hne
      rw [if_neg hoe, hb]
      simp only [if_true]
      have := ih (fun x hx => hw x (by simp [hx])) (fun x hx => hu x (by simp [hx]))
        (fun x hx => he x (by rw [List.dropLast_cons_cons]; exact List.mem_cons_of_mem _ hx)) (by simpa using hend) fuel
        (out ++ opBytes (movedI i k ro)) (pc + byteSize i) (by simp at hf ⊢; omega)
      rw [openReader] at this
      rw [this, List.length_append, opBytes_length, List.append_assoc,
        Nat.add_assoc]

theorem length_le_encode (l : List OpType) : l.length ≤ (encode l).length := by
  rw [encode_length]
  induction l with
  | nil => simp
  | cons i l ih => simp only [List.length_cons, List.map_cons, List.sum_cons, byteSize]; omega

end Pas
