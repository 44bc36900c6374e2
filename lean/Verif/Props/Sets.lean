import Verif.Lemmas.Sets
import Verif.Props.Memory

/-! Properties C11-C15: set operations. -/
namespace Pas
open Spec SetOps

theorem setop_exec {lib : Lib} (hlib : lib.setOps = setOps) {code : List Byte} {maxpc : Word}
    {s : VM} {sub : Byte} (hi : Insn code maxpc s .setop sub 0) :
    execute lib code maxpc s = setOps { s with pc := s.pc + 2#16 } sub := by
  rw [execute_16 (at_of_next hi.next) (by decide) (by decide) (hi.arg8 (by decide)), pexec16, hlib]

theorem top_pc (s : VM) (p : Word) : ({ s with pc := p } : VM).top = s.top := rfl

/-- What all four operators do once their word function is known. -/
theorem set_operator (s : VM) (f : Word → Word → Word) (g : Bool → Bool → Bool)
    (hfg : ∀ (a b : Word), ∀ i < 16, (f a b).getLsbD i = g (a.getLsbD i) (b.getLsbD i))
    (hr : Room s 8) :
    ∃ s', (do
        let src ← ptr { s with pc := s.pc + 2#16 } 3
        let dest ← ptr { s with pc := s.pc + 2#16 } 7
        let s ← zip4 { s with pc := s.pc + 2#16 } src dest f
        pure (eNOERROR, s.discard 4) : Res (Nat × VM)) = .ok (eNOERROR, s') ∧
      Loads s s' 8 4 2 ∧ ∀ x < 64, elem s'.mem (setAt s' 0) x =
        g (elem s.mem (setAt s 4) x) (elem s.mem (setAt s 0) x) := by
  obtain ⟨h1, h2⟩ := hr
  have ht : s.top = s.sp.toNat / 2 := rfl
  rw [ptr_eq (by rw [top_pc]; omega), ptr_eq (by rw [top_pc]; omega)]
  simp only [Res.ok_bind, top_pc]
  rw [show s.top - 3 = s.top - 7 + 4 by omega, zip4_eq _ _ _ (by show _ < s.words; omega)]
  have hsp : (s.sp - BitVec.ofNat 16 (2 * 4)).toNat = s.sp.toNat - 8 := by
    rw [show BitVec.ofNat 16 (2 * 4) = 8#16 by rfl]; bv_omega
  refine ⟨_, rfl, ⟨rfl, ?_, rfl, ?_⟩, ?_⟩
  · show (s.sp - BitVec.ofNat 16 (2 * 4)).toNat + 2 * 8 = s.sp.toNat + 2 * 4
    omega
  · intro i hi
    show zipMem s.mem (s.top - 7) f i = s.mem i
    unfold zipMem
    rw [if_neg (by omega)]
  · intro x hx
    show elem (zipMem s.mem (s.top - 7) f)
      ((s.sp - BitVec.ofNat 16 (2 * 4)).toNat / 2 - 3) x = _
    rw [hsp, show (s.sp.toNat - 8) / 2 - 3 = s.top - 7 by omega, elem_zip _ _ f g hfg hx]
    unfold setAt
    rw [show s.sp.toNat / 2 - (4 + 3) = s.top - 7 by omega,
      show s.sp.toNat / 2 - (0 + 3) = s.top - 7 + 4 by omega]

/-- **C11**: union, intersection, difference and symmetric difference of two sets of 0..63
leave exactly the mathematical result in place of the operands. -/
theorem C11_operators (lib : Lib) (hlib : lib.setOps = setOps) (code : List Byte) (maxpc : Word)
    (s : VM) (sub : Byte) (g : Bool → Bool → Bool) (hop : SetOperator sub g)
    (hi : Insn code maxpc s .setop sub 0) (hr : Room s 8) :
    ∃ s', execute lib code maxpc s = .ok (eNOERROR, s') ∧ Loads s s' 8 4 2 ∧
      ∀ x < 64, elem s'.mem (setAt s' 0) x =
        g (elem s.mem (setAt s 4) x) (elem s.mem (setAt s 0) x) := by
  rw [setop_exec hlib hi]
  cases hop
  · exact set_operator s (fun a b => a &&& b) _ (fun a b i _ => by simp) hr
  · exact set_operator s (fun a b => a ||| b) _ (fun a b i _ => by simp) hr
  · exact set_operator s (fun a b => a &&& ~~~b) (fun a b => a && !b)
      (fun a b i hi => by simp [hi]) hr
  · exact set_operator s (fun a b => a ^^^ b) _ (fun a b i _ => by simp) hr

/-- A library whose modelled parts are the modelled routines; used in examples. -/
def setLib : Lib := ⟨fun _ _ => .ub, setOps, fun _ _ => .ub, fun _ _ => .ub, fun _ _ _ => .ub,
  fun _ _ => .ub, fun _ _ => .ub⟩

/-- Non-vacuity: a union instruction with two sets on the stack. -/
example : setLib.setOps = setOps ∧ SetOperator 3#8 (fun a b => a || b) ∧
    Insn [Op.setop.toByte, 3] 2#16 (sampleVM 0#16) .setop 3#8 0 ∧ Room (sampleVM 0#16) 8 :=
  ⟨rfl, .union, ⟨⟨by decide, rfl⟩, fun _ => rfl, fun h => absurd h (by decide)⟩,
    by decide, by decide⟩

/-- **C12**: the set comparisons decide equality, inequality and inclusion of the set pushed
first in the set pushed second. -/
theorem C12_relations (lib : Lib) (hlib : lib.setOps = setOps) (code : List Byte) (maxpc : Word)
    (s : VM) (sub : Byte) (R : (Nat → Bool) → (Nat → Bool) → Prop) (hop : SetRelation sub R)
    (hi : Insn code maxpc s .setop sub 0) (hr : Room s 8) :
    ∃ s', execute lib code maxpc s = .ok (eNOERROR, s') ∧ Loads s s' 8 1 2 ∧
      IsBool (opnd s' 0) (R (elem s.mem (setAt s 4)) (elem s.mem (setAt s 0))) := by
  rw [setop_exec hlib hi]
  obtain ⟨h1, h2⟩ := hr
  have ht : s.top = s.sp.toNat / 2 := rfl
  have hsp : (s.sp - BitVec.ofNat 16 (2 * 7)).toNat = s.sp.toNat - 14 := by
    rw [show BitVec.ofNat 16 (2 * 7) = 14#16 by rfl]; bv_omega
  -- the generic comparison
  have gen : ∀ (f : Word → Word → Bool) (neg : Bool),
      ∃ s', (do
        let src1 ← ptr { s with pc := s.pc + 2#16 } 3
        let src2 ← ptr { s with pc := s.pc + 2#16 } 7
        let s ← compare { s with pc := s.pc + 2#16 } src1 src2 src2 f neg
        pure (eNOERROR, s.discard 7) : Res (Nat × VM)) = .ok (eNOERROR, s') ∧
      Loads s s' 8 1 2 ∧ opnd s' 0 = pasBool (
        let r := f (s.mem (setAt s 0)) (s.mem (setAt s 4)) &&
          f (s.mem (setAt s 0 + 1)) (s.mem (setAt s 4 + 1)) &&
          f (s.mem (setAt s 0 + 2)) (s.mem (setAt s 4 + 2)) &&
          f (s.mem (setAt s 0 + 3)) (s.mem (setAt s 4 + 3))
        if neg then !r else r) := by
    intro f neg
    rw [ptr_eq (by rw [top_pc]; omega), ptr_eq (by rw [top_pc]; omega)]
    simp only [Res.ok_bind, top_pc, SetOps.compare]
    rw [rd4_eq _ _ (by show _ < s.words; omega), rd4_eq _ _ (by show _ < s.words; omega)]
    simp only [Res.ok_bind]
    rw [VM.wr_eq _ _ (by show _ < s.words; omega)]
    refine ⟨_, rfl, ⟨rfl, ?_, rfl, ?_⟩, ?_⟩
    · show (s.sp - BitVec.ofNat 16 (2 * 7)).toNat + 2 * 8 = s.sp.toNat + 2 * 1
      omega
    · intro i hi
      exact updW_other _ _ (by omega)
    · unfold opnd
      show updW s.mem (s.top - 7) _ ((s.sp - BitVec.ofNat 16 (2 * 7)).toNat / 2 - 0) = _
      rw [hsp, show (s.sp.toNat - 14) / 2 - 0 = s.top - 7 by omega, updW_same]
      unfold setAt
      rw [show s.sp.toNat / 2 - (0 + 3) = s.top - 3 by omega,
        show s.sp.toNat / 2 - (4 + 3) = s.top - 7 by omega]
  have isb : ∀ (b : Bool) (P : Prop), (b = true ↔ P) → IsBool (pasBool b) P := by
    intro b P h
    constructor
    · intro hp; rw [h.2 hp]; decide
    · intro hp
      have : b = false := by cases b with
        | false => rfl
        | true => exact absurd (h.1 rfl) hp
      rw [this]; decide
  cases hop
  · obtain ⟨s', e1, e2, e3⟩ := gen (fun a b => a == b) false
    refine ⟨s', e1, e2, ?_⟩
    rw [e3]
    apply isb
    simp only [Bool.false_eq_true, if_false]
    rw [forall_elem s.mem s.mem _ _ _ (fun a b => a == b) word_eq_iff]
    simp only [beq_iff_eq]
    exact ⟨fun h x hx => (h x hx).symm, fun h x hx => (h x hx).symm⟩
  · obtain ⟨s', e1, e2, e3⟩ := gen (fun a b => a == b) true
    refine ⟨s', e1, e2, ?_⟩
    rw [e3]
    apply isb
    simp only [if_true, Bool.not_eq_true', ← Bool.not_eq_true]
    rw [forall_elem s.mem s.mem _ _ _ (fun a b => a == b) word_eq_iff]
    simp only [beq_iff_eq]
    constructor
    · intro h
      apply Classical.byContradiction
      intro hn
      apply h
      intro x hx
      apply Classical.byContradiction
      intro hne
      exact hn ⟨x, hx, fun e => hne e.symm⟩
    · rintro ⟨x, hx, hne⟩ h
      exact hne (h x hx).symm
  · obtain ⟨s', e1, e2, e3⟩ := gen (fun a b => a &&& b == b) false
    refine ⟨s', e1, e2, ?_⟩
    rw [e3]
    apply isb
    simp only [Bool.false_eq_true, if_false]
    rw [forall_elem s.mem s.mem _ _ _ (fun a b => !b || a) word_sub_iff]
    constructor
    · intro h x hx ha
      have := h x hx
      rw [ha] at this
      simpa using this
    · intro h x hx
      have := h x hx
      revert this
      cases elem s.mem (setAt s 4) x <;> cases elem s.mem (setAt s 0) x <;> decide

/-- Non-vacuity: the inclusion test. -/
example : SetRelation 8#8 (fun A B => ∀ x < 64, A x = true → B x = true) ∧
    Insn [Op.setop.toByte, 8] 2#16 (sampleVM 0#16) .setop 8#8 0 ∧ Room (sampleVM 0#16) 8 :=
  ⟨.subset, ⟨⟨by decide, rfl⟩, fun _ => rfl, fun h => absurd h (by decide)⟩, by decide, by decide⟩

theorem card_split (A : Nat → Bool) : Spec.card A =
    ((List.range 16).filter (fun i => A i)).length +
    ((List.range 16).filter (fun i => A (16 + i))).length +
    ((List.range 16).filter (fun i => A (32 + i))).length +
    ((List.range 16).filter (fun i => A (48 + i))).length := by
  have h : List.range 64 = List.range 16 ++ (List.range 16).map (16 + ·) ++
      (List.range 16).map (32 + ·) ++ (List.range 16).map (48 + ·) := by decide
  unfold Spec.card
  rw [h]
  simp only [List.filter_append, List.length_append, List.filter_map, List.length_map]
  rfl

/-- **C15**: CARD leaves the number of elements. -/
theorem C15_card (lib : Lib) (hlib : lib.setOps = setOps) (code : List Byte) (maxpc : Word)
    (s : VM) (hi : Insn code maxpc s .setop 12#8 0) (hr : Room s 4) :
    ∃ s', execute lib code maxpc s = .ok (eNOERROR, s') ∧ Loads s s' 4 1 2 ∧
      (opnd s' 0).toNat = Spec.card (elem s.mem (setAt s 0)) := by
  rw [setop_exec hlib hi]
  obtain ⟨h1, h2⟩ := hr
  have ht : s.top = s.sp.toNat / 2 := rfl
  have hsp : (s.sp - BitVec.ofNat 16 (2 * 3)).toNat = s.sp.toNat - 6 := by
    rw [show BitVec.ofNat 16 (2 * 3) = 6#16 by rfl]; bv_omega
  show ∃ s', (do
        let src ← ptr { s with pc := s.pc + 2#16 } 3
        let s ← SetOps.card { s with pc := s.pc + 2#16 } src src
        pure (eNOERROR, s.discard 3) : Res (Nat × VM)) = .ok (eNOERROR, s') ∧ _
  rw [ptr_eq (by rw [top_pc]; omega)]
  simp only [Res.ok_bind, top_pc, SetOps.card]
  rw [rd4_eq _ _ (by show _ < s.words; omega)]
  simp only [Res.ok_bind]
  rw [VM.wr_eq _ _ (by show _ < s.words; omega)]
  refine ⟨_, rfl, ⟨rfl, ?_, rfl, ?_⟩, ?_⟩
  · show (s.sp - BitVec.ofNat 16 (2 * 3)).toNat + 2 * 4 = s.sp.toNat + 2 * 1
    omega
  · intro i hi
    exact updW_other _ _ (by omega)
  · unfold opnd
    show (updW s.mem (s.top - 3) _ ((s.sp - BitVec.ofNat 16 (2 * 3)).toNat / 2 - 0)).toNat = _
    rw [hsp, show (s.sp.toNat - 6) / 2 - 0 = s.top - 3 by omega, updW_same]
    have hset : setAt s 0 = s.top - 3 := by unfold setAt; omega
    rw [card_split, hset]
    have hc : ∀ k < 4, ((List.range 16).filter (fun i => elem s.mem (s.top - 3) (16 * k + i))).length
        = bitsInWord (s.mem (s.top - 3 + k)) := by
      intro k hk
      rw [bits_count]
      congr 1
      apply List.filter_congr
      intro i hi
      have : i < 16 := by simpa using hi
      unfold elem
      rw [show (16 * k + i) / 16 = k by omega, show (16 * k + i) % 16 = i by omega]
    have c0 := hc 0 (by omega)
    have c1 := hc 1 (by omega)
    have c2 := hc 2 (by omega)
    have c3 := hc 3 (by omega)
    simp only [Nat.mul_zero, Nat.zero_add, Nat.add_zero, Nat.mul_one, Nat.reduceMul] at c0 c1 c2 c3
    rw [c0, c1, c2, c3]
    have bound : ∀ w, bitsInWord w ≤ 16 := by
      intro w
      rw [bits_count]
      exact Nat.le_trans (List.length_filter_le _ _) (by simp)
    rw [BitVec.toNat_ofNat]
    have := bound (s.mem (s.top - 3))
    have := bound (s.mem (s.top - 3 + 1))
    have := bound (s.mem (s.top - 3 + 2))
    have := bound (s.mem (s.top - 3 + 3))
    omega

/-- Non-vacuity. -/
example : Insn [Op.setop.toByte, 12] 2#16 (sampleVM 0#16) .setop 12#8 0 ∧ Room (sampleVM 0#16) 4 :=
  ⟨⟨⟨by decide, rfl⟩, fun _ => rfl, fun h => absurd h (by decide)⟩, by decide, by decide⟩

/-! ### C13: elements -/

theorem setOps_member (s : VM) : setOps s 9#8 = (do
    let offset ← s.tos 0
    let src ← ptr s 4
    let m ← s.tos 5
    let dest ← ptr s 5
    let (e, s) ← member s (m - offset) src dest
    pure (e, s.discard 5)) := rfl

/-- **C13** (membership): for an ordinal in range the answer is the truth value of `x in S`;
for every other ordinal except 64 (see `C13_violation_64`) the range error is reported and
memory is unchanged.  The ordinal is relative to the minimum of the base type, on top. -/
theorem C13_member_partial (lib : Lib) (hlib : lib.setOps = setOps) (code : List Byte)
    (maxpc : Word) (s : VM) (x : Int) (hx : x = wrap16 ((opnd s 5).toInt - (opnd s 0).toInt))
    (hne : x ≠ 64) (hi : Insn code maxpc s .setop 9#8 0) (hr : Room s 6) :
    ∃ e s', execute lib code maxpc s = .ok (e, s') ∧ Loads s s' 6 1 2 ∧
      (0 ≤ x ∧ x < 64 → e = eNOERROR ∧
        IsBool (opnd s' 0) (elem s.mem (setAt s 1) x.toNat = true)) ∧
      (¬(0 ≤ x ∧ x < 64) → e = eVALUERANGE ∧ s'.mem = s.mem) := by
  rw [setop_exec hlib hi, setOps_member]
  obtain ⟨h1, h2⟩ := hr
  have ht : s.top = s.sp.toNat / 2 := rfl
  have hsp : (s.sp - BitVec.ofNat 16 (2 * 5)).toNat = s.sp.toNat - 10 := by
    rw [show BitVec.ofNat 16 (2 * 5) = 10#16 by rfl]; bv_omega
  rw [ptr_eq (by rw [top_pc]; omega), ptr_eq (by rw [top_pc]; omega),
    VM.tos_eq _ (by show s.top < s.words; omega) (by show 0 ≤ s.top; omega),
    VM.tos_eq _ (by show s.top < s.words; omega) (by show 5 ≤ s.top; omega)]
  simp only [Res.ok_bind, top_pc]
  have hm : (s.mem (s.top - 5) - s.mem (s.top - 0)).toInt = x := by
    rw [hx, BitVec.toInt_sub]; rfl
  unfold member
  rw [hm]
  by_cases hin : 0 ≤ x ∧ x < 64
  · rw [if_neg (by omega)]
    obtain ⟨e1, e2, e3⟩ := small_index (by rw [hm]; exact hin.1) (by rw [hm]; omega)
    rw [e2, e3]
    rw [hm] at e1
    have hx2 : (s.mem (s.top - 5) - s.mem (s.top - 0)).toNat = x.toNat := by omega
    rw [hx2, VM.rd_eq _ (by show _ < s.words; omega)]
    simp only [Res.ok_bind]
    rw [VM.wr_eq _ _ (by show _ < s.words; omega)]
    refine ⟨_, _, rfl, ⟨rfl, ?_, rfl, ?_⟩, fun _ => ⟨rfl, ?_⟩, fun h => absurd hin h⟩
    · show (s.sp - BitVec.ofNat 16 (2 * 5)).toNat + 2 * 6 = s.sp.toNat + 2 * 1
      omega
    · intro i hi
      exact updW_other _ _ (by omega)
    · unfold opnd
      show IsBool (updW s.mem (s.top - 5) _ ((s.sp - BitVec.ofNat 16 (2 * 5)).toNat / 2 - 0)) _
      rw [hsp, show (s.sp.toNat - 10) / 2 - 0 = s.top - 5 by omega, updW_same,
        and_bit_ne _ _ (by omega)]
      unfold elem setAt
      rw [show s.sp.toNat / 2 - (1 + 3) = s.top - 4 by omega]
      cases (s.mem (s.top - 4 + x.toNat / 16)).getLsbD (x.toNat % 16)
      · exact ⟨fun h => by simp at h, fun _ => by decide⟩
      · exact ⟨fun _ => by decide, fun h => absurd rfl h⟩
  · rw [if_pos (by omega)]
    refine ⟨_, _, rfl, ⟨rfl, ?_, rfl, fun _ _ => rfl⟩, fun h => absurd h hin, fun _ => ⟨rfl, rfl⟩⟩
    show (s.sp - BitVec.ofNat 16 (2 * 5)).toNat + 2 * 6 = s.sp.toNat + 2 * 1
    omega

/-- Non-vacuity: element 21 of a base type starting at 0. -/
example : (21 : Int) = wrap16 ((opnd (sampleMem (fun i => if i = 15 then 21 else 0)) 5).toInt -
      (opnd (sampleMem (fun i => if i = 15 then 21 else 0)) 0).toInt) ∧
    Insn [Op.setop.toByte, 9] 2#16 (sampleMem (fun i => if i = 15 then 21 else 0)) .setop 9#8 0 ∧
    Room (sampleMem (fun i => if i = 15 then 21 else 0)) 6 :=
  ⟨by decide, ⟨⟨by decide, rfl⟩, fun _ => rfl, fun h => absurd h (by decide)⟩, by decide, by decide⟩

/-- **C13 fails** for the ordinal 64: `65 in S` with base minimum 1 answers TRUE for an empty
set, without an error, because the word after the set (the minimum) is inspected. -/
theorem C13_violation_64 (lib : Lib) (hlib : lib.setOps = setOps) :
    ∃ (code : List Byte) (maxpc : Word) (s s' : VM), Insn code maxpc s .setop 9#8 0 ∧ Room s 6 ∧
      (opnd s 5).toInt - (opnd s 0).toInt = 64 ∧ (∀ x < 64, elem s.mem (setAt s 1) x = false) ∧
      execute lib code maxpc s = .ok (eNOERROR, s') ∧ (opnd s' 0).toInt = -1 := by
  have hi : Insn [Op.setop.toByte, 9] 2#16
      (sampleMem (fun i => if i = 15 then 65 else if i = 20 then 1 else 0)) .setop 9#8 0 :=
    ⟨⟨by decide, rfl⟩, fun _ => rfl, fun h => absurd h (by decide)⟩
  refine ⟨[Op.setop.toByte, 9], 2#16,
    sampleMem (fun i => if i = 15 then 65 else if i = 20 then 1 else 0), _, hi,
    ⟨by decide, by decide⟩, by decide, by decide, (setop_exec hlib hi).trans rfl, by decide⟩

theorem setOps_incl (s : VM) : setOps s 10#8 = (do
    let (m, s) ← s.pop
    let dest ← ptr s 3
    incl s m dest) := rfl

theorem setOps_excl (s : VM) : setOps s 11#8 = (do
    let (m, s) ← s.pop
    let dest ← ptr s 3
    excl s m dest) := rfl

theorem elem_upd (m : Nat → Word) (p x y : Nat) (f : Word → Word) (b : Bool) (_hx : x < 64)
    (hf : ∀ i < 16, (f (m (p + x / 16))).getLsbD i =
      if i = x % 16 then b else (m (p + x / 16)).getLsbD i) :
    elem (updW m (p + x / 16) (f (m (p + x / 16)))) p y = if y = x then b else elem m p y := by
  unfold elem
  by_cases h : y / 16 = x / 16
  · rw [h, updW_same, hf _ (by omega)]
    by_cases h2 : y % 16 = x % 16
    · rw [if_pos h2, if_pos (by omega)]
    · rw [if_neg h2, if_neg (by omega)]
  · rw [updW_other _ _ (by omega), if_neg (by omega)]

theorem or_bit (w : Word) (k i : Nat) (hk : k < 16) (hi : i < 16) :
    (w ||| bit k).getLsbD i = if i = k then true else w.getLsbD i := by
  rw [BitVec.getLsbD_or, bit_getLsbD k i hk hi]
  by_cases h : i = k <;> simp [h]

theorem andn_bit (w : Word) (k i : Nat) (hk : k < 16) (hi : i < 16) :
    (w &&& ~~~(bit k)).getLsbD i = if i = k then false else w.getLsbD i := by
  rw [BitVec.getLsbD_and, BitVec.getLsbD_not, bit_getLsbD k i hk hi]
  by_cases h : i = k <;> simp [h, hi]

/-- **C13** (include/exclude): for an ordinal in range exactly that element is added (code 10)
or removed (code 11).  Missing: the code has no range check (`C13_violation_include`). -/
theorem C13_include_exclude_partial (lib : Lib) (hlib : lib.setOps = setOps) (code : List Byte)
    (maxpc : Word) (s : VM) (sub : Byte) (b : Bool)
    (hsub : (sub = 10#8 ∧ b = true) ∨ (sub = 11#8 ∧ b = false)) (x : Nat)
    (hx : (opnd s 0).toInt = x) (hin : x < 64)
    (hi : Insn code maxpc s .setop sub 0) (hr : Room s 5) :
    ∃ s', execute lib code maxpc s = .ok (eNOERROR, s') ∧ Loads s s' 5 4 2 ∧
      ∀ y < 64, elem s'.mem (setAt s' 0) y = if y = x then b else elem s.mem (setAt s 1) y := by
  rw [setop_exec hlib hi]
  obtain ⟨h1, h2⟩ := hr
  have ht : s.top = s.sp.toNat / 2 := rfl
  have hsp : (s.sp - 2#16).toNat = s.sp.toNat - 2 := by bv_omega
  have htop : ({ s with pc := s.pc + 2#16, sp := s.sp - 2#16 } : VM).top = s.top - 1 := by
    show (s.sp - 2#16).toNat / 2 = _; omega
  have hm : (s.mem s.top).toInt = x := hx
  obtain ⟨e1, e2, e3⟩ := small_index (m := s.mem s.top) (by omega) (by omega)
  have hx2 : (s.mem s.top).toNat = x := by omega
  rw [hx2] at e2 e3
  rcases hsub with ⟨rfl, rfl⟩ | ⟨rfl, rfl⟩
  · rw [setOps_incl, VM.pop_eq _ (by show s.top < s.words; omega)]
    simp only [Res.ok_bind, top_pc]
    rw [ptr_eq (by rw [htop]; omega)]
    simp only [Res.ok_bind, htop]
    rw [incl, e2, e3, VM.rd_eq _ (by show _ < s.words; omega)]
    simp only [Res.ok_bind]
    rw [VM.wr_eq _ _ (by show _ < s.words; omega)]
    refine ⟨_, rfl, ⟨rfl, ?_, rfl, ?_⟩, ?_⟩
    · show (s.sp - 2#16).toNat + 2 * 5 = s.sp.toNat + 2 * 4
      omega
    · intro i hi
      exact updW_other _ _ (by omega)
    · intro y hy
      show elem (updW s.mem _ _) ((s.sp - 2#16).toNat / 2 - 3) y = _
      rw [show (s.sp - 2#16).toNat / 2 - 3 = s.top - 1 - 3 by omega,
        show setAt s 1 = s.top - 1 - 3 by unfold setAt; omega]
      exact elem_upd s.mem _ x y (fun w => w ||| bit (x % 16)) true hin
        (fun i hi => or_bit _ _ _ (by omega) hi)
  · rw [setOps_excl, VM.pop_eq _ (by show s.top < s.words; omega)]
    simp only [Res.ok_bind, top_pc]
    rw [ptr_eq (by rw [htop]; omega)]
    simp only [Res.ok_bind, htop]
    rw [excl, e2, e3, VM.rd_eq _ (by show _ < s.words; omega)]
    simp only [Res.ok_bind]
    rw [VM.wr_eq _ _ (by show _ < s.words; omega)]
    refine ⟨_, rfl, ⟨rfl, ?_, rfl, ?_⟩, ?_⟩
    · show (s.sp - 2#16).toNat + 2 * 5 = s.sp.toNat + 2 * 4
      omega
    · intro i hi
      exact updW_other _ _ (by omega)
    · intro y hy
      show elem (updW s.mem _ _) ((s.sp - 2#16).toNat / 2 - 3) y = _
      rw [show (s.sp - 2#16).toNat / 2 - 3 = s.top - 1 - 3 by omega,
        show setAt s 1 = s.top - 1 - 3 by unfold setAt; omega]
      exact elem_upd s.mem _ x y (fun w => w &&& ~~~(bit (x % 16))) false hin
        (fun i hi => andn_bit _ _ _ (by omega) hi)

/-- Non-vacuity: exclude element 21. -/
example : (opnd (sampleMem (fun i => if i = 20 then 21 else 7)) 0).toInt = (21 : Nat) ∧
    Insn [Op.setop.toByte, 11] 2#16 (sampleMem (fun i => if i = 20 then 21 else 7)) .setop 11#8 0 ∧
    Room (sampleMem (fun i => if i = 20 then 21 else 7)) 5 :=
  ⟨by decide, ⟨⟨by decide, rfl⟩, fun _ => rfl, fun h => absurd h (by decide)⟩, by decide, by decide⟩

/-- **C13 fails** for Include/Exclude of an element out of range: no error is reported.
Whatever the state, a negative element makes the interpreter access a word far outside its
memory; and including element 80 changes a word above the stack. -/
theorem C13_violation_include (lib : Lib) (hlib : lib.setOps = setOps) :
    (∀ (code : List Byte) (maxpc : Word) (s : VM) (sub : Byte), (sub = 10#8 ∨ sub = 11#8) →
      s.words ≤ 32768 → (opnd s 0).toInt < 0 → Insn code maxpc s .setop sub 0 → Room s 5 →
      execute lib code maxpc s = .ub) ∧
    (∃ (code : List Byte) (maxpc : Word) (s s' : VM), Insn code maxpc s .setop 10#8 0 ∧ Room s 5 ∧
      (opnd s 0).toInt = 80 ∧ execute lib code maxpc s = .ok (eNOERROR, s') ∧
      s'.mem (s.sp.toNat / 2 + 1) ≠ s.mem (s.sp.toNat / 2 + 1)) := by
  constructor
  · intro code maxpc s sub hsub hw hneg hi ⟨h1, h2⟩
    rw [setop_exec hlib hi]
    have ht : s.top = s.sp.toNat / 2 := rfl
    have hsp : (s.sp - 2#16).toNat = s.sp.toNat - 2 := by bv_omega
    have htop : ({ s with pc := s.pc + 2#16, sp := s.sp - 2#16 } : VM).top = s.top - 1 := by
      show (s.sp - 2#16).toNat / 2 = _; omega
    have hm : (s.mem s.top).toInt < 0 := hneg
    have hidx : 32768 ≤ wordIndex (s.mem s.top) := by
      unfold wordIndex
      generalize s.mem s.top = m at hm
      have h0 : (m.sshiftRight 4).toInt < 0 := by
        rw [BitVec.toInt_sshiftRight, Int.shiftRight_eq_div_pow]
        omega
      rw [BitVec.toInt_eq_toNat_cond] at h0
      split at h0 <;> omega
    rcases hsub with rfl | rfl
    · rw [setOps_incl, VM.pop_eq _ (by show s.top < s.words; omega)]
      simp only [Res.ok_bind, top_pc]
      rw [ptr_eq (by rw [htop]; omega)]
      simp only [Res.ok_bind, htop]
      rw [incl, VM.rd, if_neg (by show ¬ _ < s.words; omega)]
      rfl
    · rw [setOps_excl, VM.pop_eq _ (by show s.top < s.words; omega)]
      simp only [Res.ok_bind, top_pc]
      rw [ptr_eq (by rw [htop]; omega)]
      simp only [Res.ok_bind, htop]
      rw [excl, VM.rd, if_neg (by show ¬ _ < s.words; omega)]
      rfl
  · have hi : Insn [Op.setop.toByte, 10] 2#16
        (sampleMem (fun i => if i = 20 then 80 else 0)) .setop 10#8 0 :=
      ⟨⟨by decide, rfl⟩, fun _ => rfl, fun h => absurd h (by decide)⟩
    refine ⟨[Op.setop.toByte, 10], 2#16, sampleMem (fun i => if i = 20 then 80 else 0), _, hi,
      ⟨by decide, by decide⟩, by decide, (setop_exec hlib hi).trans rfl, by decide⟩

theorem setOps_singleton (s : VM) : setOps s 13#8 = (do
    let (minValue, s) ← s.pop
    let (m, s) ← s.pop
    let s := grow s
    let dest ← ptr s 3
    singleton s minValue m dest) := rfl

/-- **C13** (singleton): the constructor `[x]` replaces the element and the base minimum by the
set `{x}`; an element out of range is reported and gives the empty set. -/
theorem C13_singleton (lib : Lib) (hlib : lib.setOps = setOps) (code : List Byte)
    (maxpc : Word) (s : VM) (x : Int) (hx : x = wrap16 ((opnd s 1).toInt - (opnd s 0).toInt))
    (hi : Insn code maxpc s .setop 13#8 0) (hr : Room s 2)
    (hroom : s.sp.toNat / 2 + 2 < s.words) (hsz : s.sp.toNat + 4 < 65536) :
    ∃ e s', execute lib code maxpc s = .ok (e, s') ∧ Loads s s' 2 4 2 ∧
      (0 ≤ x ∧ x < 64 → e = eNOERROR) ∧ (¬(0 ≤ x ∧ x < 64) → e = eVALUERANGE) ∧
      ∀ y < 64, elem s'.mem (setAt s' 0) y = decide ((y : Int) = x) := by
  rw [setop_exec hlib hi, setOps_singleton]
  obtain ⟨h1, h2⟩ := hr
  have ht : s.top = s.sp.toNat / 2 := rfl
  have hsp1 : (s.sp - 2#16).toNat = s.sp.toNat - 2 := by bv_omega
  have hsp : (s.sp - 2#16 - 2#16 + 8#16).toNat = s.sp.toNat + 4 := by bv_omega
  have htop1 : ({ s with pc := s.pc + 2#16, sp := s.sp - 2#16 } : VM).top = s.top - 1 := by
    show (s.sp - 2#16).toNat / 2 = _; omega
  rw [VM.pop_eq _ (by show s.top < s.words; omega)]
  simp only [Res.ok_bind, top_pc]
  rw [VM.pop_eq _ (by rw [htop1]; show _ < s.words; omega)]
  simp only [Res.ok_bind, htop1, grow]
  rw [ptr_eq (by show 3 ≤ (s.sp - 2#16 - 2#16 + 8#16).toNat / 2; omega)]
  simp only [Res.ok_bind]
  have hdest : ({ s with pc := s.pc + 2#16, sp := s.sp - 2#16 - 2#16 + 8#16 } : VM).top - 3 =
      s.top - 1 := by
    show (s.sp - 2#16 - 2#16 + 8#16).toNat / 2 - 3 = _; omega
  rw [hdest, SetOps.singleton, clear4_eq _ _ (by show _ < s.words; omega)]
  simp only [Res.ok_bind]
  have hm : (s.mem (s.top - 1) - s.mem s.top).toInt = x := by
    rw [hx, BitVec.toInt_sub]; rfl
  rw [hm]
  have hz : ∀ y < 64, elem (blit s.mem (s.top - 1) [0, 0, 0, 0]) (s.top - 1) y = false := by
    intro y hy
    unfold elem
    rw [blit_zero _ _ _ (by omega)]; simp
  by_cases hin : 0 ≤ x ∧ x < 64
  · rw [if_neg (by omega)]
    obtain ⟨e1, e2, e3⟩ := small_index (m := s.mem (s.top - 1) - s.mem s.top) (by omega) (by omega)
    have hx2 : (s.mem (s.top - 1) - s.mem s.top).toNat = x.toNat := by omega
    rw [hx2] at e2 e3
    rw [e2, e3, VM.rd_eq _ (by show _ < s.words; omega)]
    simp only [Res.ok_bind]
    rw [VM.wr_eq _ _ (by show _ < s.words; omega)]
    refine ⟨_, _, rfl, ⟨rfl, ?_, rfl, ?_⟩, fun _ => rfl, fun h => absurd hin h, ?_⟩
    · show (s.sp - 2#16 - 2#16 + 8#16).toNat + 2 * 2 = s.sp.toNat + 2 * 4
      omega
    · intro i hi
      show updW _ _ _ i = _
      rw [updW_other _ _ (by omega)]
      exact blit_outside _ _ _ (by simp; omega)
    · intro y hy
      show elem (updW (blit s.mem (s.top - 1) [0, 0, 0, 0]) _ _)
        ((s.sp - 2#16 - 2#16 + 8#16).toNat / 2 - 3) y = _
      rw [show (s.sp - 2#16 - 2#16 + 8#16).toNat / 2 - 3 = s.top - 1 by omega]
      refine (elem_upd _ _ x.toNat y (fun w => w ||| bit (x.toNat % 16)) true (by omega)
        (fun i hi => or_bit _ _ _ (by omega) hi)).trans ?_
      rw [hz y hy]
      by_cases e : y = x.toNat
      · rw [if_pos e]; simp; omega
      · rw [if_neg e]; simp; omega
  · rw [if_pos (by omega)]
    refine ⟨_, _, rfl, ⟨rfl, ?_, rfl, ?_⟩, fun h => absurd h hin, fun _ => rfl, ?_⟩
    · show (s.sp - 2#16 - 2#16 + 8#16).toNat + 2 * 2 = s.sp.toNat + 2 * 4
      omega
    · intro i hi
      exact blit_outside _ _ _ (by simp; omega)
    · intro y hy
      show elem (blit s.mem (s.top - 1) [0, 0, 0, 0])
        ((s.sp - 2#16 - 2#16 + 8#16).toNat / 2 - 3) y = _
      rw [show (s.sp - 2#16 - 2#16 + 8#16).toNat / 2 - 3 = s.top - 1 by omega, hz y hy]
      simp; omega

/-- Non-vacuity: the singleton of 25 in a base type starting at 5. -/
example : (20 : Int) = wrap16 ((opnd (sampleMem (fun i => if i = 19 then 25 else 5)) 1).toInt -
      (opnd (sampleMem (fun i => if i = 19 then 25 else 5)) 0).toInt) ∧
    Insn [Op.setop.toByte, 13] 2#16 (sampleMem (fun i => if i = 19 then 25 else 5)) .setop 13#8 0 ∧
    Room (sampleMem (fun i => if i = 19 then 25 else 5)) 2 ∧
    (sampleMem (fun i => if i = 19 then 25 else 5)).sp.toNat / 2 + 2 < 100 :=
  ⟨by decide, ⟨⟨by decide, rfl⟩, fun _ => rfl, fun h => absurd h (by decide)⟩,
    ⟨by decide, by decide⟩, by decide⟩

/-! ### C14: the constructor `[a..b]` -/

theorem setOps_subrange (s : VM) : setOps s 14#8 = (do
    let (minValue, s) ← s.pop
    let (m2, s) ← s.pop
    let (m1, s) ← s.pop
    let s := grow s
    let dest ← ptr s 3
    subrange s minValue m1 m2 dest) := rfl

/-- **C14**: for good bounds (`GoodBounds`) the constructor `[a..b]` leaves exactly the elements
from `a` to `b`; bounds out of range or in the wrong order are reported and leave the empty
set.  Missing: the other bounds, for which the code is wrong (`C14_violation`). -/
theorem C14_subrange_partial (lib : Lib) (hlib : lib.setOps = setOps) (code : List Byte)
    (maxpc : Word) (s : VM) (a b : Int)
    (ha : a = wrap16 ((opnd s 2).toInt - (opnd s 0).toInt))
    (hb : b = wrap16 ((opnd s 1).toInt - (opnd s 0).toInt))
    (hgood : 0 ≤ a ∧ a ≤ b ∧ b < 64 → GoodBounds a.toNat b.toNat)
    (hi : Insn code maxpc s .setop 14#8 0) (hr : Room s 3)
    (hroom : s.sp.toNat / 2 + 1 < s.words) (hsz : s.sp.toNat + 2 < 65536) :
    ∃ e s', execute lib code maxpc s = .ok (e, s') ∧ Loads s s' 3 4 2 ∧
      (0 ≤ a ∧ a ≤ b ∧ b < 64 → e = eNOERROR ∧
        ∀ y < 64, elem s'.mem (setAt s' 0) y = decide (a ≤ (y : Int) ∧ (y : Int) ≤ b)) ∧
      (¬(0 ≤ a ∧ a ≤ b ∧ b < 64) → e = eVALUERANGE ∧
        ∀ y < 64, elem s'.mem (setAt s' 0) y = false) := by
  rw [setop_exec hlib hi, setOps_subrange]
  obtain ⟨h1, h2⟩ := hr
  have ht : s.top = s.sp.toNat / 2 := rfl
  have hsp1 : (s.sp - 2#16).toNat = s.sp.toNat - 2 := by bv_omega
  have hsp2 : (s.sp - 2#16 - 2#16).toNat = s.sp.toNat - 4 := by bv_omega
  have hsp : (s.sp - 2#16 - 2#16 - 2#16 + 8#16).toNat = s.sp.toNat + 2 := by bv_omega
  have htop1 : ({ s with pc := s.pc + 2#16, sp := s.sp - 2#16 } : VM).top = s.top - 1 := by
    show (s.sp - 2#16).toNat / 2 = _; omega
  have htop2 : ({ s with pc := s.pc + 2#16, sp := s.sp - 2#16 - 2#16 } : VM).top = s.top - 2 := by
    show (s.sp - 2#16 - 2#16).toNat / 2 = _; omega
  rw [VM.pop_eq _ (by show s.top < s.words; omega)]
  simp only [Res.ok_bind, top_pc]
  rw [VM.pop_eq _ (by rw [htop1]; show _ < s.words; omega)]
  simp only [Res.ok_bind, htop1]
  rw [VM.pop_eq _ (by rw [htop2]; show _ < s.words; omega)]
  simp only [Res.ok_bind, htop2, grow]
  rw [ptr_eq (by show 3 ≤ (s.sp - 2#16 - 2#16 - 2#16 + 8#16).toNat / 2; omega)]
  simp only [Res.ok_bind]
  have hdest : ({ s with pc := s.pc + 2#16, sp := s.sp - 2#16 - 2#16 - 2#16 + 8#16 } : VM).top - 3 =
      s.top - 2 := by
    show (s.sp - 2#16 - 2#16 - 2#16 + 8#16).toNat / 2 - 3 = _; omega
  rw [hdest, subrange, clear4_eq _ _ (by show _ < s.words; omega)]
  simp only [Res.ok_bind]
  have hma : (s.mem (s.top - 2) - s.mem s.top).toInt = a := by
    rw [ha, BitVec.toInt_sub]; rfl
  have hmb : (s.mem (s.top - 1) - s.mem s.top).toInt = b := by
    rw [hb, BitVec.toInt_sub]; rfl
  rw [hma, hmb]
  have hz : ∀ y < 64, elem (blit s.mem (s.top - 2) [0, 0, 0, 0]) (s.top - 2) y = false := by
    intro y hy
    unfold elem
    rw [blit_zero _ _ _ (by omega)]; simp
  have hset : (s.sp - 2#16 - 2#16 - 2#16 + 8#16).toNat / 2 - (0 + 3) = s.top - 2 := by omega
  have hspp : (s.sp - 2#16 - 2#16 - 2#16 + 8#16).toNat + 2 * 3 = s.sp.toNat + 2 * 4 := by omega
  by_cases hb1 : b < 0 ∨ b ≥ 64
  · rw [if_pos hb1]
    refine ⟨_, _, rfl, ⟨rfl, hspp, rfl, fun i hi => blit_outside _ _ _ (by simp; omega)⟩,
      fun h => by omega, fun _ => ⟨rfl, fun y hy => ?_⟩⟩
    show elem (blit s.mem (s.top - 2) [0, 0, 0, 0]) _ y = _
    unfold setAt
    rw [hset, hz y hy]
  · rw [if_neg hb1]
    by_cases ha1 : a < 0 ∨ a > b
    · rw [if_pos ha1]
      refine ⟨_, _, rfl, ⟨rfl, hspp, rfl, fun i hi => blit_outside _ _ _ (by simp; omega)⟩,
        fun h => by omega, fun _ => ⟨rfl, fun y hy => ?_⟩⟩
      show elem (blit s.mem (s.top - 2) [0, 0, 0, 0]) _ y = _
      unfold setAt
      rw [hset, hz y hy]
    · rw [if_neg ha1]
      have hg := hgood (by omega)
      obtain ⟨ea1, ea2, ea3⟩ := small_index (m := s.mem (s.top - 2) - s.mem s.top)
        (by omega) (by omega)
      obtain ⟨eb1, eb2, eb3⟩ := small_index (m := s.mem (s.top - 1) - s.mem s.top)
        (by omega) (by omega)
      have hna : (s.mem (s.top - 2) - s.mem s.top).toNat = a.toNat := by omega
      have hnb : (s.mem (s.top - 1) - s.mem s.top).toNat = b.toNat := by omega
      rw [hna] at ea2 ea3
      rw [hnb] at eb2 eb3
      obtain ⟨na, rfl⟩ : ∃ n : Nat, a = n := ⟨a.toNat, by omega⟩
      obtain ⟨nb, rfl⟩ : ∃ n : Nat, b = n := ⟨b.toNat, by omega⟩
      simp only [Int.toNat_natCast] at ea2 ea3 eb2 eb3 hg
      rw [ea2, ea3, eb2, eb3]
      by_cases hw : na / 16 = nb / 16
      · rw [if_pos hw, VM.wr_eq _ _ (by show _ < s.words; omega)]
        refine ⟨_, _, rfl, ⟨rfl, hspp, rfl, ?_⟩, fun _ => ⟨rfl, ?_⟩, fun h => by omega⟩
        · intro i hi
          show updW _ _ _ i = _
          rw [updW_other _ _ (by omega)]
          exact blit_outside _ _ _ (by simp; omega)
        · intro y hy
          show elem (updW (blit s.mem (s.top - 2) [0, 0, 0, 0]) _ _) _ y = _
          unfold setAt
          rw [hset]
          have hk := mask_good na (by omega) nb (by omega) (by omega) hw y hy
          unfold elem
          by_cases e : y / 16 = na / 16
          · rw [if_pos e] at hk
            rw [e, updW_same, hk]
            simp only [Int.ofNat_le]
          · rw [if_neg e] at hk
            rw [updW_other _ _ (by omega), blit_zero _ _ _ (by omega), hk]
            simp only [Int.ofNat_le]
      · rw [if_neg hw]
        obtain ⟨l, hl, hlen, hel⟩ := rangeVals_good na (by omega) nb (by omega) (by omega) hw hg
        unfold rangeVals at hl
        rw [subLoop_eq _ _ 5 _ _ _ l hl _ (by show 5 ≤ s.words + 1; omega) _ _
          (by show _ ≤ s.words; omega)]
        refine ⟨_, _, rfl, ⟨rfl, hspp, rfl, ?_⟩, fun _ => ⟨rfl, ?_⟩, fun h => by omega⟩
        · intro i hi
          show blit _ _ _ i = _
          rw [blit_outside _ _ _ (by omega)]
          exact blit_outside _ _ _ (by simp; omega)
        · intro y hy
          show elem (blit (blit s.mem (s.top - 2) [0, 0, 0, 0]) _ l) _ y = _
          unfold setAt
          rw [hset]
          have hk := hel y hy
          simp only [Int.ofNat_le]
          rw [← hk]
          unfold elem
          by_cases e : na / 16 ≤ y / 16
          · rw [if_pos e]
            by_cases e2 : y / 16 < na / 16 + l.length
            · congr 1
              unfold blit
              rw [if_pos (by omega)]
              congr 1
              omega
            · rw [blit_outside _ _ _ (by omega), blit_zero _ _ _ (by omega),
                List.getD_eq_getElem?_getD, List.getElem?_eq_none (by omega)]
              rfl
          · rw [if_neg e, blit_outside _ _ _ (by omega), blit_zero _ _ _ (by omega)]

/-- Memory with the bounds `a`, `b` and base minimum 0 on the stack. -/
def rangeMem (a b : Word) : Nat → Word := fun i => if i = 18 then a else if i = 19 then b else 0

/-- Non-vacuity: the range 3..40, spanning three words. -/
example : (3 : Int) = wrap16 ((opnd (sampleMem (rangeMem 3 40)) 2).toInt -
      (opnd (sampleMem (rangeMem 3 40)) 0).toInt) ∧
    (40 : Int) = wrap16 ((opnd (sampleMem (rangeMem 3 40)) 1).toInt -
      (opnd (sampleMem (rangeMem 3 40)) 0).toInt) ∧ GoodBounds 3 40 ∧
    Insn [Op.setop.toByte, 14] 2#16 (sampleMem (rangeMem 3 40)) .setop 14#8 0 ∧
    Room (sampleMem (rangeMem 3 40)) 3 :=
  ⟨by decide, by decide, by unfold GoodBounds; decide,
    ⟨⟨by decide, rfl⟩, fun _ => rfl, fun h => absurd h (by decide)⟩, by decide, by decide⟩

set_option maxRecDepth 8000 in
/-- **C14 fails**: `[16..32]` also contains 48, and `[15..20]` makes the interpreter write
through its whole memory and beyond. -/
theorem C14_violation (lib : Lib) (hlib : lib.setOps = setOps) :
    (∃ (code : List Byte) (maxpc : Word) (s s' : VM), Insn code maxpc s .setop 14#8 0 ∧
      Room s 3 ∧ (opnd s 2).toInt = 16 ∧ (opnd s 1).toInt = 32 ∧ (opnd s 0).toInt = 0 ∧
      execute lib code maxpc s = .ok (eNOERROR, s') ∧ elem s'.mem (setAt s' 0) 48 = true) ∧
    (∃ (code : List Byte) (maxpc : Word) (s : VM), Insn code maxpc s .setop 14#8 0 ∧
      Room s 3 ∧ (opnd s 2).toInt = 15 ∧ (opnd s 1).toInt = 20 ∧ (opnd s 0).toInt = 0 ∧
      execute lib code maxpc s = .ub) := by
  constructor
  · have hi : Insn [Op.setop.toByte, 14] 2#16 (sampleMem (rangeMem 16 32)) .setop 14#8 0 :=
      ⟨⟨by decide, rfl⟩, fun _ => rfl, fun h => absurd h (by decide)⟩
    exact ⟨_, _, _, _, hi, ⟨by decide, by decide⟩, by decide, by decide, by decide,
      (setop_exec hlib hi).trans rfl, by decide⟩
  · have hi : Insn [Op.setop.toByte, 14] 2#16 (sampleMem (rangeMem 15 20)) .setop 14#8 0 :=
      ⟨⟨by decide, rfl⟩, fun _ => rfl, fun h => absurd h (by decide)⟩
    exact ⟨_, _, _, hi, ⟨by decide, by decide⟩, by decide, by decide, by decide,
      (setop_exec hlib hi).trans rfl⟩

end Pas
