import Verif.Lemmas.OptReloc
import Verif.Spec.Optimize

/-! C59, C60, C61: the optimizer over whole programs. -/
namespace Pas.Popt
open Pas.Spec

/-! ### The specification and the model's own notions -/

theorem beforeEnd_eq (prog : List OpType) : beforeEnd prog = code prog := rfl

theorem opIn_iff {os : List Op} {i : OpType} : opIn os i = true ↔ ∃ o ∈ os, i.op = o.toByte := by
  unfold opIn
  rw [List.any_eq_true]
  simp

theorem free_without {bad : Op → Bool} {os : List Op} (h : ∀ o, bad o = true → o ∈ os)
    {prog : List OpType} (hw : Without os prog) : Free bad prog := by
  intro x hx o ho
  cases hb : bad o with
  | false => rfl
  | true =>
    have := hw x hx
    rw [show opIn os x = true from opIn_iff.mpr ⟨o, h o hb, ho⟩] at this
    cases this

theorem jumping_of {i : OpType} (h : isJump i = true) : jumping i = true := by
  unfold isJump at h
  unfold jumping
  rw [Bool.or_eq_true] at h ⊢
  rcases h with h | h
  · left
    cases ho : Op.ofByte i.op with
    | none => rw [ho] at h; cases h
    | some o =>
      rw [ho] at h
      refine opIn_iff.mpr ⟨o, ?_, ofByte_some ho⟩
      have h : jumpOp o = true := h
      cases o <;> first | decide | cases h
  · exact Or.inr h

theorem isJump_of {i : OpType} (h : jumping i = true) : isJump i = true := by
  unfold jumping at h
  rw [Bool.or_eq_true] at h
  unfold isJump
  rw [Bool.or_eq_true]
  rcases h with h | h
  · left
    obtain ⟨o, ho, e⟩ := opIn_iff.mp h
    rw [e, Op.ofByte_toByte]
    have : ∀ o ∈ jumps, jumpOp o = true := by decide
    exact this o ho
  · exact Or.inr h

/-! ### C59 -/

/-- Instructions the program shown below is made of. -/
def iLabel (n : Word) : OpType := ⟨Op.label.toByte, 0, n⟩
def iOp (o : Op) : OpType := ⟨o.toByte, 0, 0⟩
def iPush (w : Word) : OpType := ⟨Op.push.toByte, 0, w⟩
def iLd (w : Word) : OpType := ⟨Op.ld.toByte, 0, w⟩
def iSt (w : Word) : OpType := ⟨Op.st.toByte, 0, w⟩
def iJ (o : Op) (w : Word) : OpType := ⟨o.toByte, 0, w⟩
def iLong (b : Byte) : OpType := ⟨Op.longop8.toByte, b, 0⟩

/-- `JMP 1; LABEL 1; PUSH 3; PUSH 4; ADD; PUSH 7; EQU; NOT; JEQUZ 2; LD 10; PUSH 1; SUB; ST 10; LABEL 2; END`. -/
def sample : List OpType :=
  [iJ .jmp 1, iLabel 1, iPush 3, iPush 4, iOp .add, iPush 7, iOp .equ, iOp .not_, iJ .jequz 2,
   iLd 10, iPush 1, iOp .sub, iSt 10, iLabel 2, iOp .end_]

/-- C59 (partial: programs without unsigned division): however long the program, whatever its
relocations, the optimizer comes to an end: its outcome is the same for every number of steps from
some number on.  (The outcome may be a crash of the optimizer, see below.) -/
theorem C59_terminates_partial (prog : List OpType) (rels : List Reloc) (hl : HasLabel prog)
    (hu : Without [.udiv] prog) :
    ∃ r, r ≠ .hang ∧ ∃ n, ∀ fuel, n ≤ fuel → optimize fuel prog rels = r := by
  have hf : Free udivOp prog := free_without (by intro o h; cases o <;> first | decide | cases h) hu
  have h0 := optimize_hang (rels := rels) hl hf (Nat.le_refl _)
  refine ⟨_, h0, enough prog.length, fun fuel hn => ?_⟩
  obtain ⟨k, rfl⟩ := Nat.exists_eq_add_of_le hn
  exact optimize_stable h0 k

/-- C59 (partial: programs without multiplication, division and 32-bit operations): the optimizer
ends and yields a program. -/
theorem C59_succeeds_partial (prog : List OpType) (rels : List Reloc) (hl : HasLabel prog)
    (hu : Without [.mul, .umul, .div_, .mod_, .udiv, .umod, .longop8] prog) :
    ∃ r, ∃ n, ∀ fuel, n ≤ fuel → optimize fuel prog rels = .ok r := by
  have hu' : Without [.udiv] prog := by
    intro i hi
    have := hu i hi
    cases h : opIn [.udiv] i with
    | false => rfl
    | true =>
      obtain ⟨o, ho, e⟩ := opIn_iff.mp h
      rw [List.mem_singleton.mp ho] at e
      rw [show opIn [.mul, .umul, .div_, .mod_, .udiv, .umod, .longop8] i = true from
        opIn_iff.mpr ⟨.udiv, by decide, e⟩] at this
      cases this
  obtain ⟨r, hr, n, hn⟩ := C59_terminates_partial prog rels hl hu'
  have hf : Free failOp prog := free_without (by intro o h; cases o <;> first | decide | cases h) hu
  have hub := optimize_ub (fuel := n) (rels := rels) hl hf
  rw [hn n (Nat.le_refl n)] at hub
  cases r with
  | ok r => exact ⟨r, n, hn⟩
  | ub => exact absurd rfl hub
  | hang => exact absurd rfl hr

example : HasLabel sample ∧ Without [.mul, .umul, .div_, .mod_, .udiv, .umod, .longop8] sample :=
  ⟨⟨iLabel 1, by decide, rfl⟩, by unfold Without; decide⟩

/-- The test of the sample is decided by the optimizer: its conditional jump becomes a oJMP. -/
example : optimize 200 sample [] =
    .ok ([iJ .jmp 1, iLabel 1, iJ .jmp 2, iLd 10, iOp .dec, iSt 10, iLabel 2, iOp .end_], [], false) := by
  decide +kernel

/-- `PUSH 9; PUSH 3; UDIV`. -/
def udivProg : List OpType := [iLabel 1, iPush 9, iPush 3, iOp .udiv, iOp .end_]

theorem udiv_hang (f : Nat) : optimize (f + 40) udivProg [] = .hang := by
  rfl

/-- C59 is violated: on a program that divides two unsigned constants the optimizer never ends. -/
theorem C59_violation_udiv : HasLabel udivProg ∧ ∀ fuel, optimize fuel udivProg [] = .hang := by
  refine ⟨⟨iLabel 1, by decide, rfl⟩, fun fuel => ?_⟩
  by_cases h : 40 ≤ fuel
  · obtain ⟨k, rfl⟩ := Nat.exists_eq_add_of_le h
    rw [Nat.add_comm]
    exact udiv_hang k
  · obtain ⟨k, hk⟩ := Nat.exists_eq_add_of_le (show fuel ≤ 40 by omega)
    cases hr : optimize fuel udivProg [] with
    | hang => rfl
    | ok r =>
      have := optimize_stable (fuel := fuel) (prog := udivProg) (rels := []) (by rw [hr]; nofun) k
      rw [← hk, udiv_hang 0, hr] at this; cases this
    | ub =>
      have := optimize_stable (fuel := fuel) (prog := udivProg) (rels := []) (by rw [hr]; nofun) k
      rw [← hk, udiv_hang 0, hr] at this; cases this

/-- C59 is violated: a 32-bit shift by a constant, `LDM; PUSH 2; DSLL`, makes the optimizer read
before the start of its table of instructions once the constant is the first instruction of the
window. -/
theorem C59_violation_shift :
    optimize 200 [iLabel 1, iPush 4, ⟨Op.ldm.toByte, 0, 10⟩, iPush 2, iLong 0x4b, iOp .end_] [] = .ub := by
  decide +kernel

/-- C59 is violated: a constant division by zero crashes the optimizer. -/
theorem C59_violation_zero :
    optimize 200 [iLabel 1, iPush 4, iPush 0, iOp .div_, iOp .end_] [] = .ub := by
  decide +kernel

/-! ### C60 -/

/-- C60: the optimized program is a sequence of instructions closed by a single oEND; its labels,
calls, returns and line marks are exactly those of the program, unchanged and in the same order;
and it has no more instructions than the program. -/
theorem C60_structure (prog : List OpType) (rels rels' : List Reloc) (fuel : Nat) (hl : HasLabel prog)
    (out : List OpType) (left : Bool) (h : optimize fuel prog rels = .ok (out, rels', left)) :
    ∃ init e, out = init ++ [e] ∧ e.op = Op.end_.toByte ∧ beforeEnd out = init ∧
      init.filter structural = (beforeEnd prog).filter structural ∧
      init.length ≤ (beforeEnd prog).length := by
  obtain ⟨init, e, h1, h2, h3, h4, h5⟩ := (optimize_kept hl h).shape
  have h1 : out = init ++ [e] := h1
  have hend : notEnd e = false := by unfold notEnd; rw [h2]; rfl
  refine ⟨init, e, h1, h2, ?_, ?_, h5⟩
  · rw [beforeEnd_eq, h1, code_end init [] hend, code_id h3]
  · have key : ∀ l : List OpType, (∀ x ∈ l, notEnd x = true) →
        l.filter structural = fixedOf l := by
      intro l hl
      refine List.filter_congr ?_
      intro x hx
      have hx := hl x hx
      unfold structural isFixed
      cases ho : Op.ofByte x.op with
      | none =>
        show opIn _ x = false
        cases hs : opIn [.label, .pcal, .ret, .line] x with
        | false => rfl
        | true =>
          obtain ⟨o, _, e⟩ := opIn_iff.mp hs
          rw [e, Op.ofByte_toByte] at ho; cases ho
      | some o =>
        have e := ofByte_some ho
        show _ = fixedOp o
        unfold opIn notEnd at *
        rw [e] at hx ⊢
        revert hx
        revert o
        intro o _ _
        cases o <;> decide
    rw [key init h3, h4, beforeEnd_eq, key _ (code_all prog)]

/-- C60: every jump of the optimized program goes where a jump of the program went. -/
theorem C60_targets (prog : List OpType) (rels rels' : List Reloc) (fuel : Nat) (hl : HasLabel prog)
    (out : List OpType) (left : Bool) (h : optimize fuel prog rels = .ok (out, rels', left)) :
    ∀ i ∈ out, jumping i = true → ∃ j ∈ prog, jumping j = true ∧ j.arg2 = i.arg2 := by
  intro i hi hj
  obtain ⟨x, hx, hxj, e⟩ := ((optimize_kept hl h).from_ i hi).jump (isJump_of hj)
  rcases List.mem_cons.mp hx with rfl | hx
  · cases hxj
  · exact ⟨x, hx, jumping_of hxj, e⟩

/-- C60: if every jump of the program goes to one of its labels, so does every jump of the
optimized program. -/
theorem C60_closed (prog : List OpType) (rels rels' : List Reloc) (fuel : Nat) (hl : HasLabel prog)
    (out : List OpType) (left : Bool) (h : optimize fuel prog rels = .ok (out, rels', left))
    (hc : JumpsToLabels prog) : JumpsToLabels out := by
  intro i hi hj
  obtain ⟨j, hjm, hjj, e⟩ := C60_targets prog rels rels' fuel hl out left h i hi hj
  obtain ⟨l, hlm, hlo, el⟩ := hc j hjm hjj
  obtain ⟨init, en, _, _, h3, h4, _⟩ := C60_structure prog rels rels' fuel hl out left h
  refine ⟨l, ?_, hlo, el.trans e⟩
  have hs : structural l = true := opIn_iff.mpr ⟨.label, by decide, hlo⟩
  have : l ∈ init.filter structural := by rw [h4]; exact List.mem_filter.mpr ⟨hlm, hs⟩
  rw [h3]
  exact (List.mem_filter.mp this).1

example : HasLabel sample ∧ JumpsToLabels sample ∧
    ∃ out, optimize 200 sample [] = .ok (out, [], false) ∧ out.length < sample.length :=
  ⟨⟨iLabel 1, by decide, rfl⟩, by unfold JumpsToLabels; decide,
    [iJ .jmp 1, iLabel 1, iJ .jmp 2, iLd 10, iOp .dec, iSt 10, iLabel 2, iOp .end_], by decide +kernel, by decide⟩

/-! ### C61 -/

/-- C61 (partial: which instruction a relocation belongs to is not kept in general, see below): the
relocations of the optimized program are some of those of the program, in the same order; each is
at the first byte of an instruction, no two at the same one. -/
theorem C61_relocations_partial (prog : List OpType) (rels rels' : List Reloc) (fuel : Nat)
    (out : List OpType) (left : Bool) (h : optimize fuel prog rels = .ok (out, rels', left)) :
    List.Sublist (rels'.map fun r => (r.sym, r.kind)) (rels.map fun r => (r.sym, r.kind)) ∧
      (∀ r ∈ rels', ∃ k, k < out.length ∧ r.offset = bytesOf (out.take k)) ∧
      rels'.Pairwise (fun a b => a.offset < b.offset) :=
  have k := optimize_rel h
  ⟨k.sub, k.at_, k.sorted⟩

/-- A variable of another unit is loaded, incremented and stored: the two relocations move with
their instructions. -/
example : optimize 200 [iLabel 1, iPush 5, iPush 6, iOp .add, iSt 20, iLd 0, iPush 1, iOp .add, iSt 0,
      iOp .end_] [⟨7, RLT_LDST, 13⟩, ⟨7, RLT_LDST, 20⟩] =
    .ok ([iLabel 1, ⟨Op.pushb.toByte, 11, 0⟩, iSt 20, iLd 0, iOp .inc, iSt 0, iOp .end_],
      [⟨7, RLT_LDST, 8⟩, ⟨7, RLT_LDST, 12⟩], false) := by
  decide +kernel

/-- C61 is violated: the loads of two variables of different units that both have offset 0 in their
unit are taken for one: the second becomes a oDUP, and its relocation is attached to the oDUP. -/
theorem C61_violation_dup :
    optimize 200 [iLabel 1, iLd 0, iLd 0, iOp .add, iSt 20, iOp .end_]
        [⟨7, RLT_LDST, 3⟩, ⟨8, RLT_LDST, 6⟩] =
      .ok ([iLabel 1, iLd 0, iOp .dup, iOp .add, iSt 20, iOp .end_],
        [⟨7, RLT_LDST, 3⟩, ⟨8, RLT_LDST, 6⟩], false) := by
  decide +kernel

/-- C61 is violated: after a store and a load of an external variable the store's relocation is
attached to a oDUP. -/
theorem C61_violation_store :
    optimize 200 [iLabel 1, iLd 20, iSt 0, iLd 0, iSt 22, iOp .end_]
        [⟨7, RLT_LDST, 6⟩, ⟨7, RLT_LDST, 9⟩] =
      .ok ([iLabel 1, iLd 20, iOp .dup, iSt 0, iSt 22, iOp .end_],
        [⟨7, RLT_LDST, 6⟩, ⟨7, RLT_LDST, 7⟩], false) := by
  decide +kernel

/-- C61 is violated: when two loads of external variables are exchanged, the second relocation
and all later ones are lost. -/
theorem C61_violation_exchange :
    optimize 200 [iLabel 1, iLd 0, iLd 2, iOp .xchg, iSt 20, iSt 22, iLd 4, iSt 24, iOp .end_]
        [⟨7, RLT_LDST, 3⟩, ⟨8, RLT_LDST, 6⟩, ⟨9, RLT_LDST, 16⟩] =
      .ok ([iLabel 1, iLd 2, iLd 0, iSt 20, iSt 22, iLd 4, iSt 24, iOp .end_],
        [⟨7, RLT_LDST, 6⟩], true) := by
  decide +kernel

end Pas.Popt
