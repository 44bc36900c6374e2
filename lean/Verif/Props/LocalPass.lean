import Verif.Lemmas.OptLongRule
import Verif.Props.StringPass

/-! C81: the optimizer changes a program by its rules only. -/
namespace Pas.Popt
open Pas.Spec

/-- C81: whatever the program, what the optimizer makes of it comes about by leaving out copies of
string constants (see C80) and then replacing, one after the other, up to five instructions that are
executed one after the other according to a rule; which rules keep what the program does is C30-C33
and C62.  Nothing else is changed, and no rule is
applied across a label, a call or a return. -/
theorem C81_rules (prog : List OpType) (rels rels' : List Reloc) (fuel : Nat) (hl : HasLabel prog)
    (out : List OpType) (left : Bool) (h : optimize fuel prog rels = .ok (out, rels', left)) :
    ∃ mid, DropDup (effective (beforeEnd prog)) mid ∧
      Rewrites InBlock mid (effective (beforeEnd out)) := by
  unfold optimize at h
  rw [Res.bind_eq_ok] at h
  obtain ⟨⟨p1, r1, e1⟩, h1, h⟩ := h
  rw [Res.bind_eq_ok] at h
  obtain ⟨⟨p2, r2, e2⟩, h2, h⟩ := h
  cases h
  have k1 : Kept prog p1 := pass_kept stringRound_ok hl h1
  have hl1 : HasLabel p1 := k1.label hl
  obtain ⟨i1, f1, a1, a2, a3, a4⟩ := C80_only_copies prog rels r1 fuel hl p1 e1 h1
  obtain ⟨i2, f2, b1, b2, b3⟩ := localPass_ruled hl1 h2
  obtain ⟨i3, f3, c1, c2, c3, _⟩ := (pass_kept round_ok hl1 h2).shape
  have b1 : out = i2 ++ [f2] := b1
  have c1 : out = i3 ++ [f3] := c1
  have : i3 = i2 := (List.append_inj' (c1.symm.trans b1) rfl).1
  subst this
  have e : beforeEnd out = i3 := by
    rw [beforeEnd_eq, b1, code_end i3 [] (by unfold notEnd; rw [b2]; rfl)]
    exact code_id c3
  refine ⟨effective i1, a4, ?_⟩
  rw [e, ← a3]
  exact b3

example : HasLabel sample ∧
    ∃ out, optimize 200 sample [] = .ok (out, [], false) ∧ (beforeEnd out).length < 8 :=
  ⟨⟨iLabel 1, by decide, rfl⟩,
    [iJ .jmp 1, iLabel 1, iJ .jmp 2, iLd 10, iOp .dec, iSt 10, iLabel 2, iOp .end_], by decide +kernel, by decide⟩

/-- A program with 32-bit constants: `LABEL 1; PUSH 2; PUSH 0; PUSH 3; PUSH 0; DADD; JMP 1; END`. -/
def longSample : List OpType :=
  [iLabel 1, iPush 2, iPush 0, iPush 3, iPush 0, ⟨Op.longop8.toByte, 0x46, 0⟩, iJ .jmp 1, iOp .end_]

example : HasLabel longSample ∧ optimize 200 longSample [] =
    .ok ([iLabel 1, ⟨Op.pushb.toByte, 5, 0⟩, ⟨Op.pushb.toByte, 0, 0⟩, iJ .jmp 1, iOp .end_], [], false) :=
  ⟨⟨iLabel 1, by decide, rfl⟩, by decide +kernel⟩

/-- The optimizer's rules do replace something: `PUSH 1; SUB` becomes `DEC`. -/
example : InBlock [iPush 1, iOp .sub] [nop, iOp .dec] ∧ effective [nop, iOp .dec] = [iOp .dec] :=
  ⟨⟨.unary _ _ _ _ (by decide), by decide⟩, by decide⟩

end Pas.Popt
