import Verif.Lemmas.OptString
import Verif.Props.Optimize

/-! C80: what the string optimizations leave out. -/
namespace Pas.Popt
open Pas.Spec

/-- C80: the program the string optimizations hand on ends with oEND, and what it does before is what
the program did, without some of the copies of string constants whose next use only reads them. -/
theorem C80_only_copies (prog : List OpType) (rels rels' : List Reloc) (fuel : Nat) (hl : HasLabel prog)
    (out : List OpType) (left : Bool) (h : pass stringRound fuel prog rels = .ok (out, rels', left)) :
    ∃ init e, out = init ++ [e] ∧ e.op = Op.end_.toByte ∧ beforeEnd out = init ∧
      DropDup (effective (beforeEnd prog)) (effective init) := by
  obtain ⟨init, e, h1, h2, h3⟩ := stringPass_cut hl h
  obtain ⟨init', e', k1, k2, k3, _⟩ := (pass_kept stringRound_ok hl h).shape
  have h1 : out = init ++ [e] := h1
  have k1 : out = init' ++ [e'] := k1
  have : init' = init := (List.append_inj' (k1.symm.trans h1) rfl).1
  subst this
  refine ⟨init', e, h1, h2, ?_, h3⟩
  rw [beforeEnd_eq, h1, code_end init' [] (by unfold notEnd; rw [h2]; rfl)]
  exact code_id k3

/-- C80: in a program in which no string constant is copied as soon as its address is loaded, the
string optimizations change nothing. -/
theorem C80_unchanged (prog : List OpType) (rels rels' : List Reloc) (fuel : Nat) (hl : HasLabel prog)
    (out : List OpType) (left : Bool) (h : pass stringRound fuel prog rels = .ok (out, rels', left))
    (hn : ∀ a b : OpType, [a, b] <:+: effective (beforeEnd prog) → a.op = Op.lac.toByte → ¬ isDup b) :
    effective (beforeEnd out) = effective (beforeEnd prog) := by
  obtain ⟨init, e, _, _, h3, h4⟩ := C80_only_copies prog rels rels' fuel hl out left h
  rw [h3]
  exact DropDup.same h4 hn

/-- `LABEL 1; LAC 0; LINE 7; SLIB STRDUP; PUSH 80; SLIB STRCAT; LAC 9; SLIB STRDUP; SLIB STRCAT; END`. -/
def dupSample : List OpType :=
  [iLabel 1, ⟨Op.lac.toByte, 0, 0⟩, ⟨Op.line.toByte, 0, 7⟩, ⟨Op.strlib.toByte, 0, 9⟩, iPush 80,
   ⟨Op.strlib.toByte, 0, 11⟩, ⟨Op.lac.toByte, 0, 9⟩, ⟨Op.strlib.toByte, 0, 9⟩,
   ⟨Op.strlib.toByte, 0, 11⟩, iOp .end_]

/-- The first copy is left out, the second, which is used in another way, is not. -/
example : HasLabel dupSample ∧ pass stringRound 200 dupSample [] =
    .ok ([iLabel 1, ⟨Op.lac.toByte, 0, 0⟩, ⟨Op.line.toByte, 0, 7⟩, iPush 80,
      ⟨Op.strlib.toByte, 0, 11⟩, ⟨Op.lac.toByte, 0, 9⟩, ⟨Op.strlib.toByte, 0, 9⟩,
      ⟨Op.strlib.toByte, 0, 11⟩, iOp .end_], [], false) :=
  ⟨⟨iLabel 1, by decide, rfl⟩, by decide +kernel⟩

/-- A program that copies a constant in the way the compiler does it, with the size of the allocation
between: `LABEL 1; PUSH 5; LAC 0; PUSH 0; SLIB STRDUP; END`. -/
def copySample : List OpType :=
  [iLabel 1, iPush 5, ⟨Op.lac.toByte, 0, 0⟩, iPush 0, ⟨Op.strlib.toByte, 0, 9⟩, iOp .end_]

theorem pair_infix {l : List OpType} {a b : OpType} (h : [a, b] <:+: l) :
    (a, b) ∈ l.zip l.tail := by
  obtain ⟨s, t, rfl⟩ := h
  induction s with
  | nil => simp
  | cons x s ih =>
    cases s with
    | nil => simp
    | cons y s => exact List.mem_cons_of_mem _ ih

example : HasLabel copySample ∧
    (∀ a b : OpType, [a, b] <:+: effective (beforeEnd copySample) → a.op = Op.lac.toByte → ¬ isDup b) ∧
    pass stringRound 200 copySample [] = .ok (copySample, [], false) := by
  refine ⟨⟨iLabel 1, by decide, rfl⟩, ?_, by decide +kernel⟩
  intro a b h
  have key : ∀ q ∈ (effective (beforeEnd copySample)).zip (effective (beforeEnd copySample)).tail,
      q.1.op = Op.lac.toByte → ¬ (q.2.op = Op.strlib.toByte ∧ q.2.arg2 = 0x0009#16) := by decide
  exact key (a, b) (pair_infix h)

end Pas.Popt
