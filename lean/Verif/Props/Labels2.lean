import Verif.Props.Labels
import Verif.Lemmas.PCode

/-! Property C34, continued: the finalized program behaves like the labelled program; a concrete
program; unsigned jumps keep their label numbers. -/
namespace Pas
open Spec

/-- **C34**, behaviour (partial: programs without jumps on unsigned comparisons, and without the
32-bit operations with an immediate operand).  Whatever the program with symbolic labels does
from a position and a machine state, the finalized program does from the address of that
position; it takes at most as many steps; and at the END of the program it exits. -/
theorem C34_behaviour_partial (lib : Lib) (hlib : lib.NoPc) (f : ObjFile) (p : List OpType)
    (tail : List Byte) (rs : List RelocAt) (hprog : f.prog = encode p ++ tail)
    (hw : ∀ i ∈ p, WellFormed i) (he : EndsOnce p)
    (hend : p.getLast?.map (·.op) = some Op.end_.toByte)
    (hu : ∀ i ∈ p, ∀ o : Op, o.toByte = i.op → ¬ UnsignedJump o)
    (hlabels : LabelsOk p f.syms) (hsyms : SymsOk p f.syms)
    (hentry : ∀ e, f.entry = some e → ∃ L k, L.toNat = e ∧ LabelAt p L k)
    (hrels : f.rels = rs.map fun r => ⟨r.sym, r.kind, startOf p r.pos⟩) (hrs : RelocsOk p rs) :
    ∃ f', finalize f = .ok (some f') ∧
      (∀ L k, f.entry = some L.toNat → LabelAt p L k → f'.entry = some (addrOf p k)) ∧
      ∀ (post : List Byte) (maxpc : Word), f'.prog.length ≤ maxpc.toNat →
      ∀ c c', PSteps lib (place p) p c c' →
        (∃ n, runFor lib (f'.prog ++ post) maxpc n { c.2 with pc := place p c.1 } =
          .ok (eNOERROR, { c'.2 with pc := place p c'.1 })) ∧
        (AtEnd p c' → ∃ n, runFor lib (f'.prog ++ post) maxpc n { c.2 with pc := place p c.1 } =
          .ok (eEXIT, { c'.2 with pc := place p c'.1 })) := by
  obtain ⟨f', q, new, hf, hfp, hq, _, _, _, _, _, hent⟩ :=
    C34_finalize_partial f p tail rs hprog hw he hend hu hlabels hsyms hentry hrels hrs
  refine ⟨f', hf, hent, ?_⟩
  intro post maxpc hmax c c' hs
  rw [hfp] at hmax ⊢
  have run : ∃ n, runFor lib (encode q ++ post) maxpc n { c.2 with pc := place p c.1 } =
      .ok (eNOERROR, { c'.2 with pc := place p c'.1 }) := by
    induction hs with
    | refl c => exact ⟨0, rfl⟩
    | @step a b c hab _ ih =>
      obtain ⟨n, hn⟩ := ih
      obtain ⟨m, _, _, hm⟩ := lstep_machine hlib hq post maxpc hmax hab
      exact ⟨m + n, by rw [runFor_add _ _ _ _ _ _ _ hm, hn]⟩
  refine ⟨run, ?_⟩
  rintro ⟨i, hi, hie⟩
  obtain ⟨n, hn⟩ := run
  have ho : Op.end_.toByte = i.op := hie.symm
  obtain ⟨i', _, hins, _, _⟩ := insn_place hq hi (not_mark_of ho (by decide) (by decide)) ho post
    maxpc hmax c'.2
  refine ⟨n + 1, ?_⟩
  rw [runFor_add _ _ _ _ _ _ _ hn, runFor, insn_8 hins (by decide) (by decide), pexec8]
  rfl

/-- A program with a label, a line number, a loop and a call of an imported procedure. -/
def labelledProg : List OpType :=
  [⟨Op.push.toByte, 0, 3#16⟩, ⟨Op.label.toByte, 0, 7#16⟩, ⟨Op.line.toByte, 1, 10#16⟩,
   ⟨Op.dec.toByte, 0, 0⟩, ⟨Op.dup.toByte, 0, 0⟩, ⟨Op.jneqz.toByte, 0, 7#16⟩,
   ⟨Op.pcal.toByte, 1, 9#16⟩, ⟨Op.end_.toByte, 0, 0⟩]

def labelledFile : ObjFile where
  prog := encode labelledProg
  syms := [⟨[102], .proc, true, 9, 0⟩, ⟨[103], .func, false, 7, 0⟩]
  rels := []
  lines := []
  entry := some 7

theorem labelledProg_label : LabelAt labelledProg 7#16 1 :=
  ⟨by decide, by decide⟩

theorem labelledProg_noLabel : NoLabel labelledProg 9#16 := by
  intro k e
  rcases Nat.lt_or_ge k 8 with h | h
  · have : ∀ k < 8, labelledProg[k]? ≠ some (labelMark 9#16) := by decide
    exact this k h e
  · rw [List.getElem?_eq_none (by exact h)] at e
    cases e

theorem labelledFile_ok :
    (∀ i ∈ labelledProg, WellFormed i) ∧ EndsOnce labelledProg ∧
    labelledProg.getLast?.map (·.op) = some Op.end_.toByte ∧
    (∀ i ∈ labelledProg, ∀ o : Op, o.toByte = i.op → ¬ UnsignedJump o) ∧
    LabelsOk labelledProg labelledFile.syms ∧ SymsOk labelledProg labelledFile.syms ∧
    (∀ e, labelledFile.entry = some e → ∃ L k, L.toNat = e ∧ LabelAt labelledProg L k) ∧
    RelocsOk labelledProg [] := by
  refine ⟨?_, ?_, by decide, ?_, ?_, ?_, ?_, ⟨List.Pairwise.nil, by simp⟩⟩
  · have : ∀ i ∈ labelledProg, (∃ o ∈ Op.all, o.toByte = i.op) ∧
        (hasArg8 i.op = false → i.arg1 = 0) ∧ (hasArg16 i.op = false → i.arg2 = 0) := by decide
    intro i hi
    obtain ⟨⟨o, _, ho⟩, h8, h16⟩ := this i hi
    exact ⟨⟨o, ho⟩, h8, h16⟩
  · have : ∀ i ∈ labelledProg.dropLast, i.op ≠ Op.end_.toByte := by decide
    exact this
  · intro i hi o ho hj
    have : ∀ i ∈ labelledProg, i.op ≠ Op.jult.toByte ∧ i.op ≠ Op.jugte.toByte ∧
      i.op ≠ Op.jugt.toByte ∧ i.op ≠ Op.julte.toByte := by decide
    have := this i hi
    rcases hj with rfl | rfl | rfl | rfl
    · exact this.1 ho.symm
    · exact this.2.1 ho.symm
    · exact this.2.2.1 ho.symm
    · exact this.2.2.2 ho.symm
  · intro i hi o ho hk
    have h : ∀ i ∈ labelledProg, i.arg2 = 7#16 ∨ i = ⟨Op.pcal.toByte, 1, 9#16⟩ ∨
        (Op.ofByte i.op).map operandKind ≠ some .program := by decide
    rcases h i hi with h | h | h
    · rw [h]; exact .inl ⟨1, labelledProg_label⟩
    · rw [h]
      right
      rw [h] at ho
      refine ⟨Op.toByte_inj ho, labelledProg_noLabel, 0, ⟨_, rfl, .inl rfl, rfl, rfl⟩, ?_⟩
      intro j hj
      exact absurd hj (by omega)
    · rw [← ho, Op.ofByte_toByte] at h
      exact absurd (congrArg some hk) h
  · intro s hs hc
    simp only [labelledFile, List.mem_cons, List.not_mem_nil, or_false] at hs
    rcases hs with rfl | rfl
    · exact absurd hc.2 (by decide)
    · exact ⟨7#16, 1, rfl, labelledProg_label⟩
  · intro e he
    cases he
    exact ⟨7#16, 1, rfl, labelledProg_label⟩

/-- The hypotheses hold of that program; its finished form is the expected one. -/
example : ∃ f' q new, finalize labelledFile = .ok (some f') ∧ f'.prog = encode q ∧
    Pointwise (Resolved labelledProg labelledFile.syms) (realOps labelledProg) q ∧
    f'.rels = [] ++ new ∧ f'.entry = some 3 := by
  obtain ⟨h1, h2, h3, h4, h5, h6, h7, h8⟩ := labelledFile_ok
  obtain ⟨f', q, new, a, b, c, _, d, _, _, _, g⟩ := C34_finalize_partial labelledFile labelledProg
    [] [] (by simp [labelledFile]) h1 h2 h3 h4 h5 h6 h7 rfl h8
  exact ⟨f', q, new, a, b, c, d, g 7#16 1 rfl labelledProg_label⟩

example : finalize labelledFile = .ok (some {
    prog := [Op.push.toByte, 0, 3, Op.dec.toByte, Op.dup.toByte, Op.jneqz.toByte, 0, 3,
      Op.pcal.toByte, 1, 0, 0, Op.end_.toByte]
    syms := [⟨[102], .proc, true, 9, 0⟩, ⟨[103], .func, false, 3, 0⟩]
    rels := [⟨0, RLT_PCAL, 8⟩]
    lines := [⟨10#16, 1, 3⟩]
    entry := some 3 }) := by decide +kernel

/-- **C34** is violated for unsigned jumps (`popt_finalize.c` 354-366 does not list them): the
finished program jumps to address 7, the number of the label, not to address 3. -/
theorem C34_violation_unsigned (o : Op) (ho : UnsignedJump o) :
    ∃ f' : ObjFile, finalize ⟨encode [⟨o.toByte, 0, 7#16⟩, labelMark 7#16,
        ⟨Op.end_.toByte, 0, 0⟩], [], [], [], none⟩ = .ok (some f') ∧
      f'.prog = encode [⟨o.toByte, 0, 7#16⟩, ⟨Op.end_.toByte, 0, 0⟩] ∧
      ¬ Resolved [⟨o.toByte, 0, 7#16⟩, labelMark 7#16, ⟨Op.end_.toByte, 0, 0⟩] []
        ⟨o.toByte, 0, 7#16⟩ ⟨o.toByte, 0, 7#16⟩ := by
  refine ⟨⟨encode [⟨o.toByte, 0, 7#16⟩, ⟨Op.end_.toByte, 0, 0⟩], [], [], [], none⟩, ?_, rfl, ?_⟩
  · rcases ho with rfl | rfl | rfl | rfl <;> decide +kernel
  · intro h
    have hl : LabelAt [⟨o.toByte, 0, 7#16⟩, labelMark 7#16, ⟨Op.end_.toByte, 0, 0⟩] 7#16 1 := by
      refine ⟨rfl, ?_⟩
      intro j hj
      obtain rfl : j = 0 := by omega
      rcases ho with rfl | rfl | rfl | rfl <;> decide
    have := resolved_label (o := o) h rfl (by rcases ho with rfl | rfl | rfl | rfl <;> rfl) hl
    rcases ho with rfl | rfl | rfl | rfl <;> exact absurd this (by decide)

end Pas
