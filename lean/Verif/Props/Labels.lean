import Verif.Lemmas.Labels

/-! Property C34: finalization resolves labels. -/
namespace Pas
open Spec

theorem noLabel_or {p : List OpType} {L : Word} : (∃ k, LabelAt p L k) ∨ NoLabel p L := by
  by_cases h : ∃ k : Nat, p[k]? = some (labelMark L)
  · left
    obtain ⟨k, hk⟩ := h
    induction k using Nat.strongRecOn with
    | _ k ih =>
      by_cases hj : ∃ j < k, p[j]? = some (labelMark L)
      · obtain ⟨j, hj, hjs⟩ := hj
        exact ih j hj hjs
      · exact ⟨k, hk, fun j hlt e => hj ⟨j, hlt, e⟩⟩
  · exact .inr fun k e => h ⟨k, e⟩

theorem program_kind {o : Op} (h : operandKind o = .program) (hu : ¬ UnsignedJump o) :
    o = .pcal ∨ pass3Jump o = true := by
  cases o <;> first | (exact .inl rfl) | (exact .inr rfl) | (exact absurd h (by decide)) |
    (exact absurd (by simp [UnsignedJump]) hu)

theorem kind_program {o : Op} (h : o = .pcal ∨ pass3Jump o = true) : operandKind o = .program := by
  rcases h with rfl | h
  · rfl
  · cases o <;> first | rfl | (exact absurd h (by decide))

/-- **C34** (partial: programs without jumps on unsigned comparisons).  Finalizing a program
whose labels are all defined (or imported, for calls) succeeds and gives a program `q` that
consists of exactly the instructions of the original in the original order, without the marks,
each label operand replaced by the address of the instruction that follows the label and every
other operand unchanged.  Exported symbols and the entry point are replaced the same way, the
relocations move with their instructions, calls of imported procedures get a relocation, and
each LINE mark gives a line table entry with the address of the instruction after it. -/
theorem C34_finalize_partial (f : ObjFile) (p : List OpType) (tail : List Byte)
    (rs : List RelocAt) (hprog : f.prog = encode p ++ tail) (hw : ∀ i ∈ p, WellFormed i)
    (he : EndsOnce p) (hend : p.getLast?.map (·.op) = some Op.end_.toByte)
    (hu : ∀ i ∈ p, ∀ o : Op, o.toByte = i.op → ¬ UnsignedJump o)
    (hlabels : LabelsOk p f.syms) (hsyms : SymsOk p f.syms)
    (hentry : ∀ e, f.entry = some e → ∃ L k, L.toNat = e ∧ LabelAt p L k)
    (hrels : f.rels = rs.map fun r => ⟨r.sym, r.kind, startOf p r.pos⟩) (hrs : RelocsOk p rs) :
    ∃ f' q new, finalize f = .ok (some f') ∧ f'.prog = encode q ∧
      Pointwise (Resolved p f.syms) (realOps p) q ∧
      Pointwise (SymResolved p) f.syms f'.syms ∧
      f'.rels = (rs.map fun r => ⟨r.sym, r.kind, addrOf p r.pos⟩) ++ new ∧
      (∀ r, r ∈ new ↔ CallReloc p f.syms q r) ∧
      f'.lines = f.lines ++ lineTable p ∧
      (f.entry = none → f'.entry = none) ∧
      (∀ L k, f.entry = some L.toNat → LabelAt p L k → f'.entry = some (addrOf p k)) := by
  have h1 := pass1_eq p hw he hend tail (f.prog.length + 1)
    (by rw [hprog, List.length_append]; have := length_le_encode p; omega) 0 0 [] [] f.lines rs []
    (Nat.le_refl _) hrs.1 (fun _ _ => Nat.zero_le _) hrs.2
  have hin : relsIn p rs 0 0 = f.rels := by
    rw [hrels, relsIn]; simp only [Nat.zero_add, Nat.sub_zero]
  have hout : relsOut p rs 0 0 = rs.map fun r => ⟨r.sym, r.kind, addrOf p r.pos⟩ := by
    rw [relsOut]; simp only [Nat.zero_add, Nat.sub_zero]
  rw [hin] at h1
  simp only [List.nil_append, List.length_nil, hout, linesFrom_zero] at h1
  obtain ⟨syms', h2, hs2⟩ := pass2_eq p hw f.syms 0 hsyms
  obtain ⟨he', hend'⟩ := realOps_last he hend
  have hmem : ∀ i ∈ realOps p, i ∈ p := fun i hi => (List.mem_filter.mp hi).1
  have hl : ∀ i ∈ realOps p, ∀ o : Op, o.toByte = i.op → o = .pcal ∨ pass3Jump o = true →
      (∃ v, findLabel (labelTable p 0) i.arg2.toNat = some v) ∨
      o = .pcal ∧ findLabel (labelTable p 0) i.arg2.toNat = none ∧
        ∃ v, findLabel (undefTable f.syms 0) i.arg2.toNat = some v := by
    intro i hi o ho hk
    rcases hlabels i (hmem i hi) o ho (kind_program hk) with ⟨k, hk⟩ | ⟨hp, hn, idx, hx⟩
    · exact .inl ⟨_, find_labelTable p hw 0 _ hk⟩
    · exact .inr ⟨hp, find_noLabel p hw 0 _ hn, _, find_undef f.syms _ 0 idx hx⟩
  have h3 := pass3_eq (labelTable p 0) (undefTable f.syms 0) (realOps p)
    (fun i hi => hw i (hmem i hi)) he' hend' hl ((encode (realOps p)).length + 1)
    (by have := length_le_encode (realOps p); omega) 0 []
    (rs.map fun r => ⟨r.sym, r.kind, addrOf p r.pos⟩)
  have hres : Pointwise (Resolved p f.syms) (realOps p)
      ((realOps p).map (fin3 (labelTable p 0))) := by
    apply pointwise_map
    intro i hi
    obtain ⟨o, ho⟩ := (hw i (hmem i hi)).known
    rw [fin3, show Op.ofByte i.op = some o by rw [← ho, Op.ofByte_toByte]]
    simp only
    split
    · next hk =>
      rcases hlabels i (hmem i hi) o ho (kind_program hk) with ⟨k, hk'⟩ | ⟨hp, hn, idx, hx⟩
      · rw [find_labelTable p hw 0 _ hk', Nat.zero_add]
        exact .label ho (kind_program hk) hk'
      · rw [find_noLabel p hw 0 _ hn]
        exact .extern (by rw [← ho, hp]) hn hx
    · next hk =>
      exact .other ho fun hc => hk (program_kind hc (hu i (hmem i hi) o ho))
  have hnew : ∀ r, r ∈ gens (labelTable p 0) (undefTable f.syms 0) (realOps p) 0 ↔
      CallReloc p f.syms ((realOps p).map (fin3 (labelTable p 0))) r := by
    intro r
    rw [mem_gens]
    constructor
    · rintro ⟨j, i, idx, h1, h2, h3⟩
      rw [imp3] at h2
      split at h2
      · next hp =>
        rcases noLabel_or (p := p) (L := i.arg2) with ⟨k, hk⟩ | hn
        · rw [find_labelTable p hw 0 _ hk] at h2; cases h2
        · rw [find_noLabel p hw 0 _ hn] at h2
          obtain ⟨idx', e, hx⟩ := undef_find _ _ _ _ h2
          refine ⟨j, i, idx, h1, hp, hn, ?_, ?_⟩
          · rw [e, Nat.zero_add]; exact hx
          · rw [h3, startOf_map, Nat.zero_add]
      · cases h2
    · rintro ⟨j, i, idx, h1, hp, hn, hx, h3⟩
      refine ⟨j, i, idx, h1, ?_, ?_⟩
      · rw [imp3, if_pos hp, find_noLabel p hw 0 _ hn, find_undef _ _ 0 _ hx, Nat.zero_add]
      · rw [h3, startOf_map, Nat.zero_add]
  unfold finalize
  rw [show openReader f.prog = ⟨encode p ++ tail, false⟩ by rw [hprog]; rfl, h1]
  simp only [Res.ok_bind, h2]
  rw [show openReader (encode (realOps p)) = ⟨encode (realOps p), false⟩ from rfl, h3]
  simp only [Res.ok_bind, List.nil_append]
  cases hent : f.entry with
  | none =>
    exact ⟨_, _, _, rfl, rfl, hres, hs2, rfl, hnew, rfl, fun _ => rfl, by simp⟩
  | some e =>
    obtain ⟨L, k, hL, hk⟩ := hentry e hent
    have hfe := find_labelTable p hw 0 L hk
    rw [hL, Nat.zero_add] at hfe
    simp only [hfe]
    refine ⟨_, _, _, rfl, rfl, hres, hs2, rfl, hnew, rfl, by simp, ?_⟩
    intro L' k' h' hk'
    have : L' = L := BitVec.eq_of_toNat_eq (by rw [hL]; exact (Option.some.inj h').symm)
    subst this
    have := find_labelTable p hw 0 L' hk'
    rw [hL, hfe, Nat.zero_add] at this
    exact this

end Pas
