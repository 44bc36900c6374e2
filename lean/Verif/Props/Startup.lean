import Verif.Lemmas.Ok
import Verif.Spec.Startup
import Verif.Props.Frames

/-! Property C10: the memory map after start-up. -/
namespace Pas
open Spec

theorem initializeHeap_mods (s : VM) (h16 : s.hpb.toNat % 16 = 0)
    (hw : 2 * s.words = s.hpb.toNat + s.hpSize.toNat) (hlt : s.hpb.toNat + s.hpSize.toNat < 65536) :
    ∃ m f, Heap.initializeHeap s = .ok { s with mem := m, freeChunks := f } ∧
      ∀ i < s.hpb.toNat / 2, m i = s.mem i := by
  by_cases hp : s.hpSize.toNat > 32
  · have hs : Heap.heapStart s = s.hpb.toNat := by
      unfold Heap.heapStart Heap.alignUp; omega
    generalize hhe : Heap.alignDown (s.hpb.toNat + s.hpSize.toNat) % 65536 = he
    have h1 : he ≤ s.hpb.toNat + s.hpSize.toNat ∧ s.hpb.toNat + 32 ≤ he ∧ he % 16 = 0 := by
      unfold Heap.alignDown at hhe; omega
    have key : (Heap.initializeHeap s).Ok
        (fun s' => ∃ s1, ModsFrom (s.hpb.toNat / 2) s s1 ∧
          s' = { s1 with freeChunks := some s.hpb.toNat }) := by
      unfold Heap.initializeHeap
      rw [if_pos hp]
      simp only [hs, hhe]
      rw [if_neg (by omega)]
      have lo := ModsFrom.refl (s.hpb.toNat / 2) s
      refine (zero_mods lo (by omega) (by omega) (by omega)).bind fun s1 k1 => ?_
      refine (wrF_mods k1 (by omega) (by omega) (by omega)).bind fun s2 k2 => ?_
      refine (setUse_mods k2 (by omega) (by omega) (by omega)).bind fun s3 k3 => ?_
      refine (setBack_mods k3 (by omega) (by omega) (by omega)).bind fun s4 k4 => ?_
      refine (zero_mods k4 (by omega) (by omega) (by omega)).bind fun s5 k5 => ?_
      refine (setFwd_mods k5 (by omega) (by omega) (by omega)).bind fun s6 k6 => ?_
      exact ⟨_, rfl, s6, k6, rfl⟩
    obtain ⟨s', e, s1, ⟨m, rfl, hm⟩, rfl⟩ := key
    exact ⟨m, _, e, hm⟩
  · exact ⟨s.mem, s.freeChunks, by rw [Heap.initializeHeap, if_neg hp]; rfl, fun _ _ => rfl⟩

theorem ofNat_toNat16 {n : Nat} (h : n < 65536) : (BitVec.ofNat 16 n).toNat = n := by
  rw [BitVec.toNat_ofNat]; omega

/-- **C10** (memory map): for every program whose string size is even, whose sizes fit the
16-bit address space and whose heap base is a multiple of 16 (or that has no usable heap),
start-up succeeds, the regions are disjoint, consecutive and large enough, the constants are
where the constant base points, and the machine is in the state of a fresh main program.
The three restrictions are needed, see the `C10_violation` theorems. -/
theorem C10_startup_partial (a : Attr) (m0 : Nat → Word) (files : HostFile → Option (List Byte))
    (hstr : a.strSize.toNat % 2 = 0)
    (hsum : heapBase a + even a.hpSize.toNat < 65536)
    (hstk : 10 ≤ a.stkSize.toNat)
    (hheap : a.hpSize.toNat ≤ 32 ∨ heapBase a % 16 = 0) :
    ∃ s, startUp a m0 files = .ok s ∧ MemoryMap a s ∧ ConstantsReadable a s ∧ Fresh s ∧
      StandardFiles files s := by
  unfold heapBase even at hsum
  unfold heapBase even at hheap
  unfold startUp
  have e1 : intAlignUp a.strSize.toNat = a.strSize.toNat := by unfold intAlignUp; omega
  have e2 : intAlignUp a.rodata.length = (a.rodata.length + 1) / 2 * 2 := by
    unfold intAlignUp; omega
  have e3 : intAlignUp a.stkSize.toNat = (a.stkSize.toNat + 1) / 2 * 2 := by
    unfold intAlignUp; omega
  have e4 : intAlignUp a.hpSize.toNat = (a.hpSize.toNat + 1) / 2 * 2 := by
    unfold intAlignUp; omega
  simp only [e1, e2, e3, e4]
  generalize hro : (a.rodata.length + 1) / 2 * 2 = ro at *
  generalize hst : (a.stkSize.toNat + 1) / 2 * 2 = st at *
  generalize hhp : (a.hpSize.toNat + 1) / 2 * 2 = hp at *
  have hstr2 : (a.strSize.toNat + 1) / 2 * 2 = a.strSize.toNat := by omega
  rw [hstr2] at hsum hheap
  have es : (a.strSize.toNat + ro + st + hp) % 65536 = a.strSize.toNat + ro + st + hp := by omega
  simp only [es]
  obtain ⟨m1, c1, c2, c3⟩ := copyIn_spec a.rodata
    { mem := m0, words := (a.strSize.toNat + ro + st + hp) / 2, spb := 0#16, sp := 0#16,
      csp := 0#16, hpb := 0#16, hsp := 0#16, fp := 0#16, rop := 0#16, pc := 0#16, lsp := 0#16,
      strSize := BitVec.ofNat 16 a.strSize.toNat, roSize := BitVec.ofNat 16 ro,
      stkSize := BitVec.ofNat 16 st, hpSize := BitVec.ofNat 16 hp, freeChunks := none,
      io := { Io.empty with files := files } }
    a.strSize.toNat (by show _ ≤ 2 * ((a.strSize.toNat + ro + st + hp) / 2); omega)
  rw [c1]
  simp only [Res.ok_bind]
  unfold reset
  have b1 : (BitVec.ofNat 16 a.strSize.toNat + BitVec.ofNat 16 ro).toNat =
      a.strSize.toNat + ro := by
    rw [BitVec.toNat_add, ofNat_toNat16 (by omega), ofNat_toNat16 (by omega)]; omega
  have b2 : (BitVec.ofNat 16 a.strSize.toNat + BitVec.ofNat 16 ro + BitVec.ofNat 16 st).toNat =
      a.strSize.toNat + ro + st := by
    rw [BitVec.toNat_add, b1, ofNat_toNat16 (by omega)]; omega
  have b3 : (BitVec.ofNat 16 a.strSize.toNat + BitVec.ofNat 16 ro + 10#16).toNat =
      a.strSize.toNat + ro + 10 := by
    rw [BitVec.toNat_add, b1]; simp; omega
  simp only [b1]
  have lt : ∀ k < 5, (a.strSize.toNat + ro) / 2 + k < (a.strSize.toNat + ro + st + hp) / 2 := by
    intro k hk; omega
  rw [VM.wr_eq _ _ (lt 0 (by omega))]
  simp only [Res.ok_bind]
  rw [VM.wr_eq _ _ (lt 1 (by omega))]
  simp only [Res.ok_bind]
  rw [VM.wr_eq _ _ (lt 2 (by omega))]
  simp only [Res.ok_bind]
  rw [VM.wr_eq _ _ (lt 3 (by omega))]
  simp only [Res.ok_bind]
  rw [VM.wr_eq _ _ (lt 4 (by omega))]
  simp only [Res.ok_bind]
  generalize hm2 : updW (updW (updW (updW (updW m1 ((a.strSize.toNat + ro) / 2) 0#16)
    ((a.strSize.toNat + ro) / 2 + 1) 65535#16) ((a.strSize.toNat + ro) / 2 + 2) 0#16)
    ((a.strSize.toNat + ro) / 2 + 3) 0#16) ((a.strSize.toNat + ro) / 2 + 4) 0#16 = m2
  have m2lo : ∀ i < (a.strSize.toNat + ro) / 2, m2 i = m1 i := by
    intro i hi
    rw [← hm2, updW_other _ _ (by omega), updW_other _ _ (by omega), updW_other _ _ (by omega),
      updW_other _ _ (by omega), updW_other _ _ (by omega)]
  have m2lev : m2 ((a.strSize.toNat + ro) / 2 + 4) = 0#16 := by rw [← hm2, updW_same]
  generalize hsv : (
    { mem := m2, words := (a.strSize.toNat + ro + st + hp) / 2,
      spb := BitVec.ofNat 16 a.strSize.toNat + BitVec.ofNat 16 ro + 10#16,
      sp := BitVec.ofNat 16 a.strSize.toNat + BitVec.ofNat 16 ro + 10#16, csp := 0#16,
      hpb := BitVec.ofNat 16 a.strSize.toNat + BitVec.ofNat 16 ro + BitVec.ofNat 16 st,
      hsp := BitVec.ofNat 16 a.strSize.toNat + BitVec.ofNat 16 ro + BitVec.ofNat 16 st,
      fp := BitVec.ofNat 16 a.strSize.toNat + BitVec.ofNat 16 ro,
      rop := BitVec.ofNat 16 a.strSize.toNat, pc := a.entry, lsp := 0#16,
      strSize := BitVec.ofNat 16 a.strSize.toNat, roSize := BitVec.ofNat 16 ro,
      stkSize := BitVec.ofNat 16 st, hpSize := BitVec.ofNat 16 hp, freeChunks := none,
      io := Io.initializeFile { Io.empty with files := files } } : VM) = sv
  have fin : ∃ m f, Heap.initializeHeap sv = .ok { sv with mem := m, freeChunks := f } ∧
      ∀ i < (a.strSize.toNat + ro + st) / 2, m i = m2 i := by
    rcases hheap with h | h
    · have : ¬ (sv.hpSize.toNat > 32) := by
        rw [← hsv]; show ¬ ((BitVec.ofNat 16 hp).toNat > 32)
        rw [ofNat_toNat16 (by omega)]; omega
      refine ⟨sv.mem, sv.freeChunks, by rw [Heap.initializeHeap, if_neg this]; rfl, ?_⟩
      intro i _; rw [← hsv]
    · have hb : sv.hpb.toNat = a.strSize.toNat + ro + st := by rw [← hsv]; exact b2
      have hz : sv.hpSize.toNat = hp := by rw [← hsv]; exact ofNat_toNat16 (by omega)
      have hwd : sv.words = (a.strSize.toNat + ro + st + hp) / 2 := by rw [← hsv]
      obtain ⟨m, f, g1, g2⟩ := initializeHeap_mods sv (by rw [hb]; omega)
        (by rw [hb, hz, hwd]; omega) (by rw [hb, hz]; omega)
      refine ⟨m, f, g1, fun i hi => ?_⟩
      rw [g2 i (by rw [hb]; omega), ← hsv]
  obtain ⟨m, f, f1, f2⟩ := fin
  refine ⟨_, f1, ?_, ?_, ?_, ?_⟩
  · subst hsv
    have b0 : (BitVec.ofNat 16 a.strSize.toNat).toNat = a.strSize.toNat :=
      ofNat_toNat16 (by omega)
    refine ⟨?_, ?_, ?_, ?_, ?_, ?_, ?_, rfl, rfl, rfl, rfl⟩
    · show _ ≤ (BitVec.ofNat 16 a.strSize.toNat).toNat; omega
    · show (BitVec.ofNat 16 a.strSize.toNat).toNat + _ ≤
        (BitVec.ofNat 16 a.strSize.toNat + BitVec.ofNat 16 ro).toNat
      omega
    · show (BitVec.ofNat 16 a.strSize.toNat + BitVec.ofNat 16 ro + 10#16).toNat =
        (BitVec.ofNat 16 a.strSize.toNat + BitVec.ofNat 16 ro).toNat + 10
      omega
    · show (BitVec.ofNat 16 a.strSize.toNat + BitVec.ofNat 16 ro).toNat + _ ≤
        (BitVec.ofNat 16 a.strSize.toNat + BitVec.ofNat 16 ro + BitVec.ofNat 16 st).toNat
      omega
    · show (BitVec.ofNat 16 a.strSize.toNat + BitVec.ofNat 16 ro + BitVec.ofNat 16 st).toNat + _ ≤
        2 * ((a.strSize.toNat + ro + st + hp) / 2)
      omega
    · show (BitVec.ofNat 16 a.strSize.toNat + BitVec.ofNat 16 ro).toNat % 2 = 0
      omega
    · show 2 * ((a.strSize.toNat + ro + st + hp) / 2) = heapBase a + even a.hpSize.toNat
      unfold heapBase even
      omega
  · subst hsv
    intro k hk
    show byte m ((BitVec.ofNat 16 a.strSize.toNat).toNat + k) = _
    rw [ofNat_toNat16 (by omega), ← c2 k hk]
    unfold byte
    rw [f2 _ (by omega), m2lo _ (by omega)]
  · subst hsv
    refine ⟨?_, ?_, ?_⟩
    · show m ((BitVec.ofNat 16 a.strSize.toNat + BitVec.ofNat 16 ro).toNat / 2 + 4) = 0#16
      rw [b1, f2 _ (by omega), m2lev]
    · show (BitVec.ofNat 16 a.strSize.toNat + BitVec.ofNat 16 ro).toNat / 2 + 4 ≤
        (BitVec.ofNat 16 a.strSize.toNat + BitVec.ofNat 16 ro + 10#16).toNat / 2
      omega
    · show (BitVec.ofNat 16 a.strSize.toNat + BitVec.ofNat 16 ro).toNat / 2 + 4 <
        (a.strSize.toNat + ro + st + hp) / 2
      omega
  · subst hsv
    exact ⟨⟨rfl, rfl, rfl, rfl⟩, ⟨rfl, rfl, rfl⟩,
      fun n hn => by
        have : (Io.initializeFile { Io.empty with files := files }).table n = FileEntry.zero := by
          simp only [Io.initializeFile, if_neg (show ¬ n = 0 by omega), if_neg (show ¬ n = 1 by omega)]
        exact ⟨congrArg FileEntry.inUse this, congrArg FileEntry.stream this⟩, rfl⟩

/-- **C10** (constants): in a state with the memory map above, `LAC k` pushes an address at
which the constant byte `k` is found. -/
theorem C10_lac (lib : Lib) (code : List Byte) (maxpc : Word) (a : Attr) (s : VM) (k : Word)
    (hm : MemoryMap a s) (hc : ConstantsReadable a s) (hk : k.toNat < a.rodata.length)
    (hroom : s.sp.toNat + 2 < s.hpb.toNat) (hin : s.hpb.toNat ≤ 2 * s.words)
    (hi : Insn code maxpc s .lac 0 k) :
    ∃ s', execute lib code maxpc s = .ok (eNOERROR, s') ∧ Loads s s' 0 1 3 ∧
      byte s'.mem (opnd s' 0).toNat = a.rodata[k.toNat] := by
  obtain ⟨b1, b0, h1, h2, rfl⟩ := operand16_append (hi.arg16 (by decide))
  have hsp := hm.stackEmpty
  have hfr := hm.frame
  have hlt := s.sp.isLt
  have hcc := hm.constants
  have hhb := s.hpb.isLt
  rw [execute_24 (at_of_next hi.next) (by decide) (by decide) h1 h2, pexec24]
  have ht : s.top = s.sp.toNat / 2 := rfl
  rw [VM.push_eq _ _ (by rw [ht]; omega) (by rw [ht]; omega)]
  refine ⟨_, rfl, ⟨rfl, ?_, rfl, ?_⟩, ?_⟩
  · show (s.sp + 2#16).toNat + 2 * 0 = _; bv_omega
  · intro i hi
    exact updW_other _ _ (by rw [ht]; omega)
  · unfold opnd
    have : (s.sp + 2#16).toNat / 2 = s.top + 1 := VM.add2_div _ (by omega)
    show byte (updW s.mem (s.top + 1) ((b1 ++ b0) + s.rop))
      (updW s.mem (s.top + 1) ((b1 ++ b0) + s.rop) ((s.sp + 2#16).toNat / 2 - 0)).toNat = _
    rw [Nat.sub_zero, this, updW_same]
    have hadd : ((b1 ++ b0) + s.rop).toNat = s.rop.toNat + (b1 ++ b0).toNat := by
      rw [BitVec.toNat_add]
      have := s.fp.isLt
      omega
    rw [hadd, ← hc _ hk]
    unfold byte
    rw [hsp] at ht
    rw [updW_other _ _ (by omega)]

/-- Non-vacuity: a program with 4 bytes of string space, 3 constant bytes, 24 bytes of stack
and a 64-byte heap satisfies the hypotheses of `C10_startup_partial`. -/
example : let a : Attr := ⟨0#16, [1, 2, 3], 4#16, 24#16, 64#16⟩
    a.strSize.toNat % 2 = 0 ∧ heapBase a + even a.hpSize.toNat < 65536 ∧ 10 ≤ a.stkSize.toNat ∧
      (a.hpSize.toNat ≤ 32 ∨ heapBase a % 16 = 0) := by decide

/-- The code disagrees (odd string size): the constants are copied to the unrounded offset
but addressed from the rounded one, so constant 0 is read as constant 1. -/
theorem C10_violation_odd_strings : ∃ (a : Attr) (m0 : Nat → Word) (s : VM),
    startUp a m0 = .ok s ∧ ¬ ConstantsReadable a s :=
  ⟨⟨0#16, [1, 2, 3, 4], 3#16, 24#16, 0#16⟩, fun _ => 0#16, _, rfl, fun h =>
    absurd (h 0 (by decide)) (by decide)⟩

/-- The code disagrees (large sizes): the 16-bit sum of the sizes wraps, the memory is too
small, and start-up writes outside it. -/
theorem C10_violation_wrap : ∃ (a : Attr) (m0 : Nat → Word), startUp a m0 = .ub :=
  ⟨⟨0#16, [], 32768#16, 32768#16, 0#16⟩, fun _ => 0#16, rfl⟩

/-- The code disagrees (unaligned heap base): the terminating heap block is placed beyond the
end of the memory. -/
theorem C10_violation_heap : ∃ (a : Attr) (m0 : Nat → Word), startUp a m0 = .ub :=
  ⟨⟨0#16, [], 0#16, 18#16, 64#16⟩, fun _ => 0#16, rfl⟩

end Pas
