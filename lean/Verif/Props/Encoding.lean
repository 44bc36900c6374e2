import Verif.Lemmas.Encoding

/-! Properties C28 (encoding) and C29 (relocation). -/
namespace Pas
open Spec

/-! ### C28 -/

/-- A small program: PUSH 300; PUSHB 7; ADD; STS 1,-2; JMP 0; END. -/
def sampleProg : List OpType :=
  [⟨Op.push.toByte, 0, 300⟩, ⟨Op.pushb.toByte, 7, 0⟩, ⟨Op.add.toByte, 0, 0⟩,
   ⟨Op.sts.toByte, 1, 0xfffe⟩, ⟨Op.jmp.toByte, 0, 0⟩, ⟨Op.end_.toByte, 0, 0⟩]

theorem wf_of (o : Op) {a1 : Byte} {a2 : Word} (h8 : hasArg8 o.toByte = false → a1 = 0)
    (h16 : hasArg16 o.toByte = false → a2 = 0) : WellFormed ⟨o.toByte, a1, a2⟩ :=
  ⟨⟨o, rfl⟩, h8, h16⟩

theorem sampleProg_wf : ∀ i ∈ sampleProg, WellFormed i := by
  intro i hi
  simp only [sampleProg, List.mem_cons, List.not_mem_nil, or_false] at hi
  rcases hi with rfl | rfl | rfl | rfl | rfl | rfl
  all_goals exact wf_of _ (by decide) (by decide)

theorem sampleProg_ends : EndsOnce sampleProg := by
  intro i hi
  revert i
  decide

/-- **C28**: the sizes reported while writing instructions add up to the number of bytes
written, and what was already written stays. -/
theorem C28_sizes (l : List OpType) (out : List Byte) :
    ∃ bytes, (emitAll l out).1 = out ++ bytes ∧ (emitAll l out).2 = bytes.length ∧
      bytes.length = (l.map byteSize).sum := by
  refine ⟨encode l, ?_, ?_, encode_length l⟩
  · rw [emitAll_eq, encode_eq]
  · rw [emitAll_eq, encode_length]

theorem readN_encode (l : List OpType) (hw : ∀ i ∈ l, WellFormed i) (he : EndsOnce l)
    (tail : List Byte) :
    (readN getOpCode l.length (openReader (encode l ++ tail))).1 = l.map (fun i => (i, byteSize i)) ∧
    (readN getOpCode l.length (openReader (encode l ++ tail))).2.rest = tail := by
  induction l with
  | nil => exact ⟨rfl, rfl⟩
  | cons i l ih =>
    have hi := hw i (by simp)
    rw [encode_cons, openReader, List.append_assoc, List.length_cons, readN, getOpCode_bytes hi]
    cases l with
    | nil => exact ⟨rfl, rfl⟩
    | cons j l =>
      have hb : (i.op == Op.end_.toByte) = false := by simpa using he i (by simp)
      rw [hb]
      have := ih (fun x hx => hw x (by simp [hx]))
        (fun x hx => he x (by rw [List.dropLast_cons_cons]; exact List.mem_cons_of_mem _ hx))
      rw [openReader] at this
      exact ⟨congrArg _ this.1, this.2⟩

/-- **C28**: reading back the bytes written for any list of instructions (END only at the end)
gives exactly those instructions, each with its own number of bytes, consuming exactly the bytes
written for them. -/
theorem C28_roundtrip (l : List OpType) (hw : ∀ i ∈ l, WellFormed i) (he : EndsOnce l)
    (tail : List Byte) :
    (readN getOpCode l.length (openReader (encode l ++ tail))).1 = l.map (fun i => (i, byteSize i)) ∧
    (readN getOpCode l.length (openReader (encode l ++ tail))).2.rest = tail :=
  readN_encode l hw he tail

example : (readN getOpCode 6 (openReader (encode sampleProg))).1 =
    sampleProg.map (fun i => (i, byteSize i)) := by
  have := (C28_roundtrip sampleProg sampleProg_wf sampleProg_ends []).1
  rwa [List.append_nil] at this

/-- **C28**: at the end of the bytes the reader delivers END for ever. -/
theorem C28_eof (r : Reader) (h : r.rest = [] ∨ r.endIn = true) :
    getOpCode r = (⟨Op.end_.toByte, 0, 0⟩, 1, r) := by
  obtain ⟨rest, e⟩ := r
  cases e
  · rcases h with h | h
    · cases h; rfl
    · cases h
  · rfl

/-- **C28**: the virtual machine positioned at the start of instruction number `n` of a program
that is stored between any other bytes sees exactly that instruction with its operands. -/
theorem C28_machine (l : List OpType) (pre post : List Byte) (n : Nat) (h : n < l.length)
    (o : Op) (ho : o.toByte = l[n].op) (maxpc : Word) (s : VM)
    (hs : s.pc.toNat = pre.length + startOf l n) (hm : s.pc.toNat < maxpc.toNat) :
    Insn (pre ++ encode l ++ post) maxpc s o l[n].arg1 l[n].arg2 :=
  insn_at h pre post maxpc s hs hm ho

example : Insn ([0#8] ++ encode sampleProg ++ []) 100#16 (sampleVM 7#16) .sts 1#8 0xfffe#16 :=
  C28_machine sampleProg [0#8] [] 3 (by decide) .sts rfl 100#16 (sampleVM 7#16) (by decide)
    (by decide)

/-- **C28**: an instruction that reports no error and is not a jump, call, return or
exit leaves the program counter at the byte after the instruction, that is at the start of the
next one (for any library routines that do not touch the program counter). -/
theorem C28_advance (lib : Lib) (hl : lib.NoPc) (l : List OpType) (pre post : List Byte) (n : Nat)
    (h : n < l.length) (o : Op) (ho : o.toByte = l[n].op) (maxpc : Word) (s s' : VM)
    (hs : s.pc.toNat = pre.length + startOf l n) (hm : s.pc.toNat < maxpc.toNat)
    (hfit : pre.length + (encode l).length < 65536)
    (hk : operandKind o ≠ .program) (hr : o ≠ .ret) (h24 : o ≠ .longop24)
    (hx : execute lib (pre ++ encode l ++ post) maxpc s = .ok (eNOERROR, s')) :
    s'.pc.toNat = pre.length + startOf l (n + 1) := by
  have hi := insn_at h pre post maxpc s hs hm ho
  have hp : o ≠ .pcal := by rintro rfl; exact hk rfl
  have e0 : shift 0 0 s = s := by simp [shift]
  have hma : movedArg 0 0 l[n].arg2 o = l[n].arg2 := by
    cases o <;> simp [movedArg]
  obtain ⟨sz, hsz, hout⟩ := step_shift hl (k := 0) (ro := 0) ⟨hp, hr, h24⟩ hi
    (by rw [e0, hma]; exact hi)
  rw [e0, hx] at hout
  have hj : isJump o = false := by
    cases hj : isJump o
    · rfl
    · exact absurd (isJump_iff o hp hj) hk
  rw [hj] at hout
  have hpc : s'.pc = s.pc + BitVec.ofNat 16 sz := by
    rcases hout.2.2 rfl with e | e <;> exact e
  have := hsz l[n] ho.symm
  have hst := startOf_succ h
  have hle := startOf_le l (n + 1)
  rw [encode_length] at hfit
  rw [hpc, BitVec.toNat_add, BitVec.toNat_ofNat]
  omega

/-- Library routines that do nothing. -/
def idleLib : Lib where
  floatOps s _ := .ok (eNOERROR, s)
  setOps s _ := .ok (eNOERROR, s)
  osOps s _ := .ok (eNOERROR, s)
  longOps8 s _ := .ok (eNOERROR, s)
  longOps24 s _ _ := .ok (eNOERROR, s)
  strOps s _ := .ok (eNOERROR, s)
  sysIo s _ := .ok (eNOERROR, s)

theorem idleLib_noPc : idleLib.NoPc where
  float _ _ _ _ := Out_to rfl fun _ => .inl rfl
  set _ _ _ _ := Out_to rfl fun _ => .inl rfl
  os _ _ _ _ := Out_to rfl fun _ => .inl rfl
  long _ _ _ _ := Out_to rfl fun _ => .inl rfl
  str _ _ _ _ := Out_to rfl fun _ => .inl rfl
  io _ _ _ _ := Out_to rfl fun _ => .inl rfl

example (s' : VM) (hx : execute idleLib ([] ++ encode sampleProg ++ []) 14#16 (sampleVM 0#16) =
    .ok (eNOERROR, s')) : s'.pc.toNat = 3 :=
  C28_advance idleLib idleLib_noPc sampleProg [] [] 0 (by decide) .push rfl 14#16 (sampleVM 0#16) s'
    (by decide) (by decide) (by decide) (by decide) (by decide) (by decide) hx

/-- **C28**: the code generator writes, for operands in range, the bytes of the instruction with
exactly these operands, and it reports no error. -/
theorem C28_generate (op : Op) (arg1 : Byte) (arg2 : Word) (sext : Bool) :
    generate op (arg1.setWidth 16) (if sext then arg2.signExtend 32 else arg2.setWidth 32) =
      (true, opBytes ⟨op.toByte, arg1, arg2⟩) := by
  have e2 : (if sext then arg2.signExtend 32 else arg2.setWidth 32).setWidth 16 = arg2 := by
    apply BitVec.eq_of_getLsbD_eq
    intro i hi
    cases sext <;> simp [BitVec.getLsbD_signExtend, hi] <;> omega
  have r2 : -32768 ≤ (if sext then arg2.signExtend 32 else arg2.setWidth 32).toInt ∧
      (if sext then arg2.signExtend 32 else arg2.setWidth 32).toInt ≤ 65535 := by
    have := arg2.isLt
    cases sext
    · simp only [Bool.false_eq_true, if_false]
      rw [BitVec.toInt_setWidth, Int.bmod_def]
      have : (arg2.toNat : Int) < 65536 := by omega
      rw [Int.emod_eq_of_lt (by omega) (by omega), if_pos (by omega)]
      omega
    · simp only [if_true]
      rw [BitVec.toInt_signExtend_of_le (by omega)]
      have h1 := BitVec.le_toInt arg2
      have h2 := BitVec.toInt_lt (x := arg2)
      omega
  have r1 : (arg1.setWidth 16).toNat ≤ 255 := by
    have := arg1.isLt
    rw [BitVec.toNat_setWidth]; omega
  have e1 : (arg1.setWidth 16).setWidth 8 = arg1 := by
    apply BitVec.eq_of_toNat_eq
    simp only [BitVec.toNat_setWidth]
    have := arg1.isLt
    omega
  simp only [generate, e2, e1, r2.1, r2.2, opBytes, decide_true, Bool.and_self, Bool.or_true, r1]

/-- **C28 violated**: the code generator writes a long jump (code 0x84, JEQUZ on 32-bit operands)
to address 2 as four bytes, but a reader takes only two of them for the instruction and
finds another instruction in the operand. -/
theorem C28_violation_long :
    (readN getOpCode 2 (openReader (generateLong 0x84#8 2#32))).1 =
      [(⟨Op.longop24.toByte, 0x84, 0⟩, 2), (⟨Op.nop.toByte, 0, 0⟩, 1)] ∧
    (generateLong 0x84#8 2#32).length = 4 := by
  constructor <;> decide +kernel

/-! ### C29 -/

/-- **C29** (partial: all instructions but the four jumps on unsigned comparisons): relocation
adds the program offset to program addresses, the constant offset to constant addresses, changes
nothing else, and reports the end of the program exactly for END. -/
theorem C29_operand_partial (i : OpType) (o : Op) (ho : o.toByte = i.op) (hu : ¬ UnsignedJump o)
    (pcOffset roOffset : Nat) :
    (relocate i pcOffset roOffset).1 = moved o i pcOffset roOffset ∧
      ((relocate i pcOffset roOffset).2 ≠ 0 ↔ o = .end_) := by
  rw [relocate_moved ho _ _ hu, movedI_of ho]
  refine ⟨rfl, ?_⟩
  by_cases h : o = .end_ <;> simp [h]

example : (relocate ⟨Op.jmp.toByte, 0, 10⟩ 100 7).1 = ⟨Op.jmp.toByte, 0, 110⟩ ∧
    (relocate ⟨Op.lac.toByte, 0, 10⟩ 100 7).1 = ⟨Op.lac.toByte, 0, 17⟩ ∧
    (relocate ⟨Op.push.toByte, 0, 10⟩ 100 7).1 = ⟨Op.push.toByte, 0, 10⟩ := by decide +kernel

/-- **C29 violated** by the jumps on unsigned comparisons: a program that is moved by any
offset other than a multiple of 65536 still jumps to the old address. -/
theorem C29_violation_unsigned (o : Op) (hu : UnsignedJump o) (t : Word) (pcOffset roOffset : Nat)
    (hk : ¬ pcOffset % 65536 = 0) :
    operandKind o = .program ∧ (relocate ⟨o.toByte, 0, t⟩ pcOffset roOffset).1.arg2 = t ∧
      (moved o ⟨o.toByte, 0, t⟩ pcOffset roOffset).arg2 ≠ t := by
  have h : t + BitVec.ofNat 16 pcOffset ≠ t := by
    intro h
    have := congrArg BitVec.toNat h
    rw [BitVec.toNat_add, BitVec.toNat_ofNat] at this
    have := t.isLt
    omega
  rcases hu with rfl | rfl | rfl | rfl <;> exact ⟨rfl, rfl, h⟩

example : (relocate ⟨Op.jult.toByte, 0, 10⟩ 100 7).1 = ⟨Op.jult.toByte, 0, 10⟩ :=
  by decide +kernel

/-- **C29** (partial: no jumps on unsigned comparisons): merging a program into the linked program
always ends and appends exactly the program with its addresses moved; whatever follows END
in the unit is dropped.  The next unit starts after it. -/
theorem C29_merge_partial (l : List OpType) (hw : ∀ i ∈ l, WellFormed i)
    (hu : ∀ i ∈ l, ∀ o : Op, o.toByte = i.op → ¬ UnsignedJump o)
    (he : EndsOnce l) (hend : l.getLast?.map (·.op) = some Op.end_.toByte)
    (tail out : List Byte) (pcOffset roOffset : Nat) :
    mergeProgram (encode l ++ tail) out pcOffset roOffset =
      .ok (out ++ encode (l.map fun i => movedI i pcOffset roOffset),
        pcOffset + (encode l).length) := by
  rw [mergeProgram]
  refine mergeLoop_eq l _ _ hw hu he hend tail _ out _ ?_
  have := length_le_encode l
  rw [List.length_append]
  omega

theorem sampleProg_signed : ∀ i ∈ sampleProg, ∀ o : Op, o.toByte = i.op → ¬ UnsignedJump o := by
  intro i hi o ho hu
  simp only [sampleProg, List.mem_cons, List.not_mem_nil, or_false] at hi
  rcases hu with rfl | rfl | rfl | rfl <;> rcases hi with rfl | rfl | rfl | rfl | rfl | rfl <;>
    exact absurd ho (by decide)

example : mergeProgram (encode sampleProg ++ [1#8]) [9#8] 1 0 =
    .ok ([9#8] ++ encode [⟨Op.push.toByte, 0, 300⟩, ⟨Op.pushb.toByte, 7, 0⟩, ⟨Op.add.toByte, 0, 0⟩,
      ⟨Op.sts.toByte, 1, 0xfffe⟩, ⟨Op.jmp.toByte, 0, 1⟩, ⟨Op.end_.toByte, 0, 0⟩], 15) :=
  C29_merge_partial sampleProg sampleProg_wf sampleProg_signed sampleProg_ends rfl [1#8] [9#8] 1 0

/-- The moved program, run at its new place, does what the original does: one step. -/
theorem step_moved {lib : Lib} (hl : lib.NoPc) {l : List OpType} (hw : ∀ i ∈ l, WellFormed i)
    (hclosed : Closed l) (hmov : ∀ i ∈ l, ∀ o : Op, o.toByte = i.op → Movable o)
    (hend : l.getLast?.map (·.op) = some Op.end_.toByte)
    (pre post : List Byte) (ro : Nat) (maxpc maxpc' : Word)
    (hm : maxpc.toNat = (encode l).length) (hm' : pre.length + (encode l).length ≤ maxpc'.toNat)
    {n : Nat} (hn : n < l.length) {s : VM} (hs : s.pc.toNat = startOf l n) :
    Res.Rel (fun x y => y.1 = x.1 ∧
        y.2 = shift (BitVec.ofNat 16 pre.length) (BitVec.ofNat 16 ro) x.2 ∧
        (x.1 = eNOERROR → ∃ n' < l.length, x.2.pc.toNat = startOf l n'))
      (execute lib (encode l) maxpc s)
      (execute lib (pre ++ encode (l.map fun i => movedI i pre.length ro) ++ post) maxpc'
        (shift (BitVec.ofNat 16 pre.length) (BitVec.ofNat 16 ro) s)) := by
  have hmem : l[n] ∈ l := List.getElem_mem hn
  obtain ⟨o, ho⟩ := (hw _ hmem).known
  have hlt : startOf l n + byteSize l[n] ≤ (encode l).length := by
    rw [← startOf_succ hn, encode_length]; exact startOf_le _ _
  have hpos : 1 ≤ byteSize l[n] := by rw [byteSize]; omega
  have hi := insn_at hn [] [] maxpc s (by simpa using hs) (by omega) ho
  rw [List.nil_append, List.append_nil] at hi
  have hn' : n < (l.map fun i => movedI i pre.length ro).length := by simpa using hn
  have hb16 := maxpc'.isLt
  have hpc' : (shift (BitVec.ofNat 16 pre.length) (BitVec.ofNat 16 ro) s).pc.toNat =
      pre.length + startOf (l.map fun i => movedI i pre.length ro) n := by
    rw [startOf_moved]
    show (s.pc + BitVec.ofNat 16 pre.length).toNat = _
    rw [BitVec.toNat_add, BitVec.toNat_ofNat]
    omega
  have hpcal := (hmov _ hmem o ho).1
  have hma := movedArg_eq pre.length ro l[n] hpcal
  have hget : (l.map fun i => movedI i pre.length ro)[n] = moved o l[n] pre.length ro := by
    rw [List.getElem_map, movedI_of ho]
  have hi' := insn_at hn' pre post maxpc' _ hpc'
    (by rw [hpc', startOf_moved]; omega) (o := o) (by rw [hget, hma.2.2]; exact ho)
  rw [hget, hma.1, hma.2.1] at hi'
  obtain ⟨sz, hsz, hout⟩ := step_shift hl (hmov _ hmem o ho) hi hi'
  have hsz := hsz l[n] ho.symm
  -- END is the last instruction and does not go on
  by_cases hoe : o = .end_
  · subst hoe
    rw [execute_8 (at_of_next hi.next) (by decide) (by decide),
      execute_8 (at_of_next hi'.next) (by decide) (by decide)]
    exact ⟨rfl, rfl, fun h => absurd (show eEXIT = eNOERROR from h) (by decide)⟩
  · have hn1 : n + 1 < l.length := by
      rcases Nat.lt_or_ge (n + 1) l.length with h | h
      · exact h
      · exfalso
        have hlast : l.getLast? = some l[n] := by
          rw [List.getLast?_eq_getElem?, show l.length - 1 = n by omega,
            List.getElem?_eq_getElem hn]
        rw [hlast] at hend
        exact hoe (Op.toByte_inj (ho.trans (Option.some.inj hend)))
    revert hout
    generalize execute lib (encode l) maxpc s = r
    generalize execute lib _ maxpc' _ = r'
    intro hout
    cases r <;> cases r' <;> try first | exact hout | exact hout.elim
    obtain ⟨h1, h2, h3⟩ := hout
    refine ⟨h1, h2, fun e => ?_⟩
    have hnext : ∀ p : Word, p = s.pc + BitVec.ofNat 16 sz →
        ∃ n' < l.length, p.toNat = startOf l n' := by
      rintro p rfl
      refine ⟨n + 1, hn1, ?_⟩
      rw [startOf_succ hn, BitVec.toNat_add, BitVec.toNat_ofNat]
      have := maxpc.isLt
      omega
    rcases h3 e with hp | hp
    · exact hnext _ hp
    · cases hj : isJump o
      · rw [hj] at hp; exact hnext _ hp
      · rw [hj] at hp
        obtain ⟨n', hn', e'⟩ := hclosed _ hmem o ho (isJump_iff o hpcal hj)
        refine ⟨n', hn', ?_⟩
        rw [hp]; exact e'

/-- **C29** (partial: programs without calls, returns, long jumps and jumps on unsigned
comparisons): a program merged into a linked program behaves there as it does alone at address 0.
Started at any instruction with the program counter moved by the number of bytes in front of it
and the constant area placed `ro` bytes lower, any number of steps gives the same report and the
same machine state, up to those two registers. -/
theorem C29_behaviour_partial (lib : Lib) (hl : lib.NoPc) (l : List OpType)
    (hw : ∀ i ∈ l, WellFormed i) (hu : ∀ i ∈ l, ∀ o : Op, o.toByte = i.op → ¬ UnsignedJump o)
    (he : EndsOnce l) (hend : l.getLast?.map (·.op) = some Op.end_.toByte) (hclosed : Closed l)
    (hmov : ∀ i ∈ l, ∀ o : Op, o.toByte = i.op → o ≠ .pcal ∧ o ≠ .ret ∧ o ≠ .longop24)
    (pre post out : List Byte) (ro pc' : Nat)
    (hmerge : mergeProgram (encode l) pre pre.length ro = .ok (out, pc'))
    (maxpc maxpc' : Word) (hm : maxpc.toNat = (encode l).length) (hm' : pc' ≤ maxpc'.toNat)
    (steps n : Nat) (hn : n < l.length) (s : VM) (hs : s.pc.toNat = startOf l n) :
    Res.Rel (fun x y => y.1 = x.1 ∧
        y.2 = { x.2 with
          pc := x.2.pc + BitVec.ofNat 16 pre.length
          rop := x.2.rop - BitVec.ofNat 16 ro })
      (runFor lib (encode l) maxpc steps s)
      (runFor lib (out ++ post) maxpc' steps
        { s with
          pc := s.pc + BitVec.ofNat 16 pre.length
          rop := s.rop - BitVec.ofNat 16 ro }) := by
  have hmg := C29_merge_partial l hw hu he hend [] pre pre.length ro
  rw [List.append_nil, hmerge] at hmg
  cases hmg
  clear hmerge
  induction steps generalizing n s with
  | zero => exact ⟨rfl, rfl⟩
  | succ k ih =>
    have hstep := step_moved hl hw hclosed hmov hend pre post ro maxpc maxpc' hm hm' hn hs
    rw [runFor, runFor]
    change Res.Rel _ _ (execute lib _ maxpc'
      (shift (BitVec.ofNat 16 pre.length) (BitVec.ofNat 16 ro) s) >>= _)
    revert hstep
    generalize execute lib (encode l) maxpc s = r
    generalize execute lib _ maxpc' _ = r'
    intro hstep
    cases r <;> cases r' <;> try first | exact hstep | exact hstep.elim
    rename_i x y
    obtain ⟨e1, s1⟩ := x
    obtain ⟨e2, s2⟩ := y
    obtain ⟨h1, h2, h3⟩ := hstep
    simp only at h1 h2 h3
    subst h1 h2
    simp only [Res.ok_bind]
    by_cases h0 : e2 = eNOERROR
    · obtain ⟨n', hn', hs'⟩ := h3 h0
      simp only [h0, ne_eq, not_true, if_false]
      exact ih n' hn' s1 hs'
    · simp only [ne_eq, h0, not_false_eq_true, if_true]
      exact ⟨rfl, rfl⟩

/-- PUSHB 7; LAC 4; JMP 2; END: the constant address and the jump are moved. -/
def loopProg : List OpType :=
  [⟨Op.pushb.toByte, 7, 0⟩, ⟨Op.lac.toByte, 0, 4⟩, ⟨Op.jmp.toByte, 0, 2⟩, ⟨Op.end_.toByte, 0, 0⟩]

theorem loopProg_ops : ∀ i ∈ loopProg, ∀ o : Op, o.toByte = i.op →
    o = .pushb ∨ o = .lac ∨ o = .jmp ∨ o = .end_ := by
  intro i hi o ho
  simp only [loopProg, List.mem_cons, List.not_mem_nil, or_false] at hi
  rcases hi with rfl | rfl | rfl | rfl
  · exact .inl (Op.toByte_inj ho)
  · exact .inr (.inl (Op.toByte_inj ho))
  · exact .inr (.inr (.inl (Op.toByte_inj ho)))
  · exact .inr (.inr (.inr (Op.toByte_inj ho)))

/-- `loopProg`, merged behind three other bytes and six bytes of constants, meets the
hypotheses. -/
example (steps : Nat) (s : VM) (hs : s.pc = 0#16) :
    Res.Rel (fun x y => y.1 = x.1 ∧ y.2 = { x.2 with pc := x.2.pc + 3#16, rop := x.2.rop - 6#16 })
      (runFor idleLib (encode loopProg) 9#16 steps s)
      (runFor idleLib ([0#8, 0#8, 0#8] ++ encode [⟨Op.pushb.toByte, 7, 0⟩, ⟨Op.lac.toByte, 0, 10⟩,
          ⟨Op.jmp.toByte, 0, 5⟩, ⟨Op.end_.toByte, 0, 0⟩] ++ [1#8]) 13#16 steps
        { s with pc := s.pc + 3#16, rop := s.rop - 6#16 }) := by
  refine C29_behaviour_partial idleLib idleLib_noPc loopProg ?_ ?_ ?_ rfl ?_ ?_ [0#8, 0#8, 0#8]
    [1#8] _ 6 12 (by decide +kernel) 9#16 13#16 (by decide) (by decide) steps 0 (by decide) s
    (by rw [hs]; decide)
  · intro i hi
    simp only [loopProg, List.mem_cons, List.not_mem_nil, or_false] at hi
    rcases hi with rfl | rfl | rfl | rfl
    all_goals exact wf_of _ (by decide) (by decide)
  · intro i hi o ho hu
    rcases loopProg_ops i hi o ho with rfl | rfl | rfl | rfl <;> simp [UnsignedJump] at hu
  · intro i hi; revert i; decide
  · intro i hi o ho hk
    simp only [loopProg, List.mem_cons, List.not_mem_nil, or_false] at hi
    rcases hi with rfl | rfl | rfl | rfl
    · cases Op.toByte_inj (b := .pushb) ho; cases hk
    · cases Op.toByte_inj (b := .lac) ho; cases hk
    · exact ⟨1, by decide, by decide⟩
    · cases Op.toByte_inj (b := .end_) ho; cases hk
  · intro i hi o ho
    rcases loopProg_ops i hi o ho with rfl | rfl | rfl | rfl <;> decide

end Pas
