import Verif.Props.Memory
import Verif.Spec.Fetch
import Verif.Lemmas.Keep

/-! Properties C08 and C09: illegal instructions and instruction fetch. -/
namespace Pas
open Spec

/-- **C08** (program counter): outside the program nothing is executed. -/
theorem C08_bad_pc (lib : Lib) (code : List Byte) (maxpc : Word) (s : VM)
    (h : maxpc.toNat ≤ s.pc.toNat) : execute lib code maxpc s = .ok (eBADPC, s) := by
  have : maxpc ≤ s.pc := h
  rw [execute, if_pos this]

theorem ofByte_none {b : Byte} (h : ∀ o : Op, o.toByte ≠ b) : Op.ofByte b = none := by
  cases hb : Op.ofByte b with
  | none => rfl
  | some o => exact absurd (Op.toByte_ofByte hb) (h o)

theorem notExec_cases {b : Byte} (h : NotExecutable b) :
    Op.ofByte b = none ∨ Op.ofByte b = some .label ∨ Op.ofByte b = some .line := by
  rcases h with h | rfl | rfl
  · exact .inl (ofByte_none h)
  · exact .inr (.inl (Op.ofByte_toByte _))
  · exact .inr (.inr (Op.ofByte_toByte _))

/-- **C08** (opcodes): a byte that is not an executable instruction (followed by the operand
bytes its top bits announce) stops execution with the illegal-opcode error; only the program
counter may have moved. -/
theorem C08_illegal (lib : Lib) (code : List Byte) (maxpc : Word) (s : VM) (b : Byte)
    (hpc : s.pc.toNat < maxpc.toNat) (hb : code[s.pc.toNat]? = some b) (hn : NotExecutable b)
    (hl : s.pc.toNat + operandBytes b < code.length) :
    ∃ s', execute lib code maxpc s = .ok (eILLEGALOPCODE, s') ∧ s' = { s with pc := s'.pc } := by
  have hp : ¬ maxpc ≤ s.pc := by bv_omega
  have hop := notExec_cases hn
  rw [execute, if_neg hp, fetch, hb]
  simp only [Res.ok_bind]
  have h8 : hasArg8 b = true ↔ (64 ≤ b.toNat ∧ b.toNat < 128) ∨ 192 ≤ b.toNat := by
    clear hop hl hn hb; revert b; decide +kernel
  have h16 : hasArg16 b = true ↔ 128 ≤ b.toNat := by
    clear hop hl hn hb h8; revert b; decide +kernel
  have f1 : s.pc.toNat + operandBytes b < code.length := hl
  unfold operandBytes at f1
  by_cases a8 : hasArg8 b = true
  · rw [if_pos a8]
    have k8 := h8.1 a8
    have : fetch code (s.pc.toNat + 1) = .ok (code[s.pc.toNat + 1]'(by split at f1 <;> (try split at f1) <;> (try split at f1) <;> omega)) := by
      rw [fetch, List.getElem?_eq_getElem]
    rw [this]
    simp only [Res.ok_bind]
    by_cases a16 : hasArg16 b = true
    · have k16 := h16.1 a16
      rw [if_pos a16]
      have e2 : fetch code (s.pc.toNat + 2) = .ok (code[s.pc.toNat + 2]'(by split at f1 <;> (try split at f1) <;> (try split at f1) <;> omega)) := by
        rw [fetch, List.getElem?_eq_getElem]
      have e3 : fetch code (s.pc.toNat + 3) = .ok (code[s.pc.toNat + 3]'(by split at f1 <;> (try split at f1) <;> (try split at f1) <;> omega)) := by
        rw [fetch, List.getElem?_eq_getElem]
      rw [e2, e3]
      simp only [Res.ok_bind]
      rcases hop with h | h | h <;> rw [h, pexec32] <;> first | exact ⟨_, rfl, rfl⟩ | simp
    · rw [if_neg a16]
      rcases hop with h | h | h <;> rw [h, pexec16] <;> first | exact ⟨_, rfl, rfl⟩ | simp
  · rw [if_neg a8]
    by_cases a16 : hasArg16 b = true
    · have k16 := h16.1 a16
      rw [if_pos a16]
      have k8 : ¬ _ := fun h => a8 (h8.2 h)
      have e2 : fetch code (s.pc.toNat + 1) = .ok (code[s.pc.toNat + 1]'(by split at f1 <;> (try split at f1) <;> (try split at f1) <;> omega)) := by
        rw [fetch, List.getElem?_eq_getElem]
      have e3 : fetch code (s.pc.toNat + 2) = .ok (code[s.pc.toNat + 2]'(by split at f1 <;> (try split at f1) <;> (try split at f1) <;> omega)) := by
        rw [fetch, List.getElem?_eq_getElem]
      rw [e2, e3]
      simp only [Res.ok_bind]
      rcases hop with h | h | h <;> rw [h, pexec24] <;> first | exact ⟨_, rfl, rfl⟩ | simp
    · rw [if_neg a16]
      rcases hop with h | h | h <;> rw [h, pexec8] <;> first | exact ⟨_, rfl, rfl⟩ | simp

/-- Non-vacuity: byte 0x30 has no meaning, and 0xbf is the label pseudo instruction. -/
example : NotExecutable 0x30#8 ∧ NotExecutable 0xbf#8 :=
  ⟨.inl (fun o => by cases o <;> decide), .inr (.inl rfl)⟩

/-- The outcome is not an illegal-opcode error. -/
abbrev Legal (r : Res (Nat × VM)) : Prop := Res.All (fun p => p.1 ≠ eILLEGALOPCODE) r

theorem Legal.bindN {r : Res (Nat × VM)} (h : Legal r) (g : VM → VM) :
    Legal (r >>= fun p => .ok (p.1, g p.2)) := by
  cases r with
  | ok p => exact h
  | ub => trivial
  | hang => trivial

theorem legal_of {r : Res (Nat × VM)} (h : ∀ s', r ≠ .ok (eILLEGALOPCODE, s')) : Legal r := by
  cases r with
  | ok p => exact fun e => h p.2 (by rw [← e])
  | ub => trivial
  | hang => trivial

theorem legal_done8 (s : VM) : Legal (done8 s) := by show eNOERROR ≠ eILLEGALOPCODE; decide
theorem legal_done24 (s : VM) : Legal (done24 s) := by show eNOERROR ≠ eILLEGALOPCODE; decide
theorem legal_done32 (s : VM) : Legal (done32 s) := by show eNOERROR ≠ eILLEGALOPCODE; decide
theorem legal_ok (s : VM) : Legal (.ok (eNOERROR, s)) := by show eNOERROR ≠ eILLEGALOPCODE; decide

macro "legal_steps" : tactic => `(tactic|
  repeat' with_reducible first
    | exact legal_done8 _
    | exact legal_done24 _
    | exact legal_done32 _
    | exact legal_ok _
    | exact Keep.refl _
    | refine All_pop (Keep.refl _) (fun _ _ _ => ?_)
    | refine All_tos (fun _ => ?_)
    | refine All_getStack (fun _ => ?_)
    | refine All_rdB (fun _ => ?_)
    | refine All_rd (fun _ => ?_)
    | refine All_base (fun _ => ?_)
    | refine All_setTos (Keep.refl _) (fun _ _ => ?_)
    | refine All_push (Keep.refl _) (fun _ _ => ?_)
    | refine All_putStack (Keep.refl _) (fun _ _ => ?_)
    | refine All_wrB (Keep.refl _) (fun _ _ => ?_)
    | refine All_wr (Keep.refl _) (fun _ _ => ?_)
    | refine All_pushBlock (Keep.refl _) (fun _ _ => ?_)
    | refine All_storeBlock (Keep.refl _) (fun _ _ => ?_)
    | refine All_ite ?_ ?_)

theorem binop_legal (s : VM) (f : Word → Word → Res Word) : Legal (binop s f) := by
  unfold binop
  refine All_pop (Keep.refl s) fun b s2 h2 => All_tos fun a => ?_
  cases f a b with
  | ok r => exact All_setTos h2 fun s3 h3 => legal_done8 _
  | ub => trivial
  | hang => trivial

theorem unop_legal (s : VM) (f : Word → Word) : Legal (unop s f) := by
  unfold unop; legal_steps

theorem cmpz_legal (s : VM) (f : Int → Bool) : Legal (cmpz s f) := by
  unfold cmpz; legal_steps

theorem jump1_legal (s : VM) (t : Word) (f : Int → Bool) : Legal (jump1 s t f) := by
  unfold jump1; legal_steps

theorem jump2_legal (s : VM) (t : Word) (f : Word → Word → Bool) : Legal (jump2 s t f) := by
  unfold jump2; legal_steps

theorem procedureCall_legal (s : VM) (b : Byte) : Legal (procedureCall s b) := by
  have hn : Legal (.ok (eNESTINGLEVEL, s)) := by
    show eNESTINGLEVEL ≠ eILLEGALOPCODE; decide
  unfold procedureCall
  refine All_ite hn ?_
  refine All_findFrame fun w => ?_
  cases w with
  | none => exact hn
  | some a => legal_steps

/-- The interpreter function that receives the opcode byte of `op`. -/
theorem legal_all (lib : Lib) (hl : NoIllegal lib) (s : VM) (a : Byte) (w : Word) (op : Op)
    (h1 : op ≠ .label) (h2 : op ≠ .line) (h3 : op ≠ .longop24) (h4 : op = .longop8 → LongCode a) :
    (hasArg8 op.toByte = false → hasArg16 op.toByte = false → Legal (pexec8 s (some op))) ∧
    (hasArg8 op.toByte = true → hasArg16 op.toByte = false → Legal (pexec16 lib s (some op) a)) ∧
    (hasArg8 op.toByte = false → hasArg16 op.toByte = true → Legal (pexec24 lib s (some op) w)) ∧
    (hasArg8 op.toByte = true → hasArg16 op.toByte = true →
      Legal (pexec32 lib s (some op) a w)) := by
  cases op
  all_goals first | exact absurd rfl h1 | exact absurd rfl h2 | exact absurd rfl h3 | skip
  all_goals refine ⟨?_, ?_, ?_, ?_⟩
  all_goals intro a8 a16
  all_goals first
    | exact absurd a8 (by decide)
    | exact absurd a16 (by decide)
    | skip
  all_goals first | rw [pexec8] | rw [pexec16] | rw [pexec24] | rw [pexec32]
  all_goals first
    | with_reducible exact unop_legal _ _
    | with_reducible exact binop_legal _ _
    | with_reducible exact cmpz_legal _ _
    | with_reducible exact jump1_legal _ _ _
    | with_reducible exact jump2_legal _ _ _
    | skip
  all_goals legal_steps
  all_goals first
    | exact legal_of (hl.float _ _)
    | exact legal_of (hl.set _ _)
    | exact legal_of (hl.os _ _)
    | exact legal_of (fun s' => hl.long _ _ s' (h4 rfl))
    | exact Legal.bindN (legal_of (hl.str _ _)) (fun s => { s with pc := s.pc + 3#16 })
    | exact Legal.bindN (legal_of (hl.io _ _)) (fun s => { s with pc := s.pc + 3#16 })
    | exact Legal.bindN (procedureCall_legal _ _) (fun s => { s with pc := w })
    | skip
  all_goals (show eEXIT ≠ eILLEGALOPCODE; decide)

theorem All_fetch' {β : Type} {Q : β → Prop} {code : List Byte} {a : Nat} {f : Byte → Res β}
    (h : ∀ w, code[a]? = some w → Res.All Q (f w)) : Res.All Q (fetch code a >>= f) := by
  unfold fetch
  cases e : code[a]? with
  | some w => exact h w e
  | none => trivial

theorem long_code {o : Option Byte} {b : Byte} (h : ∃ b, o = some b ∧ LongCode b) (e : o = some b) : LongCode b := by
  obtain ⟨b', h1, h2⟩ := h
  rw [e] at h1
  cases h1
  exact h2

/-- **C08** (converse): every other opcode is executed, i.e. never reported as illegal.  The
long-integer jump group (LONGOP24) is excluded, see `C08_violation_longop24`; the operand of LONGOP8
must be a documented operation (others are reported, see `C08_longop8`).  `machine_legal` shows that
the modelled library meets `NoIllegal`. -/
theorem C08_legal_partial (lib : Lib) (hl : NoIllegal lib) (code : List Byte) (maxpc : Word)
    (s s' : VM) (op : Op) (hn : Next code maxpc s op) (hx : ¬ NotExecutable op.toByte)
    (h24 : op ≠ .longop24) (h8 : op = .longop8 → ∃ b, code[s.pc.toNat + 1]? = some b ∧ LongCode b) :
    execute lib code maxpc s ≠ .ok (eILLEGALOPCODE, s') := by
  have h1 : op ≠ .label := fun h => hx (.inr (.inl (by rw [h])))
  have h2 : op ≠ .line := fun h => hx (.inr (.inr (by rw [h])))
  have hp : ¬ maxpc ≤ s.pc := by have := hn.1; bv_omega
  have key : Legal (execute lib code maxpc s) := by
    rw [execute, if_neg hp, fetch, hn.2]
    simp only [Res.ok_bind, Op.ofByte_toByte]
    have K := fun a w => legal_all lib hl s a w op h1 h2 h24
    have N : hasArg8 op.toByte = false → op = .longop8 → LongCode 0 := fun h e => by
      rw [e] at h; exact absurd h (by decide)
    cases a8 : hasArg8 op.toByte <;> cases a16 : hasArg16 op.toByte
    · simp only [Bool.false_eq_true, if_false]
      exact (K 0 0 (N a8)).1 a8 a16
    · simp only [Bool.false_eq_true, if_false, if_true]
      exact All_fetch fun b1 => All_fetch fun b2 => (K 0 _ (N a8)).2.2.1 a8 a16
    · simp only [Bool.false_eq_true, if_false, if_true]
      exact All_fetch' fun b1 hb => (K b1 0 (fun e => long_code (h8 e) hb)).2.1 a8 a16
    · simp only [if_true]
      exact All_fetch' fun b1 hb => All_fetch fun b2 => All_fetch fun b3 =>
        (K b1 _ (fun e => long_code (h8 e) hb)).2.2.2 a8 a16
  intro e
  exact key.ok e rfl

/-- Non-vacuity: PUSHB is executable. -/
example : ¬ NotExecutable Op.pushb.toByte := by
  rintro (h | h | h)
  · exact h _ rfl
  · exact absurd h (by decide)
  · exact absurd h (by decide)

/-- The code disagrees: the long-integer jump instruction is rejected as an illegal opcode in
every state (its opcode constant lost the bit that announces the 16-bit operand). -/
theorem C08_violation_longop24 (lib : Lib) (code : List Byte) (maxpc : Word) (s : VM) (a : Byte)
    (hn : Next code maxpc s .longop24) (ha : code[s.pc.toNat + 1]? = some a) :
    execute lib code maxpc s = .ok (eILLEGALOPCODE, { s with pc := s.pc + 2#16 }) := by
  rw [execute_16 (at_of_next hn) (by decide) (by decide) ha, pexec16]
  all_goals simp

example (lib : Lib) : execute lib [Op.longop24.toByte, 0xc0, 0, 0] 4#16 (sampleVM 0#16) =
    .ok (eILLEGALOPCODE, { sampleVM 0#16 with pc := 2#16 }) := rfl

/-- **C09**: what an instruction does depends only on program bytes inside the program, as long
as the instruction itself lies inside it. -/
theorem C09_fetch_partial (lib : Lib) (c c' : List Byte) (maxpc : Word) (s : VM)
    (hagree : AgreeBelow maxpc.toNat c c')
    (hin : ∀ b, c[s.pc.toNat]? = some b → s.pc.toNat + operandBytes b < maxpc.toNat) :
    execute lib c maxpc s = execute lib c' maxpc s := by
  unfold execute
  by_cases hp : maxpc ≤ s.pc
  · rw [if_pos hp, if_pos hp]
  · rw [if_neg hp, if_neg hp]
    have hlt : s.pc.toNat < maxpc.toNat := by bv_omega
    have e0 := hagree _ hlt
    unfold fetch
    rw [← e0]
    cases hb : c[s.pc.toNat]? with
    | none => rfl
    | some b =>
      have hin := hin b hb
      simp only [Res.ok_bind]
      have h8 : hasArg8 b = true ↔ (64 ≤ b.toNat ∧ b.toNat < 128) ∨ 192 ≤ b.toNat := by
        clear hb hin; revert b; decide +kernel
      have h16 : hasArg16 b = true ↔ 128 ≤ b.toNat := by
        clear hb hin h8; revert b; decide +kernel
      unfold operandBytes at hin
      cases a8 : hasArg8 b <;> cases a16 : hasArg16 b <;> rw [a8] at h8 <;> rw [a16] at h16 <;>
        simp only [Bool.false_eq_true, if_false, if_true, true_iff, false_iff] at h8 h16 ⊢
      · rw [hagree (s.pc.toNat + 1) (by split at hin <;> (try split at hin) <;> (try split at hin) <;> omega),
          hagree (s.pc.toNat + 2) (by split at hin <;> (try split at hin) <;> (try split at hin) <;> omega)]
      · rw [hagree (s.pc.toNat + 1) (by split at hin <;> (try split at hin) <;> (try split at hin) <;> omega)]
      · rw [hagree (s.pc.toNat + 1) (by split at hin <;> (try split at hin) <;> (try split at hin) <;> omega),
          hagree (s.pc.toNat + 2) (by split at hin <;> (try split at hin) <;> (try split at hin) <;> omega),
          hagree (s.pc.toNat + 3) (by split at hin <;> (try split at hin) <;> (try split at hin) <;> omega)]

/-- Non-vacuity. -/
example : ∀ b, [Op.pushb.toByte, 7, Op.end_.toByte][(sampleVM 0#16).pc.toNat]? = some b →
    (sampleVM 0#16).pc.toNat + operandBytes b < (3#16 : Word).toNat := by
  intro b h
  have : b = Op.pushb.toByte := by injection h with h; exact h.symm
  subst this; decide

/-- The code disagrees: only the address of the opcode byte is checked, so a truncated last
instruction reads operand bytes beyond the program. -/
theorem C09_violation (lib : Lib) : ∃ (c c' : List Byte) (maxpc : Word) (s : VM),
    AgreeBelow maxpc.toNat c c' ∧ execute lib c maxpc s ≠ execute lib c' maxpc s ∧
    ∃ c'', AgreeBelow maxpc.toNat c c'' ∧ execute lib c'' maxpc s = .ub := by
  refine ⟨[Op.pushb.toByte, 1], [Op.pushb.toByte, 2], 1#16, sampleVM 0#16, ?_, ?_,
    [Op.pushb.toByte], ?_, rfl⟩
  · intro i hi
    have : i = 0 := by simp at hi; omega
    subst this; rfl
  · intro h
    have h' : (execute lib [Op.pushb.toByte, 1] 1#16 (sampleVM 0#16) >>= fun p =>
        .ok (p.2.mem 21)) = (execute lib [Op.pushb.toByte, 2] 1#16 (sampleVM 0#16) >>= fun p =>
        .ok (p.2.mem 21)) := by rw [h]
    have h1 : (execute lib [Op.pushb.toByte, 1] 1#16 (sampleVM 0#16) >>= fun p =>
        Res.ok (p.2.mem 21)) = .ok 1#16 := rfl
    have h2 : (execute lib [Op.pushb.toByte, 2] 1#16 (sampleVM 0#16) >>= fun p =>
        Res.ok (p.2.mem 21)) = .ok 2#16 := rfl
    rw [h1, h2] at h'
    injection h' with h'
    exact absurd h' (by decide)
  · intro i hi
    have : i = 0 := by simp at hi; omega
    subst this; rfl

end Pas
