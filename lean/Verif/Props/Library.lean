import Verif.Lemmas.IoEffect
import Verif.Spec.Library
import Verif.Props.Fetch
import Verif.Props.Frames
import Verif.Props.Labels2
import Verif.Props.Program

/-! The theorems about the instruction interpreter ask for library routines that leave the program counter
and the memory map alone.  Here: the routines of the code do, and the theorems for them. -/
namespace Pas
open Spec Eff

theorem Spec.Ordinary.eff {f : VM → Res (Nat × VM)} (h : Ordinary f) : X (QN' true) f := by
  intro k ro s
  have hb : f (shift k ro s) = f s >>= fun x => .ok (x.1, { x.2 with pc := s.pc + k, rop := s.rop - ro }) :=
    h.blind s _ _
  rw [hb]
  cases e : f s with
  | ok x =>
    obtain ⟨h1, h2⟩ := h.keeps s x.1 x.2 e
    refine ⟨rfl, ?_, ⟨h2, nofun⟩, h1⟩
    show ({ x.2 with pc := s.pc + k, rop := s.rop - ro } : VM) = { x.2 with pc := x.2.pc + k, rop := x.2.rop - ro }
    rw [h2]
  | ub => trivial
  | hang => trivial

theorem machine_str {fl : Bool} (p : Platform) (w : Word) : X (QN' fl) (fun s => (machine p).strOps s w) :=
  Eff.strOps _ w fun w => Eff.conversions p.host w

/-- The routines leave the memory map alone. -/
theorem machine_keeps (p : Platform) (hp : OrdinaryPlatform p) : (machine p).Keeps where
  float s b := (weakN (Eff.floatOps (fl := true) p.fpu b)).keep s
  set s b := (weakN (Eff.setOps (fl := true) b)).keep s
  os s b := (weakN (Eff.osOps p.environment (fun b => (hp.environment b).eff) b)).keep s
  long s b := (Eff.longOps8_all (fl := true) b).keep s
  str s w := (weakN (machine_str (fl := true) p w)).keep s
  io s w := (weakN (Eff.sysIo p.fpu p.host (fun w => (hp.directory w).eff) w)).keep s
  long24 := longOps24_keep

/-- The routines do not look at the program counter. -/
theorem machine_noPc (p : Platform) (hp : OrdinaryPlatform p) : (machine p).NoPc where
  float k ro s b := (weakN (Eff.floatOps (fl := true) p.fpu b)).out k ro s
  set k ro s b := (weakN (Eff.setOps (fl := true) b)).out k ro s
  os k ro s b := (weakN (Eff.osOps p.environment (fun b => (hp.environment b).eff) b)).out k ro s
  long k ro s b := (Eff.longOps8_all (fl := true) b).out k ro s
  str k ro s w := (weakN (machine_str (fl := true) p w)).out k ro s
  io k ro s w := (weakN (Eff.sysIo p.fpu p.host (fun w => (hp.directory w).eff) w)).out k ro s

/-- The routines do not report illegal opcodes. -/
theorem machine_legal (p : Platform) (hp : OrdinaryPlatform p) : NoIllegal (machine p) where
  float s b s' := (Eff.floatOps (fl := true) p.fpu b).legal s s'
  set s b s' := (Eff.setOps (fl := true) b).legal s s'
  os s b s' := (Eff.osOps p.environment (fun b => (hp.environment b).eff) b).legal s s'
  long s b s' h := (Eff.longOps8 (fl := true) b h.1 h.2).legal s s'
  str s w s' := (machine_str (fl := true) p w).legal s s'
  io s w s' := (Eff.sysIo p.fpu p.host (fun w => (hp.directory w).eff) w).legal s s'

/-- A platform without environment and directories, and an arithmetic that returns zero. -/
def barePlatform : Platform where
  fpu := ⟨fun _ _ => 0, fun _ _ => 0, fun _ _ => 0, fun _ _ => 0, fun _ => 0, fun _ => 0, fun _ => 0, fun _ => 0,
    fun _ => 0, fun _ => 0⟩
  bufSize := 80
  memcmp _ _ := 0
  environment s _ := .ok (eNOERROR, s)
  host := ⟨fun _ _ => true, fun _ _ _ => [], fun s _ => .ok (eNOERROR, s)⟩

/-- Non-vacuity of `OrdinaryPlatform`. -/
theorem barePlatform_ok : OrdinaryPlatform barePlatform :=
  ⟨fun _ => ⟨fun s e s' h => by cases h; exact ⟨by decide, rfl⟩, fun _ _ _ => rfl⟩,
   fun _ => ⟨fun s e s' h => by cases h; exact ⟨by decide, rfl⟩, fun _ _ _ => rfl⟩⟩

/-- **C53** for the routines of the code. -/
theorem C53_machine (p : Platform) (hp : OrdinaryPlatform p) (code : List Byte) (maxpc : Word) (k : Nat)
    (s s' : VM) (e : Nat) (h : runFor (machine p) code maxpc k s = .ok (e, s')) :
    s'.words = s.words ∧ s'.spb = s.spb ∧ s'.hpb = s.hpb ∧ s'.rop = s.rop ∧
      s'.strSize = s.strSize ∧ s'.roSize = s.roSize ∧ s'.stkSize = s.stkSize ∧
      s'.hpSize = s.hpSize :=
  C53_memory_map _ (machine_keeps p hp) code maxpc k s s' e h

/-- Non-vacuity: a run that calls the file library (`xALLOCFILE`). -/
example : ∃ s', runFor (machine barePlatform) [Op.sysio.toByte, 0, 1] 3#16 1
    (sampleMem (fun _ => 0#16)) = .ok (eNOERROR, s') := ⟨_, rfl⟩

/-- **C06** for the routines of the code. -/
theorem C06_level_byte_machine (p : Platform) (hp : OrdinaryPlatform p) (code : List Byte) (maxpc : Word)
    (k : Nat) (s s' : VM) (e : Nat) (h0 : s.lsp.toNat < 256)
    (h : runFor (machine p) code maxpc k s = .ok (e, s')) : s'.lsp.toNat < 256 :=
  C06_level_byte _ (machine_keeps p hp) code maxpc k s s' e h0 h

/-- **C08** (converse) for the routines of the code. -/
theorem C08_legal_machine_partial (p : Platform) (hp : OrdinaryPlatform p) (code : List Byte) (maxpc : Word)
    (s s' : VM) (op : Op) (hn : Next code maxpc s op) (hx : ¬ NotExecutable op.toByte)
    (h24 : op ≠ .longop24) (h8 : op = .longop8 → ∃ b, code[s.pc.toNat + 1]? = some b ∧ LongCode b) :
    execute (machine p) code maxpc s ≠ .ok (eILLEGALOPCODE, s') :=
  C08_legal_partial _ (machine_legal p hp) code maxpc s s' op hn hx h24 h8

theorem longOps8_undocumented : ∀ (n : Nat), n < 256 → (n < 0x40 ∨ 0x68 < n) → ∀ s,
    LongOps.longOps8 s (BitVec.ofNat 8 n) = .ok (eILLEGALOPCODE, s) := by
  intro n hn hr s
  unfold LongOps.longOps8
  rw [BitVec.toNat_ofNat, Nat.mod_eq_of_lt hn]
  split <;> first | omega | rfl

/-- **C08** for the operand of LONGOP8: an operand that is not a documented long-integer operation is
reported as an illegal opcode, and the instruction has no other effect. -/
theorem C08_longop8 (p : Platform) (code : List Byte) (maxpc : Word) (s : VM) (b : Byte)
    (hn : Next code maxpc s .longop8) (hb : code[s.pc.toNat + 1]? = some b) (hc : ¬ LongCode b) :
    execute (machine p) code maxpc s = .ok (eILLEGALOPCODE, { s with pc := s.pc + 2#16 }) := by
  rw [execute_16 (at_of_next hn) (by decide) (by decide) hb, pexec16]
  have h := longOps8_undocumented b.toNat b.isLt (by unfold LongCode at hc; omega)
    { s with pc := s.pc + 2#16 }
  rw [BitVec.ofNat_toNat, BitVec.setWidth_eq] at h
  exact h

/-- Non-vacuity. -/
example : Next [Op.longop8.toByte, 0x3f] 2#16 (sampleVM 0#16) .longop8 ∧
    [Op.longop8.toByte, 0x3f][(sampleVM 0#16).pc.toNat + 1]? = some 0x3f#8 ∧ ¬ LongCode 0x3f#8 :=
  ⟨⟨by decide, rfl⟩, rfl, by unfold LongCode; decide⟩

/-- **C28** for the routines of the code. -/
theorem C28_advance_machine (p : Platform) (hp : OrdinaryPlatform p) (l : List OpType) (pre post : List Byte)
    (n : Nat) (h : n < l.length) (o : Op) (ho : o.toByte = l[n].op) (maxpc : Word) (s s' : VM)
    (hs : s.pc.toNat = pre.length + startOf l n) (hm : s.pc.toNat < maxpc.toNat)
    (hfit : pre.length + (encode l).length < 65536)
    (hk : operandKind o ≠ .program) (hr : o ≠ .ret) (h24 : o ≠ .longop24)
    (hx : execute (machine p) (pre ++ encode l ++ post) maxpc s = .ok (eNOERROR, s')) :
    s'.pc.toNat = pre.length + startOf l (n + 1) :=
  C28_advance _ (machine_noPc p hp) l pre post n h o ho maxpc s s' hs hm hfit hk hr h24 hx

end Pas

namespace Pas.Src
open Pas.Spec Pas.Comp Pas.Link

/-- **C52** for the routines of the code, see `C52_program_partial`. -/
theorem C52_machine_partial {P : Source} {b : S .list} (line : Nat → Byte × Word) (pad : Byte) (ok : P.Ok b)
    (hs : P.size ≤ 32768) (hl : P.procs.toks.length + b.toks.length ≤ 65534) (hd : b.need 0 ≤ 16384)
    (name : List Byte) {files : List (List Byte)} (hf : files ≠ []) :
    ∃ N o, (∀ n, N ≤ n → build line pad name files n P.toks = .ok (some o)) ∧
      (o.prog.length ≤ 65535 →
        ∀ (strSize stkSize hpSize : Word) (m0 : Nat → Word) (host : HostFile → Option (List Byte)),
          strSize.toNat % 2 = 0 →
          even strSize.toNat + even o.rodata.length + even stkSize.toNat + even hpSize.toNat < 65536 →
          10 ≤ stkSize.toNat →
          (hpSize.toNat ≤ 32 ∨ (even strSize.toNat + even o.rodata.length + even stkSize.toNat) % 16 = 0) →
          ∃ s, startUp (attrOf o strSize stkSize hpSize) m0 host = .ok s ∧
            ∀ p : Platform, OrdinaryPlatform p →
              ∀ d, 10 + even P.size + 2 * b.need (callRoom P.decls d) + 4 ≤ stkSize.toNat →
              ∀ σ τ, Exec (P.calls d) (.list b) σ .normal τ →
              (P.env s.spb.toNat).Holds s.mem σ.store →
              (∀ text, σ.out = some text → text = (host .stdout).getD []) →
              (∀ i, σ.inp = some i → i = ⟨false, (host .stdin).getD []⟩) →
              ∃ n t, runFor (machine p) o.prog (maxPc o) n s = .ok (eEXIT, t) ∧
                (P.env s.spb.toNat).Holds t.mem τ.store ∧
                (∀ text, τ.out = some text → fileText t .stdout = text) ∧
                (σ.out = none → σ.inp = none → t.io = s.io) ∧ ∀ f, f ≠ .stdout → t.io.files f = host f) := by
  obtain ⟨N, o, h1, h2⟩ := C52_program_partial line pad ok hs hl hd name hf
  refine ⟨N, o, h1, fun hlen strSize stkSize hpSize m0 host a1 a2 a3 a4 => ?_⟩
  obtain ⟨s, hs, h⟩ := h2 hlen strSize stkSize hpSize m0 host a1 a2 a3 a4
  exact ⟨s, hs, fun p hp d hst σ τ hx hh ho hi => h _ (machine_noPc p hp) d hst σ τ hx hh
    (fun text e => ⟨ho text e, _, _, rfl⟩) fun i e => ⟨hi i e, _, _, rfl⟩⟩

end Pas.Src
