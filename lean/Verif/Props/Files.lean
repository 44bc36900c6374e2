import Verif.Lemmas.Files
import Verif.Lemmas.FilesOnly
import Verif.Lemmas.FilesWrite
import Verif.Props.Library
import Verif.Props.Strings

/-! Property C64: writing text files. -/
namespace Pas
open Spec SysIo

/-- **C64**: WRITE of an integer, a word, a long integer, a long word or a character and WRITELN write to
their file exactly the decimal notation of the value (or the character, or the end of the line), right-justified
in the field; nothing else changes, neither in memory nor in other files. -/
theorem C64_write (lib : Lib) (fpu : FloatOps.Fpu) (host : Host) (hlib : lib.sysIo = sysIo fpu host)
    (code : List Byte) (maxpc : Word) (s : VM) (sub n : Word) (k : Nat) (P : List Byte → Prop)
    (hc : WriteCall s sub k n P) (hr : Room s k) (hi : Insn code maxpc s .sysio 0 sub)
    (f : HostFile) (pos : Nat) (ho : OpenOut s n f pos) :
    ∃ s' out, execute lib code maxpc s = .ok (eNOERROR, s') ∧ P out ∧ Wrote s s' k n f pos out :=
  write_wrote lib fpu host hlib code maxpc s sub n k P hc hr hi f pos ho

/-- The text is determined by the description. -/
theorem C64_text_unique {s : VM} {sub n : Word} {k : Nat} {P : List Byte → Prop} (hc : WriteCall s sub k n P)
    (out out' : List Byte) (h : P out) (h' : P out') : out = out' := by
  have J : ∀ {w l out out'}, Justified w l out → Justified w l out' → out = out' := by
    rintro w l _ _ ⟨k, rfl, h⟩ ⟨k', rfl, h'⟩
    rw [← h] at h'
    simp at h'
    rw [h']
  have D : ∀ {l l' : List Byte} {i : Int}, DecimalInt l i → DecimalInt l' i → l = l' := by
    rintro l l' i (⟨n, e, h⟩ | ⟨n, r, h0, e, rfl, h⟩) (⟨n', e', h'⟩ | ⟨n', r', h0', e', rfl, h'⟩)
    · obtain rfl : n = n' := by omega
      exact decimal_unique h h'
    · omega
    · omega
    · obtain rfl : n = n' := by omega
      rw [decimal_unique h h']
  cases hc with
  | integer =>
    obtain ⟨l, h1, h2⟩ := h; obtain ⟨l', h1', h2'⟩ := h'
    rw [D h1' h1] at h2'; exact J h2 h2'
  | word =>
    obtain ⟨l, h1, h2⟩ := h; obtain ⟨l', h1', h2'⟩ := h'
    rw [decimal_unique h1' h1] at h2'; exact J h2 h2'
  | longInteger =>
    obtain ⟨l, h1, h2⟩ := h; obtain ⟨l', h1', h2'⟩ := h'
    rw [D h1' h1] at h2'; exact J h2 h2'
  | longWord =>
    obtain ⟨l, h1, h2⟩ := h; obtain ⟨l', h1', h2'⟩ := h'
    rw [decimal_unique h1' h1] at h2'; exact J h2 h2'
  | character =>
    obtain ⟨l, h1, h2⟩ := h; obtain ⟨l', h1', h2'⟩ := h'
    rw [show l' = l from BitVec.eq_of_toNat_eq (by rw [h1, h1'])] at h2'; exact J h2 h2'
  | newline => exact h.trans h'.symm
  | page => exact h.trans h'.symm

/-- A state in which the stack holds the file number 1 (the standard output), the value -123 and the field
width 6. -/
def writeState : VM :=
  { sampleMem (fun i => if i = 20 then 0x0600#16 else if i = 19 then 0xff85#16 else if i = 18 then 1#16 else 0#16) with
    sp := 40#16
    io := Io.empty.initializeFile }

/-- Non-vacuity, and what is written in this state: two spaces and "-123". -/
example : WriteCall writeState 0x1b#16 3 1#16 (fun out =>
      ∃ l, DecimalInt l (opnd writeState 1).toInt ∧ Justified ((opnd writeState 0).toNat / 256) l out) ∧
    Room writeState 3 ∧ Insn [Op.sysio.toByte, 0, 0x1b] 3#16 writeState .sysio 0 0x1b#16 ∧
    OpenOut writeState 1#16 .stdout 0 ∧
    ∃ s', execute (machine barePlatform) [Op.sysio.toByte, 0, 0x1b] 3#16 writeState = .ok (eNOERROR, s') ∧
      fileText s' .stdout = [32#8, 32#8, 45#8, 49#8, 50#8, 51#8] :=
  ⟨.integer, ⟨by decide, by decide⟩, ⟨⟨by decide, rfl⟩, by decide, fun _ => ⟨0, 0x1b, rfl, rfl, rfl⟩⟩,
   ⟨by decide, _, rfl, rfl, .inr ⟨rfl, rfl⟩⟩, _, rfl, by decide⟩

/-- **C64**, files that are not open for output: the operation reports it and nothing is written. -/
theorem C64_refused (lib : Lib) (fpu : FloatOps.Fpu) (host : Host) (hlib : lib.sysIo = sysIo fpu host)
    (code : List Byte) (maxpc : Word) (s : VM) (sub n : Word) (k : Nat) (P : List Byte → Prop)
    (hc : WriteCall s sub k n P) (hr : Room s k) (hi : Insn code maxpc s .sysio 0 sub)
    (hn : ∀ f pos, ¬ OpenOut s n f pos) :
    ∃ s', execute lib code maxpc s = .ok (if n.toNat < 8 then 0xba else 0xb0, s') ∧ OnlyPopped s s' k := by
  obtain ⟨out, -, he⟩ := write_exec hlib hc hr hi
  have hw : writeError { s with sp := s.sp - BitVec.ofNat 16 (2 * k) } n.toNat =
      if n.toNat < 8 then 0xba else 0xb0 := by
    unfold writeError
    by_cases h8 : n.toNat < 8
    · rw [if_neg (by unfold maxFiles; omega), if_pos h8, if_pos]; rfl
      show (s.io.table n.toNat).stream = none ∨
        ((s.io.table n.toNat).openMode ≠ .write ∧ (s.io.table n.toNat).openMode ≠ .append)
      cases hs : (s.io.table n.toNat).stream with
      | none => exact .inl rfl
      | some t =>
        refine .inr ⟨fun hm => ?_, fun hm => ?_⟩
        · exact hn t.file _ ⟨h8, t, hs, rfl, .inr ⟨hm, rfl⟩⟩
        · exact hn t.file _ ⟨h8, t, hs, rfl, .inl ⟨hm, rfl⟩⟩
    · rw [if_pos (by unfold maxFiles; omega), if_neg h8]; rfl
  rw [he, writeText_refused out (by rw [hw]; unfold eNOERROR; split <;> decide), hw]
  exact ⟨_, rfl, rfl⟩

/-- Non-vacuity: the standard input is not open for output, and there is no file number 9. -/
example : (∀ f pos, ¬ OpenOut writeState 0#16 f pos) ∧ ∀ f pos, ¬ OpenOut writeState 9#16 f pos := by
  refine ⟨?_, fun f pos h => absurd h.number (by decide)⟩
  rintro f pos ⟨-, t, -, -, ⟨h, -⟩ | ⟨h, -⟩⟩ <;> exact absurd h (by decide)

/-- **C64**, strings: WRITE of a string that is not a temporary writes its characters, right-justified in the
field. -/
theorem C64_write_string (lib : Lib) (fpu : FloatOps.Fpu) (host : Host) (hlib : lib.sysIo = sysIo fpu host)
    (code : List Byte) (maxpc : Word) (s : VM) (hr : Room s 5) (hi : Insn code maxpc s .sysio 0 0x20#16)
    (hm : (opnd s 2).toNat + (opnd s 3).toNat ≤ 2 * s.words) (ha : ¬ Temp (opnd s 1))
    (f : HostFile) (pos : Nat) (ho : OpenOut s (opnd s 4) f pos) :
    ∃ s' out, execute lib code maxpc s = .ok (eNOERROR, s') ∧
      Justified ((opnd s 0).toNat / 256) (text s.mem (opnd s 2).toNat (opnd s 3).toNat) out ∧
      Wrote s s' 5 (opnd s 4) f pos out :=
  write_string_wrote lib fpu host hlib code maxpc s hr hi hm ha f pos ho

/-- The stack holds the standard output, a string of 3 characters at address 60 and the field width 5. -/
def writeStringState : VM :=
  { sampleMem (fun i => if i = 20 then 0x0500#16 else if i = 19 then 0#16 else if i = 18 then 60#16 else
      if i = 17 then 3#16 else if i = 16 then 1#16 else if i = 30 then 0x6261#16 else 0x63#16) with
    sp := 40#16
    io := Io.empty.initializeFile }

/-- Non-vacuity, and what is written: two spaces and "abc". -/
example : Room writeStringState 5 ∧ Insn [Op.sysio.toByte, 0, 0x20] 3#16 writeStringState .sysio 0 0x20#16 ∧
    (opnd writeStringState 2).toNat + (opnd writeStringState 3).toNat ≤ 2 * writeStringState.words ∧
    ¬ Temp (opnd writeStringState 1) ∧ OpenOut writeStringState (opnd writeStringState 4) .stdout 0 ∧
    ∃ s', execute (machine barePlatform) [Op.sysio.toByte, 0, 0x20] 3#16 writeStringState = .ok (eNOERROR, s') ∧
      fileText s' .stdout = [32#8, 32#8, 97#8, 98#8, 99#8] :=
  ⟨⟨by decide, by decide⟩, ⟨⟨by decide, rfl⟩, by decide, fun _ => ⟨0, 0x20, rfl, rfl, rfl⟩⟩, by decide,
   by unfold Temp; decide, ⟨by decide, _, rfl, rfl, .inr ⟨rfl, rfl⟩⟩, _, rfl, by decide⟩

theorem eff_noFiles {f : VM → Res (Nat × VM)} (h : Ordinary f) (hf : NoFiles f) : Eff.X (Eff.QN' false) f := by
  intro k ro s
  have hb : f (shift k ro s) = f s >>= fun x => .ok (x.1, { x.2 with pc := s.pc + k, rop := s.rop - ro }) :=
    h.blind s _ _
  rw [hb]
  cases e : f s with
  | ok x =>
    obtain ⟨h1, h2⟩ := h.keeps s x.1 x.2 e
    refine ⟨rfl, ?_, ⟨h2, fun _ => hf s x.1 x.2 e⟩, h1⟩
    show ({ x.2 with pc := s.pc + k, rop := s.rop - ro } : VM) = { x.2 with pc := x.2.pc + k, rop := x.2.rop - ro }
    rw [h2]
  | ub => trivial
  | hang => trivial

theorem mute_machine_keepsIo (p : Platform) (hp : OrdinaryPlatform p) (hf : ∀ b, NoFiles (p.environment · b)) :
    (mute (machine p)).KeepsIo where
  float s b := io_of (Eff.weakN (Eff.floatOps (fl := false) p.fpu b)) s
  set s b := io_of (Eff.weakN (Eff.setOps (fl := false) b)) s
  os s b := io_of (Eff.weakN (Eff.osOps p.environment (fun b => eff_noFiles (hp.environment b) (hf b)) b)) s
  long s b := io_of (Eff.longOps8_all (fl := false) b) s
  str s w := io_of (Eff.weakN (machine_str (fl := false) p w)) s
  io _ _ := trivial
  long24 := longOps24_io

/-- **C64**, the other instructions: no instruction but the calls of the file library changes a file, the
table of open files or the input buffer. -/
theorem C64_only_sysio (p : Platform) (hp : OrdinaryPlatform p) (hf : ∀ b, NoFiles (p.environment · b))
    (code : List Byte) (maxpc : Word) (s s' : VM) (o : Op) (e : Nat) (hn : Next code maxpc s o) (ho : o ≠ .sysio)
    (h : execute (machine p) code maxpc s = .ok (e, s')) : s'.io = s.io := by
  have hk := KeepIo.execute_keep (mute_machine_keepsIo p hp hf) code maxpc s
  rw [← execute_mute _ code maxpc s o hn ho, h] at hk
  exact hk.io

/-- Non-vacuity. -/
example : (∀ b, NoFiles (barePlatform.environment · b)) ∧ Next [Op.add.toByte] 1#16 writeState .add ∧
    ∃ s', execute (machine barePlatform) [Op.add.toByte] 1#16 writeState = .ok (eNOERROR, s') :=
  ⟨fun _ s e s' h => by cases h; rfl, ⟨by decide, rfl⟩, _, rfl⟩

end Pas
