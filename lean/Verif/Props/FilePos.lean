import Verif.Props.FileNumbers
import Verif.Lemmas.Long

/-! Property C67: positions in files, the end of a file, blocks of bytes. -/
namespace Pas
open Spec SysIo

theorem sub2_half (s : VM) (hr : Room s 2) : (s.sp - 2#16).toNat / 2 = s.sp.toNat / 2 - 1 :=
  VM.sub2_div s.sp (by have := hr.1; omega)

/-- A value pushed in place of the file number. -/
theorem push_answer (s : VM) (hr : Room s 2) (io : Io) (w : Word) :
    ({ s with sp := s.sp - 2#16, io := io } : VM).push w =
      .ok { s with sp := s.sp, io := io, mem := updW s.mem (s.sp.toNat / 2) w } := by
  have h := sub2_half s hr
  have h1 := hr.1
  have h2 := hr.2
  have ht : ({ s with sp := s.sp - 2#16, io := io } : VM).top = s.sp.toNat / 2 - 1 := h
  have hsp := s.sp.isLt
  rw [VM.push_eq _ _ (by rw [ht]; show _ < s.words; omega) (by rw [ht]; omega), ht,
    show s.sp.toNat / 2 - 1 + 1 = s.sp.toNat / 2 by omega]
  congr 2
  show s.sp - 2#16 + 2#16 = s.sp
  bv_omega

theorem gave_answer (s : VM) (io : Io) (w : Word) :
    Gave s { s with sp := s.sp, io := io, mem := updW s.mem (s.sp.toNat / 2) w, pc := s.pc + 3#16 } 1 [w] := by
  refine ⟨rfl, ?_, rfl, fun k hk => ?_, fun j hj => ?_⟩
  · show s.sp = s.sp - 2#16 + 2#16
    bv_omega
  · have : k = 0 := by simpa using hk
    subst this
    exact updW_same _ _ _
  · have hj : j + 1 ≤ s.sp.toNat / 2 ∨ s.sp.toNat / 2 < j := hj
    exact updW_other _ _ (by omega)

/-- A 32-bit value pushed in place of the file number. -/
theorem push_long (s : VM) (hr : Room s 2) (h : s.sp.toNat / 2 + 1 < s.words) (hw : s.words ≤ 32768) (io : Io) (v : BitVec 32) :
    LongOps.push32 { s with sp := s.sp - 2#16, io := io } v =
      .ok { s with
        sp := s.sp + 2#16
        io := io
        mem := updW (updW s.mem (s.sp.toNat / 2) (v.extractLsb' 0 16)) (s.sp.toNat / 2 + 1) (v.extractLsb' 16 16) } := by
  have h0 := sub2_half s hr
  have h1 := hr.1
  have ht : ({ s with sp := s.sp - 2#16, io := io } : VM).top = s.sp.toNat / 2 - 1 := h0
  rw [push32_eq _ _ (by rw [ht]; show _ < s.words; omega) (by rw [ht]; omega), ht,
    show s.sp.toNat / 2 - 1 + 1 = s.sp.toNat / 2 by omega, show s.sp.toNat / 2 - 1 + 2 = s.sp.toNat / 2 + 1 by omega]
  congr 2
  show s.sp - 2#16 + 2#16 + 2#16 = s.sp + 2#16
  bv_omega

theorem gave_long (s : VM) (h : s.sp.toNat / 2 + 1 < s.words) (hw : s.words ≤ 32768) (io : Io) (v : BitVec 32) :
    Gave s { s with
        sp := s.sp + 2#16
        io := io
        mem := updW (updW s.mem (s.sp.toNat / 2) (v.extractLsb' 0 16)) (s.sp.toNat / 2 + 1) (v.extractLsb' 16 16)
        pc := s.pc + 3#16 } 1 [v.extractLsb' 16 16, v.extractLsb' 0 16] := by
  have hsp : (s.sp + 2#16).toNat / 2 = s.sp.toNat / 2 + 1 := VM.add2_div _ (by omega)
  refine ⟨rfl, ?_, rfl, fun k hk => ?_, fun j hj => ?_⟩
  · show s.sp + 2#16 = s.sp - 2#16 + 4#16
    bv_omega
  · have : k < 2 := hk
    rcases (by omega : k = 0 ∨ k = 1) with rfl | rfl
    · show updW _ _ _ ((s.sp + 2#16).toNat / 2 - 0) = _
      rw [hsp]
      exact updW_same _ _ _
    · show updW _ _ _ ((s.sp + 2#16).toNat / 2 - 1) = _
      rw [hsp, Nat.add_sub_cancel, updW_other _ _ (by omega)]
      exact updW_same _ _ _
  · have hj : j + 2 ≤ (s.sp + 2#16).toNat / 2 ∨ (s.sp + 2#16).toNat / 2 < j := hj
    show updW (updW _ _ _) _ _ j = _
    rw [updW_other _ _ (by omega), updW_other _ _ (by omega)]

theorem longOf_parts (n : Nat) (h : n < 4294967296) :
    longOf ((BitVec.ofNat 32 n).extractLsb' 16 16) ((BitVec.ofNat 32 n).extractLsb' 0 16) = n := by
  unfold longOf
  rw [BitVec.extractLsb'_toNat, BitVec.extractLsb'_toNat, BitVec.toNat_ofNat, Nat.shiftRight_zero,
    Nat.shiftRight_eq_div_pow]
  omega

/-- **C67**, FILEPOS: the position in the file. -/
theorem C67_filepos (lib : Lib) (fpu : FloatOps.Fpu) (host : Host) (hlib : lib.sysIo = sysIo fpu host)
    (code : List Byte) (maxpc : Word) (s : VM) (hi : Insn code maxpc s .sysio 0 0x05#16) (hr : Room s 2)
    (h : s.sp.toNat / 2 + 1 < s.words) (hw : s.words ≤ 32768)
    (f : List Byte) (pos : Nat) (ho : OpenAt s (opnd s 0) f pos) (hp : pos < 4294967296) :
    ∃ s' hi lo, execute lib code maxpc s = .ok (eNOERROR, s') ∧ Gave s s' 1 [hi, lo] ∧ longOf hi lo = pos ∧
      s'.io = s.io := by
  obtain ⟨t, ht, hf, hpos⟩ := ho.isOpen
  have h8 := ho.number
  rw [sysio_exec hlib hi]
  simp only [sysIo, show (0x05#16).toNat = 5 from rfl]
  rw [Str.pop0 s hr.2, Res.ok_bind]
  have e : filePos { s with sp := s.sp - 2#16 } (opnd s 0).toNat = .ok (eNOERROR, { s with
        sp := s.sp + 2#16
        io := s.io
        mem := updW (updW s.mem (s.sp.toNat / 2) ((BitVec.ofNat 32 pos).extractLsb' 0 16)) (s.sp.toNat / 2 + 1)
          ((BitVec.ofNat 32 pos).extractLsb' 16 16) }) := by
    unfold filePos
    rw [if_neg (by unfold maxFiles; omega)]
    have ht : (entry { s with sp := s.sp - 2#16 } (opnd s 0).toNat).stream = some t := ht
    rw [ht]
    dsimp only
    rw [if_pos (by simp [seekable, hf]), hpos, push_long s hr h hw s.io]
    rfl
  refine ⟨_, _, _, ?_, gave_long s h hw s.io (BitVec.ofNat 32 pos), longOf_parts _ hp, rfl⟩
  show filePos { s with sp := s.sp - 2#16 } (opnd s 0).toNat >>= _ = _
  rw [e]
  rfl

theorem setEntry_same (s : VM) (n : Nat) (e : FileEntry) : (setEntry s n e).io.table n = e := by
  rw [entry_setEntry, if_pos rfl]

theorem setEntry_other (s : VM) (n i : Nat) (e : FileEntry) (h : i ≠ n) :
    (setEntry s n e).io.table i = s.io.table i := by
  rw [entry_setEntry, if_neg h]

/-- The files after an operation on the stream of `n`. -/
def restreamed (s : VM) (n : Nat) (t : Stream) : Io := (setEntry s n { entry s n with stream := some t }).io

theorem sameFiles_restreamed (s : VM) (n : Word) (t : Stream) (v : VM) (h : v.io = restreamed s n.toNat t) :
    SameFiles s v n := by
  refine ⟨?_, fun i hi => ?_, ?_⟩
  · rw [h]; rfl
  · rw [h]; exact setEntry_other s _ _ _ hi
  · rw [h]
    show (setEntry s n.toNat _).io.table n.toNat = _
    rw [setEntry_same]
    unfold restreamed
    rw [setEntry_same]
    rfl

theorem openAt_restreamed (s : VM) (n : Word) (t : Stream) (f : List Byte) (v : VM) (h8 : n.toNat < 8) (hf : t.file = .named f)
    (h : v.io = restreamed s n.toNat t) : OpenAt v n f t.pos := by
  refine ⟨h8, t, ?_, hf, rfl⟩
  rw [h]
  show ((setEntry s n.toNat _).io.table n.toNat).stream = _
  rw [setEntry_same]

/-- **C67**, FILESIZE: the number of bytes in the file; the position stays. -/
theorem C67_filesize (lib : Lib) (fpu : FloatOps.Fpu) (host : Host) (hlib : lib.sysIo = sysIo fpu host)
    (code : List Byte) (maxpc : Word) (s : VM) (hi : Insn code maxpc s .sysio 0 0x06#16) (hr : Room s 2)
    (h : s.sp.toNat / 2 + 1 < s.words) (hw : s.words ≤ 32768)
    (f : List Byte) (pos : Nat) (ho : OpenAt s (opnd s 0) f pos) (hp : (fileText s (.named f)).length < 4294967296) :
    ∃ s' hi lo, execute lib code maxpc s = .ok (eNOERROR, s') ∧ Gave s s' 1 [hi, lo] ∧
      longOf hi lo = (fileText s (.named f)).length ∧ OpenAt s' (opnd s 0) f pos ∧ SameFiles s s' (opnd s 0) := by
  obtain ⟨t, ht, hf, hpos⟩ := ho.isOpen
  have h8 := ho.number
  rw [sysio_exec hlib hi]
  simp only [sysIo, show (0x06#16).toNat = 6 from rfl]
  rw [Str.pop0 s hr.2, Res.ok_bind]
  have e : fileSize { s with sp := s.sp - 2#16 } (opnd s 0).toNat = .ok (eNOERROR, { s with
        sp := s.sp + 2#16
        io := restreamed s (opnd s 0).toNat { t with eof := false }
        mem := updW (updW s.mem (s.sp.toNat / 2) ((BitVec.ofNat 32 (fileText s (.named f)).length).extractLsb' 0 16))
          (s.sp.toNat / 2 + 1) ((BitVec.ofNat 32 (fileText s (.named f)).length).extractLsb' 16 16) }) := by
    unfold fileSize
    rw [if_neg (by unfold maxFiles; omega)]
    have ht : (entry { s with sp := s.sp - 2#16 } (opnd s 0).toNat).stream = some t := ht
    rw [ht]
    dsimp only
    unfold getFileSize
    rw [if_pos (by simp [seekable, hf])]
    dsimp only
    rw [show content { s with sp := s.sp - 2#16 } t.file = fileText s (.named f) by rw [hf]; rfl]
    exact congrArg (· >>= fun s => Res.ok (eNOERROR, s)) (push_long s hr h hw (restreamed s (opnd s 0).toNat { t with eof := false }) _)
  refine ⟨_, _, _, ?_, gave_long s h hw (restreamed s (opnd s 0).toNat { t with eof := false }) _, longOf_parts _ hp, ?_, ?_⟩
  · show fileSize { s with sp := s.sp - 2#16 } (opnd s 0).toNat >>= _ = _
    rw [e]
    rfl
  · rw [← hpos]
    exact openAt_restreamed s _ { t with eof := false } f _ h8 hf rfl
  · exact sameFiles_restreamed s _ _ _ rfl

/-- **C67**, SEEK: the position becomes the one asked for, and nothing else happens. -/
theorem C67_seek (lib : Lib) (fpu : FloatOps.Fpu) (host : Host) (hlib : lib.sysIo = sysIo fpu host)
    (code : List Byte) (maxpc : Word) (s : VM) (hi : Insn code maxpc s .sysio 0 0x07#16) (hr : Room s 3)
    (f : List Byte) (pos : Nat) (ho : OpenAt s (opnd s 0) f pos) :
    ∃ s', execute lib code maxpc s = .ok (eNOERROR, s') ∧ Gave s s' 3 [] ∧
      OpenAt s' (opnd s 0) f (longOf (opnd s 1) (opnd s 2)) ∧ SameFiles s s' (opnd s 0) := by
  obtain ⟨t, ht, hf, hpos⟩ := ho.isOpen
  have h8 := ho.number
  obtain ⟨h1, h2⟩ := hr
  have htop : s.top = s.sp.toNat / 2 := rfl
  rw [sysio_exec hlib hi]
  simp only [sysIo, show (0x07#16).toNat = 7 from rfl]
  have hv : ({ s with sp := s.sp - 2#16 } : VM).top = s.top - 1 := VM.sub2_div s.sp (by omega)
  rw [Str.pop0 s h2, Res.ok_bind]
  dsimp only
  rw [pop32_eq { s with sp := s.sp - 2#16 } (by rw [hv]; omega) (by rw [hv]; show _ < s.words; omega), Res.ok_bind]
  dsimp only
  have hval : (s.mem ({ s with sp := s.sp - 2#16 } : VM).top ++ s.mem (({ s with sp := s.sp - 2#16 } : VM).top - 1) : BitVec 32).toNat =
      longOf (opnd s 1) (opnd s 2) := by
    rw [hv, BitVec.toNat_append, ← Nat.shiftLeft_add_eq_or_of_lt (s.mem _).isLt, Nat.shiftLeft_eq]
    rfl
  have e : seek ({ s with sp := s.sp - 2#16 - 2#16 - 2#16 }) (opnd s 0).toNat (longOf (opnd s 1) (opnd s 2)) =
      (eNOERROR, { s with
        sp := s.sp - 2#16 - 2#16 - 2#16
        io := restreamed s (opnd s 0).toNat { t with pos := longOf (opnd s 1) (opnd s 2), eof := false } }) := by
    unfold seek
    rw [if_neg (by unfold maxFiles; omega)]
    have ht : (entry { s with sp := s.sp - 2#16 - 2#16 - 2#16 } (opnd s 0).toNat).stream = some t := ht
    rw [ht]
    dsimp only
    rw [if_pos (by simp [seekable, hf])]
    rfl
  rw [hval]
  refine ⟨{ s with
    sp := s.sp - 2#16 - 2#16 - 2#16
    io := restreamed s (opnd s 0).toNat { t with pos := longOf (opnd s 1) (opnd s 2), eof := false }
    pc := s.pc + 3#16 }, ?_, ⟨rfl, ?_, rfl, fun k hk => absurd hk (Nat.not_lt_zero k), fun _ _ => rfl⟩, ?_, ?_⟩
  · show Res.ok (seek ({ s with sp := s.sp - 2#16 - 2#16 - 2#16 }) (opnd s 0).toNat (longOf (opnd s 1) (opnd s 2))) >>= _ = _
    rw [e]
    rfl
  · show s.sp - 2#16 - 2#16 - 2#16 = s.sp - 6#16 + 0#16
    bv_omega
  · exact openAt_restreamed s _ { t with pos := longOf (opnd s 1) (opnd s 2), eof := false } f _ h8 hf rfl
  · exact sameFiles_restreamed s _ _ _ rfl

/-- **C67**, EOF of a named file: TRUE at the end of the file, FALSE before.  (When a read has met the end and the
file has grown since, the answer may still be TRUE; `hs` excludes that.)  The standard input is missing, see the
violation. -/
theorem C67_eof_partial (lib : Lib) (fpu : FloatOps.Fpu) (host : Host) (hlib : lib.sysIo = sysIo fpu host)
    (code : List Byte) (maxpc : Word) (s : VM) (hi : Insn code maxpc s .sysio 0 0x03#16) (hr : Room s 2)
    (f : List Byte) (pos : Nat) (ho : OpenAt s (opnd s 0) f pos) (h0 : opnd s 0 ≠ 0#16)
    (hs : ∀ t, (s.io.table (opnd s 0).toNat).stream = some t → t.eof = true → (fileText s (.named f)).length ≤ pos) :
    ∃ s', execute lib code maxpc s = .ok (eNOERROR, s') ∧
      Gave s s' 1 [if (fileText s (.named f)).length ≤ pos then 0xffff#16 else 0#16] ∧
      OpenAt s' (opnd s 0) f pos ∧ SameFiles s s' (opnd s 0) := by
  obtain ⟨t, ht, hf, hpos⟩ := ho.isOpen
  have h8 := ho.number
  have hn0 : (opnd s 0).toNat ≠ 0 := fun h => h0 (BitVec.eq_of_toNat_eq h)
  rw [sysio_exec hlib hi]
  simp only [sysIo, show (0x03#16).toNat = 3 from rfl]
  rw [Str.pop0 s hr.2, Res.ok_bind]
  have e : ∃ u : Stream, Eff.eofOf (opnd s 0).toNat { s with sp := s.sp - 2#16 } =
      ((eNOERROR, decide ((fileText s (.named f)).length ≤ pos)), { s with
        sp := s.sp - 2#16
        io := restreamed s (opnd s 0).toNat u }) ∧ u.file = .named f ∧ u.pos = pos := by
    unfold Eff.eofOf
    rw [if_neg (by unfold maxFiles; omega)]
    have ht' : (entry { s with sp := s.sp - 2#16 } (opnd s 0).toNat).stream = some t := ht
    rw [ht']
    dsimp only
    split
    · rename_i he
      refine ⟨t, ?_, hf, hpos⟩
      rw [decide_eq_true (hs t ht he)]
      have : restreamed s (opnd s 0).toNat t = s.io := by
        unfold restreamed setEntry
        dsimp only
        have : (fun i => if i = (opnd s 0).toNat then { entry s (opnd s 0).toNat with stream := some t } else s.io.table i) = s.io.table := by
          funext i
          split
          · rename_i e
            rw [e, ← ht]
            rfl
          · rfl
        rw [this]
      rw [this]
    · rw [if_pos (by simp [seekable, hf])]
      refine ⟨{ t with eof := false }, ?_, hf, hpos⟩
      rw [show content { s with sp := s.sp - 2#16 } t.file = fileText s (.named f) by rw [hf]; rfl, hpos]
      rfl
  obtain ⟨u, e, hu1, hu2⟩ := e
  refine ⟨_, ?_, gave_answer s (restreamed s (opnd s 0).toNat u) _, ?_, ?_⟩
  · show SysIo.eof { s with sp := s.sp - 2#16 } (opnd s 0).toNat >>= _ = _
    rw [Eff.eof_eq, e]
    unfold Eff.answer
    rw [push_answer s hr, Res.ok_bind, Res.ok_bind]
    unfold SysIo.bool
    by_cases hd : (fileText s (.named f)).length ≤ pos
    · rw [decide_eq_true hd, if_pos hd]; rfl
    · rw [decide_eq_false hd, if_neg hd]; rfl
  · rw [← hu2]
    exact openAt_restreamed s _ u f _ h8 hu1 rfl
  · exact sameFiles_restreamed s _ _ _ rfl

/-- **C67**, EOLN: whether the last READ met the end of a line. -/
theorem C67_eoln (lib : Lib) (fpu : FloatOps.Fpu) (host : Host) (hlib : lib.sysIo = sysIo fpu host)
    (code : List Byte) (maxpc : Word) (s : VM) (hi : Insn code maxpc s .sysio 0 0x04#16) (hr : Room s 2)
    (h8 : (opnd s 0).toNat < 8) :
    ∃ s', execute lib code maxpc s = .ok (eNOERROR, s') ∧
      Gave s s' 1 [if (s.io.table (opnd s 0).toNat).eoln then 0xffff#16 else 0#16] ∧ s'.io = s.io := by
  rw [sysio_exec hlib hi]
  simp only [sysIo, show (0x04#16).toNat = 4 from rfl]
  rw [Str.pop0 s hr.2, Res.ok_bind]
  refine ⟨_, ?_, gave_answer s s.io _, rfl⟩
  show SysIo.eoln { s with sp := s.sp - 2#16 } (opnd s 0).toNat >>= _ = _
  unfold SysIo.eoln
  rw [if_neg (by unfold maxFiles; omega), push_answer s hr s.io]
  rfl

/-- **C67**, writing a block: the bytes of memory go to the file. -/
theorem C67_write_block (lib : Lib) (fpu : FloatOps.Fpu) (host : Host) (hlib : lib.sysIo = sysIo fpu host)
    (code : List Byte) (maxpc : Word) (s : VM) (hi : Insn code maxpc s .sysio 0 0x1a#16) (hr : Room s 3)
    (hm : (opnd s 0).toNat + (opnd s 1).toNat ≤ 2 * s.words)
    (f : HostFile) (pos : Nat) (ho : OpenOut s (opnd s 2) f pos) :
    ∃ s', execute lib code maxpc s = .ok (eNOERROR, s') ∧
      Wrote s s' 3 (opnd s 2) f pos (text s.mem (opnd s 0).toNat (opnd s 1).toNat) := by
  obtain ⟨h1, h2⟩ := hr
  have ht : s.top = s.sp.toNat / 2 := rfl
  rw [sysio_exec hlib hi]
  simp only [sysIo, show (0x1a#16).toNat = 0x1a from rfl]
  rw [Str.pop0 s h2, Res.ok_bind, Str.pop1 s (by omega) h2, Res.ok_bind, Str.pop2 s (by omega) h2, Res.ok_bind]
  obtain ⟨io, e1, e2, e3, e4, e6, e5⟩ := writeText_ok (s := { s with sp := s.sp - 6#16 })
    (n := opnd s 2) (f := f) (pos := pos) ⟨ho.1, ho.2⟩ (text s.mem (opnd s 0).toNat (opnd s 1).toNat)
  unfold writeText at e1
  have hw : writeError { s with sp := s.sp - 6#16 } (opnd s 2).toNat = eNOERROR := by
    refine Decidable.byContradiction fun h => ?_
    rw [if_neg h] at e1
    exact h (Prod.mk.inj e1).1
  rw [if_pos hw] at e1
  refine ⟨{ s with
    sp := s.sp - 6#16
    io := io
    pc := s.pc + 3#16 }, ?_, ⟨rfl, rfl, rfl, e2, e3, e4, e6, ⟨e5.1, e5.2⟩⟩⟩
  show writeBinary { s with sp := s.sp - 6#16 } (opnd s 2).toNat (opnd s 0).toNat (opnd s 1).toNat >>= _ = _
  unfold writeBinary
  rw [if_pos hw, Str.readBytes_eq { s with sp := s.sp - 6#16 } _ _ hm, Res.ok_bind]
  dsimp only
  rw [e1]
  rfl

/-- **C67**, reading a block: when enough bytes are left in the file, they go to memory, and the position is
behind them. -/
theorem C67_read_block (lib : Lib) (fpu : FloatOps.Fpu) (host : Host) (hlib : lib.sysIo = sysIo fpu host)
    (code : List Byte) (maxpc : Word) (s : VM) (hi : Insn code maxpc s .sysio 0 0x13#16) (hr : Room s 3)
    (hm : (opnd s 0).toNat + (opnd s 1).toNat ≤ 2 * s.words)
    (f : HostFile) (pos : Nat) (ho : OpenIn s (opnd s 2) f pos)
    (hl : pos + (opnd s 1).toNat ≤ (fileText s f).length) :
    ∃ s', execute lib code maxpc s = .ok (eNOERROR, s') ∧
      DidRead s s' 3 (opnd s 2) f (pos + (opnd s 1).toNat) (s.io.table (opnd s 2).toNat).eoln ∧
      (∀ i < (opnd s 1).toNat, (fileText s f)[pos + i]? = some (byte s'.mem ((opnd s 0).toNat + i))) ∧
      ∀ a, (a < (opnd s 0).toNat ∨ (opnd s 0).toNat + (opnd s 1).toNat ≤ a) → byte s'.mem a = byte s.mem a := by
  obtain ⟨t, ht, hf, hpos⟩ := ho.isOpen
  obtain ⟨h1, h2⟩ := hr
  have htop : s.top = s.sp.toNat / 2 := rfl
  rw [sysio_exec hlib hi]
  simp only [sysIo, show (0x13#16).toNat = 0x13 from rfl]
  rw [Str.pop0 s h2, Res.ok_bind, Str.pop1 s (by omega) h2, Res.ok_bind, Str.pop2 s (by omega) h2, Res.ok_bind]
  have hlen : (((fileText s f).drop pos).take (opnd s 1).toNat).length = (opnd s 1).toNat := by
    rw [List.length_take, List.length_drop]; omega
  obtain ⟨m, em, hm1, hm2⟩ := copyIn_spec (((fileText s f).drop pos).take (opnd s 1).toNat) { s with sp := s.sp - 6#16 }
    (opnd s 0).toNat (by rw [hlen]; exact hm)
  have e : readBinary { s with sp := s.sp - 6#16 } (opnd s 2).toNat (opnd s 0).toNat (opnd s 1).toNat =
      .ok (eNOERROR, advance { s with sp := s.sp - 6#16, mem := m } (opnd s 2).toNat t (opnd s 1).toNat false) := by
    unfold readBinary
    rw [withRead_ok (s := { s with sp := s.sp - 6#16 }) ho.number ho.mode ht]
    have hrest : rest { s with sp := s.sp - 6#16 } t = (fileText s f).drop pos := by
      rw [← hpos, ← hf]; rfl
    dsimp only
    rw [hrest, em, Res.ok_bind, hlen, decide_eq_false (Nat.lt_irrefl _)]
  refine ⟨{ advance { s with sp := s.sp - 6#16, mem := m } (opnd s 2).toNat t (opnd s 1).toNat false with
    pc := s.pc + 3#16 }, ?_, ⟨rfl, rfl, rfl, rfl, fun i hi => ?_, ?_, ⟨ho.number, ?_, ?_⟩⟩, fun i hi => ?_, fun a ha => ?_⟩
  · show readBinary { s with sp := s.sp - 6#16 } (opnd s 2).toNat (opnd s 0).toNat (opnd s 1).toNat >>= _ = _
    rw [e, Res.ok_bind]
    rfl
  · exact setEntry_other _ _ _ _ hi
  · simp [advance, setEntry, entry]
  · show ((setEntry _ (opnd s 2).toNat _).io.table (opnd s 2).toNat).openMode = _
    rw [setEntry_same]; exact ho.mode
  · refine ⟨⟨t.file, t.pos + (opnd s 1).toNat, t.eof || false⟩, ?_, hf, by rw [← hpos]⟩
    show ((setEntry _ (opnd s 2).toNat _).io.table (opnd s 2).toNat).stream = _
    rw [setEntry_same]
  · show _ = some (byte m _)
    rw [hm1 i (by rw [hlen]; exact hi), List.getElem_take, List.getElem_drop, List.getElem?_eq_getElem]
  · exact hm2 a (by rw [hlen]; exact ha)

/-- **C67**, blocks, there and back: bytes written at `pos` and read back from `pos` through a file number open
for reading are the bytes written, whatever happened to the rest of the machine in between. -/
theorem C67_block_roundtrip (lib : Lib) (fpu : FloatOps.Fpu) (host : Host) (hlib : lib.sysIo = sysIo fpu host)
    (code : List Byte) (maxpc : Word) (f : HostFile) (pos : Nat)
    -- the block is written
    (s s' : VM) (hi : Insn code maxpc s .sysio 0 0x1a#16) (hr : Room s 3)
    (hm : (opnd s 0).toNat + (opnd s 1).toNat ≤ 2 * s.words) (ho : OpenOut s (opnd s 2) f pos)
    (hx : execute lib code maxpc s = .ok (eNOERROR, s'))
    -- and read, in a state in which the file has the same contents
    (u : VM) (hu : u.io.files f = s'.io.files f) (hi2 : Insn code maxpc u .sysio 0 0x13#16) (hr2 : Room u 3)
    (hm2 : (opnd u 0).toNat + (opnd u 1).toNat ≤ 2 * u.words) (ho2 : OpenIn u (opnd u 2) f pos)
    (hk : opnd u 1 = opnd s 1) (h0 : 0 < (opnd s 1).toNat) :
    ∃ u', execute lib code maxpc u = .ok (eNOERROR, u') ∧
      ∀ i < (opnd s 1).toNat, byte u'.mem ((opnd u 0).toNat + i) = byte s.mem ((opnd s 0).toNat + i) := by
  obtain ⟨s1, e1, w⟩ := C67_write_block lib fpu host hlib code maxpc s hi hr hm f pos ho
  rw [hx] at e1
  cases e1
  have hft : fileText u f = fileText s' f := by unfold fileText; rw [hu]
  have hin : ∀ i < (opnd s 1).toNat, (fileText u f)[pos + i]? = some (byte s.mem ((opnd s 0).toNat + i)) := by
    intro i hi
    have := w.text.inside i (by unfold text; rw [List.length_map, List.length_range]; exact hi)
    rw [hft, this]
    unfold text
    rw [List.getElem_map, List.getElem_range]
  have hl : pos + (opnd u 1).toNat ≤ (fileText u f).length := by
    have h := hin ((opnd s 1).toNat - 1) (by omega)
    have := (List.getElem?_eq_some_iff.mp h).1
    rw [hk]; omega
  obtain ⟨u', r1, -, r2, -⟩ := C67_read_block lib fpu host hlib code maxpc u hi2 hr2 hm2 f pos ho2 hl
  refine ⟨u', r1, fun i hi => ?_⟩
  have := r2 i (by rw [hk]; exact hi)
  rw [hin i hi] at this
  exact (Option.some.inj this).symm

/-! ### Concrete cases -/

/-- File 2 is open for reading on "a" (5 bytes) at position 3. -/
def posState : VM :=
  { sampleMem (fun i => if i = 20 then 2#16 else if i = 19 then 0#16 else if i = 18 then 1#16 else 9#16) with
    sp := 40#16
    io := { Io.empty.initializeFile with
      table := fun i => if i = 2 then
          { FileEntry.zero with
            inUse := true
            openMode := .read
            stream := some ⟨.named [97#8], 3, false⟩ } else Io.empty.initializeFile.table i
      files := fun f => if f = .named [97#8] then some [1#8, 2#8, 3#8, 4#8, 5#8] else if f = .stdin then some [32#8, 65#8, 10#8] else none } }

/-- Non-vacuity, and the results: FILEPOS is 3, FILESIZE 5, EOF is FALSE, and SEEK goes to 1. -/
example : OpenAt posState (opnd posState 0) [97#8] 3 ∧ Room posState 3 ∧
    (∀ t, (posState.io.table 2).stream = some t → t.eof = false) ∧
    Insn [Op.sysio.toByte, 0, 5] 3#16 posState .sysio 0 5#16 ∧
    (∃ s', execute (machine barePlatform) [Op.sysio.toByte, 0, 5] 3#16 posState = .ok (eNOERROR, s') ∧
      longOf (opnd s' 0) (opnd s' 1) = 3) ∧
    (∃ s', execute (machine barePlatform) [Op.sysio.toByte, 0, 6] 3#16 posState = .ok (eNOERROR, s') ∧
      longOf (opnd s' 0) (opnd s' 1) = 5) ∧
    (∃ s', execute (machine barePlatform) [Op.sysio.toByte, 0, 3] 3#16 posState = .ok (eNOERROR, s') ∧
      opnd s' 0 = 0#16) ∧
    ∃ s', execute (machine barePlatform) [Op.sysio.toByte, 0, 7] 3#16 posState = .ok (eNOERROR, s') ∧
      OpenAt s' 2#16 [97#8] 1 :=
  ⟨⟨by decide, _, rfl, rfl, rfl⟩, ⟨by decide, by decide⟩,
   by intro t h; cases h; rfl,
   ⟨⟨by decide, rfl⟩, by decide, fun _ => ⟨0, 5, rfl, rfl, rfl⟩⟩, ⟨_, rfl, by decide⟩, ⟨_, rfl, by decide⟩, ⟨_, rfl, by decide⟩,
   _, rfl, ⟨by decide, _, rfl, rfl, rfl⟩⟩

/-- The same machine with the block address 60, the size 2 and the file number on the stack. -/
def blockState (n : Word) : VM :=
  { posState with mem := fun i => if i = 20 then 60#16 else if i = 19 then 2#16 else if i = 18 then n else 0x4241#16 }

/-- Non-vacuity of the theorems on blocks: 4 and 5 are read; "AB" is written to the standard output. -/
example : Room (blockState 2#16) 3 ∧ OpenIn (blockState 2#16) 2#16 (.named [97#8]) 3 ∧
    OpenOut (blockState 1#16) 1#16 .stdout 0 ∧
    (∃ s', execute (machine barePlatform) [Op.sysio.toByte, 0, 0x13] 3#16 (blockState 2#16) = .ok (eNOERROR, s') ∧
      s'.mem 30 = 0x0504#16) ∧
    ∃ s', execute (machine barePlatform) [Op.sysio.toByte, 0, 0x1a] 3#16 (blockState 1#16) = .ok (eNOERROR, s') ∧
      fileText s' .stdout = [0x41#8, 0x42#8] :=
  ⟨⟨by decide, by decide⟩, ⟨by decide, rfl, _, rfl, rfl, rfl⟩, ⟨by decide, _, rfl, rfl, .inr ⟨rfl, rfl⟩⟩,
   ⟨_, rfl, by decide⟩, _, rfl, by decide⟩

/-- The standard input at its end. -/
def inputAtEnd : VM :=
  { readState [] with mem := fun _ => 0#16 }

/-- **C67** fails for EOF(INPUT): nothing is left, no READ has failed yet, and the answer is FALSE. -/
theorem C67_violation_eof_input :
    OpenIn inputAtEnd 0#16 .stdin 0 ∧ fileText inputAtEnd .stdin = [] ∧ opnd inputAtEnd 0 = 0#16 ∧
    ∃ s', execute (machine barePlatform) [Op.sysio.toByte, 0, 3] 3#16 inputAtEnd = .ok (eNOERROR, s') ∧ opnd s' 0 = 0#16 :=
  ⟨⟨by decide, rfl, _, rfl, rfl, rfl⟩, rfl, rfl, _, rfl, by decide⟩

/-- **C67** fails for SEEKEOF and SEEKEOLN: they should stop in front of the next character that is not blank.
Here "A" follows after a space; both take it from the file, the next byte is the one behind it. -/
theorem C67_violation_seekeof (sub : Byte) (h : sub = 8#8 ∨ sub = 9#8) :
    OpenIn { posState with mem := fun _ => 0#16 } 0#16 .stdin 0 ∧ fileText posState .stdin = [32#8, 65#8, 10#8] ∧
    ∃ s', execute (machine barePlatform) [Op.sysio.toByte, 0, sub] 3#16 { posState with mem := fun _ => 0#16 } =
      .ok (eNOERROR, s') ∧ opnd s' 0 = 0#16 ∧ OpenIn s' 0#16 .stdin 2 := by
  refine ⟨⟨by decide, rfl, _, rfl, rfl, rfl⟩, rfl, ?_⟩
  rcases h with rfl | rfl
  · exact ⟨_, rfl, by decide, ⟨by decide, rfl, _, rfl, rfl, rfl⟩⟩
  · exact ⟨_, rfl, by decide, ⟨by decide, rfl, _, rfl, rfl, rfl⟩⟩

end Pas
