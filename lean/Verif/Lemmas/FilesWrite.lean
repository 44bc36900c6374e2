import Verif.Lemmas.Files
import Verif.Props.Memory

/-! Instructions that write text. -/
namespace Pas
open Spec SysIo

theorem sysio_exec {lib : Lib} {fpu : FloatOps.Fpu} {host : Host} (hlib : lib.sysIo = sysIo fpu host)
    {code : List Byte} {maxpc : Word} {s : VM} {sub : Word} (hi : Insn code maxpc s .sysio 0 sub) :
    execute lib code maxpc s = (do
      let (r, s) ← sysIo fpu host s sub
      .ok (r, { s with pc := s.pc + 3#16 })) := by
  rw [insn_24 hi (by decide) (by decide), pexec24, hlib]

/-- The operands of a writing operation are taken from the stack, and text that meets the description is
written. -/
theorem write_exec {lib : Lib} {fpu : FloatOps.Fpu} {host : Host} (hlib : lib.sysIo = sysIo fpu host)
    {code : List Byte} {maxpc : Word} {s : VM} {sub n : Word} {k : Nat} {P : List Byte → Prop}
    (hc : WriteCall s sub k n P) (hr : Room s k) (hi : Insn code maxpc s .sysio 0 sub) :
    ∃ out, P out ∧ execute lib code maxpc s =
      (let r := writeText { s with sp := s.sp - BitVec.ofNat 16 (2 * k) } n.toNat out
       .ok (r.1, { r.2 with pc := r.2.pc + 3#16 })) := by
  rw [sysio_exec hlib hi]
  obtain ⟨h1, h2⟩ := hr
  have ht : s.top = s.sp.toNat / 2 := rfl
  cases hc with
  | integer =>
    refine ⟨pad (width (opnd s 0)) (fmtD (opnd s 1).toInt), ⟨_, decimalInt_fmtD ?_ ?_, justified_width _ _⟩, ?_⟩
    · have := BitVec.le_toInt (opnd s 1); omega
    · have := BitVec.toInt_lt (x := opnd s 1); omega
    simp only [sysIo, show (0x1b#16).toNat = 0x1b from rfl]
    rw [Str.pop0 s h2, Res.ok_bind, Str.pop1 s (by omega) h2, Res.ok_bind, Str.pop2 s (by omega) h2, Res.ok_bind]
    rfl
  | word =>
    refine ⟨pad (width (opnd s 0)) (fmtU (opnd s 1).toNat), ⟨_, decimal_fmtU ?_, justified_width _ _⟩, ?_⟩
    · have := (opnd s 1).isLt; omega
    simp only [sysIo, show (0x1c#16).toNat = 0x1c from rfl]
    rw [Str.pop0 s h2, Res.ok_bind, Str.pop1 s (by omega) h2, Res.ok_bind, Str.pop2 s (by omega) h2, Res.ok_bind]
    rfl
  | longInteger =>
    have e : (opnd s 1 ++ opnd s 2 : BitVec 32).toInt = (opnd s 1).toInt * 65536 + (opnd s 2).toNat := by
      simp only [BitVec.toInt_eq_toNat_bmod, BitVec.toNat_append]
      have := (opnd s 1).isLt
      have := (opnd s 2).isLt
      rw [← Nat.shiftLeft_add_eq_or_of_lt (by omega), Nat.shiftLeft_eq]
      rw [Int.bmod_def, Int.bmod_def]
      omega
    refine ⟨pad (width (opnd s 0)) (fmtD (opnd s 1 ++ opnd s 2 : BitVec 32).toInt),
      ⟨_, (by rw [← e]; exact decimalInt_fmtD (by have := BitVec.le_toInt (opnd s 1 ++ opnd s 2); omega) (by have := BitVec.toInt_lt (x := opnd s 1 ++ opnd s 2); omega)), justified_width _ _⟩, ?_⟩
    simp only [sysIo, show (0x1d#16).toNat = 0x1d from rfl]
    rw [Str.pop0 s h2, Res.ok_bind, Str.pop1 s (by omega) h2, Res.ok_bind, Str.pop2 s (by omega) h2, Res.ok_bind,
      Str.pop3 s (by omega) h2, Res.ok_bind]
    rfl
  | longWord =>
    have e : (opnd s 1 ++ opnd s 2 : BitVec 32).toNat = (opnd s 1).toNat * 65536 + (opnd s 2).toNat := by
      rw [BitVec.toNat_append]
      have := (opnd s 2).isLt
      rw [← Nat.shiftLeft_add_eq_or_of_lt (by omega), Nat.shiftLeft_eq]
    refine ⟨pad (width (opnd s 0)) (fmtU (opnd s 1 ++ opnd s 2 : BitVec 32).toNat),
      ⟨_, (by rw [← e]; exact decimal_fmtU (by have := (opnd s 1 ++ opnd s 2).isLt; omega)), justified_width _ _⟩, ?_⟩
    simp only [sysIo, show (0x1e#16).toNat = 0x1e from rfl]
    rw [Str.pop0 s h2, Res.ok_bind, Str.pop1 s (by omega) h2, Res.ok_bind, Str.pop2 s (by omega) h2, Res.ok_bind,
      Str.pop3 s (by omega) h2, Res.ok_bind]
    rfl
  | character =>
    refine ⟨pad (width (opnd s 0)) [(opnd s 1).truncate 8], ⟨_, ?_, justified_width _ _⟩, ?_⟩
    · rw [BitVec.truncate_eq_setWidth, BitVec.toNat_setWidth]
    simp only [sysIo, show (0x1f#16).toNat = 0x1f from rfl]
    rw [Str.pop0 s h2, Res.ok_bind, Str.pop1 s (by omega) h2, Res.ok_bind, Str.pop2 s (by omega) h2, Res.ok_bind]
    rfl
  | newline =>
    refine ⟨_, rfl, ?_⟩
    simp only [sysIo, show (0x18#16).toNat = 0x18 from rfl]
    rw [Str.pop0 s h2, Res.ok_bind]
    rfl
  | page =>
    refine ⟨_, rfl, ?_⟩
    simp only [sysIo, show (0x19#16).toNat = 0x19 from rfl]
    rw [Str.pop0 s h2, Res.ok_bind]
    rfl

/-- The text is written. -/
theorem write_wrote (lib : Lib) (fpu : FloatOps.Fpu) (host : Host) (hlib : lib.sysIo = sysIo fpu host)
    (code : List Byte) (maxpc : Word) (s : VM) (sub n : Word) (k : Nat) (P : List Byte → Prop)
    (hc : WriteCall s sub k n P) (hr : Room s k) (hi : Insn code maxpc s .sysio 0 sub)
    (f : HostFile) (pos : Nat) (ho : OpenOut s n f pos) :
    ∃ s' out, execute lib code maxpc s = .ok (eNOERROR, s') ∧ P out ∧ Wrote s s' k n f pos out := by
  obtain ⟨out, hp, he⟩ := write_exec hlib hc hr hi
  obtain ⟨io, h1, h2, h3, h4, h6, h5⟩ := writeText_ok (s := { s with sp := s.sp - BitVec.ofNat 16 (2 * k) })
    (n := n) (f := f) (pos := pos) ⟨ho.1, ho.2⟩ out
  rw [he, h1]
  exact ⟨_, out, rfl, hp, ⟨rfl, rfl, rfl, h2, h3, h4, h6, ⟨h5.1, h5.2⟩⟩⟩

/-- A string is written. -/
theorem write_string_wrote (lib : Lib) (fpu : FloatOps.Fpu) (host : Host) (hlib : lib.sysIo = sysIo fpu host)
    (code : List Byte) (maxpc : Word) (s : VM) (hr : Room s 5) (hi : Insn code maxpc s .sysio 0 0x20#16)
    (hm : (opnd s 2).toNat + (opnd s 3).toNat ≤ 2 * s.words) (ha : ¬ Temp (opnd s 1))
    (f : HostFile) (pos : Nat) (ho : OpenOut s (opnd s 4) f pos) :
    ∃ s' out, execute lib code maxpc s = .ok (eNOERROR, s') ∧
      Justified ((opnd s 0).toNat / 256) (text s.mem (opnd s 2).toNat (opnd s 3).toNat) out ∧
      Wrote s s' 5 (opnd s 4) f pos out := by
  obtain ⟨h1, h2⟩ := hr
  have ht : s.top = s.sp.toNat / 2 := rfl
  rw [sysio_exec hlib hi]
  simp only [sysIo, show (0x20#16).toNat = 0x20 from rfl]
  rw [Str.pop0 s h2, Res.ok_bind, Str.pop1 s (by omega) h2, Res.ok_bind, Str.pop2 s (by omega) h2, Res.ok_bind,
    Str.pop3 s (by omega) h2, Res.ok_bind, Str.pop4 s (by omega) h2, Res.ok_bind]
  obtain ⟨io, e1, e2, e3, e4, e6, e5⟩ := writeText_ok (s := { s with sp := s.sp - 10#16 })
    (n := opnd s 4) (f := f) (pos := pos) ⟨ho.1, ho.2⟩
    (pad (width (opnd s 0)) (text s.mem (opnd s 2).toNat (opnd s 3).toNat))
  unfold writeText at e1
  unfold writeString
  have hw : writeError { s with sp := s.sp - 10#16 } (opnd s 4).toNat = eNOERROR := by
    refine Decidable.byContradiction fun h => ?_
    rw [if_neg h] at e1
    exact h (Prod.mk.inj e1).1
  rw [if_pos hw] at e1
  have e1 := (Prod.mk.inj e1).2
  refine ⟨{ s with
    sp := s.sp - 10#16
    io := io
    pc := s.pc + 3#16 }, _, ?_, justified_width _ _, ⟨rfl, rfl, rfl, e2, e3, e4, e6, ⟨e5.1, e5.2⟩⟩⟩
  show (if writeError { s with sp := s.sp - 10#16 } (opnd s 4).toNat = eNOERROR then do
      let l ← Str.readBytes { s with sp := s.sp - 10#16 } (opnd s 2).toNat (opnd s 3).toNat
      let s' ← Str.freeTmp (put { s with sp := s.sp - 10#16 } (opnd s 4).toNat (pad (width (opnd s 0)) l))
        (opnd s 2) (opnd s 1)
      .ok (eNOERROR, s')
    else .ok (writeError { s with sp := s.sp - 10#16 } (opnd s 4).toNat, { s with sp := s.sp - 10#16 })) >>= _ = _
  rw [if_pos hw, Str.readBytes_eq { s with sp := s.sp - 10#16 } _ _ hm, Res.ok_bind, e1, Str.freeTmp_plain _ ha]
  rfl

end Pas
