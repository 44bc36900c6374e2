import Verif.Lemmas.FilesRead
import Verif.Lemmas.FilesWrite

/-! Instructions that read text. -/
namespace Pas
open Spec SysIo

theorem didRead_afterLine {s : VM} {n : Word} {t : Stream} {k : Nat} {e : Bool} {buf : List Byte} (h : n.toNat < 8)
    (hm : (s.io.table n.toNat).openMode = .read) (m : Nat → Word) :
    DidRead s { s with
      sp := s.sp - 4#16
      pc := s.pc + 3#16
      mem := m
      io := afterLine s n.toNat t k e buf } 2 n t.file (t.pos + k) e := by
  refine ⟨rfl, rfl, rfl, rfl, fun i hi => ?_, ?_, ⟨h, ?_, ?_⟩⟩
  · show (if i = n.toNat then _ else _) = _
    rw [if_neg hi]
  · simp [afterLine]
  · show (if n.toNat = n.toNat then _ else _ : FileEntry).openMode = _
    rw [if_pos rfl]
    exact hm
  · refine ⟨⟨t.file, t.pos + k, t.eof || false⟩, ?_, rfl, rfl⟩
    show (if n.toNat = n.toNat then _ else _ : FileEntry).stream = _
    rw [if_pos rfl]

/-- The three reading operations with an address and a file number. -/
theorem read_exec {lib : Lib} {fpu : FloatOps.Fpu} {host : Host} (hlib : lib.sysIo = sysIo fpu host)
    {code : List Byte} {maxpc : Word} {s : VM} {sub : Word} (hr : Room s 2) (hi : Insn code maxpc s .sysio 0 sub)
    {F : VM → Nat → Word → Res (Nat × VM)}
    (hF : (sub = 0x14#16 ∧ F = readInteger) ∨ (sub = 0x15#16 ∧ F = readChar) ∨ (sub = 0x16#16 ∧ F = readString)) :
    execute lib code maxpc s = (do
      let (r, s) ← F { s with sp := s.sp - 4#16 } (opnd s 1).toNat (opnd s 0)
      .ok (r, { s with pc := s.pc + 3#16 })) := by
  obtain ⟨hr1, hr2⟩ := hr
  have htop : s.top = s.sp.toNat / 2 := rfl
  rw [sysio_exec hlib hi]
  rcases hF with ⟨rfl, rfl⟩ | ⟨rfl, rfl⟩ | ⟨rfl, rfl⟩
  · simp only [sysIo, show (0x14#16).toNat = 0x14 from rfl]
    rw [Str.pop0 s hr2, Res.ok_bind, Str.pop1 s (by omega) hr2, Res.ok_bind]
    rfl
  · simp only [sysIo, show (0x15#16).toNat = 0x15 from rfl]
    rw [Str.pop0 s hr2, Res.ok_bind, Str.pop1 s (by omega) hr2, Res.ok_bind]
    rfl
  · simp only [sysIo, show (0x16#16).toNat = 0x16 from rfl]
    rw [Str.pop0 s hr2, Res.ok_bind, Str.pop1 s (by omega) hr2, Res.ok_bind]
    rfl

theorem beginsWith_ne {line : List Byte} {i : Int} (h : BeginsWith line i) : line ≠ [] := by
  obtain ⟨b, n, t, rfl, -, hn, -⟩ := h
  have : n ≠ [] := by
    cases hn with
    | plain h => exact h.1
    | plus h => exact List.cons_ne_nil _ _
    | minus h => exact List.cons_ne_nil _ _
  intro e
  simp at e
  exact this e.2.1

/-- READ of an integer. -/
theorem read_integer_did (lib : Lib) (fpu : FloatOps.Fpu) (host : Host) (hlib : lib.sysIo = sysIo fpu host)
    (code : List Byte) (maxpc : Word) (s : VM) (hr : Room s 2) (hi : Insn code maxpc s .sysio 0 0x14#16)
    (he : (opnd s 0).toNat % 2 = 0) (hm : (opnd s 0).toNat / 2 < s.words)
    (f : HostFile) (pos : Nat) (ho : OpenIn s (opnd s 1) f pos)
    (line more : List Byte) (hl : LineComes s f pos line more) (hlen : line.length ≤ 254)
    (i : Int) (hb : BeginsWith line i) (h1 : -32767 ≤ i) (h2 : i ≤ 32767) :
    ∃ s', execute lib code maxpc s = .ok (eNOERROR, s') ∧
      DidRead s s' 2 (opnd s 1) f (pos + (line.length + 1)) true ∧
      s'.mem ((opnd s 0).toNat / 2) = BitVec.ofInt 16 i ∧
      ∀ j, j ≠ (opnd s 0).toNat / 2 → s'.mem j = s.mem j := by
  obtain ⟨t, ht, rfl, rfl⟩ := ho.isOpen
  rw [read_exec hlib hr hi (.inl ⟨rfl, rfl⟩),
    readInteger_line (s := { s with sp := s.sp - 4#16 }) ho.number ho.mode ht ⟨hl.text, hl.oneLine, hl.noNul⟩
      (beginsWith_ne hb) hlen he hm, convertInteger_ok hb h1 h2]
  exact ⟨_, rfl, didRead_afterLine ho.number ho.mode _, updW_same _ _ _, fun j hj => updW_other _ _ hj⟩

/-- READ of a character. -/
theorem read_char_did (lib : Lib) (fpu : FloatOps.Fpu) (host : Host) (hlib : lib.sysIo = sysIo fpu host)
    (code : List Byte) (maxpc : Word) (s : VM) (hr : Room s 2) (hi : Insn code maxpc s .sysio 0 0x15#16)
    (hm : (opnd s 0).toNat < 2 * s.words)
    (f : HostFile) (pos : Nat) (ho : OpenIn s (opnd s 1) f pos)
    (c : Byte) (line more : List Byte) (hl : LineComes s f pos (c :: line) more) (hlen : (c :: line).length ≤ 254) :
    ∃ s', execute lib code maxpc s = .ok (eNOERROR, s') ∧
      DidRead s s' 2 (opnd s 1) f (pos + ((c :: line).length + 1)) true ∧
      byte s'.mem (opnd s 0).toNat = c ∧
      ∀ a, a ≠ (opnd s 0).toNat → byte s'.mem a = byte s.mem a := by
  obtain ⟨t, ht, rfl, rfl⟩ := ho.isOpen
  rw [read_exec hlib hr hi (.inr (.inl ⟨rfl, rfl⟩)),
    readChar_line (s := { s with sp := s.sp - 4#16 }) ho.number ho.mode ht ⟨hl.text, hl.oneLine, hl.noNul⟩ hlen hm]
  refine ⟨_, rfl, didRead_afterLine ho.number ho.mode _, ?_, fun a ha => ?_⟩
  · show byte (updB s.mem _ _) _ = _
    rw [byte_updB, if_pos rfl]
  · show byte (updB s.mem _ _) _ = _
    rw [byte_updB, if_neg ha]

/-- READLN; a line need only follow if the last one has not been read to its end. -/
theorem readln_did (lib : Lib) (fpu : FloatOps.Fpu) (host : Host) (hlib : lib.sysIo = sysIo fpu host)
    (code : List Byte) (maxpc : Word) (s : VM) (hr : Room s 1) (hi : Insn code maxpc s .sysio 0 0x11#16)
    (f : HostFile) (pos : Nat) (ho : OpenIn s (opnd s 0) f pos) (line more : List Byte)
    (hl : (s.io.table (opnd s 0).toNat).eoln = false →
      (fileText s f).drop pos = line ++ 10#8 :: more ∧ 10#8 ∉ line) :
    ∃ s', execute lib code maxpc s = .ok (eNOERROR, s') ∧ s'.mem = s.mem ∧
      DidRead s s' 1 (opnd s 0) f
        (if (s.io.table (opnd s 0).toNat).eoln then pos else pos + (line.length + 1)) false := by
  obtain ⟨hr1, hr2⟩ := hr
  obtain ⟨t, ht, rfl, rfl⟩ := ho.isOpen
  rw [sysio_exec hlib hi]
  simp only [sysIo, show (0x11#16).toNat = 0x11 from rfl]
  rw [Str.pop0 s hr2, Res.ok_bind]
  show ∃ s', (readLn { s with sp := s.sp - 2#16 } (opnd s 0).toNat >>= _) = _ ∧ _
  unfold readLn
  rw [withRead_ok (s := { s with sp := s.sp - 2#16 }) ho.number ho.mode ht]
  cases he : (s.io.table (opnd s 0).toNat).eoln with
  | true =>
    have he' : (entry { s with sp := s.sp - 2#16 } (opnd s 0).toNat).eoln = true := he
    rw [if_pos he', if_pos rfl]
    refine ⟨_, rfl, rfl, rfl, rfl, rfl, rfl, fun i hi => ?_, ?_, ⟨ho.number, ?_, t, ?_, rfl, rfl⟩⟩
    · show (if i = (opnd s 0).toNat then _ else _) = _
      rw [if_neg hi]
    · simp [setEoln, setEntry, entry]
    · show (if (opnd s 0).toNat = (opnd s 0).toNat then _ else _ : FileEntry).openMode = _
      rw [if_pos rfl]
      exact ho.mode
    · show (if (opnd s 0).toNat = (opnd s 0).toNat then _ else _ : FileEntry).stream = _
      rw [if_pos rfl]
      exact ht
  | false =>
    have he' : ¬(entry { s with sp := s.sp - 2#16 } (opnd s 0).toNat).eoln = true := by
      show ¬(s.io.table (opnd s 0).toNat).eoln = true
      rw [he]; decide
    have hrest : rest { s with sp := s.sp - 2#16 } t = line ++ 10#8 :: more := (hl he).1
    rw [if_neg he', if_neg (by decide), hrest]
    dsimp only
    rw [takeLine_line line more _ (hl he).2 (by simp)]
    refine ⟨_, rfl, rfl, rfl, rfl, rfl, rfl, fun i hi => ?_, ?_, ⟨ho.number, ?_, ?_⟩⟩
    · show (if i = (opnd s 0).toNat then _ else _) = _
      rw [if_neg hi]
    · simp [advance, setEntry, entry, he]
    · show (if (opnd s 0).toNat = (opnd s 0).toNat then _ else _ : FileEntry).openMode = _
      rw [if_pos rfl]
      exact ho.mode
    · refine ⟨⟨t.file, t.pos + (line ++ [10#8]).length, t.eof || ((line ++ [10#8]).getLast? != some 10#8)⟩, ?_, rfl, ?_⟩
      · show (if (opnd s 0).toNat = (opnd s 0).toNat then _ else _ : FileEntry).stream = _
        rw [if_pos rfl]
      · show t.pos + (line ++ [10#8]).length = t.pos + (line.length + 1)
        simp

end Pas
