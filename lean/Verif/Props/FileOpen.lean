import Verif.Props.FilePos

/-! Property C68: opening and closing files. -/
namespace Pas
open Spec SysIo

theorem open_exec {lib : Lib} {fpu : FloatOps.Fpu} {host : Host} (hlib : lib.sysIo = sysIo fpu host)
    {code : List Byte} {maxpc : Word} {s : VM} {sub : Word} {m : OpenMode} (hi : Insn code maxpc s .sysio 0 sub)
    (hm : (sub = 0x0b#16 ∧ m = .read) ∨ (sub = 0x0d#16 ∧ m = .write) ∨ (sub = 0x0f#16 ∧ m = .append))
    (hr : Room s 1) :
    execute lib code maxpc s =
      .ok ((openFile host { s with sp := s.sp - 2#16 } (opnd s 0).toNat m).1,
        { (openFile host { s with sp := s.sp - 2#16 } (opnd s 0).toNat m).2 with
          pc := (openFile host { s with sp := s.sp - 2#16 } (opnd s 0).toNat m).2.pc + 3#16 }) := by
  rw [sysio_exec hlib hi]
  rcases hm with ⟨rfl, rfl⟩ | ⟨rfl, rfl⟩ | ⟨rfl, rfl⟩
  · simp only [sysIo, show (0x0b#16).toNat = 0x0b from rfl]
    rw [Str.pop0 s hr.2]
    rfl
  · simp only [sysIo, show (0x0d#16).toNat = 0x0d from rfl]
    rw [Str.pop0 s hr.2]
    rfl
  · simp only [sysIo, show (0x0f#16).toNat = 0x0f from rfl]
    rw [Str.pop0 s hr.2]
    rfl

theorem openFile_closed (host : Host) (s : VM) (n : Word) (m : OpenMode) (name : List Byte)
    (hc : Unopened s n name) :
    openFile host s n.toNat m = (match fopen host s name m with
      | (none, s) => (eOPENFAILED, s)
      | (some t, s) => (eNOERROR, setEntry s n.toNat { entry s n.toNat with stream := some t, openMode := m })) := by
  obtain ⟨h1, h2, h3⟩ := hc
  unfold openFile
  rw [if_neg (by unfold maxFiles; omega), if_neg (by show ¬ (s.io.table n.toNat).stream ≠ none; rw [h2]; simp)]
  rw [show (entry s n.toNat).fileName = name from h3]
  rfl

/-- **C68**, RESET: an existing file is open for reading at its beginning; no file changes. -/
theorem C68_reset (lib : Lib) (fpu : FloatOps.Fpu) (host : Host) (hlib : lib.sysIo = sysIo fpu host)
    (code : List Byte) (maxpc : Word) (s : VM) (hi : Insn code maxpc s .sysio 0 0x0b#16) (hr : Room s 1)
    (name : List Byte) (hc : Unopened s (opnd s 0) name) (h0 : name ≠ []) (hp : host.mayOpen name .read = true)
    (hx : (s.io.files (.named name)).isSome) :
    ∃ s', execute lib code maxpc s = .ok (eNOERROR, s') ∧ Opened s s' (opnd s 0) ∧
      OpenIn s' (opnd s 0) (.named name) 0 ∧ s'.io.files = s.io.files := by
  rw [open_exec hlib hi (.inl ⟨rfl, rfl⟩) hr, openFile_closed host { s with sp := s.sp - 2#16 } _ _ name ⟨hc.1, hc.2, hc.3⟩]
  have e : fopen host { s with sp := s.sp - 2#16 } name .read = (some ⟨.named name, 0, false⟩, { s with sp := s.sp - 2#16 }) := by
    unfold fopen
    rw [if_neg (by rw [hp]; simp [h0])]
    dsimp only
    rw [if_pos hx]
  rw [e]
  refine ⟨_, rfl, ⟨rfl, rfl, rfl, fun i hi => setEntry_other _ _ _ _ hi, by simp [setEntry, entry]⟩, ⟨hc.number, ?_, ⟨.named name, 0, false⟩, ?_, rfl, rfl⟩, rfl⟩
  · show ((setEntry _ _ _).io.table _).openMode = _
    rw [setEntry_same]
  · show ((setEntry _ _ _).io.table _).stream = _
    rw [setEntry_same]

/-- **C68**, REWRITE: the file is empty and open for output; no other file changes. -/
theorem C68_rewrite (lib : Lib) (fpu : FloatOps.Fpu) (host : Host) (hlib : lib.sysIo = sysIo fpu host)
    (code : List Byte) (maxpc : Word) (s : VM) (hi : Insn code maxpc s .sysio 0 0x0d#16) (hr : Room s 1)
    (name : List Byte) (hc : Unopened s (opnd s 0) name) (h0 : name ≠ []) (hp : host.mayOpen name .write = true) :
    ∃ s', execute lib code maxpc s = .ok (eNOERROR, s') ∧ Opened s s' (opnd s 0) ∧
      OpenOut s' (opnd s 0) (.named name) 0 ∧ fileText s' (.named name) = [] ∧
      ∀ g, g ≠ .named name → s'.io.files g = s.io.files g := by
  rw [open_exec hlib hi (.inr (.inl ⟨rfl, rfl⟩)) hr, openFile_closed host { s with sp := s.sp - 2#16 } _ _ name ⟨hc.1, hc.2, hc.3⟩]
  have e : fopen host { s with sp := s.sp - 2#16 } name .write =
      (some ⟨.named name, 0, false⟩, setFile { s with sp := s.sp - 2#16 } (.named name) []) := by
    unfold fopen
    rw [if_neg (by rw [hp]; simp [h0])]
  rw [e]
  refine ⟨_, rfl, ⟨rfl, rfl, rfl, fun i hi => setEntry_other _ _ _ _ hi, by simp [setEntry, setFile, entry]⟩,
    ⟨hc.number, ⟨.named name, 0, false⟩, ?_, rfl, .inr ⟨?_, rfl⟩⟩, ?_, fun g hg => ?_⟩
  · show ((setEntry _ _ _).io.table _).stream = _
    rw [setEntry_same]
  · show ((setEntry _ _ _).io.table _).openMode = _
    rw [setEntry_same]
  · show ((if HostFile.named name = .named name then some [] else _ : Option (List Byte))).getD [] = []
    rw [if_pos rfl]
    rfl
  · show (if g = HostFile.named name then _ else _) = _
    rw [if_neg hg]

/-- **C68**, APPEND: the file (empty if it did not exist) is open for output at its end; its text and the other
files stay. -/
theorem C68_append (lib : Lib) (fpu : FloatOps.Fpu) (host : Host) (hlib : lib.sysIo = sysIo fpu host)
    (code : List Byte) (maxpc : Word) (s : VM) (hi : Insn code maxpc s .sysio 0 0x0f#16) (hr : Room s 1)
    (name : List Byte) (hc : Unopened s (opnd s 0) name) (h0 : name ≠ []) (hp : host.mayOpen name .append = true) :
    ∃ s', execute lib code maxpc s = .ok (eNOERROR, s') ∧ Opened s s' (opnd s 0) ∧
      OpenOut s' (opnd s 0) (.named name) (fileText s (.named name)).length ∧
      fileText s' (.named name) = fileText s (.named name) ∧
      ∀ g, g ≠ .named name → s'.io.files g = s.io.files g := by
  rw [open_exec hlib hi (.inr (.inr ⟨rfl, rfl⟩)) hr, openFile_closed host { s with sp := s.sp - 2#16 } _ _ name ⟨hc.1, hc.2, hc.3⟩]
  have e : fopen host { s with sp := s.sp - 2#16 } name .append =
      (some ⟨.named name, (fileText s (.named name)).length, false⟩,
        setFile { s with sp := s.sp - 2#16 } (.named name) (fileText s (.named name))) := by
    unfold fopen
    rw [if_neg (by rw [hp]; simp [h0])]
    rfl
  rw [e]
  have ht : ((if HostFile.named name = .named name then some (fileText s (.named name)) else s.io.files (.named name) :
      Option (List Byte))).getD [] = fileText s (.named name) := by
    rw [if_pos rfl]
    rfl
  refine ⟨_, rfl, ⟨rfl, rfl, rfl, fun i hi => setEntry_other _ _ _ _ hi, by simp [setEntry, setFile, entry]⟩,
    ⟨hc.number, ⟨.named name, (fileText s (.named name)).length, false⟩, ?_, rfl, .inl ⟨?_, ?_⟩⟩, ht, fun g hg => ?_⟩
  · show ((setEntry _ _ _).io.table _).stream = _
    rw [setEntry_same]
  · show ((setEntry _ _ _).io.table _).openMode = _
    rw [setEntry_same]
  · exact (congrArg List.length ht).symm
  · show (if g = HostFile.named name then _ else _) = _
    rw [if_neg hg]

/-- **C68**, a file that cannot be opened: RESET of a file that does not exist, or any of the three when the host
does not permit it, is reported, and nothing happens. -/
theorem C68_failed (lib : Lib) (fpu : FloatOps.Fpu) (host : Host) (hlib : lib.sysIo = sysIo fpu host)
    (code : List Byte) (maxpc : Word) (s : VM) (sub : Word) (m : OpenMode) (hi : Insn code maxpc s .sysio 0 sub)
    (hm : (sub = 0x0b#16 ∧ m = .read) ∨ (sub = 0x0d#16 ∧ m = .write) ∨ (sub = 0x0f#16 ∧ m = .append)) (hr : Room s 1)
    (name : List Byte) (hc : Unopened s (opnd s 0) name)
    (hp : host.mayOpen name m = false ∨ (m = .read ∧ s.io.files (.named name) = none)) :
    ∃ s', execute lib code maxpc s = .ok (0xb7, s') ∧ OnlyPopped s s' 1 := by
  rw [open_exec hlib hi hm hr, openFile_closed host { s with sp := s.sp - 2#16 } _ _ name ⟨hc.1, hc.2, hc.3⟩]
  have e : fopen host { s with sp := s.sp - 2#16 } name m = (none, { s with sp := s.sp - 2#16 }) := by
    unfold fopen
    by_cases h : name = [] ∨ host.mayOpen name m = false
    · rw [if_pos h]
    · rw [if_neg h]
      rcases hp with hp | ⟨rfl, hp⟩
      · exact absurd (.inr hp) h
      · dsimp only
        rw [if_neg (by show ¬ (s.io.files (.named name)).isSome = true; rw [hp]; simp)]
  rw [e]
  exact ⟨_, rfl, rfl⟩

/-- **C68**, CLOSE: the number is not open any more, but still assigned to its file; nothing else happens. -/
theorem C68_close (lib : Lib) (fpu : FloatOps.Fpu) (host : Host) (hlib : lib.sysIo = sysIo fpu host)
    (code : List Byte) (maxpc : Word) (s : VM) (hi : Insn code maxpc s .sysio 0 0x10#16) (hr : Room s 1)
    (h8 : (opnd s 0).toNat < 8) (ho : (s.io.table (opnd s 0).toNat).stream ≠ none) :
    ∃ s', execute lib code maxpc s = .ok (eNOERROR, s') ∧ Opened s s' (opnd s 0) ∧
      Unopened s' (opnd s 0) (s.io.table (opnd s 0).toNat).fileName ∧ s'.io.files = s.io.files := by
  have e : closeFile { s with sp := s.sp - 2#16 } (opnd s 0).toNat =
      (eNOERROR, setEntry { s with sp := s.sp - 2#16 } (opnd s 0).toNat { entry s (opnd s 0).toNat with stream := none }) := by
    unfold closeFile
    rw [if_neg (by unfold maxFiles; omega), if_neg]
    rotate_left
    · exact ho
    rfl
  rw [sysio_exec hlib hi]
  simp only [sysIo, show (0x10#16).toNat = 0x10 from rfl]
  rw [Str.pop0 s hr.2, Res.ok_bind]
  refine ⟨{ setEntry { s with sp := s.sp - 2#16 } (opnd s 0).toNat { entry s (opnd s 0).toNat with stream := none } with
    pc := s.pc + 3#16 }, ?_, ⟨rfl, rfl, rfl, fun i hi => setEntry_other _ _ _ _ hi, by simp [setEntry, setFile, entry]⟩, ⟨h8, ?_, ?_⟩, rfl⟩
  · show Res.ok (closeFile { s with sp := s.sp - 2#16 } (opnd s 0).toNat) >>= _ = _
    rw [e]
    rfl
  · show ((setEntry _ _ _).io.table _).stream = _
    rw [setEntry_same]
  · show ((setEntry _ _ _).io.table _).fileName = _
    rw [setEntry_same]
    rfl

/-- **C68**, a whole file: REWRITE, a block, CLOSE, RESET, and the block read back is the block written.  The
states before the five calls may differ in everything but the files. -/
theorem C68_file_roundtrip (lib : Lib) (fpu : FloatOps.Fpu) (host : Host) (hlib : lib.sysIo = sysIo fpu host)
    (code : List Byte) (maxpc : Word) (n : Word) (name : List Byte) (h0 : name ≠ [])
    (hpw : host.mayOpen name .write = true) (hpr : host.mayOpen name .read = true)
    (s1 s2 s3 s4 s5 t1 t2 t3 t4 : VM)
    (hc : Unopened s1 n name)
    -- REWRITE
    (i1 : Insn code maxpc s1 .sysio 0 0x0d#16) (r1 : Room s1 1) (n1 : opnd s1 0 = n)
    (x1 : execute lib code maxpc s1 = .ok (eNOERROR, t1))
    -- the block is written
    (i2 : Insn code maxpc s2 .sysio 0 0x1a#16) (r2 : Room s2 3) (n2 : opnd s2 2 = n) (io2 : s2.io = t1.io)
    (m2 : (opnd s2 0).toNat + (opnd s2 1).toNat ≤ 2 * s2.words) (k2 : 0 < (opnd s2 1).toNat)
    (x2 : execute lib code maxpc s2 = .ok (eNOERROR, t2))
    -- CLOSE
    (i3 : Insn code maxpc s3 .sysio 0 0x10#16) (r3 : Room s3 1) (n3 : opnd s3 0 = n) (io3 : s3.io = t2.io)
    (x3 : execute lib code maxpc s3 = .ok (eNOERROR, t3))
    -- RESET
    (i4 : Insn code maxpc s4 .sysio 0 0x0b#16) (r4 : Room s4 1) (n4 : opnd s4 0 = n) (io4 : s4.io = t3.io)
    (x4 : execute lib code maxpc s4 = .ok (eNOERROR, t4))
    -- the block is read
    (i5 : Insn code maxpc s5 .sysio 0 0x13#16) (r5 : Room s5 3) (n5 : opnd s5 2 = n) (io5 : s5.io = t4.io)
    (m5 : (opnd s5 0).toNat + (opnd s5 1).toNat ≤ 2 * s5.words) (k5 : opnd s5 1 = opnd s2 1) :
    ∃ t5, execute lib code maxpc s5 = .ok (eNOERROR, t5) ∧
      ∀ i < (opnd s2 1).toNat, byte t5.mem ((opnd s5 0).toNat + i) = byte s2.mem ((opnd s2 0).toNat + i) := by
  subst n1
  obtain ⟨u1, e1, p1, o1, -, -⟩ := C68_rewrite lib fpu host hlib code maxpc s1 i1 r1 name hc h0 hpw
  rw [x1] at e1
  cases e1
  have o2 : OpenOut s2 (opnd s2 2) (.named name) 0 := by
    rw [n2]
    exact ⟨o1.number, by unfold fileText; rw [io2]; exact o1.isOpen⟩
  obtain ⟨u2, e2, w2⟩ := C67_write_block lib fpu host hlib code maxpc s2 i2 r2 m2 _ _ o2
  rw [x2] at e2
  cases e2
  have nm : (s3.io.table (opnd s3 0).toNat).fileName = name := by
    rw [io3, n3, ← n2, w2.entry, io2, n2, p1.entry]
    exact hc.assigned
  obtain ⟨st, hst, -⟩ := w2.stream.isOpen
  obtain ⟨u3, e3, -, c3, f3⟩ := C68_close lib fpu host hlib code maxpc s3 i3 r3 (by rw [n3]; exact hc.number)
    (by rw [io3, n3, ← n2, hst]; simp)
  rw [x3] at e3
  cases e3
  rw [nm, n3] at c3
  have ex : ∀ i, i < (opnd s2 1).toNat → (fileText t2 (.named name))[0 + i]? ≠ none := by
    intro i hi
    rw [w2.text.inside i (by unfold text; rw [List.length_map, List.length_range]; exact hi)]
    simp
  obtain ⟨u4, e4, -, o4, f4⟩ := C68_reset lib fpu host hlib code maxpc s4 i4 r4 name
    ⟨by rw [n4]; exact hc.number, by rw [n4, io4]; exact c3.closed, by rw [n4, io4]; exact c3.assigned⟩ h0 hpr (by
      rw [io4, f3, io3]
      have := ex 0 k2
      cases e : t2.io.files (.named name) with
      | none => unfold fileText at this; rw [e] at this; exact absurd rfl this
      | some _ => rfl)
  rw [x4] at e4
  cases e4
  exact C67_block_roundtrip lib fpu host hlib code maxpc (.named name) 0 s2 t2 i2 r2 m2 o2 x2 s5
    (by rw [io5, f4, io4, f3, io3]) i5 r5 m5
    (by rw [n5, ← n4]; exact ⟨o4.number, by rw [io5]; exact o4.mode, by rw [io5]; exact o4.isOpen⟩) k5 k2

/-- **C68**, ASSIGN: the file number has the name (up to a NUL) and the kind of file asked for; a longer name than 40
characters is refused. -/
theorem C68_assign (lib : Lib) (fpu : FloatOps.Fpu) (host : Host) (hlib : lib.sysIo = sysIo fpu host)
    (code : List Byte) (maxpc : Word) (s : VM) (hi : Insn code maxpc s .sysio 0 0x0a#16) (hr : Room s 5)
    (hm : (opnd s 1).toNat + (opnd s 2).toNat ≤ 2 * s.words) (h8 : (opnd s 4).toNat < 8)
    (h0 : 0#8 ∉ text s.mem (opnd s 1).toNat (opnd s 2).toNat) :
    ∃ e s', execute lib code maxpc s = .ok (e, s') ∧
      ((opnd s 2).toNat ≤ 40 → e = eNOERROR ∧ s' = { s with
        sp := s.sp - 10#16
        pc := s.pc + 3#16
        io := { s.io with table := fun i => if i = (opnd s 4).toNat then { s.io.table i with
            fileName := text s.mem (opnd s 1).toNat (opnd s 2).toNat
            text := decide (opnd s 3 ≠ 0#16) } else s.io.table i } }) ∧
      (40 < (opnd s 2).toNat → e = 0xb1 ∧ OnlyPopped s s' 5) := by
  obtain ⟨h1, h2⟩ := hr
  have ht : s.top = s.sp.toNat / 2 := rfl
  rw [sysio_exec hlib hi]
  simp only [sysIo, show (0x0a#16).toNat = 0x0a from rfl]
  have hd : s.discard 1 = { s with sp := s.sp - 2#16 } := rfl
  rw [hd, Str.pop1 s (by omega) h2, Res.ok_bind, Str.pop2 s (by omega) h2, Res.ok_bind,
    Str.pop3 s (by omega) h2, Res.ok_bind, Str.pop4 s (by omega) h2, Res.ok_bind]
  have e : assignFile { s with sp := s.sp - 10#16 } (opnd s 4).toNat (decide (opnd s 3 ≠ 0#16)) (opnd s 1).toNat (opnd s 2).toNat =
      .ok (if (opnd s 2).toNat > 40 then (0xb1, { s with sp := s.sp - 10#16 }) else (eNOERROR,
        setEntry { s with sp := s.sp - 10#16 } (opnd s 4).toNat { s.io.table (opnd s 4).toNat with
            fileName := text s.mem (opnd s 1).toNat (opnd s 2).toNat
            text := decide (opnd s 3 ≠ 0#16) })) := by
    unfold assignFile fnameSize
    rw [if_neg (by unfold maxFiles; omega)]
    split
    · rfl
    · rw [Str.readBytes_eq { s with sp := s.sp - 10#16 } _ _ hm, Res.ok_bind, cstr_all _ h0]
      rfl
  show ∃ e' s', (assignFile { s with sp := s.sp - 10#16 } (opnd s 4).toNat (decide (opnd s 3 ≠ 0#16)) (opnd s 1).toNat
    (opnd s 2).toNat >>= _) = _ ∧ _
  rw [e]
  by_cases hs : (opnd s 2).toNat > 40
  · rw [if_pos hs]
    exact ⟨_, _, rfl, fun h => absurd hs (by omega), fun _ => ⟨rfl, rfl⟩⟩
  · rw [if_neg hs]
    refine ⟨_, _, rfl, fun _ => ⟨rfl, ?_⟩, fun h => absurd h hs⟩
    unfold setEntry
    dsimp only
    congr 2
    funext i
    split
    · rename_i e; rw [e]
    · rfl

/-! ### Concrete cases -/

/-- File number 2 is assigned to "a", which has 5 bytes; the stack holds the file number 2 (twice) . -/
def closedState : VM :=
  { posState with
    mem := fun _ => 2#16
    io := { posState.io with table := fun i => { posState.io.table i with
      stream := none
      fileName := [97#8] } } }

/-- Non-vacuity of RESET, REWRITE, APPEND and CLOSE. -/
example : Unopened closedState (opnd closedState 0) [97#8] ∧ (closedState.io.files (.named [97#8])).isSome ∧
    barePlatform.host.mayOpen [97#8] .read = true ∧ barePlatform.host.mayOpen [97#8] .write = true ∧
    barePlatform.host.mayOpen [97#8] .append = true ∧ Room closedState 1 ∧
    Insn [Op.sysio.toByte, 0, 0x0b] 3#16 closedState .sysio 0 0x0b#16 ∧ (posState.io.table 2).stream ≠ none ∧
    ∃ s', execute (machine barePlatform) [Op.sysio.toByte, 0, 0x0b] 3#16 closedState = .ok (eNOERROR, s') ∧
      OpenIn s' 2#16 (.named [97#8]) 0 :=
  ⟨⟨by decide, rfl, rfl⟩, rfl, rfl, rfl, rfl, ⟨by decide, by decide⟩,
   ⟨⟨by decide, rfl⟩, by decide, fun _ => ⟨0, 0x0b, rfl, rfl, rfl⟩⟩, by decide, _, rfl,
   ⟨by decide, rfl, _, rfl, rfl, rfl⟩⟩

/-- Non-vacuity of ASSIGN: the name is the 2 bytes at address 2. -/
example : Room closedState 5 ∧ (opnd closedState 1).toNat + (opnd closedState 2).toNat ≤ 2 * closedState.words ∧
    text { closedState with mem := fun i => if i = 1 then 0x6261#16 else 2#16 }.mem 2 2 = [0x61#8, 0x62#8] :=
  ⟨⟨by decide, by decide⟩, by decide, by decide⟩

/-- **C68** fails for a file that is open: RESET should go back to the beginning (file number 2 is open at position
3), but it is refused. -/
theorem C68_violation_reset_open :
    OpenIn posState (opnd posState 0) (.named [97#8]) 3 ∧
    ∃ s', execute (machine barePlatform) [Op.sysio.toByte, 0, 0x0b] 3#16 posState = .ok (0xb5, s') ∧
      OpenIn s' 2#16 (.named [97#8]) 3 :=
  ⟨⟨by decide, rfl, _, rfl, rfl, rfl⟩, _, rfl, ⟨by decide, rfl, _, rfl, rfl, rfl⟩⟩

/-- **C68** fails for RESET with a record size: the file "b" does not exist, the call reports no error, and the
file number is not open. -/
theorem C68_violation_reset_size :
    ∃ s s', Unopened s 2#16 [98#8] ∧ s.io.files (.named [98#8]) = none ∧ opnd s 1 = 2#16 ∧
      execute (machine barePlatform) [Op.sysio.toByte, 0, 0x0c] 3#16 s = .ok (eNOERROR, s') ∧
      (s'.io.table 2).stream = none :=
  ⟨{ closedState with io := { closedState.io with table := fun i => { closedState.io.table i with fileName := [98#8] } } }, _,
    ⟨by decide, rfl, rfl⟩, rfl, rfl, rfl, rfl⟩

end Pas
