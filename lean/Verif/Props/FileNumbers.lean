import Verif.Lemmas.FileUse
import Verif.Spec.FileNumbers
import Verif.Props.FilesRead

/-! Property C66: file numbers. -/
namespace Pas
open Spec SysIo

theorem findFree_ok (s : VM) : ∀ k n, n ≤ findFree s k n ∧ findFree s k n ≤ n + k ∧
    (findFree s k n < n + k → (entry s (findFree s k n)).inUse = false) ∧
    (∀ i, n ≤ i → i < findFree s k n → (entry s i).inUse = true)
  | 0, n => ⟨Nat.le_refl _, Nat.le_refl _, fun h => absurd h (Nat.lt_irrefl _), fun i h h' => by
      have : i < n := h'; omega⟩
  | k + 1, n => by
    unfold findFree
    split
    · rename_i hu
      obtain ⟨h1, h2, h3, h4⟩ := findFree_ok s k (n + 1)
      refine ⟨by omega, by omega, fun h => h3 (by omega), fun i h h' => ?_⟩
      by_cases e : i = n
      · rw [e]; exact hu
      · exact h4 i (by omega) h'
    · rename_i hu
      exact ⟨Nat.le_refl _, by omega, fun _ => by simpa using hu, fun i h h' => by omega⟩

theorem alloc_exec {lib : Lib} {fpu : FloatOps.Fpu} {host : Host} (hlib : lib.sysIo = sysIo fpu host)
    {code : List Byte} {maxpc : Word} {s : VM} (hi : Insn code maxpc s .sysio 0 1#16) :
    execute lib code maxpc s = (do
      let t ← (allocateFile s).2.push (BitVec.ofNat 16 (allocateFile s).1)
      .ok (if (allocateFile s).1 ≥ 8 then 0xb3 else eNOERROR, { t with pc := t.pc + 3#16 })) := by
  rw [sysio_exec hlib hi]
  simp only [sysIo, show (0x1#16).toNat = 1 from rfl]
  cases (allocateFile s).2.push (BitVec.ofNat 16 (allocateFile s).1) <;> rfl

theorem allocateFile_keeps (s : VM) : (allocateFile s).2 = { s with io := (allocateFile s).2.io } ∧
    (allocateFile s).2.io.files = s.io.files ∧ (allocateFile s).2.io.buffer = s.io.buffer := by
  unfold allocateFile
  dsimp only
  split <;> exact ⟨rfl, rfl, rfl⟩

/-- **C66**, getting a file number: the number is one that was not in use; it is in use afterwards, and
nothing else happens to the file numbers and the files. -/
theorem C66_alloc (lib : Lib) (fpu : FloatOps.Fpu) (host : Host) (hlib : lib.sysIo = sysIo fpu host)
    (code : List Byte) (maxpc : Word) (s : VM) (hi : Insn code maxpc s .sysio 0 1#16)
    (hr : s.sp.toNat / 2 + 1 < s.words) (hw : s.words ≤ 32768) (i : Word) (h8 : i.toNat < 8) (hf : ¬ InUse s i) :
    ∃ s' n, execute lib code maxpc s = .ok (eNOERROR, s') ∧ Gave s s' 0 [n] ∧ n.toNat < 8 ∧ ¬ InUse s n ∧
      InUse s' n ∧ s'.io = { s.io with
        table := fun j => if j = n.toNat then { s.io.table n.toNat with inUse := true } else s.io.table j } := by
  have htop : s.top = s.sp.toNat / 2 := rfl
  obtain ⟨h1, h2, h3, h4⟩ := findFree_ok s 8 0
  have hlt : findFree s 8 0 < 8 := by
    refine Decidable.byContradiction fun h => hf ⟨h8, h4 i.toNat (by omega) (by omega)⟩
  have hal : allocateFile s = (findFree s 8 0, setEntry s (findFree s 8 0) { entry s (findFree s 8 0) with inUse := true }) := by
    unfold allocateFile maxFiles
    dsimp only
    rw [if_pos hlt]
  have hn : (BitVec.ofNat 16 (findFree s 8 0)).toNat = findFree s 8 0 := by
    rw [BitVec.toNat_ofNat]; omega
  rw [alloc_exec hlib hi, hal]
  dsimp only
  rw [VM.push_eq _ _ (by show s.top + 1 < s.words; omega) (by show s.top + 1 < 32768; omega), Res.ok_bind,
    if_neg (by omega)]
  have hsp : (s.sp + 2#16).toNat / 2 = s.sp.toNat / 2 + 1 := VM.add2_div _ (by omega)
  refine ⟨_, BitVec.ofNat 16 (findFree s 8 0), rfl, ⟨rfl, ?_, rfl, ?_, ?_⟩, by omega, ?_, ?_, ?_⟩
  · show s.sp + 2#16 = s.sp - 0#16 + 2#16
    rw [BitVec.sub_zero]
  · intro k hk
    have : k = 0 := by simpa using hk
    subst this
    show updW s.mem (s.top + 1) _ ((s.sp + 2#16).toNat / 2 - 0) = _
    rw [hsp, ← htop]
    exact updW_same _ _ _
  · intro j hj
    have hj : j + 1 ≤ (s.sp + 2#16).toNat / 2 ∨ (s.sp + 2#16).toNat / 2 < j := hj
    show updW s.mem (s.top + 1) _ j = _
    exact updW_other _ _ (by omega)
  · intro h
    have := h3 (by omega)
    rw [show (entry s (findFree s 8 0)).inUse = true from hn ▸ h.2] at this
    cases this
  · refine ⟨by omega, ?_⟩
    rw [hn]
    show (if findFree s 8 0 = findFree s 8 0 then _ else _ : FileEntry).inUse = _
    rw [if_pos rfl]
  · rw [hn]
    rfl

/-- **C66**, too many files: when all numbers are in use, the program is told so and nothing happens to
the files. -/
theorem C66_full (lib : Lib) (fpu : FloatOps.Fpu) (host : Host) (hlib : lib.sysIo = sysIo fpu host)
    (code : List Byte) (maxpc : Word) (s : VM) (hi : Insn code maxpc s .sysio 0 1#16)
    (hr : s.sp.toNat / 2 + 1 < s.words) (hw : s.words ≤ 32768) (hf : ∀ i : Word, i.toNat < 8 → InUse s i) :
    ∃ s', execute lib code maxpc s = .ok (0xb3, s') ∧ s'.io = s.io := by
  have htop : s.top = s.sp.toNat / 2 := rfl
  obtain ⟨h1, h2, h3, h4⟩ := findFree_ok s 8 0
  have hge : ¬ findFree s 8 0 < 8 := by
    intro h
    have := h3 (by omega)
    have hn : (BitVec.ofNat 16 (findFree s 8 0)).toNat = findFree s 8 0 := by
      rw [BitVec.toNat_ofNat]; omega
    have hu := (hf (BitVec.ofNat 16 (findFree s 8 0)) (by omega)).2
    rw [hn] at hu
    rw [show (entry s (findFree s 8 0)).inUse = true from hu] at this
    cases this
  have hal : allocateFile s = (findFree s 8 0, s) := by
    unfold allocateFile maxFiles
    dsimp only
    rw [if_neg hge]
  rw [alloc_exec hlib hi, hal]
  dsimp only
  rw [VM.push_eq _ _ (by omega) (by omega), Res.ok_bind, if_pos (by omega)]
  exact ⟨_, rfl, rfl⟩

theorem free_exec {lib : Lib} {fpu : FloatOps.Fpu} {host : Host} (hlib : lib.sysIo = sysIo fpu host)
    {code : List Byte} {maxpc : Word} {s : VM} (hi : Insn code maxpc s .sysio 0 2#16)
    (hr : s.sp.toNat / 2 < s.words) :
    execute lib code maxpc s =
      .ok ((freeFile { s with sp := s.sp - 2#16 } (opnd s 0).toNat).1,
        { (freeFile { s with sp := s.sp - 2#16 } (opnd s 0).toNat).2 with
          pc := (freeFile { s with sp := s.sp - 2#16 } (opnd s 0).toNat).2.pc + 3#16 }) := by
  rw [sysio_exec hlib hi]
  simp only [sysIo, show (0x2#16).toNat = 2 from rfl]
  rw [Str.pop0 s hr]
  rfl

/-- **C66**, giving a file number back: it is neither in use nor open afterwards, nothing happens to the
others; a number that is not in use is refused. -/
theorem C66_free (lib : Lib) (fpu : FloatOps.Fpu) (host : Host) (hlib : lib.sysIo = sysIo fpu host)
    (code : List Byte) (maxpc : Word) (s : VM) (hi : Insn code maxpc s .sysio 0 2#16) (hr : Room s 1) :
    ∃ e s', execute lib code maxpc s = .ok (e, s') ∧
      (InUse s (opnd s 0) → e = eNOERROR ∧ ¬ InUse s' (opnd s 0) ∧ (s'.io.table (opnd s 0).toNat).stream = none ∧
        (∀ i, i ≠ (opnd s 0).toNat → s'.io.table i = s.io.table i) ∧ s'.io.files = s.io.files ∧
        s' = { s with sp := s.sp - 2#16, pc := s.pc + 3#16, io := s'.io }) ∧
      (¬ InUse s (opnd s 0) → e = (if (opnd s 0).toNat < 8 then 0xb2 else 0xb0) ∧ OnlyPopped s s' 1) := by
  rw [free_exec hlib hi hr.2]
  refine ⟨_, _, rfl, fun h => ?_, fun h => ?_⟩
  · have e : freeFile { s with sp := s.sp - 2#16 } (opnd s 0).toNat =
        (eNOERROR, setEntry { s with sp := s.sp - 2#16 } (opnd s 0).toNat FileEntry.zero) := by
      unfold freeFile maxFiles
      have := h.1
      rw [if_neg (by omega), if_neg]
      show ¬ (s.io.table (opnd s 0).toNat).inUse = false
      rw [h.2]; decide
    rw [e]
    refine ⟨rfl, ?_, ?_, fun i hi => ?_, rfl, rfl⟩
    · rintro ⟨-, h⟩
      have h : (if (opnd s 0).toNat = (opnd s 0).toNat then FileEntry.zero else _ : FileEntry).inUse = true := h
      rw [if_pos rfl] at h
      cases h
    · show (if (opnd s 0).toNat = (opnd s 0).toNat then FileEntry.zero else _ : FileEntry).stream = none
      rw [if_pos rfl]
      rfl
    · show (if i = (opnd s 0).toNat then FileEntry.zero else _ : FileEntry) = _
      rw [if_neg hi]
  · by_cases h8 : (opnd s 0).toNat < 8
    · have e : freeFile { s with sp := s.sp - 2#16 } (opnd s 0).toNat = (0xb2, { s with sp := s.sp - 2#16 }) := by
        unfold freeFile maxFiles
        rw [if_neg (by omega), if_pos]; rfl
        show (s.io.table (opnd s 0).toNat).inUse = false
        cases hu : (s.io.table (opnd s 0).toNat).inUse with
        | false => rfl
        | true => exact absurd ⟨h8, hu⟩ h
      rw [e, if_pos h8]
      exact ⟨rfl, rfl⟩
    · have e : freeFile { s with sp := s.sp - 2#16 } (opnd s 0).toNat = (0xb0, { s with sp := s.sp - 2#16 }) := by
        unfold freeFile maxFiles
        rw [if_pos (by omega)]; rfl
      rw [e, if_neg h8]
      exact ⟨rfl, rfl⟩

/-- The instruction that gets a file number, the instruction that gives one back. -/
def Allocates (code : List Byte) (maxpc : Word) (s : VM) : Prop := Insn code maxpc s .sysio 0 1#16
def Frees (code : List Byte) (maxpc : Word) (s : VM) : Prop := Insn code maxpc s .sysio 0 2#16

/-- The executions of a program: `live` are the file numbers it has been given and has not given back, and
the two that are there from the beginning. -/
inductive Holding (lib : Lib) (code : List Byte) (maxpc : Word) : VM → List Word → Prop
  | start (s : VM) (h : s.io.table = Io.empty.initializeFile.table) : Holding lib code maxpc s [0#16, 1#16]
  | got {s s' : VM} {live : List Word} (h : Holding lib code maxpc s live) (i : Allocates code maxpc s)
      (x : execute lib code maxpc s = .ok (eNOERROR, s')) : Holding lib code maxpc s' (opnd s' 0 :: live)
  | gave {s s' : VM} {live : List Word} (h : Holding lib code maxpc s live) (i : Frees code maxpc s)
      (x : execute lib code maxpc s = .ok (eNOERROR, s')) : Holding lib code maxpc s' (live.erase (opnd s 0))
  | other {s s' : VM} {live : List Word} {e : Nat} (h : Holding lib code maxpc s live)
      (i : (¬ Allocates code maxpc s ∧ ¬ Frees code maxpc s) ∨ e ≠ eNOERROR)
      (x : execute lib code maxpc s = .ok (e, s')) : Holding lib code maxpc s' live

theorem pexec24_mute' (l : Lib) (s : VM) (w : Word) (o : Option Op) (h : o ≠ some .sysio) :
    pexec24 l s o w = pexec24 (mute l) s o w := by
  cases o with
  | none => rfl
  | some o => exact pexec24_mute l s w o fun e => h (by rw [e])

/-- An instruction is a call of the file library, or works without it, or is undefined. -/
theorem execute_split (l : Lib) (code : List Byte) (maxpc : Word) (s : VM) :
    (∃ sub, Insn code maxpc s .sysio 0 sub) ∨ execute l code maxpc s = execute (mute l) code maxpc s ∨
      execute l code maxpc s = .ub := by
  by_cases hpc : maxpc ≤ s.pc
  · refine .inr (.inl ?_)
    unfold execute
    rw [if_pos hpc, if_pos hpc]
  · cases hb : code[s.pc.toNat]? with
    | none =>
      refine .inr (.inr ?_)
      unfold execute
      rw [if_neg hpc, fetch, hb]
      rfl
    | some b =>
      by_cases ho : Op.ofByte b = some .sysio
      · have hb' : b = Op.sysio.toByte := (Op.toByte_ofByte ho).symm
        subst hb'
        cases h1 : code[s.pc.toNat + 1]? with
        | none =>
          refine .inr (.inr ?_)
          unfold execute
          rw [if_neg hpc]
          simp only [fetch, hb, h1, Res.ok_bind]
          rfl
        | some b1 =>
          cases h2 : code[s.pc.toNat + 2]? with
          | none =>
            refine .inr (.inr ?_)
            unfold execute
            rw [if_neg hpc]
            simp only [fetch, hb, h1, h2, Res.ok_bind]
            rfl
          | some b2 =>
            refine .inl ⟨BitVec.ofNat 16 (b1.toNat * 256 + b2.toNat), ⟨?_, hb⟩, fun h => absurd h (by decide),
              fun _ => ⟨b1, b2, h1, h2, ?_⟩⟩
            · bv_omega
            · have := b1.isLt
              have := b2.isLt
              rw [BitVec.toNat_ofNat]
              omega
      · refine .inr (.inl ?_)
        unfold execute
        simp only [fetch, hb, Res.ok_bind, pexec24_mute' l s _ _ ho]
        rfl

/-- Which file numbers are in use changes only when one is got or given back. -/
theorem execute_use (p : Platform) (hp : OrdinaryPlatform p) (hf : ∀ b, NoFiles (p.environment · b))
    (hd : ∀ w, NoFiles (p.host.dir · w)) (code : List Byte) (maxpc : Word) (s s' : VM) (e : Nat)
    (ha : ¬ Allocates code maxpc s) (hfr : ¬ Frees code maxpc s)
    (h : execute (machine p) code maxpc s = .ok (e, s')) : FileUse.Use s s' := by
  rcases execute_split (machine p) code maxpc s with ⟨sub, hi⟩ | hm | hu
  · rw [sysio_exec (fpu := p.fpu) (host := p.host) rfl hi] at h
    have := FileUse.sysIo p.fpu p.host (fun s w => by
      cases e : p.host.dir s w with
      | ok x => exact FileUse.Use.ofIo (hd w s x.1 x.2 e)
      | ub => trivial
      | hang => trivial) s sub (fun e => ha (by rw [e] at hi; exact hi)) (fun e => hfr (by rw [e] at hi; exact hi))
    cases e' : SysIo.sysIo p.fpu p.host s sub with
    | ok x =>
      rw [e'] at h this
      cases h
      exact this
    | ub => rw [e'] at h; cases h
    | hang => rw [e'] at h; cases h
  · have hk := KeepIo.execute_keep (mute_machine_keepsIo p hp hf) code maxpc s
    rw [← hm, h] at hk
    exact .ofIo hk.io
  · rw [h] at hu; cases hu

/-- **C66**, histories: however a program runs, the file numbers it holds are different from each other, and
they are exactly the numbers in use; so it never gets a number it still has. -/
theorem C66_distinct (p : Platform) (hp : OrdinaryPlatform p) (hf : ∀ b, NoFiles (p.environment · b))
    (hd : ∀ w, NoFiles (p.host.dir · w)) (code : List Byte) (maxpc : Word) (s : VM) (live : List Word)
    (h : Holding (machine p) code maxpc s live) : live.Nodup ∧ ∀ n, n ∈ live ↔ InUse s n := by
  have use : ∀ {s s' : VM}, FileUse.Use s s' → ∀ n, InUse s' n ↔ InUse s n := by
    intro s s' hu n
    unfold InUse
    rw [hu]
  have w8 : ∀ n : Word, n.toNat < 8 → n = BitVec.ofNat 16 n.toNat := by
    intro n _
    rw [BitVec.ofNat_toNat, BitVec.setWidth_eq]
  induction h with
  | start s ht =>
    refine ⟨by decide, fun n => ?_⟩
    unfold InUse
    rw [ht]
    constructor
    · intro h
      rcases List.mem_cons.mp h with rfl | h
      · exact ⟨by decide, rfl⟩
      · rcases List.mem_cons.mp h with rfl | h
        · exact ⟨by decide, rfl⟩
        · cases h
    · rintro ⟨h8, hu⟩
      by_cases h0 : n.toNat = 0
      · rw [w8 n h8, h0]; exact List.mem_cons_self
      · by_cases h1 : n.toNat = 1
        · rw [w8 n h8, h1]; exact List.mem_cons_of_mem _ List.mem_cons_self
        · have : (Io.empty.initializeFile.table n.toNat).inUse = false := by
            show (if n.toNat = 0 then _ else if n.toNat = 1 then _ else FileEntry.zero : FileEntry).inUse = false
            rw [if_neg h0, if_neg h1]
            rfl
          rw [this] at hu
          cases hu
  | got _ i x ih =>
    rename_i s s' live _
    obtain ⟨ih1, ih2⟩ := ih
    rw [alloc_exec (fpu := p.fpu) (host := p.host) rfl i] at x
    obtain ⟨h1, h2, h3, h4⟩ := findFree_ok s 8 0
    by_cases hlt : findFree s 8 0 < 8
    · have hal : allocateFile s =
          (findFree s 8 0, setEntry s (findFree s 8 0) { entry s (findFree s 8 0) with inUse := true }) := by
        unfold allocateFile maxFiles
        dsimp only
        rw [if_pos hlt]
      rw [hal] at x
      rw [if_neg (show ¬ findFree s 8 0 ≥ 8 by omega)] at x
      dsimp only at x
      have hn : (BitVec.ofNat 16 (findFree s 8 0)).toNat = findFree s 8 0 := by
        rw [BitVec.toNat_ofNat]; omega
      unfold VM.push VM.wr at x
      dsimp only at x
      split at x
      · rw [Res.ok_bind] at x
        cases x
        have hop : ∀ (v : VM), v.mem = updW s.mem ((s.sp + 2#16).toNat / 2) (BitVec.ofNat 16 (findFree s 8 0)) →
            v.sp = s.sp + 2#16 → opnd v 0 = BitVec.ofNat 16 (findFree s 8 0) := by
          intro v e1 e2
          unfold opnd
          rw [e1, e2]
          exact updW_same _ _ _
        rw [hop _ rfl rfl]
        have hnot : ¬ InUse s (BitVec.ofNat 16 (findFree s 8 0)) := by
          rintro ⟨-, hu⟩
          have := h3 (by omega)
          rw [hn] at hu
          rw [show (entry s (findFree s 8 0)).inUse = true from hu] at this
          cases this
        refine ⟨List.nodup_cons.mpr ⟨fun h => hnot ((ih2 _).mp h), ih1⟩, fun n => ?_⟩
        rw [List.mem_cons, ih2]
        show n = _ ∨ InUse s n ↔ (n.toNat < 8 ∧ (if n.toNat = findFree s 8 0 then
          { entry s (findFree s 8 0) with inUse := true } else s.io.table n.toNat : FileEntry).inUse = true)
        by_cases e : n.toNat = findFree s 8 0
        · rw [if_pos e]
          constructor
          · intro _; exact ⟨by omega, rfl⟩
          · intro _; exact .inl (BitVec.eq_of_toNat_eq (by rw [hn, e]))
        · rw [if_neg e]
          constructor
          · rintro (rfl | h)
            · exact absurd hn e
            · exact h
          · exact .inr
      · cases x
    · have hal : allocateFile s = (findFree s 8 0, s) := by
        unfold allocateFile maxFiles
        dsimp only
        rw [if_neg hlt]
      rw [hal] at x
      dsimp only at x
      rw [if_pos (by omega)] at x
      cases e : s.push (BitVec.ofNat 16 (findFree s 8 0)) with
      | ok v => rw [e] at x; cases x
      | ub => rw [e] at x; cases x
      | hang => rw [e] at x; cases x
  | gave _ i x ih =>
    rename_i s s' live _
    obtain ⟨ih1, ih2⟩ := ih
    have hr : s.sp.toNat / 2 < s.words := by
      refine Decidable.byContradiction fun h => ?_
      rw [sysio_exec (fpu := p.fpu) (host := p.host) rfl i] at x
      simp only [sysIo, show (0x2#16).toNat = 2 from rfl] at x
      have : s.pop = .ub := by
        unfold VM.pop VM.rd VM.top
        rw [if_neg h]
        rfl
      rw [this] at x
      cases x
    by_cases hu : InUse s (opnd s 0)
    · have e : freeFile { s with sp := s.sp - 2#16 } (opnd s 0).toNat =
          (eNOERROR, setEntry { s with sp := s.sp - 2#16 } (opnd s 0).toNat FileEntry.zero) := by
        unfold freeFile maxFiles
        have := hu.1
        rw [if_neg (by omega), if_neg]
        show ¬ (s.io.table (opnd s 0).toNat).inUse = false
        rw [hu.2]; decide
      rw [free_exec (fpu := p.fpu) (host := p.host) rfl i hr, e] at x
      cases x
      refine ⟨ih1.erase _, fun n => ?_⟩
      rw [ih1.mem_erase_iff, ih2]
      show n ≠ opnd s 0 ∧ InUse s n ↔ (n.toNat < 8 ∧ (if n.toNat = (opnd s 0).toNat then
        FileEntry.zero else s.io.table n.toNat : FileEntry).inUse = true)
      by_cases e : n.toNat = (opnd s 0).toNat
      · rw [if_pos e]
        constructor
        · rintro ⟨h, -⟩; exact absurd (BitVec.eq_of_toNat_eq e) h
        · rintro ⟨-, h⟩; cases h
      · rw [if_neg e]
        constructor
        · exact fun h => h.2
        · exact fun h => ⟨fun h' => e (by rw [h']), h⟩
    · obtain ⟨e, t, h1, -, h2⟩ := C66_free (machine p) p.fpu p.host rfl code maxpc s i ⟨by omega, hr⟩
      rw [x] at h1
      cases h1
      have := (h2 hu).1
      unfold eNOERROR at this
      split at this <;> cases this
  | other _ i x ih =>
    rename_i s s' live e _
    obtain ⟨ih1, ih2⟩ := ih
    have hu : FileUse.Use s s' := by
      by_cases ha : Allocates code maxpc s
      · rcases i with ⟨h, -⟩ | he
        · exact absurd ha h
        rw [alloc_exec (fpu := p.fpu) (host := p.host) rfl ha] at x
        cases e' : (allocateFile s).2.push (BitVec.ofNat 16 (allocateFile s).1) with
        | ok v =>
          rw [e', Res.ok_bind] at x
          by_cases h8 : (allocateFile s).1 ≥ 8
          · have hal : (allocateFile s).2 = s := by
              unfold allocateFile maxFiles at h8 ⊢
              dsimp only at h8 ⊢
              split at h8
              · exact absurd h8 (by omega)
              · rename_i h; rw [if_neg h]
            have := FileUse.push (allocateFile s).2 (BitVec.ofNat 16 (allocateFile s).1)
            rw [e', hal] at this
            cases x
            exact this
          · rw [if_neg h8] at x
            cases x
            exact absurd rfl he
        | ub => rw [e'] at x; cases x
        | hang => rw [e'] at x; cases x
      · by_cases hfr : Frees code maxpc s
        · rcases i with ⟨-, h⟩ | he
          · exact absurd hfr h
          rw [sysio_exec (fpu := p.fpu) (host := p.host) rfl hfr] at x
          simp only [sysIo, show (0x2#16).toNat = 2 from rfl] at x
          have hpop := FileUse.pop s
          cases e' : s.pop with
          | ok v =>
            rw [e'] at x hpop
            obtain ⟨n, v⟩ := v
            have hpop : FileUse.Use s v := hpop
            simp only [Res.ok_bind] at x
            unfold freeFile at x
            split at x
            · cases x; exact hpop
            · split at x
              · cases x; exact hpop
              · cases x; exact absurd rfl he
          | ub => rw [e'] at x; cases x
          | hang => rw [e'] at x; cases x
        · exact execute_use p hp hf hd code maxpc s s' e ha hfr x
    exact ⟨ih1, fun n => by rw [ih2, use hu]⟩

def numberState : VM :=
  { sampleMem (fun _ => 0#16) with
    sp := 40#16
    io := Io.empty.initializeFile }

def numberCode : List Byte := [Op.sysio.toByte, 0, 1, Op.sysio.toByte, 0, 1, Op.sysio.toByte, 0, 2]

/-- The state one instruction later. -/
def numberStep (s : VM) : VM :=
  match execute (machine barePlatform) numberCode 9#16 s with
  | .ok x => x.2
  | _ => s

/-- Non-vacuity: a program that gets the file numbers 2 and 3 and gives 3 back. -/
example : (∀ b, NoFiles (barePlatform.environment · b)) ∧ (∀ w, NoFiles (barePlatform.host.dir · w)) ∧
    ∃ s, Holding (machine barePlatform) numberCode 9#16 s [2#16, 0#16, 1#16] := by
  refine ⟨fun _ s e s' h => by cases h; rfl, fun _ s e s' h => by cases h; rfl,
    numberStep (numberStep (numberStep numberState)), ?_⟩
  have h0 : Holding (machine barePlatform) numberCode 9#16 numberState _ := .start numberState rfl
  have i1 : Allocates numberCode 9#16 numberState :=
    ⟨⟨by decide, rfl⟩, by decide, fun _ => ⟨0, 1, rfl, rfl, rfl⟩⟩
  have i2 : Allocates numberCode 9#16 (numberStep numberState) :=
    ⟨⟨by decide, rfl⟩, by decide, fun _ => ⟨0, 1, rfl, rfl, rfl⟩⟩
  have i3 : Frees numberCode 9#16 (numberStep (numberStep numberState)) :=
    ⟨⟨by decide, rfl⟩, by decide, fun _ => ⟨0, 2, rfl, rfl, rfl⟩⟩
  have h1 := Holding.got (s' := numberStep numberState) h0 i1 rfl
  have h2 := Holding.got (s' := numberStep (numberStep numberState)) h1 i2 rfl
  exact Holding.gave (s' := numberStep (numberStep (numberStep numberState))) h2 i3 rfl

/-- Non-vacuity of the single steps: number 2 is free and 1 is in use in this state; in the second all are. -/
example : Insn numberCode 9#16 numberState .sysio 0 1#16 ∧ ¬ InUse numberState 2#16 ∧ InUse numberState 1#16 ∧
    Room numberState 1 ∧ ∀ i : Word, i.toNat < 8 →
      InUse { numberState with io := { numberState.io with table := fun _ => numberState.io.table 1 } } i :=
  ⟨⟨⟨by decide, rfl⟩, by decide, fun _ => ⟨0, 1, rfl, rfl, rfl⟩⟩, fun h => absurd h.2 (by decide),
   ⟨by decide, rfl⟩, ⟨by decide, by decide⟩, fun i h => ⟨h, rfl⟩⟩

end Pas
