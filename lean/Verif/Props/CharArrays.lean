import Verif.Props.Strings3

/-! C77: conversions between characters, arrays of characters and strings. -/
namespace Pas
open Spec Heap

/-- **C77** (partial): an array of characters becomes a temporary string: its characters up to the first NUL,
cut off at the standard buffer size, in a heap block of its own; the array and all other strings stay as they
are.  If the heap has no room, the error "no memory" is reported.  Partial: stack-like heap histories. -/
theorem C77_array_to_string_partial (lib : Lib) (cfg : Str.Cfg) (hlib : lib.strOps = Str.strOps cfg)
    (other : VM → Byte → Res (Nat × VM)) (hos : lib.osOps = osOps other)
    (hb0 : 0 < cfg.bufSize) (hb1 : cfg.bufSize ≤ 0xfff)
    (code : List Byte) (maxpc : Word) (live : List Block) (s : VM)
    (hist : TempHist lib code maxpc live s) (call : ArrayCall code maxpc live s)
    (array : List Byte) (harr : array = text s.mem (opnd s 0).toNat (opnd s 1).toNat) :
    ∃ s', execute lib code maxpc s = .ok (Str.eNOMEMORY, s') ∨
      execute lib code maxpc s = .ok (eNOERROR, s') ∧ s'.sp = s.sp + 2#16 ∧ s'.pc = s.pc + 3#16 ∧
      ∃ b, NewTemp live s s' b ((array.takeWhile (· ≠ 0#8)).take cfg.bufSize) := by
  subst harr
  obtain ⟨s', h | ⟨h1, h2, h3, b, _, h4⟩⟩ :=
    array_run hlib (tempHist_inv hlib hos hb0 hb1 hist) hb0 hb1 call
  · exact ⟨s', .inl h⟩
  · exact ⟨s', .inr ⟨h1, h2, h3, b, h4⟩⟩

/-- The array of three characters 'abc' at 160. -/
example (lib : Lib) : let s := tmpStart 160 3 0 0 0
    TempHist lib (strCode 4) 3#16 [] s ∧ ArrayCall (strCode 4) 3#16 [] s :=
  ⟨tmpStart_hist .., by decide, by decide, tmpStart_insn _ _ _ _ _ _ _ rfl, .inl (by decide)⟩

/-- **C77** (partial): a character becomes a temporary string of this one character (the low half of the word on
the stack).  Partial: stack-like heap histories. -/
theorem C77_char_to_string_partial (lib : Lib) (cfg : Str.Cfg) (hlib : lib.strOps = Str.strOps cfg)
    (other : VM → Byte → Res (Nat × VM)) (hos : lib.osOps = osOps other)
    (hb0 : 0 < cfg.bufSize) (hb1 : cfg.bufSize ≤ 0xfff)
    (code : List Byte) (maxpc : Word) (live : List Block) (s : VM)
    (hist : TempHist lib code maxpc live s) (call : CharCall code maxpc s)
    (c : Byte) (hc : c = BitVec.ofNat 8 (opnd s 0).toNat) :
    ∃ s', execute lib code maxpc s = .ok (Str.eNOMEMORY, s') ∨
      execute lib code maxpc s = .ok (eNOERROR, s') ∧ s'.sp = s.sp + 4#16 ∧ s'.pc = s.pc + 3#16 ∧
      ∃ b, NewTemp live s s' b [c] := by
  have : c = (opnd s 0).truncate 8 := by
    rw [hc]; apply BitVec.eq_of_toNat_eq; simp
  subst this
  obtain ⟨s', h | ⟨h1, h2, h3, b, _, h4⟩⟩ :=
    char_run hlib (tempHist_inv hlib hos hb0 hb1 hist) hb0 hb1 call
  · exact ⟨s', .inl h⟩
  · exact ⟨s', .inr ⟨h1, h2, h3, b, h4⟩⟩

example (lib : Lib) : let s := tmpStart 0x41 0 0 0 0
    TempHist lib (strCode 10) 3#16 [] s ∧ CharCall (strCode 10) 3#16 s :=
  ⟨tmpStart_hist .., by decide, by decide, tmpStart_insn _ _ _ _ _ _ _ rfl⟩

/-- **C77** (partial): a new temporary string is empty and overlaps nothing.  Partial: stack-like heap
histories. -/
theorem C77_empty_string_partial (lib : Lib) (cfg : Str.Cfg) (hlib : lib.strOps = Str.strOps cfg)
    (other : VM → Byte → Res (Nat × VM)) (hos : lib.osOps = osOps other)
    (hb0 : 0 < cfg.bufSize) (hb1 : cfg.bufSize ≤ 0xfff)
    (code : List Byte) (maxpc : Word) (live : List Block) (s : VM)
    (hist : TempHist lib code maxpc live s) (call : EmptyCall code maxpc s) :
    ∃ s', execute lib code maxpc s = .ok (Str.eNOMEMORY, s') ∨
      execute lib code maxpc s = .ok (eNOERROR, s') ∧ s'.sp = s.sp + 6#16 ∧ s'.pc = s.pc + 3#16 ∧
      ∃ b, NewTemp live s s' b [] := by
  obtain ⟨s', h | ⟨h1, h2, h3, b, _, h4⟩⟩ :=
    empty_run hlib (tempHist_inv hlib hos hb0 hb1 hist) hb0 hb1 call
  · exact ⟨s', .inl h⟩
  · exact ⟨s', .inr ⟨h1, h2, h3, b, h4⟩⟩

example (lib : Lib) : let s := tmpStart 0 0 0 0 0
    TempHist lib (strCode 8) 3#16 [] s ∧ EmptyCall (strCode 8) 3#16 s :=
  ⟨tmpStart_hist .., by decide, tmpStart_insn _ _ _ _ _ _ _ rfl⟩

/-- The two forms of storing a string into an array: the address of the array, its size, the string and how
many words are taken from the stack.  The indexed form adds an offset to the address. -/
inductive StoreCall (s : VM) : (sub : Word) → (addr : Nat) → (size src len alloc : Word) → (n : Nat) → Prop
  | plain : StoreCall s 0x5#16 (opnd s 0).toNat (opnd s 1) (opnd s 3) (opnd s 4) (opnd s 2) 5
  | indexed : StoreCall s 0x6#16 ((opnd s 0).toNat + (opnd s 5).toNat) (opnd s 1) (opnd s 3) (opnd s 4) (opnd s 2) 6

theorem store_exec {lib : Lib} {cfg : Str.Cfg} (hlib : lib.strOps = Str.strOps cfg)
    {code : List Byte} {maxpc : Word} {s : VM} {sub size src len alloc : Word} {addr n : Nat}
    (call : StoreCall s sub addr size src len alloc n) (hr : Room s n) (hi : Insn code maxpc s .strlib 0 sub)
    (htmp : ¬Temp alloc) (hd : addr + len.toNat ≤ 2 * s.words) (hs : src.toNat + len.toNat ≤ 2 * s.words)
    (hap : Apart addr len.toNat src.toNat len.toNat) :
    ∃ s', execute lib code maxpc s = .ok (eNOERROR, s') ∧ Ran s s' n 0 ∧
      text s'.mem addr len.toNat = text s.mem src.toNat len.toNat ∧
      ∀ x, (x < addr ∨ addr + len.toNat ≤ x) → byte s'.mem x = byte s.mem x := by
  obtain ⟨r1, r2⟩ := hr
  have htop : s.top = s.sp.toNat / 2 := rfl
  rw [strlib_exec hlib hi]
  have e0 : s.mem (s.top - 0) = opnd s 0 := rfl
  have e1 : s.mem (s.top - 1) = opnd s 1 := rfl
  have e2 : s.mem (s.top - 2) = opnd s 2 := rfl
  have e3 : s.mem (s.top - 3) = opnd s 3 := rfl
  have e4 : s.mem (s.top - 4) = opnd s 4 := rfl
  have e5 : s.mem (s.top - 5) = opnd s 5 := rfl
  cases call with
  | plain =>
    simp only [Str.strOps, show (0x5#16).toNat = 5 from rfl, Str.str2BStr]
    rw [Str.pop0 s r2, Res.ok_bind, Str.pop1 s (by omega) r2, Res.ok_bind, Str.pop2 s (by omega) r2, Res.ok_bind,
      Str.pop3 s (by omega) r2, Res.ok_bind, Str.pop4 s (by omega) r2, Res.ok_bind]
    simp only [e0, e1, e2, e3, e4, show (0#16 : Word).toNat = 0 from rfl, Nat.add_zero]
    obtain ⟨m, m1, m2, m3⟩ := Str.memcpy_ok (s := { s with sp := s.sp - 10#16 }) (d := (opnd s 0).toNat)
      (a := (opnd s 3).toNat) (n := (opnd s 4).toNat) hd hs hap
    rw [m1, Res.ok_bind, Str.freeTmp_plain _ htmp]
    exact ⟨_, rfl, ⟨rfl, (BitVec.add_zero _).symm, rfl⟩, Str.text_congr m2, m3⟩
  | indexed =>
    simp only [Str.strOps, show (0x6#16).toNat = 6 from rfl, Str.str2BStr]
    rw [Str.pop0 s r2, Res.ok_bind, Str.pop1 s (by omega) r2, Res.ok_bind, Str.pop2 s (by omega) r2, Res.ok_bind,
      Str.pop3 s (by omega) r2, Res.ok_bind, Str.pop4 s (by omega) r2, Res.ok_bind, Str.pop5 s (by omega) r2, Res.ok_bind]
    simp only [e0, e1, e2, e3, e4, e5]
    obtain ⟨m, m1, m2, m3⟩ := Str.memcpy_ok (s := { s with sp := s.sp - 12#16 })
      (d := (opnd s 0).toNat + (opnd s 5).toNat) (a := (opnd s 3).toNat) (n := (opnd s 4).toNat) hd hs hap
    rw [m1, Res.ok_bind, Str.freeTmp_plain _ htmp]
    exact ⟨_, rfl, ⟨rfl, (BitVec.add_zero _).symm, rfl⟩, Str.text_congr m2, m3⟩

/-- **C77** (partial): a string that fits is stored at the beginning of the array and nothing outside of the array
is changed.  Partial: a longer string is not cut off but stored behind the array as well
(`C77_violation_overrun`), and a shorter one does not end where it should (`C77_violation_rest`). -/
theorem C77_string_to_array_partial (lib : Lib) (cfg : Str.Cfg) (hlib : lib.strOps = Str.strOps cfg)
    (code : List Byte) (maxpc : Word) (s : VM) (sub size src len alloc : Word) (addr n : Nat)
    (call : StoreCall s sub addr size src len alloc n) (hr : Room s n) (hi : Insn code maxpc s .strlib 0 sub)
    (htmp : ¬Temp alloc) (hd : addr + size.toNat ≤ 2 * s.words) (hs : src.toNat + len.toNat ≤ 2 * s.words)
    (hap : Apart addr size.toNat src.toNat len.toNat) (fits : len.toNat ≤ size.toNat) :
    ∃ s', execute lib code maxpc s = .ok (eNOERROR, s') ∧ Ran s s' n 0 ∧
      (text s'.mem addr size.toNat).take len.toNat = text s.mem src.toNat len.toNat ∧
      ∀ x, (x < addr ∨ addr + size.toNat ≤ x) → byte s'.mem x = byte s.mem x := by
  unfold Apart at hap
  obtain ⟨s', h1, h2, h3, h4⟩ := store_exec hlib call hr hi htmp (by omega) hs (by unfold Apart; omega)
  refine ⟨s', h1, h2, ?_, fun x hx => h4 x (by omega)⟩
  rw [Str.text_take, show min len.toNat size.toNat = len.toNat by omega, h3]

/-- 'abc' into the array of 4 characters at 180. -/
example :
    let s := strVM [(20, 180#16), (19, 4#16), (18, 10#16), (17, 160#16), (16, 3#16)]
    StoreCall s 0x5#16 180 4#16 160#16 3#16 10#16 5 ∧ Room s 5 ∧ Insn (strCode 5) 3#16 s .strlib 0 0x5#16 ∧
    ¬Temp 10#16 ∧ Apart 180 4 160 3 :=
  ⟨.plain, by decide, strCode_insn _ _ _ rfl, by decide, by decide⟩

/-- **C77 is violated** by every string longer than the array: the rest of it is stored behind the array. -/
theorem C77_violation_overrun (lib : Lib) (cfg : Str.Cfg) (hlib : lib.strOps = Str.strOps cfg)
    (code : List Byte) (maxpc : Word) (s : VM) (sub size src len alloc : Word) (addr n : Nat)
    (call : StoreCall s sub addr size src len alloc n) (hr : Room s n) (hi : Insn code maxpc s .strlib 0 sub)
    (htmp : ¬Temp alloc) (hd : addr + len.toNat ≤ 2 * s.words) (hs : src.toNat + len.toNat ≤ 2 * s.words)
    (hap : Apart addr len.toNat src.toNat len.toNat) (long : size.toNat < len.toNat) :
    ∃ s', execute lib code maxpc s = .ok (eNOERROR, s') ∧
      text s'.mem (addr + size.toNat) (len.toNat - size.toNat) = (text s.mem src.toNat len.toNat).drop size.toNat := by
  obtain ⟨s', h1, _, h3, _⟩ := store_exec hlib call hr hi htmp hd hs hap
  exact ⟨s', h1, by rw [← h3, Str.text_drop]⟩

/-- **C77 is violated** by strings shorter than the array: the array holds what it held before behind them, so
that it does not read as the string that was stored. -/
theorem C77_violation_rest (lib : Lib) (cfg : Str.Cfg) (hlib : lib.strOps = Str.strOps cfg)
    (code : List Byte) (maxpc : Word) (s : VM) (sub size src len alloc : Word) (addr n : Nat)
    (call : StoreCall s sub addr size src len alloc n) (hr : Room s n) (hi : Insn code maxpc s .strlib 0 sub)
    (htmp : ¬Temp alloc) (hd : addr + size.toNat ≤ 2 * s.words) (hs : src.toNat + len.toNat ≤ 2 * s.words)
    (hap : Apart addr size.toNat src.toNat len.toNat) (short : len.toNat < size.toNat)
    (old : byte s.mem (addr + len.toNat) ≠ 0#8) (chars : 0#8 ∉ text s.mem src.toNat len.toNat) :
    ∃ s', execute lib code maxpc s = .ok (eNOERROR, s') ∧
      (text s'.mem addr size.toNat).takeWhile (· ≠ 0#8) ≠ text s.mem src.toNat len.toNat := by
  unfold Apart at hap
  obtain ⟨s', h1, _, h3, h4⟩ := store_exec hlib call hr hi htmp (by omega) hs (by unfold Apart; omega)
  refine ⟨s', h1, fun h => ?_⟩
  have hsplit : text s'.mem addr size.toNat = text s.mem src.toNat len.toNat ++
      (byte s.mem (addr + len.toNat) :: text s'.mem (addr + len.toNat + 1) (size.toNat - len.toNat - 1)) := by
    rw [← List.take_append_drop len.toNat (text s'.mem addr size.toNat), Str.text_take, Str.text_drop,
      show min len.toNat size.toNat = len.toNat by omega, h3,
      show size.toNat - len.toNat = size.toNat - len.toNat - 1 + 1 by omega, Str.text_succ, h4 _ (.inr (Nat.le_refl _))]
    simp
  have := congrArg List.length h
  rw [hsplit, List.takeWhile_append_of_pos (by intro a ha; simp; rintro rfl; exact chars ha)] at this
  simp [old, List.takeWhile_cons] at this

/-- One character, at 160, into an array of two characters at 180 that are not NUL. -/
example :
    let s := strVM [(20, 180#16), (19, 2#16), (18, 10#16), (17, 160#16), (16, 1#16)]
    StoreCall s 0x5#16 180 2#16 160#16 1#16 10#16 5 ∧ Room s 5 ∧ Insn (strCode 5) 3#16 s .strlib 0 0x5#16 ∧
    ¬Temp 10#16 ∧ Apart 180 2 160 1 ∧ byte s.mem (180 + 1) ≠ 0#8 ∧ 0#8 ∉ text s.mem 160 1 :=
  ⟨.plain, by decide, strCode_insn _ _ _ rfl, by decide, by decide, by decide, by decide⟩

end Pas
