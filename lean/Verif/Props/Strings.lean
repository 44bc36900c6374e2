import Verif.Lemmas.Strings
import Verif.Props.Heap

/-! Properties C22-C27: the string library. -/
namespace Pas
open Spec

theorem strlib_exec {lib : Lib} {cfg : Str.Cfg} (hlib : lib.strOps = Str.strOps cfg)
    {code : List Byte} {maxpc : Word} {s : VM} {sub : Word} (hi : Insn code maxpc s .strlib 0 sub) :
    execute lib code maxpc s = (do
      let (r, s) ← Str.strOps cfg s sub
      .ok (r, { s with pc := s.pc + 3#16 })) := by
  rw [insn_24 hi (by decide) (by decide), pexec24, hlib]

/-- The operands of an assignment are taken from the stack and the variable is assigned. -/
theorem copy_exec {lib : Lib} {cfg : Str.Cfg} (hlib : lib.strOps = Str.strOps cfg)
    {code : List Byte} {maxpc : Word} {s : VM} {sub v src size alloc : Word} {n : Nat}
    (hc : CopyCall s sub v src size alloc n) (hr : Room s n)
    (hi : Insn code maxpc s .strlib 0 sub) :
    ∃ d off, d + off = v ∧ execute lib code maxpc s = (do
      let s ← Str.strCpy { s with sp := s.sp - BitVec.ofNat 16 (2 * n) } src size d off
      let s ← Str.freeTmp s src alloc
      .ok (eNOERROR, { s with pc := s.pc + 3#16 })) := by
  rw [strlib_exec hlib hi]
  obtain ⟨h1, h2⟩ := hr
  have ht : s.top = s.sp.toNat / 2 := rfl
  cases hc with
  | plain =>
    refine ⟨opnd s 0, 0#16, by simp, ?_⟩
    simp only [Str.strOps, show (0x0#16).toNat = 0 from rfl]
    rw [Str.pop0 s h2, Res.ok_bind, Str.pop1 s (by omega) h2, Res.ok_bind,
      Str.pop2 s (by omega) h2, Res.ok_bind, Str.pop3 s (by omega) h2, Res.ok_bind]
    simp only [bind_assoc, Res.pure_eq, Res.ok_bind]
    rfl
  | reversed =>
    refine ⟨opnd s 3, 0#16, by simp, ?_⟩
    simp only [Str.strOps, show (0x1#16).toNat = 1 from rfl]
    rw [Str.pop0 s h2, Res.ok_bind, Str.pop1 s (by omega) h2, Res.ok_bind,
      Str.pop2 s (by omega) h2, Res.ok_bind, Str.pop3 s (by omega) h2, Res.ok_bind]
    simp only [bind_assoc, Res.pure_eq, Res.ok_bind]
    rfl
  | indexed =>
    refine ⟨opnd s 0, opnd s 4, rfl, ?_⟩
    simp only [Str.strOps, show (0x2#16).toNat = 2 from rfl]
    rw [Str.pop0 s h2, Res.ok_bind, Str.pop1 s (by omega) h2, Res.ok_bind,
      Str.pop2 s (by omega) h2, Res.ok_bind, Str.pop3 s (by omega) h2, Res.ok_bind,
      Str.pop4 s (by omega) h2, Res.ok_bind]
    simp only [bind_assoc, Res.pure_eq, Res.ok_bind]
    rfl
  | indexedReversed =>
    refine ⟨opnd s 4, opnd s 3, rfl, ?_⟩
    simp only [Str.strOps, show (0x3#16).toNat = 3 from rfl]
    rw [Str.pop0 s h2, Res.ok_bind, Str.pop1 s (by omega) h2, Res.ok_bind,
      Str.pop2 s (by omega) h2, Res.ok_bind, Str.pop3 s (by omega) h2, Res.ok_bind,
      Str.pop4 s (by omega) h2, Res.ok_bind]
    simp only [bind_assoc, Res.pure_eq, Res.ok_bind]
    rfl

/-- **C22**: assigning a string stores exactly its first characters, as many as the variable can
hold, sets the length accordingly and changes nothing outside the variable's buffer and length.
All four forms of the assignment; the source is not a temporary. -/
theorem C22_assign (lib : Lib) (cfg : Str.Cfg) (hlib : lib.strOps = Str.strOps cfg)
    (code : List Byte) (maxpc : Word) (s : VM) (sub v src size alloc : Word) (n : Nat)
    (hc : CopyCall s sub v src size alloc n) (hr : Room s n)
    (hi : Insn code maxpc s .strlib 0 sub) (hv : StrVar s v.toNat) (htmp : ¬Temp alloc)
    (hs : src.toNat + size.toNat ≤ 2 * s.words) (hne : src.toNat ≠ strBuf s.mem v.toNat)
    (hap : Apart (strBuf s.mem v.toNat) (strCap s.mem v.toNat) src.toNat size.toNat) :
    ∃ s', execute lib code maxpc s = .ok (eNOERROR, s') ∧ Ran s s' n 0 ∧
      strVal s'.mem v.toNat = (text s.mem src.toNat size.toNat).take (strCap s.mem v.toNat) ∧
      strBuf s'.mem v.toNat = strBuf s.mem v.toNat ∧
      strCap s'.mem v.toNat = strCap s.mem v.toNat ∧
      OnlyString s.mem s'.mem v.toNat := by
  obtain ⟨d, off, hd, he⟩ := copy_exec hlib hc hr hi
  subst hd
  obtain ⟨m, h1, h2, h3, h4, h5⟩ := Str.strCpy_ok (s := { s with sp := s.sp - BitVec.ofNat 16 (2 * n) })
    ⟨hv.1, hv.2, hv.3, hv.4⟩ hs hne hap
  rw [he, h1, Res.ok_bind, Str.freeTmp_plain _ htmp, Res.ok_bind]
  refine ⟨_, rfl, ⟨rfl, ?_, rfl⟩, h2, h3, h4, h5⟩
  exact (BitVec.add_zero _).symm

/-- **C22**: assigning a variable to itself changes nothing. -/
theorem C22_self (lib : Lib) (cfg : Str.Cfg) (hlib : lib.strOps = Str.strOps cfg)
    (code : List Byte) (maxpc : Word) (s : VM) (sub v src size alloc : Word) (n : Nat)
    (hc : CopyCall s sub v src size alloc n) (hr : Room s n)
    (hi : Insn code maxpc s .strlib 0 sub) (hv : StrVar s v.toNat) (htmp : ¬Temp alloc)
    (he : src.toNat = strBuf s.mem v.toNat) :
    ∃ s', execute lib code maxpc s = .ok (eNOERROR, s') ∧ Ran s s' n 0 ∧ s'.mem = s.mem := by
  obtain ⟨d, off, hd, hx⟩ := copy_exec hlib hc hr hi
  subst hd
  rw [hx, Str.strCpy_same (s := { s with sp := s.sp - BitVec.ofNat 16 (2 * n) }) ⟨hv.1, hv.2, hv.3, hv.4⟩ he,
    Res.ok_bind, Str.freeTmp_plain _ htmp, Res.ok_bind]
  refine ⟨_, rfl, ⟨rfl, ?_, rfl⟩, rfl⟩
  exact (BitVec.add_zero _).symm

theorem mask_toNat (w : Word) : (w &&& 0x0fff#16).toNat = w.toNat % 4096 := by
  rw [BitVec.toNat_and, show (0x0fff#16).toNat = 2 ^ 12 - 1 from rfl, Nat.and_two_pow_sub_one_eq_mod]

/-- **C23** (partial): if the result fits into the destination buffer, concatenation appends
exactly the characters of the second string, and writes only there.  Missing: clipping (see
`C23_violation`) and temporary second operands (which are released afterwards). -/
theorem C23_append_partial (lib : Lib) (cfg : Str.Cfg) (hlib : lib.strOps = Str.strOps cfg)
    (code : List Byte) (maxpc : Word) (s : VM) (hr : Room s 6)
    (hi : Insn code maxpc s .strlib 0 0xb#16) (htmp : ¬Temp (opnd s 0))
    (hfit : (opnd s 5).toNat + (opnd s 2).toNat ≤ (opnd s 3).toNat % 4096)
    (hs : (opnd s 1).toNat + (opnd s 2).toNat ≤ 2 * s.words)
    (hd : (opnd s 4).toNat + (opnd s 3).toNat % 4096 ≤ 2 * s.words)
    (hap : Apart ((opnd s 4).toNat + (opnd s 5).toNat) (opnd s 2).toNat
      (opnd s 1).toNat (opnd s 2).toNat)
    (hstk : Apart (opnd s 4).toNat ((opnd s 3).toNat % 4096) (2 * (s.sp.toNat / 2 - 5)) 6) :
    ∃ s', execute lib code maxpc s = .ok (eNOERROR, s') ∧ Ran s s' 3 0 ∧
      opnd s' 0 = opnd s 3 ∧ opnd s' 1 = opnd s 4 ∧
      (opnd s' 2).toNat = (opnd s 5).toNat + (opnd s 2).toNat ∧
      text s'.mem (opnd s' 1).toNat (opnd s' 2).toNat =
        text s.mem (opnd s 4).toNat (opnd s 5).toNat ++
        text s.mem (opnd s 1).toNat (opnd s 2).toNat ∧
      ∀ x, (x < (opnd s 4).toNat + (opnd s 5).toNat ∨
          (opnd s 4).toNat + (opnd s 5).toNat + (opnd s 2).toNat ≤ x) →
        x / 2 ≠ s.sp.toNat / 2 - 5 → byte s'.mem x = byte s.mem x := by
  obtain ⟨h1, h2⟩ := hr
  have ht : s.top = s.sp.toNat / 2 := rfl
  rw [strlib_exec hlib hi]
  simp only [Str.strOps, show (0xb#16).toNat = 11 from rfl]
  have tp : ∀ m, ({ s with sp := s.sp - 6#16, mem := m } : VM).top = s.top - 3 :=
    fun m => Str.topK s 3 _ rfl (by omega) m
  have tp0 : ({ s with sp := s.sp - 6#16 } : VM).top = s.top - 3 := tp s.mem
  rw [Str.pop0 s h2, Res.ok_bind, Str.pop1 s (by omega) h2, Res.ok_bind,
    Str.pop2 s (by omega) h2, Res.ok_bind]
  simp only [bind_assoc]
  rw [VM.tos_eq _ (by rw [tp0]; show _ < s.words; omega) (by omega), Res.ok_bind,
    VM.tos_eq _ (by rw [tp0]; show _ < s.words; omega) (by omega), Res.ok_bind, tp0, Str.strCat,
    VM.tos_eq _ (by rw [tp0]; show _ < s.words; omega) (by omega), Res.ok_bind, tp0]
  simp only [mask_toNat, show s.top - 3 - 0 = s.top - 3 by omega,
    show s.top - 3 - 1 = s.top - 4 by omega, show s.top - 3 - 2 = s.top - 5 by omega]
  have e0 : s.mem (s.top - 0) = opnd s 0 := rfl
  have e1 : s.mem (s.top - 1) = opnd s 1 := rfl
  have e2 : s.mem (s.top - 2) = opnd s 2 := rfl
  have e3 : s.mem (s.top - 3) = opnd s 3 := rfl
  have e4 : s.mem (s.top - 4) = opnd s 4 := rfl
  have e5 : s.mem (s.top - 5) = opnd s 5 := rfl
  simp only [e0, e1, e2, e3, e4, e5]
  have hl := (opnd s 5 + opnd s 2).isLt
  have hsum : (opnd s 2 + opnd s 5).toNat = (opnd s 5).toNat + (opnd s 2).toNat := by
    rw [BitVec.toNat_add]; omega
  unfold Apart at hstk
  rw [if_neg (by omega)]
  obtain ⟨m, m1, m2, m3⟩ := Str.memcpy_ok (s := { s with sp := s.sp - 6#16 })
    (d := (opnd s 4).toNat + (opnd s 5).toNat) (a := (opnd s 1).toNat) (n := (opnd s 2).toNat)
    (by show _ ≤ 2 * s.words; omega) (by show _ ≤ 2 * s.words; omega) hap
  simp only [bind_assoc, Res.pure_eq, Res.ok_bind]
  rw [m1, Res.ok_bind, VM.setTos_eq _ _ (by rw [tp]; show _ < s.words; omega) (by rw [tp]; omega),
    Res.ok_bind, Str.freeTmp_plain _ htmp, Res.ok_bind]
  rw [tp, show s.top - 3 - 2 = s.top - 5 by omega]
  have keep : ∀ k, s.top - 5 ≤ k → k ≤ s.top - 3 → m k = s.mem k := fun k k1 k2 =>
    Str.word_of_bytes (m3 _ (by omega)) (m3 _ (by omega))
  have sp3 : (s.sp - 6#16).toNat / 2 = s.top - 3 := tp0
  have o0 : opnd { s with
      sp := s.sp - 6#16, mem := updW m (s.top - 5) (opnd s 2 + opnd s 5), pc := s.pc + 3#16 } 0 =
      opnd s 3 := by
    show updW m (s.top - 5) _ ((s.sp - 6#16).toNat / 2 - 0) = _
    rw [sp3, updW_other _ _ (by omega), keep _ (by omega) (by omega)]; rfl
  have o1 : opnd { s with
      sp := s.sp - 6#16, mem := updW m (s.top - 5) (opnd s 2 + opnd s 5), pc := s.pc + 3#16 } 1 =
      opnd s 4 := by
    show updW m (s.top - 5) _ ((s.sp - 6#16).toNat / 2 - 1) = _
    rw [sp3, updW_other _ _ (by omega), keep _ (by omega) (by omega),
      show s.top - 3 - 1 = s.top - 4 by omega]
    rfl
  have o2 : opnd { s with
      sp := s.sp - 6#16, mem := updW m (s.top - 5) (opnd s 2 + opnd s 5), pc := s.pc + 3#16 } 2 =
      opnd s 2 + opnd s 5 := by
    show updW m (s.top - 5) _ ((s.sp - 6#16).toNat / 2 - 2) = _
    rw [sp3, show s.top - 3 - 2 = s.top - 5 by omega, updW_same]
  refine ⟨_, rfl, ⟨rfl, (BitVec.add_zero _).symm, rfl⟩, o0, o1, by rw [o2, hsum], ?_, ?_⟩
  · rw [o1, o2, hsum]
    apply List.ext_getElem
    · simp [Str.text_length]
    · intro i i1 i2
      rw [Str.text_length] at i1
      rw [Str.text_getElem, List.getElem_append]
      show byte (updW m _ _) _ = _
      rw [Str.byte_updW _ _ (by omega)]
      split
      · rename_i hlt
        rw [Str.text_length] at hlt
        rw [Str.text_getElem, m3 _ (by omega)]
      · rename_i hlt
        rw [Str.text_length] at hlt
        rw [Str.text_getElem, Str.text_length]
        have := m2 (i - (opnd s 5).toNat) (by omega)
        rw [show (opnd s 4).toNat + (opnd s 5).toNat + (i - (opnd s 5).toNat) =
          (opnd s 4).toNat + i by omega] at this
        exact this
  · intro x x1 x2
    show byte (updW m _ _) x = _
    rw [Str.byte_updW _ _ (by rw [ht]; exact x2), m3 x x1]

/-- What happens if the result of a concatenation does not fit: nothing is appended. -/
theorem C23_full (lib : Lib) (cfg : Str.Cfg) (hlib : lib.strOps = Str.strOps cfg)
    (code : List Byte) (maxpc : Word) (s : VM) (hr : Room s 6)
    (hi : Insn code maxpc s .strlib 0 0xb#16) (htmp : ¬Temp (opnd s 0))
    (hfit : (opnd s 3).toNat % 4096 < (opnd s 5).toNat + (opnd s 2).toNat) :
    ∃ s', execute lib code maxpc s = .ok (eNOERROR, s') ∧ Ran s s' 3 0 ∧ s'.mem = s.mem := by
  obtain ⟨h1, h2⟩ := hr
  have ht : s.top = s.sp.toNat / 2 := rfl
  rw [strlib_exec hlib hi]
  simp only [Str.strOps, show (0xb#16).toNat = 11 from rfl]
  have tp0 : ({ s with sp := s.sp - 6#16 } : VM).top = s.top - 3 :=
    Str.topK s 3 _ rfl (by omega) s.mem
  rw [Str.pop0 s h2, Res.ok_bind, Str.pop1 s (by omega) h2, Res.ok_bind,
    Str.pop2 s (by omega) h2, Res.ok_bind]
  simp only [bind_assoc]
  rw [VM.tos_eq _ (by rw [tp0]; show _ < s.words; omega) (by omega), Res.ok_bind,
    VM.tos_eq _ (by rw [tp0]; show _ < s.words; omega) (by omega), Res.ok_bind, tp0, Str.strCat,
    VM.tos_eq _ (by rw [tp0]; show _ < s.words; omega) (by omega), Res.ok_bind, tp0]
  simp only [mask_toNat, show s.top - 3 - 0 = s.top - 3 by omega,
    show s.top - 3 - 1 = s.top - 4 by omega, show s.top - 3 - 2 = s.top - 5 by omega]
  have e0 : s.mem (s.top - 0) = opnd s 0 := rfl
  have e2 : s.mem (s.top - 2) = opnd s 2 := rfl
  have e3 : s.mem (s.top - 3) = opnd s 3 := rfl
  have e5 : s.mem (s.top - 5) = opnd s 5 := rfl
  simp only [e0, e2, e3, e5]
  rw [if_pos (by omega)]
  simp only [Res.pure_eq, Res.ok_bind]
  rw [Str.freeTmp_plain _ htmp, Res.ok_bind]
  exact ⟨_, rfl, ⟨rfl, (BitVec.add_zero _).symm, rfl⟩, rfl⟩

/-- **C23** (partial): if there is room, appending a character stores it behind the string and
changes nothing else.  Missing: what happens without room (see `C26_violation_char`). -/
theorem C23_char_partial (lib : Lib) (cfg : Str.Cfg) (hlib : lib.strOps = Str.strOps cfg)
    (code : List Byte) (maxpc : Word) (s : VM) (hr : Room s 4)
    (hi : Insn code maxpc s .strlib 0 0xc#16)
    (hfit : (opnd s 3).toNat + 1 ≤ (opnd s 1).toNat % 4096)
    (hd : (opnd s 2).toNat + (opnd s 1).toNat % 4096 ≤ 2 * s.words)
    (hstk : Apart (opnd s 2).toNat ((opnd s 1).toNat % 4096) (2 * (s.sp.toNat / 2 - 3)) 6) :
    ∃ s', execute lib code maxpc s = .ok (eNOERROR, s') ∧ Ran s s' 1 0 ∧
      opnd s' 0 = opnd s 1 ∧ opnd s' 1 = opnd s 2 ∧ (opnd s' 2).toNat = (opnd s 3).toNat + 1 ∧
      text s'.mem (opnd s' 1).toNat (opnd s' 2).toNat =
        text s.mem (opnd s 2).toNat (opnd s 3).toNat ++ [(opnd s 0).truncate 8] ∧
      ∀ x, x ≠ (opnd s 2).toNat + (opnd s 3).toNat → x / 2 ≠ s.sp.toNat / 2 - 3 →
        byte s'.mem x = byte s.mem x := by
  obtain ⟨h1, h2⟩ := hr
  have ht : s.top = s.sp.toNat / 2 := rfl
  rw [strlib_exec hlib hi]
  simp only [Str.strOps, show (0xc#16).toNat = 12 from rfl]
  have tp : ∀ m, ({ s with sp := s.sp - 2#16, mem := m } : VM).top = s.top - 1 :=
    fun m => Str.topK s 1 _ rfl (by omega) m
  have tp0 : ({ s with sp := s.sp - 2#16 } : VM).top = s.top - 1 := tp s.mem
  rw [Str.pop0 s h2, Res.ok_bind]
  simp only
  rw [VM.tos_eq _ (by rw [tp0]; show _ < s.words; omega) (by omega), Res.ok_bind,
    VM.tos_eq _ (by rw [tp0]; show _ < s.words; omega) (by omega), Res.ok_bind, tp0, Str.strCatC,
    VM.tos_eq _ (by rw [tp0]; show _ < s.words; omega) (by omega), Res.ok_bind, tp0]
  simp only [show s.top - 1 - 0 = s.top - 1 by omega,
    show s.top - 1 - 1 = s.top - 2 by omega, show s.top - 1 - 2 = s.top - 3 by omega]
  have e0 : s.mem (s.top - 0) = opnd s 0 := rfl
  have e1 : s.mem (s.top - 1) = opnd s 1 := rfl
  have e2 : s.mem (s.top - 2) = opnd s 2 := rfl
  have e3 : s.mem (s.top - 3) = opnd s 3 := rfl
  simp only [e0, e1, e2, e3]
  have hsum : (opnd s 3 + 1#16).toNat = (opnd s 3).toNat + 1 := by
    rw [BitVec.toNat_add]
    have : (1#16).toNat = 1 := rfl
    omega
  unfold Apart at hstk
  rw [if_neg (by omega), Str.wrB_eq _ _ (by show _ < 2 * s.words; omega), Res.ok_bind,
    VM.setTos_eq _ _ (by rw [tp]; show _ < s.words; omega) (by rw [tp]; omega), Res.ok_bind]
  simp only [Res.pure_eq, Res.ok_bind]
  rw [tp, show s.top - 1 - 2 = s.top - 3 by omega]
  generalize hm : updB s.mem ((opnd s 2).toNat + (opnd s 3).toNat) _ = m
  have m2 : byte m ((opnd s 2).toNat + (opnd s 3).toNat) = (opnd s 0).truncate 8 := by
    rw [← hm, byte_updB, if_pos rfl]
  have m3 : ∀ x, x ≠ (opnd s 2).toNat + (opnd s 3).toNat → byte m x = byte s.mem x := fun x hx => by
    rw [← hm, byte_updB, if_neg hx]
  have keep : ∀ k, s.top - 3 ≤ k → k ≤ s.top - 1 → m k = s.mem k := fun k k1 k2 =>
    Str.word_of_bytes (m3 _ (by omega)) (m3 _ (by omega))
  have sp3 : (s.sp - 2#16).toNat / 2 = s.top - 1 := tp0
  have o0 : opnd { s with
      sp := s.sp - 2#16, mem := updW m (s.top - 3) (opnd s 3 + 1#16), pc := s.pc + 3#16 } 0 =
      opnd s 1 := by
    show updW m (s.top - 3) _ ((s.sp - 2#16).toNat / 2 - 0) = _
    rw [sp3, updW_other _ _ (by omega), keep _ (by omega) (by omega)]; rfl
  have o1 : opnd { s with
      sp := s.sp - 2#16, mem := updW m (s.top - 3) (opnd s 3 + 1#16), pc := s.pc + 3#16 } 1 =
      opnd s 2 := by
    show updW m (s.top - 3) _ ((s.sp - 2#16).toNat / 2 - 1) = _
    rw [sp3, updW_other _ _ (by omega), keep _ (by omega) (by omega),
      show s.top - 1 - 1 = s.top - 2 by omega]
    rfl
  have o2 : opnd { s with
      sp := s.sp - 2#16, mem := updW m (s.top - 3) (opnd s 3 + 1#16), pc := s.pc + 3#16 } 2 =
      opnd s 3 + 1#16 := by
    show updW m (s.top - 3) _ ((s.sp - 2#16).toNat / 2 - 2) = _
    rw [sp3, show s.top - 1 - 2 = s.top - 3 by omega, updW_same]
  refine ⟨_, rfl, ⟨rfl, (BitVec.add_zero _).symm, rfl⟩, o0, o1, by rw [o2, hsum], ?_, ?_⟩
  · rw [o1, o2, hsum]
    apply List.ext_getElem
    · simp [Str.text_length]
    · intro i i1 i2
      rw [Str.text_length] at i1
      rw [Str.text_getElem, List.getElem_append]
      show byte (updW m _ _) _ = _
      rw [Str.byte_updW _ _ (by omega)]
      split
      · rename_i hlt
        rw [Str.text_length] at hlt
        rw [Str.text_getElem, m3 _ (by omega)]
      · rename_i hlt
        rw [Str.text_length] at hlt
        rw [List.getElem_singleton,
          show (opnd s 2).toNat + i = (opnd s 2).toNat + (opnd s 3).toNat by omega, m2]
  · intro x x1 x2
    show byte (updW m _ _) x = _
    rw [Str.byte_updW _ _ (by rw [ht]; exact x2), m3 x x1]

/-- The comparison instruction computes `cmpInt` of the two strings. -/
theorem cmp_exec {lib : Lib} {cfg : Str.Cfg} (hlib : lib.strOps = Str.strOps cfg)
    {code : List Byte} {maxpc : Word} {s : VM} (hr : Room s 6)
    (hi : Insn code maxpc s .strlib 0 0xd#16) (ht1 : ¬Temp (opnd s 3)) (ht2 : ¬Temp (opnd s 0))
    (h1 : (opnd s 4).toNat + (opnd s 5).toNat ≤ 2 * s.words)
    (h2 : (opnd s 1).toNat + (opnd s 2).toNat ≤ 2 * s.words) :
    execute lib code maxpc s = .ok (eNOERROR, { s with
      sp := s.sp - 10#16
      pc := s.pc + 3#16
      mem := updW s.mem (s.sp.toNat / 2 - 5) (BitVec.ofInt 16 (Str.cmpInt cfg.memcmp
        (text s.mem (opnd s 4).toNat (opnd s 5).toNat)
        (text s.mem (opnd s 1).toNat (opnd s 2).toNat))) }) := by
  obtain ⟨r1, r2⟩ := hr
  have ht : s.top = s.sp.toNat / 2 := rfl
  rw [strlib_exec hlib hi]
  simp only [Str.strOps, show (0xd#16).toNat = 13 from rfl, Str.strCmp]
  have tp0 : ({ s with sp := s.sp - 10#16 } : VM).top = s.top - 5 :=
    Str.topK s 5 _ rfl (by omega) s.mem
  rw [Str.pop0 s r2, Res.ok_bind, Str.pop1 s (by omega) r2, Res.ok_bind,
    Str.pop2 s (by omega) r2, Res.ok_bind, Str.pop3 s (by omega) r2, Res.ok_bind,
    Str.pop4 s (by omega) r2, Res.ok_bind]
  simp only
  rw [VM.tos_eq _ (by rw [tp0]; show _ < s.words; omega) (by omega), Res.ok_bind, tp0,
    show s.top - 5 - 0 = s.top - 5 by omega]
  have e0 : s.mem (s.top - 0) = opnd s 0 := rfl
  have e1 : s.mem (s.top - 1) = opnd s 1 := rfl
  have e2 : s.mem (s.top - 2) = opnd s 2 := rfl
  have e3 : s.mem (s.top - 3) = opnd s 3 := rfl
  have e4 : s.mem (s.top - 4) = opnd s 4 := rfl
  have e5 : s.mem (s.top - 5) = opnd s 5 := rfl
  simp only [e0, e1, e2, e3, e4, e5]
  have hn : (if (opnd s 5).toNat < (opnd s 2).toNat then (opnd s 5).toNat else (opnd s 2).toNat) =
      min (opnd s 5).toNat (opnd s 2).toNat := by split <;> omega
  rw [hn, Str.readBytes_eq _ _ _ (by show _ ≤ 2 * s.words; omega), Res.ok_bind,
    Str.readBytes_eq _ _ _ (by show _ ≤ 2 * s.words; omega), Res.ok_bind,
    Str.freeTmp_plain _ ht1, Res.ok_bind, Str.freeTmp_plain _ ht2, Res.ok_bind,
    VM.setTos_eq _ _ (by rw [tp0]; show _ < s.words; omega) (by omega), tp0]
  simp only [Res.pure_eq, Res.ok_bind]
  have hc : Str.cmpInt cfg.memcmp (text s.mem (opnd s 4).toNat (opnd s 5).toNat)
        (text s.mem (opnd s 1).toNat (opnd s 2).toNat) =
      (if (opnd s 5).toNat < (opnd s 2).toNat then
        (if cfg.memcmp (text s.mem (opnd s 4).toNat (min (opnd s 5).toNat (opnd s 2).toNat))
          (text s.mem (opnd s 1).toNat (min (opnd s 5).toNat (opnd s 2).toNat)) = 0 then -1 else
          cfg.memcmp (text s.mem (opnd s 4).toNat (min (opnd s 5).toNat (opnd s 2).toNat))
          (text s.mem (opnd s 1).toNat (min (opnd s 5).toNat (opnd s 2).toNat)))
      else if (opnd s 5).toNat > (opnd s 2).toNat then
        (if cfg.memcmp (text s.mem (opnd s 4).toNat (min (opnd s 5).toNat (opnd s 2).toNat))
          (text s.mem (opnd s 1).toNat (min (opnd s 5).toNat (opnd s 2).toNat)) = 0 then 1 else
          cfg.memcmp (text s.mem (opnd s 4).toNat (min (opnd s 5).toNat (opnd s 2).toNat))
          (text s.mem (opnd s 1).toNat (min (opnd s 5).toNat (opnd s 2).toNat)))
      else cfg.memcmp (text s.mem (opnd s 4).toNat (min (opnd s 5).toNat (opnd s 2).toNat))
          (text s.mem (opnd s 1).toNat (min (opnd s 5).toNat (opnd s 2).toNat))) := by
    unfold Str.cmpInt
    simp only [Str.text_length, Str.text_take]
    rw [Nat.min_eq_left (Nat.min_le_left _ _), Nat.min_eq_left (Nat.min_le_right _ _)]
  rw [hc]
  rfl

/-- **C24** (partial): comparing two strings gives a number that is negative, zero or positive
exactly if the first string comes before, equals or comes after the second one in alphabetical
order, which is a total order.  Partial: only if the C library's `memcmp` keeps within 16 bits
(see `C24_violation_memcmp`), and neither string is a temporary. -/
theorem C24_compare_partial (lib : Lib) (cfg : Str.Cfg) (hlib : lib.strOps = Str.strOps cfg)
    (hcmp : GoodMemcmp cfg.memcmp)
    (code : List Byte) (maxpc : Word) (s : VM) (hr : Room s 6)
    (hi : Insn code maxpc s .strlib 0 0xd#16) (ht1 : ¬Temp (opnd s 3)) (ht2 : ¬Temp (opnd s 0))
    (h1 : (opnd s 4).toNat + (opnd s 5).toNat ≤ 2 * s.words)
    (h2 : (opnd s 1).toNat + (opnd s 2).toNat ≤ 2 * s.words) :
    ∃ s' a b, a = text s.mem (opnd s 4).toNat (opnd s 5).toNat ∧
      b = text s.mem (opnd s 1).toNat (opnd s 2).toNat ∧
      execute lib code maxpc s = .ok (eNOERROR, s') ∧ Ran s s' 6 1 ∧
      ((opnd s' 0).toInt < 0 ↔ Before a b) ∧ ((opnd s' 0).toInt = 0 ↔ a = b) ∧
      (0 < (opnd s' 0).toInt ↔ Before b a) ∧
      ∀ i, i ≠ s'.sp.toNat / 2 → s'.mem i = s.mem i := by
  have tp0 : (s.sp - 10#16).toNat / 2 = s.sp.toNat / 2 - 5 :=
    Str.topK s 5 10#16 rfl (by have := hr.1; show 5 ≤ s.sp.toNat / 2; omega) s.mem
  refine ⟨_, _, _, rfl, rfl, cmp_exec hlib hr hi ht1 ht2 h1 h2, ⟨rfl, ?_, rfl⟩, ?_⟩
  · show s.sp - 10#16 = s.sp - 12#16 + 2#16
    bv_omega
  · generalize text s.mem (opnd s 4).toNat (opnd s 5).toNat = a
    generalize text s.mem (opnd s 1).toNat (opnd s 2).toNat = b
    obtain ⟨c1, c2, c3, c4⟩ := Str.cmpInt_spec hcmp a b
    have ho : opnd { s with
        sp := s.sp - 10#16
        pc := s.pc + 3#16
        mem := updW s.mem (s.sp.toNat / 2 - 5) (BitVec.ofInt 16 (Str.cmpInt cfg.memcmp a b)) } 0 =
        BitVec.ofInt 16 (Str.cmpInt cfg.memcmp a b) := by
      show updW s.mem (s.sp.toNat / 2 - 5) _ ((s.sp - 10#16).toNat / 2 - 0) = _
      rw [tp0, Nat.sub_zero, updW_same]
    have hI : (BitVec.ofInt 16 (Str.cmpInt cfg.memcmp a b)).toInt = Str.cmpInt cfg.memcmp a b := by
      rw [BitVec.toInt_ofInt]
      generalize Str.cmpInt cfg.memcmp a b = x at *
      unfold Int.bmod
      have : ((2 ^ 16 : Nat) : Int) = 65536 := rfl
      simp only [this]
      split <;> omega
    rw [ho, hI, c1, c2]
    refine ⟨Iff.rfl, ?_, Iff.rfl, ?_⟩
    · constructor
      · intro h0
        rcases Str.before_total a b with h | h | h
        · exact h
        · have := c1.2 h; omega
        · have := c2.2 h; omega
      · rintro rfl
        rcases Int.lt_trichotomy (Str.cmpInt cfg.memcmp a a) 0 with h | h | h
        · exact absurd (c1.1 h) (Str.before_irrefl a)
        · exact h
        · exact absurd (c2.1 h) (Str.before_irrefl a)
    · intro i hi
      exact updW_other _ _ (by rw [← tp0]; exact hi)

/-- The order is a strict total order. -/
theorem C24_order (a b c : List Byte) :
    ¬Before a a ∧ (Before a b → Before b c → Before a c) ∧ (a = b ∨ Before a b ∨ Before b a) :=
  ⟨Str.before_irrefl a, Str.before_trans, Str.before_total a b⟩

/-- `Length` leaves the length of the string on the stack and changes nothing else. -/
theorem C25_length (lib : Lib) (cfg : Str.Cfg) (hlib : lib.strOps = Str.strOps cfg)
    (code : List Byte) (maxpc : Word) (s : VM) (hr : Room s 3)
    (hi : Insn code maxpc s .strlib 0 0xe#16) (ht : ¬Temp (opnd s 0)) :
    ∃ s', execute lib code maxpc s = .ok (eNOERROR, s') ∧ Ran s s' 3 1 ∧
      opnd s' 0 = opnd s 2 ∧ s'.mem = s.mem := by
  obtain ⟨r1, r2⟩ := hr
  have htop : s.top = s.sp.toNat / 2 := rfl
  rw [strlib_exec hlib hi]
  simp only [Str.strOps, show (0xe#16).toNat = 14 from rfl]
  rw [Str.pop0 s r2, Res.ok_bind, Str.pop1 s (by omega) r2, Res.ok_bind]
  have e0 : s.mem (s.top - 0) = opnd s 0 := rfl
  simp only [e0]
  rw [Str.freeTmp_plain _ ht, Res.ok_bind]
  refine ⟨_, rfl, ⟨rfl, ?_, rfl⟩, ?_, rfl⟩
  · show s.sp - 4#16 = s.sp - 6#16 + 2#16
    bv_omega
  · show s.mem ((s.sp - 4#16).toNat / 2 - 0) = s.mem (s.sp.toNat / 2 - 2)
    have : (s.sp - 4#16).toNat / 2 = s.sp.toNat / 2 - 2 :=
      Str.topK s 2 4#16 rfl (by omega) s.mem
    rw [this]; rfl

/-- Deleting: what happens to the bytes, for any position and count. -/
theorem delete_exec {lib : Lib} {cfg : Str.Cfg} (hlib : lib.strOps = Str.strOps cfg)
    {code : List Byte} {maxpc : Word} {s : VM} (hr : Room s 3)
    (hi : Insn code maxpc s .strlib 0 0x12#16) {v p n : Nat} (hv : v = (opnd s 2).toNat)
    (hp : p = (opnd s 1 - 1#16).toNat) (hn : n = (opnd s 0).toNat)
    (var : StrVar s v) (len : strLen s.mem v ≤ strCap s.mem v) :
    ∃ s', execute lib code maxpc s = .ok (eNOERROR, s') ∧ Ran s s' 3 0 ∧
      strBuf s'.mem v = strBuf s.mem v ∧ strCap s'.mem v = strCap s.mem v ∧
      (p ≤ strLen s.mem v → strLen s'.mem v =
        if p + n > strLen s.mem v then p else strLen s.mem v - n) ∧
      (∀ i < strLen s.mem v - (p + n), byte s'.mem (strBuf s.mem v + p + i) =
        byte s.mem (strBuf s.mem v + p + n + i)) ∧
      ∀ x, (x < v ∨ v + 2 ≤ x) → (x < strBuf s.mem v + p ∨
        strBuf s.mem v + p + (strLen s.mem v - (p + n)) ≤ x) → byte s'.mem x = byte s.mem x := by
  obtain ⟨r1, r2⟩ := hr
  have htop : s.top = s.sp.toNat / 2 := rfl
  obtain ⟨v1, v2, v3, v4⟩ := var
  unfold Apart at v4
  rw [strlib_exec hlib hi]
  simp only [Str.strOps, show (0x12#16).toNat = 18 from rfl, Str.delSubStr]
  rw [Str.pop0 s r2, Res.ok_bind, Str.pop1 s (by omega) r2, Res.ok_bind,
    Str.pop2 s (by omega) r2, Res.ok_bind]
  have e0 : s.mem (s.top - 0) = opnd s 0 := rfl
  have e1 : s.mem (s.top - 1) = opnd s 1 := rfl
  have e2 : s.mem (s.top - 2) = opnd s 2 := rfl
  simp only [e0, e1, e2]
  rw [← hv, ← hp, ← hn]
  rw [Str.rdF_eq _ v1 (by show _ < s.words; omega), Res.ok_bind,
    Str.rdF_eq _ v1 (by show _ < s.words; omega), Res.ok_bind]
  have eb : (s.mem (v / 2 + 1)).toNat = strBuf s.mem v := rfl
  have el : (s.mem (v / 2 + 0)).toNat = strLen s.mem v := rfl
  have hlt : strLen s.mem v < 65536 := (s.mem (v / 2)).isLt
  have hpl : p < 65536 := by rw [hp]; exact BitVec.isLt _
  have hnl : n < 65536 := by rw [hn]; exact BitVec.isLt _
  simp only [eb, el]
  have cpy : ∃ m, Str.copyUp { s with sp := s.sp - 6#16 } (strBuf s.mem v + p)
      (strBuf s.mem v + p + n) (strLen s.mem v - (p + n)) =
        .ok { s with sp := s.sp - 6#16, mem := m } ∧
      (∀ i < strLen s.mem v - (p + n), byte m (strBuf s.mem v + p + i) =
        byte s.mem (strBuf s.mem v + p + n + i)) ∧
      (∀ x, (x < strBuf s.mem v + p ∨ strBuf s.mem v + p + (strLen s.mem v - (p + n)) ≤ x) →
        byte m x = byte s.mem x) := by
    by_cases hz : strLen s.mem v ≤ p + n
    · rw [show strLen s.mem v - (p + n) = 0 by omega]
      exact ⟨s.mem, rfl, fun i hi => by omega, fun _ _ => rfl⟩
    · exact Str.copyUp_ok (s := { s with sp := s.sp - 6#16 }) _
        (by show _ ≤ 2 * s.words; omega) (by show _ ≤ 2 * s.words; omega) (by omega)
  obtain ⟨m, m1, m2, m3⟩ := cpy
  rw [m1, Res.ok_bind]
  have keep : ∀ k < 3, m (v / 2 + k) = s.mem (v / 2 + k) := fun k hk =>
    Str.field_of_bytes v1 fun x x1 x2 => m3 x (by omega)
  rw [Str.rdF_eq _ v1 (by show _ < s.words; omega), Res.ok_bind,
    Str.wrF_eq _ _ v1 (by show _ < s.words; omega), Res.ok_bind]
  simp only [Res.pure_eq, Res.ok_bind]
  refine ⟨_, rfl, ⟨rfl, (BitVec.add_zero _).symm, rfl⟩, ?_, ?_, ?_, ?_, ?_⟩
  · show (updW m (v / 2) _ (v / 2 + 1)).toNat = _
    rw [updW_other _ _ (by omega), keep 1 (by omega)]; rfl
  · show (updW m (v / 2) _ (v / 2 + 2)).toNat % 4096 = _
    rw [updW_other _ _ (by omega), keep 2 (by omega)]; rfl
  · intro hple
    show (updW m (v / 2) _ (v / 2)).toNat = _
    rw [updW_same, BitVec.toNat_ofNat]
    have := keep 0 (by omega)
    rw [this, el]
    split <;> omega
  · intro i hi
    show byte (updW m (v / 2) _) _ = _
    rw [Str.byte_updW _ _ (by omega), m2 i hi]
  · intro x x1 x2
    show byte (updW m (v / 2) _) _ = _
    rw [Str.byte_updW _ _ (by omega), m3 x x2]

/-- **C25** (partial): deleting `n` characters from position `pos` removes exactly these (as many
as there are).  Partial: positions 1 to length + 1 only (see `C25_violation_delete`). -/
theorem C25_delete_partial (lib : Lib) (cfg : Str.Cfg) (hlib : lib.strOps = Str.strOps cfg)
    (code : List Byte) (maxpc : Word) (s : VM) (hr : Room s 3)
    (hi : Insn code maxpc s .strlib 0 0x12#16) (v pos n : Nat) (hv : v = (opnd s 2).toNat)
    (hp : pos = (opnd s 1).toNat) (hn : n = (opnd s 0).toNat)
    (var : StrVar s v) (len : strLen s.mem v ≤ strCap s.mem v)
    (h1 : 1 ≤ pos) (h2 : pos ≤ strLen s.mem v + 1) :
    ∃ s', execute lib code maxpc s = .ok (eNOERROR, s') ∧ Ran s s' 3 0 ∧
      strVal s'.mem v = (strVal s.mem v).take (pos - 1) ++ (strVal s.mem v).drop (pos - 1 + n) ∧
      strBuf s'.mem v = strBuf s.mem v ∧ strCap s'.mem v = strCap s.mem v ∧
      OnlyString s.mem s'.mem v := by
  have hp' : pos - 1 = (opnd s 1 - 1#16).toNat := by
    rw [BitVec.toNat_sub_of_le (by rw [BitVec.le_def]; show 1 ≤ _; omega), ← hp]; rfl
  obtain ⟨s', a1, a2, a3, a4, a5, a6, a7⟩ := delete_exec hlib hr hi hv hp' hn var len
  have hlen := a5 (by omega)
  obtain ⟨v1, v2, v3, v4⟩ := var
  unfold Apart at v4
  refine ⟨s', a1, a2, ?_, a3, a4, ?_⟩
  · unfold strVal
    rw [a3, hlen]
    apply List.ext_getElem
    · simp only [Str.text_length, List.length_append, List.length_take, List.length_drop]
      split <;> omega
    · intro i i1 i2
      rw [Str.text_length] at i1
      rw [Str.text_getElem, List.getElem_append]
      split
      · rename_i hlt
        simp only [List.length_take, Str.text_length] at hlt
        rw [List.getElem_take, Str.text_getElem]
        exact a7 _ (by omega) (by omega)
      · rename_i hlt
        simp only [List.length_take, Str.text_length] at hlt
        rw [List.getElem_drop, Str.text_getElem]
        simp only [List.length_take, Str.text_length]
        have := a6 (i - (pos - 1)) (by split at i1 <;> omega)
        rw [show strBuf s.mem v + (pos - 1) + (i - (pos - 1)) = strBuf s.mem v + i by
          split at i1 <;> omega] at this
        rw [this]
        congr 1
        split at i1 <;> omega
  · intro x x1 x2
    by_cases h : x < strBuf s.mem v + (pos - 1)
    · exact a7 x x1 (.inl h)
    · exact a7 x x1 (.inr (by omega))

/-- **C26**: whatever position and count are given, deleting writes nowhere but into the variable's
own buffer and length. -/
theorem C26_delete (lib : Lib) (cfg : Str.Cfg) (hlib : lib.strOps = Str.strOps cfg)
    (code : List Byte) (maxpc : Word) (s : VM) (hr : Room s 3)
    (hi : Insn code maxpc s .strlib 0 0x12#16) (var : StrVar s (opnd s 2).toNat)
    (len : strLen s.mem (opnd s 2).toNat ≤ strCap s.mem (opnd s 2).toNat) :
    ∃ s', execute lib code maxpc s = .ok (eNOERROR, s') ∧ Ran s s' 3 0 ∧
      OnlyString s.mem s'.mem (opnd s 2).toNat := by
  obtain ⟨s', a1, a2, a3, a4, a5, a6, a7⟩ := delete_exec hlib hr hi rfl rfl rfl var len
  refine ⟨s', a1, a2, fun x x1 x2 => ?_⟩
  exact a7 x x1 (by omega)

/-- Inserting: what happens to the bytes, for any position. -/
theorem insert_exec {lib : Lib} {cfg : Str.Cfg} (hlib : lib.strOps = Str.strOps cfg)
    {code : List Byte} {maxpc : Word} {s : VM} (hr : Room s 5)
    (hi : Insn code maxpc s .strlib 0 0x11#16) (htmp : ¬Temp (opnd s 2)) {v p n src N C : Nat}
    (hv : v = (opnd s 1).toNat) (hp : p = (opnd s 0 - 1#16).toNat) (hn : n = (opnd s 4).toNat)
    (hsrc : src = (opnd s 3).toNat) (var : StrVar s v) (len : strLen s.mem v ≤ strCap s.mem v)
    (hs : src + n ≤ 2 * s.words) (hap : Apart (strBuf s.mem v) (strCap s.mem v) src n)
    (hN : N = min ((strLen s.mem v + n) % 65536) (strCap s.mem v))
    (hC : C = min ((n + p) % 65536) N) :
    ∃ s', execute lib code maxpc s = .ok (eNOERROR, s') ∧ Ran s s' 5 0 ∧
      strBuf s'.mem v = strBuf s.mem v ∧ strCap s'.mem v = strCap s.mem v ∧
      strLen s'.mem v = N ∧
      (∀ x, (x < v ∨ v + 2 ≤ x) → byte s'.mem x =
        if strBuf s.mem v + p ≤ x ∧ x < strBuf s.mem v + C then
          byte s.mem (src + (x - (strBuf s.mem v + p)))
        else if strBuf s.mem v + p + n ≤ x ∧ x < strBuf s.mem v + N then byte s.mem (x - n)
        else byte s.mem x) := by
  obtain ⟨r1, r2⟩ := hr
  have htop : s.top = s.sp.toNat / 2 := rfl
  obtain ⟨v1, v2, v3, v4⟩ := var
  unfold Apart at v4 hap
  rw [strlib_exec hlib hi]
  simp only [Str.strOps, show (0x11#16).toNat = 17 from rfl, Str.insertStr]
  rw [Str.pop0 s r2, Res.ok_bind, Str.pop1 s (by omega) r2, Res.ok_bind]
  have e0 : s.mem (s.top - 0) = opnd s 0 := rfl
  have e1 : s.mem (s.top - 1) = opnd s 1 := rfl
  have e2 : s.mem (s.top - 2) = opnd s 2 := rfl
  have e3 : s.mem (s.top - 3) = opnd s 3 := rfl
  have e4 : s.mem (s.top - 4) = opnd s 4 := rfl
  simp only [e0, e1]
  rw [← hv, ← hp]
  rw [Str.rdF_eq _ v1 (by show _ < s.words; omega), Res.ok_bind,
    Str.rdF_eq _ v1 (by show _ < s.words; omega), Res.ok_bind,
    Str.rdF_eq _ v1 (by show _ < s.words; omega), Res.ok_bind,
    Str.pop2 s (by omega) r2, Res.ok_bind,
    Str.pop3 s (by omega) r2, Res.ok_bind, Str.pop4 s (by omega) r2, Res.ok_bind]
  have eb : (s.mem (v / 2 + 1)).toNat = strBuf s.mem v := rfl
  have el : (s.mem (v / 2 + 0)).toNat = strLen s.mem v := rfl
  have ec : (s.mem (v / 2 + 2)).toNat % 4096 = strCap s.mem v := rfl
  simp only [e2, e3, e4, eb, el, ec]
  rw [← hn, ← hsrc]
  have hlt : strLen s.mem v < 65536 := (s.mem (v / 2)).isLt
  have hcl : strCap s.mem v < 4096 := by unfold strCap; omega
  have hpl : p < 65536 := by rw [hp]; exact BitVec.isLt _
  have hnl : n < 65536 := by rw [hn]; exact BitVec.isLt _
  have fN : (if (strLen s.mem v + n) % 65536 > strCap s.mem v then strCap s.mem v else
      (strLen s.mem v + n) % 65536) = N := by rw [hN]; split <;> omega
  rw [fN]
  have fC : (if (n + p) % 65536 > N then N else (n + p) % 65536) = C := by
    rw [hC]; split <;> omega
  rw [fC]
  have c1 : ∃ m, Str.copyDown { s with sp := s.sp - 10#16 } (strBuf s.mem v + p + n)
      (strBuf s.mem v + p) (N - n - p) = .ok { s with sp := s.sp - 10#16, mem := m } ∧
      (∀ i < N - n - p, byte m (strBuf s.mem v + p + n + i) =
        byte s.mem (strBuf s.mem v + p + i)) ∧
      (∀ x, (x < strBuf s.mem v + p + n ∨ strBuf s.mem v + p + n + (N - n - p) ≤ x) →
        byte m x = byte s.mem x) := by
    by_cases hz : N - n - p = 0
    · rw [hz]
      exact ⟨s.mem, rfl, fun i hi => by omega, fun _ _ => rfl⟩
    · exact Str.copyDown_ok (s := { s with sp := s.sp - 10#16 }) _
        (by show _ ≤ 2 * s.words; omega) (by show _ ≤ 2 * s.words; omega) (by omega)
  obtain ⟨m, m1, m2, m3⟩ := c1
  rw [m1, Res.ok_bind]
  have c2 : ∃ k, Str.copyUp { s with sp := s.sp - 10#16, mem := m } (strBuf s.mem v + p)
      src (C - p) = .ok { s with sp := s.sp - 10#16, mem := k } ∧
      (∀ i < C - p, byte k (strBuf s.mem v + p + i) = byte m (src + i)) ∧
      (∀ x, (x < strBuf s.mem v + p ∨ strBuf s.mem v + p + (C - p) ≤ x) →
        byte k x = byte m x) := by
    by_cases hz : C - p = 0
    · rw [hz]
      exact ⟨m, rfl, fun i hi => by omega, fun _ _ => rfl⟩
    · exact Str.copyUp_ok (s := { s with sp := s.sp - 10#16, mem := m }) _
        (by show _ ≤ 2 * s.words; omega) (by show _ ≤ 2 * s.words; omega) (by omega)
  obtain ⟨k, k1, k2, k3⟩ := c2
  rw [k1, Res.ok_bind, Str.wrF_eq _ _ v1 (by show _ < s.words; omega), Res.ok_bind,
    Str.freeTmp_plain _ htmp, Res.ok_bind]
  simp only [Res.pure_eq, Res.ok_bind]
  have keep : ∀ j < 3, k (v / 2 + j) = s.mem (v / 2 + j) := fun j hj =>
    Str.field_of_bytes v1 fun x x1 x2 => by rw [k3 x (by omega), m3 x (by omega)]
  refine ⟨_, rfl, ⟨rfl, (BitVec.add_zero _).symm, rfl⟩, ?_, ?_, ?_, ?_⟩
  · show (updW k (v / 2) _ (v / 2 + 1)).toNat = _
    rw [updW_other _ _ (by omega), keep 1 (by omega)]; rfl
  · show (updW k (v / 2) _ (v / 2 + 2)).toNat % 4096 = _
    rw [updW_other _ _ (by omega), keep 2 (by omega)]; rfl
  · show (updW k (v / 2) _ (v / 2)).toNat = _
    rw [updW_same, BitVec.toNat_ofNat]; omega
  · intro x x1
    show byte (updW k (v / 2) _) _ = _
    rw [Str.byte_updW _ _ (by omega)]
    split
    · rename_i h
      have := k2 (x - (strBuf s.mem v + p)) (by omega)
      rw [show strBuf s.mem v + p + (x - (strBuf s.mem v + p)) = x by omega] at this
      rw [this, m3 _ (by omega)]
    · rw [k3 x (by omega)]
      split
      · have := m2 (x - (strBuf s.mem v + p + n)) (by omega)
        rw [show strBuf s.mem v + p + n + (x - (strBuf s.mem v + p + n)) = x by omega] at this
        rw [this]; congr 1; omega
      · rw [m3 x (by omega)]

/-- **C25** (partial): inserting a string at position `pos` gives the characters before `pos`, the
inserted string and the rest, cut off at the size of the buffer.  Partial: positions 1 to
length + 1, a source apart from the variable's buffer and not temporary (see
`C25_violation_insert`, `C25_violation_insert_self`). -/
theorem C25_insert_partial (lib : Lib) (cfg : Str.Cfg) (hlib : lib.strOps = Str.strOps cfg)
    (code : List Byte) (maxpc : Word) (s : VM) (hr : Room s 5)
    (hi : Insn code maxpc s .strlib 0 0x11#16) (htmp : ¬Temp (opnd s 2)) (v pos n src : Nat)
    (hv : v = (opnd s 1).toNat) (hp : pos = (opnd s 0).toNat) (hn : n = (opnd s 4).toNat)
    (hsrc : src = (opnd s 3).toNat) (var : StrVar s v) (len : strLen s.mem v ≤ strCap s.mem v)
    (hs : src + n ≤ 2 * s.words) (hap : Apart (strBuf s.mem v) (strCap s.mem v) src n)
    (hsum : strLen s.mem v + n < 65536) (h1 : 1 ≤ pos) (h2 : pos ≤ strLen s.mem v + 1) :
    ∃ s', execute lib code maxpc s = .ok (eNOERROR, s') ∧ Ran s s' 5 0 ∧
      strVal s'.mem v = ((strVal s.mem v).take (pos - 1) ++ text s.mem src n ++
        (strVal s.mem v).drop (pos - 1)).take (strCap s.mem v) ∧
      strBuf s'.mem v = strBuf s.mem v ∧ strCap s'.mem v = strCap s.mem v ∧
      OnlyString s.mem s'.mem v := by
  have hp' : pos - 1 = (opnd s 0 - 1#16).toNat := by
    rw [BitVec.toNat_sub_of_le (by rw [BitVec.le_def]; show 1 ≤ _; omega), ← hp]; rfl
  obtain ⟨s', a1, a2, a3, a4, a5, a6⟩ :=
    insert_exec hlib hr hi htmp hv hp' hn hsrc var len hs hap rfl rfl
  have hN : min ((strLen s.mem v + n) % 65536) (strCap s.mem v) =
      min (strLen s.mem v + n) (strCap s.mem v) := by rw [Nat.mod_eq_of_lt hsum]
  have hC : min ((n + (pos - 1)) % 65536) (min ((strLen s.mem v + n) % 65536) (strCap s.mem v)) =
      min (n + (pos - 1)) (min (strLen s.mem v + n) (strCap s.mem v)) := by
    rw [hN, Nat.mod_eq_of_lt (by omega)]
  rw [hN] at a5 a6
  rw [← hN, hC, hN] at a6
  obtain ⟨v1, v2, v3, v4⟩ := var
  unfold Apart at v4
  refine ⟨s', a1, a2, ?_, a3, a4, ?_⟩
  · unfold strVal
    rw [a3, a5]
    apply List.ext_getElem
    · simp only [Str.text_length, List.length_append, List.length_take, List.length_drop]
      omega
    · intro i i1 i2
      rw [Str.text_length] at i1
      rw [Str.text_getElem, List.getElem_take, List.getElem_append, a6 _ (by omega)]
      by_cases c1 : i < pos - 1
      · rw [if_neg (by omega), if_neg (by omega), dif_pos (by
          simp only [List.length_append, List.length_take, Str.text_length]; omega),
          List.getElem_append, dif_pos (by simp only [List.length_take, Str.text_length]; omega),
          List.getElem_take, Str.text_getElem]
      · by_cases c2 : i < pos - 1 + n
        · rw [if_pos (by omega), dif_pos (by
            simp only [List.length_append, List.length_take, Str.text_length]; omega),
            List.getElem_append, dif_neg (by simp only [List.length_take, Str.text_length]; omega),
            Str.text_getElem]
          simp only [List.length_take, Str.text_length]
          congr 1; omega
        · rw [if_neg (by omega), if_pos (by omega), dif_neg (by
            simp only [List.length_append, List.length_take, Str.text_length]; omega),
            List.getElem_drop, Str.text_getElem]
          simp only [List.length_append, List.length_take, Str.text_length]
          congr 1; omega
  · intro x x1 x2
    rw [a6 x x1, if_neg (by omega), if_neg (by omega)]

/-- **C26**: whatever position is given, inserting writes nowhere but into the variable's own
buffer and length. -/
theorem C26_insert (lib : Lib) (cfg : Str.Cfg) (hlib : lib.strOps = Str.strOps cfg)
    (code : List Byte) (maxpc : Word) (s : VM) (hr : Room s 5)
    (hi : Insn code maxpc s .strlib 0 0x11#16) (htmp : ¬Temp (opnd s 2))
    (var : StrVar s (opnd s 1).toNat)
    (len : strLen s.mem (opnd s 1).toNat ≤ strCap s.mem (opnd s 1).toNat)
    (hs : (opnd s 3).toNat + (opnd s 4).toNat ≤ 2 * s.words)
    (hap : Apart (strBuf s.mem (opnd s 1).toNat) (strCap s.mem (opnd s 1).toNat)
      (opnd s 3).toNat (opnd s 4).toNat) :
    ∃ s', execute lib code maxpc s = .ok (eNOERROR, s') ∧ Ran s s' 5 0 ∧
      strLen s'.mem (opnd s 1).toNat ≤ strCap s'.mem (opnd s 1).toNat ∧
      OnlyString s.mem s'.mem (opnd s 1).toNat := by
  obtain ⟨s', a1, a2, a3, a4, a5, a6⟩ :=
    insert_exec hlib hr hi htmp rfl rfl rfl rfl var len hs hap rfl rfl
  refine ⟨s', a1, a2, by rw [a4, a5]; omega, fun x x1 x2 => ?_⟩
  rw [a6 x x1, if_neg (by omega), if_neg (by omega)]

/-- **C26**: filling a string variable up to `count` characters keeps what is there, appends the
character, never goes beyond the buffer and writes nowhere else. -/
theorem C26_fill (lib : Lib) (cfg : Str.Cfg) (hlib : lib.strOps = Str.strOps cfg)
    (code : List Byte) (maxpc : Word) (s : VM) (hr : Room s 3)
    (hi : Insn code maxpc s .strlib 0 0x13#16) (v count : Nat) (hv : v = (opnd s 2).toNat)
    (hc : count = (opnd s 1).toNat) (var : StrVar s v)
    (len : strLen s.mem v ≤ strCap s.mem v) :
    ∃ s', execute lib code maxpc s = .ok (eNOERROR, s') ∧ Ran s s' 3 0 ∧
      strVal s'.mem v = strVal s.mem v ++
        List.replicate (min count (strCap s.mem v) - strLen s.mem v) ((opnd s 0).truncate 8) ∧
      strBuf s'.mem v = strBuf s.mem v ∧ strCap s'.mem v = strCap s.mem v ∧
      OnlyString s.mem s'.mem v := by
  obtain ⟨r1, r2⟩ := hr
  have htop : s.top = s.sp.toNat / 2 := rfl
  obtain ⟨v1, v2, v3, v4⟩ := var
  unfold Apart at v4
  rw [strlib_exec hlib hi]
  simp only [Str.strOps, show (0x13#16).toNat = 19 from rfl, Str.fillChar]
  rw [Str.pop0 s r2, Res.ok_bind, Str.pop1 s (by omega) r2, Res.ok_bind,
    Str.pop2 s (by omega) r2, Res.ok_bind]
  have e0 : s.mem (s.top - 0) = opnd s 0 := rfl
  have e1 : s.mem (s.top - 1) = opnd s 1 := rfl
  have e2 : s.mem (s.top - 2) = opnd s 2 := rfl
  simp only [e0, e1, e2]
  rw [← hv, ← hc]
  rw [Str.rdF_eq _ v1 (by show _ < s.words; omega), Res.ok_bind,
    Str.rdF_eq _ v1 (by show _ < s.words; omega), Res.ok_bind,
    Str.rdF_eq _ v1 (by show _ < s.words; omega), Res.ok_bind]
  have eb : (s.mem (v / 2 + 1)).toNat = strBuf s.mem v := rfl
  have el : (s.mem (v / 2 + 0)).toNat = strLen s.mem v := rfl
  have ec : (s.mem (v / 2 + 2)).toNat % 4096 = strCap s.mem v := rfl
  have hcl : strCap s.mem v < 4096 := by unfold strCap; omega
  have hlim : (if count > strCap s.mem v then strCap s.mem v else count) =
      min count (strCap s.mem v) := by split <;> omega
  simp only [eb, el, ec, hlim]
  have c1 : ∃ m, Str.fill { s with sp := s.sp - 6#16 } (strBuf s.mem v + strLen s.mem v)
      ((opnd s 0).truncate 8) (min count (strCap s.mem v) - strLen s.mem v) =
        .ok { s with sp := s.sp - 6#16, mem := m } ∧
      (∀ i < min count (strCap s.mem v) - strLen s.mem v,
        byte m (strBuf s.mem v + strLen s.mem v + i) = (opnd s 0).truncate 8) ∧
      (∀ x, (x < strBuf s.mem v + strLen s.mem v ∨ strBuf s.mem v + strLen s.mem v +
        (min count (strCap s.mem v) - strLen s.mem v) ≤ x) → byte m x = byte s.mem x) :=
    Str.fill_ok (s := { s with sp := s.sp - 6#16 }) _ _ (by show _ ≤ 2 * s.words; omega)
  obtain ⟨m, m1, m2, m3⟩ := c1
  rw [m1, Res.ok_bind, Str.wrF_eq _ _ v1 (by show _ < s.words; omega), Res.ok_bind]
  simp only [Res.pure_eq, Res.ok_bind]
  have keep : ∀ j < 3, m (v / 2 + j) = s.mem (v / 2 + j) := fun j hj =>
    Str.field_of_bytes v1 fun x x1 x2 => by rw [m3 x (by omega)]
  generalize hL : (if strLen s.mem v < min count (strCap s.mem v) then min count (strCap s.mem v)
    else strLen s.mem v) = L
  have hL2 : L = strLen s.mem v + (min count (strCap s.mem v) - strLen s.mem v) := by
    rw [← hL]; split <;> omega
  have f1 : updW m (v / 2 + 0) (BitVec.ofNat 16 L) (v / 2 + 1) = s.mem (v / 2 + 1) := by
    rw [updW_other _ _ (by omega), keep 1 (by omega)]
  have f2 : updW m (v / 2 + 0) (BitVec.ofNat 16 L) (v / 2 + 2) = s.mem (v / 2 + 2) := by
    rw [updW_other _ _ (by omega), keep 2 (by omega)]
  refine ⟨_, rfl, ⟨rfl, (BitVec.add_zero _).symm, rfl⟩, ?_,
    congrArg (fun w : Word => w.toNat) f1, congrArg (fun w : Word => w.toNat % 4096) f2, ?_⟩
  · show text _ (updW m (v / 2 + 0) (BitVec.ofNat 16 L) (v / 2 + 1)).toNat
      (updW m (v / 2) (BitVec.ofNat 16 L) (v / 2)).toNat = _
    rw [f1, updW_same, eb, BitVec.toNat_ofNat, Nat.mod_eq_of_lt (by omega)]
    apply List.ext_getElem
    · simp only [strVal, Str.text_length, List.length_append, List.length_replicate]; exact hL2
    · intro i i1 i2
      rw [Str.text_length] at i1
      rw [Str.text_getElem, List.getElem_append, Str.byte_updW _ _ (by omega)]
      split
      · rename_i h
        simp only [strVal, Str.text_length] at h
        simp only [strVal, Str.text_getElem]
        rw [m3 _ (by omega)]
      · rename_i h
        simp only [strVal, Str.text_length] at h
        rw [List.getElem_replicate]
        have := m2 (i - strLen s.mem v) (by omega)
        rw [show strBuf s.mem v + strLen s.mem v + (i - strLen s.mem v) = strBuf s.mem v + i by
          omega] at this
        exact this
  · intro x x1 x2
    show byte (updW m _ _) x = _
    rw [Str.byte_updW _ _ (by omega), m3 x (by omega)]

/-- **C25** (partial): indexing a string gives the character at the position, and 0 outside the
string.  Partial: character codes below 128 (see `C25_violation_charAt`). -/
theorem C25_charAt_partial (lib : Lib) (cfg : Str.Cfg) (hlib : lib.strOps = Str.strOps cfg)
    (code : List Byte) (maxpc : Word) (s : VM) (hr : Room s 5)
    (hi : Insn code maxpc s .strlib 0 0x14#16) (htmp : ¬Temp (opnd s 1)) (pos : Nat)
    (hp : pos = (opnd s 0).toNat) (a : List Byte)
    (ha : a = text s.mem (opnd s 2).toNat (opnd s 3).toNat)
    (hs : (opnd s 2).toNat + (opnd s 3).toNat ≤ 2 * s.words)
    (hasc : ∀ c ∈ a, c.toNat < 128) :
    ∃ s', execute lib code maxpc s = .ok (eNOERROR, s') ∧ Ran s s' 4 1 ∧
      (opnd s' 0).toNat = (if pos = 0 then 0 else (a.getD (pos - 1) 0).toNat) ∧
      ∀ i, i ≠ s'.sp.toNat / 2 → s'.mem i = s.mem i := by
  obtain ⟨r1, r2⟩ := hr
  have htop : s.top = s.sp.toNat / 2 := rfl
  rw [strlib_exec hlib hi]
  simp only [Str.strOps, show (0x14#16).toNat = 20 from rfl]
  rw [Str.pop0 s r2, Res.ok_bind, Str.pop1 s (by omega) r2, Res.ok_bind,
    Str.pop2 s (by omega) r2, Res.ok_bind, Str.pop3 s (by omega) r2, Res.ok_bind]
  have e0 : s.mem (s.top - 0) = opnd s 0 := rfl
  have e1 : s.mem (s.top - 1) = opnd s 1 := rfl
  have e2 : s.mem (s.top - 2) = opnd s 2 := rfl
  have e3 : s.mem (s.top - 3) = opnd s 3 := rfl
  simp only [e0, e1, e2, e3]
  rw [← hp]
  have key : ∃ r : Word, (if pos > 0 ∧ pos ≤ (opnd s 3).toNat then do
        let b ← ({ s with sp := s.sp - 8#16 } : VM).rdB ((opnd s 2).toNat + (pos - 1))
        pure (signExtend8 b)
      else pure 0#16 : Res Word) = .ok r ∧
      r.toNat = if pos = 0 then 0 else (a.getD (pos - 1) 0).toNat := by
    by_cases hin : pos > 0 ∧ pos ≤ (opnd s 3).toNat
    · rw [if_pos hin, Str.rdB_eq _ (by show _ < 2 * s.words; omega), Res.ok_bind]
      refine ⟨_, rfl, ?_⟩
      have hl : pos - 1 < a.length := by rw [ha, Str.text_length]; omega
      rw [if_neg (by omega), List.getD_eq_getElem?_getD, List.getElem?_eq_getElem hl,
        Option.getD_some]
      have hb : a[pos - 1] = byte s.mem ((opnd s 2).toNat + (pos - 1)) := by
        simp only [ha, Str.text_getElem]
      have hc := hasc _ (List.getElem_mem hl)
      rw [hb] at hc ⊢
      show (signExtend8 (byte s.mem ((opnd s 2).toNat + (pos - 1)))).toNat = _
      generalize byte s.mem ((opnd s 2).toNat + (pos - 1)) = b at hc
      have : ∀ b : Byte, b.toNat < 128 → (signExtend8 b).toNat = b.toNat := by decide +kernel
      exact this b hc
    · rw [if_neg hin]
      refine ⟨_, rfl, ?_⟩
      split
      · rfl
      · rw [List.getD_eq_getElem?_getD, List.getElem?_eq_none (by
          rw [ha, Str.text_length]; omega)]
        rfl
  obtain ⟨r, hr1, hr2⟩ := key
  rw [hr1, Res.ok_bind, Str.pushK s 3 8#16 6#16 r rfl rfl (by omega) (by omega) s.mem, Res.ok_bind,
    Str.freeTmp_plain _ htmp, Res.ok_bind]
  simp only [Res.pure_eq, Res.ok_bind]
  have tp : (s.sp - 6#16).toNat / 2 = s.top - 3 := Str.topK s 3 6#16 rfl (by omega) s.mem
  refine ⟨_, rfl, ⟨rfl, ?_, rfl⟩, ?_, ?_⟩
  · show s.sp - 6#16 = s.sp - 8#16 + 2#16
    bv_omega
  · show (updW s.mem (s.top - 3) r ((s.sp - 6#16).toNat / 2 - 0)).toNat = _
    rw [tp, Nat.sub_zero, updW_same, hr2]
  · intro i hi
    exact updW_other _ _ (by rw [← tp]; exact hi)

/-- **C25** (partial): `Pos(sub, str, start)` is the first position from `start` on where `sub`
occurs in `str`, or 0.  Partial: there must be room for copies of both strings on the string
stack, neither string contains a NUL character or is a temporary, and `start` is between 1 and
length + 1 (see `C25_violation_pos`, `C25_violation_pos_nul`). -/
theorem C25_pos_partial (lib : Lib) (cfg : Str.Cfg) (hlib : lib.strOps = Str.strOps cfg)
    (code : List Byte) (maxpc : Word) (s : VM) (hr : Room s 8)
    (hi : Insn code maxpc s .strlib 0 0x10#16) (ht1 : ¬Temp (opnd s 1)) (ht2 : ¬Temp (opnd s 4))
    (pos n k : Nat) (hp : pos = (opnd s 0).toNat) (hn : n = (opnd s 3).toNat)
    (hk : k = (opnd s 6).toNat) (str sub : List Byte)
    (hstr : str = text s.mem (opnd s 2).toNat n) (hsub : sub = text s.mem (opnd s 5).toNat k)
    (hroom : s.csp.toNat + n + k + 2 < s.spb.toNat) (hmem : s.spb.toNat ≤ 2 * s.words)
    (hs1 : (opnd s 2).toNat + n ≤ 2 * s.words) (hs2 : (opnd s 5).toNat + k ≤ 2 * s.words)
    (ha1 : Apart s.csp.toNat (n + k + 2) (opnd s 2).toNat n)
    (ha2 : Apart s.csp.toNat (n + k + 2) (opnd s 5).toNat k)
    (hz1 : ∀ c ∈ str, c ≠ 0#8) (hz2 : ∀ c ∈ sub, c ≠ 0#8)
    (h1 : 1 ≤ pos) (h2 : pos ≤ n + 1) :
    ∃ s', execute lib code maxpc s = .ok (eNOERROR, s') ∧ Ran s s' 7 1 ∧
      IsPos sub str pos (opnd s' 0).toNat ∧
      ∀ x, (x < s.csp.toNat ∨ s.csp.toNat + n + k + 2 ≤ x) → x / 2 ≠ s'.sp.toNat / 2 →
        byte s'.mem x = byte s.mem x := by
  obtain ⟨r1, r2⟩ := hr
  have htop : s.top = s.sp.toNat / 2 := rfl
  rw [strlib_exec hlib hi]
  simp only [Str.strOps, show (0x10#16).toNat = 16 from rfl, Str.findSubStr]
  rw [Str.pop0 s r2, Res.ok_bind, Str.pop1 s (by omega) r2, Res.ok_bind,
    Str.pop2 s (by omega) r2, Res.ok_bind, Str.pop3 s (by omega) r2, Res.ok_bind,
    Str.pop4 s (by omega) r2, Res.ok_bind, Str.pop5 s (by omega) r2, Res.ok_bind,
    Str.pop6 s (by omega) r2, Res.ok_bind]
  have e0 : s.mem (s.top - 0) = opnd s 0 := rfl
  have e1 : s.mem (s.top - 1) = opnd s 1 := rfl
  have e2 : s.mem (s.top - 2) = opnd s 2 := rfl
  have e3 : s.mem (s.top - 3) = opnd s 3 := rfl
  have e4 : s.mem (s.top - 4) = opnd s 4 := rfl
  have e5 : s.mem (s.top - 5) = opnd s 5 := rfl
  have e6 : s.mem (s.top - 6) = opnd s 6 := rfl
  simp only [e0, e1, e2, e3, e4, e5, e6]
  rw [← hp, ← hn, ← hk]
  have hsb : s.spb.toNat < 65536 := s.spb.isLt
  unfold Apart at ha1 ha2
  -- the two copies
  obtain ⟨m, m1, m2, m3, m4⟩ := Str.mkCString_ok (s := { s with sp := s.sp - 14#16 })
    (src := (opnd s 2).toNat) (size := n) (keep := true)
    (by show s.csp.toNat + n + 1 < s.spb.toNat; omega) hmem hs1
    (by show Apart s.csp.toNat _ _ _; unfold Apart; omega)
  have hc2 : (s.csp + BitVec.ofNat 16 (n + 1)).toNat = s.csp.toNat + n + 1 := by
    rw [BitVec.toNat_add, BitVec.toNat_ofNat]; omega
  rw [m1, Res.ok_bind]
  simp only [if_true]
  obtain ⟨q, q1, q2, q3, q4⟩ := Str.mkCString_ok (s := { s with
      sp := s.sp - 14#16, mem := m, csp := s.csp + BitVec.ofNat 16 (n + 1) })
    (src := (opnd s 5).toNat) (size := k) (keep := false)
    (by show (s.csp + BitVec.ofNat 16 (n + 1)).toNat + k + 1 < s.spb.toNat; omega) hmem hs2
    (by show Apart (s.csp + BitVec.ofNat 16 (n + 1)).toNat _ _ _; unfold Apart; omega)
  rw [q1, Res.ok_bind]
  simp only [Bool.false_eq_true, if_false]
  have qa : ∀ i < n, byte q (s.csp.toNat + i) = byte s.mem ((opnd s 2).toNat + i) := fun i hi => by
    rw [q4 _ (.inl (by show _ < (s.csp + BitVec.ofNat 16 (n + 1)).toNat; omega))]
    exact m2 i hi
  have qz : byte q (s.csp.toNat + n) = 0#8 := by
    rw [q4 _ (.inl (by show _ < (s.csp + BitVec.ofNat 16 (n + 1)).toNat; omega))]
    exact m3
  have qb : ∀ i < k, byte q ((s.csp + BitVec.ofNat 16 (n + 1)).toNat + i) =
      byte s.mem ((opnd s 5).toNat + i) := fun i hi => by
    refine (q2 i hi).trans ?_
    exact m4 _ (by show _ < s.csp.toNat ∨ s.csp.toNat + n + 1 ≤ _; omega)
  have qe : byte q ((s.csp + BitVec.ofNat 16 (n + 1)).toNat + k) = 0#8 := q3
  have qf : ∀ x, (x < s.csp.toNat ∨ s.csp.toNat + n + k + 2 ≤ x) → byte q x = byte s.mem x :=
    fun x hx => by
      refine (q4 x (by show x < (s.csp + BitVec.ofNat 16 (n + 1)).toNat ∨
        (s.csp + BitVec.ofNat 16 (n + 1)).toNat + k + 1 ≤ x; omega)).trans ?_
      exact m4 _ (by show _ < s.csp.toNat ∨ s.csp.toNat + n + 1 ≤ _; omega)
  have hstrz : ∀ i < n, byte s.mem ((opnd s 2).toNat + i) ≠ 0#8 := fun i hi => by
    refine hz1 _ ?_
    rw [hstr]
    exact List.mem_map.2 ⟨i, List.mem_range.2 hi, rfl⟩
  have hsubz : ∀ i < k, byte s.mem ((opnd s 5).toNat + i) ≠ 0#8 := fun i hi => by
    refine hz2 _ ?_
    rw [hsub]
    exact List.mem_map.2 ⟨i, List.mem_range.2 hi, rfl⟩
  rw [if_neg (by omega)]
  rw [Str.cString_eq { s with
      sp := s.sp - 14#16, mem := q, csp := s.csp + BitVec.ofNat 16 (n + 1) } (n - (pos - 1))
    (2 * s.words + 1) (s.csp.toNat + (pos - 1)) (by omega)
    (by show _ < 2 * s.words; omega)
    (fun i hi => by
      show byte q _ ≠ _
      rw [show s.csp.toNat + (pos - 1) + i = s.csp.toNat + (pos - 1 + i) by omega,
        qa _ (by omega)]
      exact hstrz _ (by omega))
    (by
      show byte q _ = _
      rw [show s.csp.toNat + (pos - 1) + (n - (pos - 1)) = s.csp.toNat + n by omega]; exact qz),
    Res.ok_bind]
  rw [Str.cString_eq { s with
      sp := s.sp - 14#16, mem := q, csp := s.csp + BitVec.ofNat 16 (n + 1) } k
    (2 * s.words + 1) (s.csp + BitVec.ofNat 16 (n + 1)).toNat (by omega)
    (by show _ < 2 * s.words; omega)
    (fun i hi => by
      show byte q _ ≠ _
      rw [qb _ hi]
      exact hsubz _ hi)
    qe, Res.ok_bind]
  have hsub' : text q (s.csp + BitVec.ofNat 16 (n + 1)).toNat k = sub := by
    rw [hsub]; exact Str.text_congr qb
  have hstr' : text q (s.csp.toNat + (pos - 1)) (n - (pos - 1)) = str.drop (pos - 1) := by
    rw [hstr, Str.text_drop]
    exact Str.text_congr fun i hi => by
      rw [show s.csp.toNat + (pos - 1) + i = s.csp.toNat + (pos - 1 + i) by omega,
        qa _ (by omega)]
      congr 1; omega
  simp only [hsub', hstr']
  have hlen : str.length = n := by rw [hstr, Str.text_length]
  -- the search
  have key : ∃ off, (Str.strstr (str.drop (pos - 1)) sub = none ∧ off = 0 ∨
        ∃ i, Str.strstr (str.drop (pos - 1)) sub = some i ∧ off = pos + i) ∧ off < 65536 ∧
      IsPos sub str pos off := by
    obtain ⟨f1, f2⟩ := Str.strstr_spec sub (str.drop (pos - 1))
    cases hf : Str.strstr (str.drop (pos - 1)) sub with
    | none =>
      refine ⟨0, .inl ⟨rfl, rfl⟩, by omega, .inl ⟨rfl, fun i hi hc => ?_⟩⟩
      apply f2 hf (i - (pos - 1))
      rw [Str.occurs_drop (by omega), show pos - 1 + (i - (pos - 1)) = i by omega]
      exact hc
    | some i =>
      obtain ⟨g1, g2⟩ := f1 i hf
      rw [Str.occurs_drop (by omega)] at g1
      have := g1.1
      refine ⟨pos + i, .inr ⟨i, rfl, rfl⟩, by omega,
        .inr ⟨by omega, by omega, ?_, fun j hj1 hj2 hc => ?_⟩⟩
      · rw [show pos + i - 1 = pos - 1 + i by omega]; exact g1
      · apply g2 (j - (pos - 1)) (by omega)
        rw [Str.occurs_drop (by omega), show pos - 1 + (j - (pos - 1)) = j by omega]
        exact hc
  obtain ⟨off, ho1, ho2, ho3⟩ := key
  have tp : (s.sp - 12#16).toNat / 2 = s.top - 6 := Str.topK s 6 12#16 rfl (by omega) s.mem
  rcases ho1 with ⟨hf, rfl⟩ | ⟨i, hf, rfl⟩
  all_goals
    simp only [hf, Res.pure_eq, Res.ok_bind]
    rw [Str.pushK s 6 14#16 12#16 _ rfl rfl (by omega) (by omega) q, Res.ok_bind,
      Str.freeTmp_plain _ ht1, Res.ok_bind, Str.freeTmp_plain _ ht2, Res.ok_bind]
    refine ⟨_, rfl, ⟨rfl, ?_, rfl⟩, ?_, ?_⟩
    · show s.sp - 12#16 = s.sp - 14#16 + 2#16
      bv_omega
    · show IsPos sub str pos (updW q (s.top - 6) _ ((s.sp - 12#16).toNat / 2 - 0)).toNat
      rw [tp, Nat.sub_zero, updW_same, BitVec.toNat_ofNat, Nat.mod_eq_of_lt (by omega)]
      exact ho3
    · intro x x1 x2
      show byte (updW q (s.top - 6) _) x = _
      rw [Str.byte_updW _ _ (by rw [← tp]; exact x2), qf x x1]

end Pas
