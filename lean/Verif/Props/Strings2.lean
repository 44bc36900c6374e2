import Verif.Props.Strings

/-! Properties C22-C27, continued: temporaries on the heap, string variables on the string stack,
and the places where the code disagrees with the properties. -/
namespace Pas
open Spec Heap

/-- What STRINIT does. -/
theorem init_exec {lib : Lib} {cfg : Str.Cfg} (hlib : lib.strOps = Str.strOps cfg)
    {code : List Byte} {maxpc : Word} {s : VM} (hr : Room s 2)
    (hi : Insn code maxpc s .strlib 0 0x7#16) {v : Nat} (hv : v = (opnd s 0).toNat)
    (heven : v % 2 = 0) (hf : v + 6 ≤ 2 * s.words) {z : Nat}
    (hz : z = intAlignUp (opnd s 1).toNat) :
    (s.spb.toNat ≤ s.csp.toNat + z ∧
      ∃ s', execute lib code maxpc s = .ok (eSTRSTKOVERFLOW, s')) ∨
    (s.csp.toNat + z < s.spb.toNat ∧
      ∃ s', execute lib code maxpc s = .ok (eNOERROR, s') ∧
        strLen s'.mem v = 0 ∧ strBuf s'.mem v = (s.csp.toNat + 1) / 2 * 2 ∧
        (s'.mem (v / 2 + 2)).toNat = z ∧ s'.csp.toNat = (s.csp.toNat + 1) / 2 * 2 + z ∧
        (∀ i, i ≠ v / 2 → i ≠ v / 2 + 1 → i ≠ v / 2 + 2 → s'.mem i = s.mem i) ∧
        s' = { s with sp := s.sp - 4#16, pc := s.pc + 3#16, csp := s'.csp, mem := s'.mem }) := by
  obtain ⟨r1, r2⟩ := hr
  have htop : s.top = s.sp.toNat / 2 := rfl
  have hsb : s.spb.toNat < 65536 := s.spb.isLt
  have hzl : z < 65536 := by rw [hz, intAlignUp]; omega
  have hzw : (BitVec.ofNat 16 (intAlignUp (opnd s 1).toNat)).toNat = z := by
    rw [BitVec.toNat_ofNat, ← hz]; omega
  rw [strlib_exec hlib hi]
  simp only [Str.strOps, show (0x7#16).toNat = 7 from rfl]
  rw [Str.pop0 s r2, Res.ok_bind, Str.pop1 s (by omega) r2, Res.ok_bind]
  have e0 : s.mem (s.top - 0) = opnd s 0 := rfl
  have e1 : s.mem (s.top - 1) = opnd s 1 := rfl
  simp only [e0, e1, Str.strInit, hzw]
  rw [← hv, show (v + 2) / 2 = v / 2 + 1 by omega, show (v + 4) / 2 = v / 2 + 2 by omega]
  by_cases hfull : s.spb.toNat ≤ s.csp.toNat + z
  · left
    refine ⟨hfull, ?_⟩
    rw [if_pos hfull, Res.ok_bind]
    simp only
    rw [VM.wr_eq _ _ (by show _ < s.words; omega), Res.ok_bind]
    exact ⟨_, rfl⟩
  · right
    refine ⟨by omega, ?_⟩
    rw [if_neg hfull]
    rw [VM.wr_eq _ _ (by show _ < s.words; omega), Res.ok_bind,
      VM.wr_eq _ _ (by show _ < s.words; omega)]
    simp only [Res.pure_eq, Res.ok_bind]
    rw [VM.wr_eq _ _ (by show _ < s.words; omega), Res.ok_bind]
    have ha : (BitVec.ofNat 16 (intAlignUp s.csp.toNat)).toNat = (s.csp.toNat + 1) / 2 * 2 := by
      rw [BitVec.toNat_ofNat, intAlignUp]; omega
    refine ⟨_, rfl, ?_, ?_, ?_, ?_, ?_, rfl⟩
    · show (updW (updW (updW s.mem (v / 2 + 1) _) (v / 2) _) (v / 2 + 2) _ (v / 2)).toNat = _
      rw [updW_other _ _ (by omega), updW_same]; rfl
    · show (updW (updW (updW s.mem (v / 2 + 1) _) (v / 2) _) (v / 2 + 2) _ (v / 2 + 1)).toNat = _
      rw [updW_other _ _ (by omega), updW_other _ _ (by omega), updW_same, ha]
    · show (updW (updW (updW s.mem (v / 2 + 1) _) (v / 2) _) (v / 2 + 2) _ (v / 2 + 2)).toNat = _
      rw [updW_same, hzw]
    · show (BitVec.ofNat 16 (intAlignUp s.csp.toNat) +
        BitVec.ofNat 16 (intAlignUp (opnd s 1).toNat)).toNat = _
      rw [BitVec.toNat_add, ha, hzw]; omega
    · intro i i1 i2 i3
      show updW (updW (updW s.mem (v / 2 + 1) _) (v / 2) _) (v / 2 + 2) _ i = _
      rw [updW_other _ _ i3, updW_other _ _ i1, updW_other _ _ i2]

/-- **C27**: initialising a string variable makes it an empty string with a buffer of at least
the size asked for (rounded up to even), which starts at or above the string stack pointer and
ends at the new string stack pointer. -/
theorem C27_init (lib : Lib) (cfg : Str.Cfg) (hlib : lib.strOps = Str.strOps cfg)
    (code : List Byte) (maxpc : Word) (s : VM) (hr : Room s 2)
    (hi : Insn code maxpc s .strlib 0 0x7#16) (v n : Nat) (hv : v = (opnd s 0).toNat)
    (hn : n = (opnd s 1).toNat) (heven : v % 2 = 0) (hf : v + 6 ≤ 2 * s.words) (hsz : n < 4094)
    (hroom : s.csp.toNat + n + 1 < s.spb.toNat) :
    ∃ s', execute lib code maxpc s = .ok (eNOERROR, s') ∧ strVal s'.mem v = [] ∧
      n ≤ strCap s'.mem v ∧ s.csp.toNat ≤ strBuf s'.mem v ∧
      strBuf s'.mem v + strCap s'.mem v = s'.csp.toNat ∧ s'.csp.toNat ≤ s.csp.toNat + n + 2 ∧
      ∀ x, (x < v ∨ v + 6 ≤ x) → byte s'.mem x = byte s.mem x := by
  rcases init_exec hlib hr hi hv heven hf rfl with ⟨h, _⟩ | ⟨h, s', a1, a2, a3, a4, a5, a6, a7⟩
  · rw [← hn] at h
    unfold intAlignUp at h
    omega
  · rw [← hn] at h a4 a5
    have hz : intAlignUp n = (n + 1) / 2 * 2 := by unfold intAlignUp; omega
    rw [hz] at a4 a5
    have hc : strCap s'.mem v = (n + 1) / 2 * 2 := by unfold strCap; rw [a4]; omega
    refine ⟨s', a1, by unfold strVal; rw [a2]; rfl, by omega, by omega, by omega, by omega, ?_⟩
    intro x hx
    unfold byte
    rw [a6 (x / 2) (by omega) (by omega) (by omega)]

/-- All buffers lie below the string stack pointer, the younger above the older ones. -/
theorem strHist_inv {lib : Lib} {cfg : Str.Cfg} (hlib : lib.strOps = Str.strOps cfg)
    {code : List Byte} {maxpc : Word} {live : List Block} {s : VM}
    (h : StrHist lib code maxpc live s) :
    (∀ b ∈ live, b.addr + b.size ≤ s.csp.toNat) ∧ live.Pairwise Block.Disjoint := by
  induction h with
  | start => exact ⟨fun b hb => absurd hb (List.not_mem_nil), .nil⟩
  | other _ csp ih => rw [csp]; exact ih
  | init _ room insn even fields run ih =>
    rcases init_exec hlib room insn rfl even fields rfl with
      ⟨_, s1, h1⟩ | ⟨h, s1, a1, a2, a3, a4, a5, a6, a7⟩
    · rw [h1] at run
      simp only [Res.ok.injEq, Prod.mk.injEq] at run
      exact absurd run.1 (by decide)
    · rw [a1] at run
      simp only [Res.ok.injEq, Prod.mk.injEq, true_and] at run
      subst run
      obtain ⟨i1, i2⟩ := ih
      refine ⟨fun b hb => ?_, .cons (fun b hb => ?_) i2⟩
      · rcases List.mem_cons.1 hb with rfl | hb
        · show strBuf s1.mem _ + (s1.mem _).toNat ≤ s1.csp.toNat
          rw [a3, a4, a5]; exact Nat.le_refl _
        · have := i1 b hb; omega
      · right
        show b.addr + b.size ≤ strBuf _ _
        have := i1 b hb
        omega
  | leave _ _ csp _ ih => rw [csp]; exact ih

/-- **C27**: at every moment of a program's run, the buffers of all live string variables are
disjoint and lie below the string stack pointer, however routines are nested. -/
theorem C27_disjoint (lib : Lib) (cfg : Str.Cfg) (hlib : lib.strOps = Str.strOps cfg)
    (code : List Byte) (maxpc : Word) (live : List Block) (s : VM)
    (h : StrHist lib code maxpc live s) :
    live.Pairwise Block.Disjoint ∧ ∀ b ∈ live, b.addr + b.size ≤ s.csp.toNat :=
  ⟨(strHist_inv hlib h).2, (strHist_inv hlib h).1⟩

/-- Allocation of a temporary in a stack-like heap history. -/
theorem tmp_alloc {live : List Block} {s : VM} (hinv : HeapInv live s) {size : Nat}
    (h0 : 0 < size) (h1 : size ≤ 0xfff) :
    Heap.allocTmpString s size = .ok (0, size + 0x8000, s) ∨
    ∃ a m f, Heap.allocTmpString s size =
        .ok (a, size + 0x8000, { s with mem := m, freeChunks := f }) ∧
      a ≠ 0 ∧ a < 65536 ∧ a + size ≤ 2 * s.words ∧ (Block.mk a size).Inside s ∧
      (∀ b ∈ live, (Block.mk a size).Disjoint b) ∧
      (∀ j, (2 * j < s.hpb.toNat ∨ ∃ b ∈ live, b.Owns j) → m j = s.mem j) ∧
      HeapInv (⟨a, size⟩ :: live) { s with mem := m, freeChunks := f } := by
  obtain ⟨h, t, e, last, i⟩ := hinv
  rw [Heap.allocTmpString, if_pos ⟨h0, h1⟩]
  by_cases hf : e + footprint size ≤ t
  · right
    obtain ⟨m, f, e', z, a1, a2, a3⟩ := alloc_ok i h0 (by omega) hf
    rw [a1, Res.ok_bind]
    have hs := i.hs; have ts := i.ts; have := i.fits; have := i.words; have := i.le
    have hle := i.used.le
    have hbig := i.big
    unfold footprint at hf
    refine ⟨e + 8, m, f, rfl, by omega, by omega, by omega, ?_, ?_, ?_, ⟨h, t, e', z, a2⟩⟩
    · constructor
      · show s.hpb.toNat ≤ e + 8; omega
      · show e + 8 + size ≤ s.hpb.toNat + s.hpSize.toNat
        omega
    · intro b hb
      have := i.used.mem b hb
      right
      show b.addr + b.size ≤ e + 8
      omega
    · intro j hj
      apply a3
      rcases hj with hj | ⟨b, hb, ho⟩
      · omega
      · have := i.used.mem b hb
        unfold Block.Owns at ho
        omega
  · left
    rw [alloc_fail i (by omega) hf]; rfl

theorem heapInv_bounds {live : List Block} {s : VM} (hinv : HeapInv live s) :
    s.hpb.toNat ≤ 2 * s.words ∧
    ∀ b ∈ live, s.hpb.toNat ≤ b.addr ∧ b.addr + b.size ≤ 2 * s.words := by
  obtain ⟨h, t, e, last, i⟩ := hinv
  have hs := i.hs; have ts := i.ts; have := i.fits; have := i.words; have := i.le
  have hbig := i.big
  refine ⟨by omega, fun b hb => ?_⟩
  have := i.used.mem b hb
  omega

theorem readable_bound {live : List Block} {s : VM} (hinv : HeapInv live s) {a n : Nat}
    (h : Readable live s a n) : a + n ≤ 2 * s.words := by
  obtain ⟨b1, b2⟩ := heapInv_bounds hinv
  rcases h with h | ⟨b, hb, h1, h2⟩
  · omega
  · have := b2 b hb; omega

theorem readable_word {live : List Block} {s : VM} {x : Nat} (h : Readable live s x 1) :
    2 * (x / 2) < s.hpb.toNat ∨ ∃ b ∈ live, b.Owns (x / 2) := by
  rcases h with h | ⟨b, hb, h1, h2⟩
  · left; omega
  · right; exact ⟨b, hb, by unfold Block.Owns; omega⟩

theorem readable_sub {live : List Block} {s : VM} {a n i k : Nat} (h : Readable live s a n)
    (hi : i + k ≤ n) : Readable live s (a + i) k := by
  rcases h with h | ⟨b, hb, h1, h2⟩
  · left; omega
  · right; exact ⟨b, hb, by omega, by omega⟩

/-- A new block is apart from everything readable. -/
theorem readable_apart {live : List Block} {s : VM} {a n d k : Nat} (h : Readable live s a n)
    (hin : (Block.mk d k).Inside s) (hdis : ∀ b ∈ live, (Block.mk d k).Disjoint b) :
    Apart d k a n := by
  unfold Apart
  rcases h with h | ⟨b, hb, h1, h2⟩
  · have : s.hpb.toNat ≤ d := hin.1
    omega
  · have : d + k ≤ b.addr ∨ b.addr + b.size ≤ d := hdis b hb
    omega

/-- The description of a string is left on the stack. -/
theorem describe {s : VM} (h1 : 2 ≤ s.sp.toNat / 2) (h2 : s.sp.toNat / 2 < s.words) (a b c : Word) :
    ∃ m, (do
      let s ← s.setTos 2 c
      let s ← s.setTos 1 b
      let s ← s.setTos 0 a
      pure s : Res VM) = .ok { s with mem := m } ∧
      m (s.sp.toNat / 2) = a ∧ m (s.sp.toNat / 2 - 1) = b ∧ m (s.sp.toNat / 2 - 2) = c ∧
      ∀ i, (i + 2 < s.sp.toNat / 2 ∨ s.sp.toNat / 2 < i) → m i = s.mem i := by
  have ht : s.top = s.sp.toNat / 2 := rfl
  rw [VM.setTos_eq s _ h2 (by omega), Res.ok_bind,
    VM.setTos_eq _ _ (by exact h2) (by exact Nat.le_of_succ_le h1),
    Res.ok_bind, VM.setTos_eq _ _ (by exact h2) (Nat.zero_le _)]
  refine ⟨_, rfl, ?_, ?_, ?_, ?_⟩
  · exact updW_same _ _ _
  · show updW (updW (updW s.mem (s.top - 2) c) (s.top - 1) b) (s.top - 0) a (s.top - 1) = b
    rw [updW_other _ _ (by omega), updW_same]
  · show updW (updW (updW s.mem (s.top - 2) c) (s.top - 1) b) (s.top - 0) a (s.top - 2) = c
    rw [updW_other _ _ (by omega), updW_other _ _ (by omega), updW_same]
  · intro i hi
    show updW (updW (updW s.mem (s.top - 2) c) (s.top - 1) b) (s.top - 0) a i = _
    rw [updW_other _ _ (by omega), updW_other _ _ (by omega), updW_other _ _ (by omega)]

theorem dup_run {lib : Lib} {cfg : Str.Cfg} (hlib : lib.strOps = Str.strOps cfg)
    {code : List Byte} {maxpc : Word} {live : List Block} {s : VM} (hinv : HeapInv live s)
    (hb0 : 0 < cfg.bufSize) (hb1 : cfg.bufSize ≤ 0xfff) (hc : DupCall code maxpc live s) :
    ∃ s', execute lib code maxpc s = .ok (Str.eNOMEMORY, s') ∨
      execute lib code maxpc s = .ok (eNOERROR, s') ∧ s'.sp = s.sp ∧ s'.pc = s.pc + 3#16 ∧
      ∃ b, HeapInv (b :: live) s' ∧ NewTemp live s s' b
        ((text s.mem (opnd s 1).toNat (opnd s 2).toNat).take cfg.bufSize) := by
  obtain ⟨hr, hstk, hi, htmp, hsrc⟩ := hc
  obtain ⟨r1, r2⟩ := hr
  have ht : s.top = s.sp.toNat / 2 := rfl
  have e0 : s.mem (s.top - 0) = opnd s 0 := rfl
  have e1 : s.mem (s.top - 1) = opnd s 1 := rfl
  have e2 : s.mem (s.top - 2) = opnd s 2 := rfl
  have hsz := (opnd s 2).isLt
  have hbnd := readable_bound hinv hsrc
  rw [strlib_exec hlib hi]
  simp only [Str.strOps, show (0x9#16).toNat = 9 from rfl]
  rw [VM.tos_eq _ r2 (by omega), Res.ok_bind, VM.tos_eq _ r2 (by omega), Res.ok_bind,
    VM.tos_eq _ r2 (by omega), Res.ok_bind]
  simp only [e0, e1, e2, Str.strDup]
  rcases tmp_alloc hinv hb0 hb1 with ha | ⟨a, m, f, ha, a0, a1, a2, a3, a4, a5, a6⟩
  · rw [ha, Res.ok_bind]
    simp only [if_true, Res.pure_eq, Res.ok_bind]
    rw [Str.freeTmp_plain _ htmp, Res.ok_bind]
    exact ⟨_, .inl rfl⟩
  · rw [ha, Res.ok_bind]
    simp only
    rw [if_neg a0]
    have hap := readable_apart hsrc a3 a4
    unfold Apart at hap
    have hn : (if (opnd s 2).toNat > cfg.bufSize then cfg.bufSize else (opnd s 2).toNat) =
        min cfg.bufSize (opnd s 2).toNat := by split <;> omega
    rw [hn]
    obtain ⟨k, k1, k2, k3⟩ := Str.memcpy_ok (s := { s with mem := m, freeChunks := f }) (d := a)
      (a := (opnd s 1).toNat) (n := min cfg.bufSize (opnd s 2).toNat)
      (by show _ ≤ 2 * s.words; omega) (by show _ ≤ 2 * s.words; omega) (by unfold Apart; omega)
    rw [k1, Res.ok_bind]
    obtain ⟨q, q1, q2, q3, q4, q5⟩ := describe (s := { s with mem := k, freeChunks := f })
      (by show 2 ≤ s.sp.toNat / 2; omega) r2 (BitVec.ofNat 16 (cfg.bufSize + 0x8000))
      (BitVec.ofNat 16 a) (BitVec.ofNat 16 (min cfg.bufSize (opnd s 2).toNat))
    have q1' : ∀ g : Nat × VM → Res (Nat × VM), (do
        let s ← ({ s with mem := k, freeChunks := f } : VM).setTos 2
          (BitVec.ofNat 16 (min cfg.bufSize (opnd s 2).toNat))
        let s ← s.setTos 1 (BitVec.ofNat 16 a)
        let s ← s.setTos 0 (BitVec.ofNat 16 (cfg.bufSize + 0x8000))
        g (eNOERROR, s)) = g (eNOERROR, { s with mem := q, freeChunks := f }) := by
      intro g
      have := congrArg (fun r : Res VM => r >>= fun s => g (eNOERROR, s)) q1
      simpa only [bind_assoc, Res.pure_eq, Res.ok_bind] using this
    simp only [bind_assoc, Res.pure_eq, Res.ok_bind]
    rw [q1' fun x => do
      let s ← Str.freeTmp x.2 (opnd s 1) (opnd s 0)
      .ok (x.1, { s with pc := s.pc + 3#16 })]
    rw [Str.freeTmp_plain _ htmp, Res.ok_bind]
    have hpb : s.hpb.toNat ≤ a := a3.1
    have qb : ∀ x, (x / 2 + 2 < s.sp.toNat / 2 ∨ s.sp.toNat / 2 < x / 2) → byte q x = byte k x :=
      fun x hx => by unfold byte; rw [q5 _ hx]
    refine ⟨_, .inr ⟨rfl, rfl, rfl, ⟨a, cfg.bufSize⟩, ?_, ?_, ?_, ?_, ?_, a3, a4, ?_, ?_⟩⟩
    · obtain ⟨h, t, e, l, i⟩ := a6
      refine ⟨h, t, e, l, Inv.client i ⟨rfl, rfl, rfl, rfl, fun j hj ho => ?_⟩⟩
      have hj : s.hpb.toNat ≤ 2 * j + 1 := hj
      have : ¬(a ≤ 2 * j + 1 ∧ 2 * j < a + cfg.bufSize) := ho _ (List.mem_cons_self ..)
      show q j = m j
      rw [q5 j (by right; show s.sp.toNat / 2 < j; omega)]
      exact Str.word_of_bytes (k3 _ (by omega)) (k3 _ (by omega))
    · show (q (s.sp.toNat / 2 - 0)).toNat = _
      rw [Nat.sub_zero, q2, BitVec.toNat_ofNat]; show _ = cfg.bufSize + 32768; omega
    · show (q (s.sp.toNat / 2 - 1)).toNat = _
      rw [q3, BitVec.toNat_ofNat]; show _ = a; omega
    · show (q (s.sp.toNat / 2 - 2)).toNat = _
      rw [q4, BitVec.toNat_ofNat, List.length_take, Str.text_length]; omega
    · rw [List.length_take]; show _ ≤ cfg.bufSize; omega
    · rw [Str.text_take, Str.text_length]
      apply Str.text_congr
      intro i hi
      show byte q (a + i) = _
      rw [qb _ (by omega), k2 i hi]
      have := a5 _ (readable_word (readable_sub hsrc (i := i) (k := 1) (by omega)))
      show BitVec.extractLsb' _ 8 (m _) = BitVec.extractLsb' _ 8 (s.mem _)
      rw [this]
    · intro x x1 x2
      have hx := readable_apart x1 a3 a4
      unfold Apart at hx
      show byte q x = _
      rw [qb _ x2, k3 x (by omega)]
      show BitVec.extractLsb' _ 8 (m _) = BitVec.extractLsb' _ 8 (s.mem _)
      rw [a5 _ (readable_word x1)]

theorem substr_run {lib : Lib} {cfg : Str.Cfg} (hlib : lib.strOps = Str.strOps cfg)
    {code : List Byte} {maxpc : Word} {live : List Block} {s : VM} (hinv : HeapInv live s)
    (hcall : SubstrCall code maxpc live s) {pos n : Nat} {str : List Byte}
    (hp : pos = (opnd s 1).toNat) (hn : n = (opnd s 0).toNat)
    (hstr : str = text s.mem (opnd s 3).toNat (opnd s 4).toNat) :
    ∃ s', execute lib code maxpc s = .ok (Str.eNOMEMORY, s') ∨
      execute lib code maxpc s = .ok (eNOERROR, s') ∧ s'.sp = s.sp - 4#16 ∧
      s'.pc = s.pc + 3#16 ∧ ∃ b, HeapInv (b :: live) s' ∧
        NewTemp live s s' b (if pos = 0 then [] else (str.drop (pos - 1)).take n) := by
  obtain ⟨hr, hstk, hi, hsrc, hcap0, hcap, hap⟩ := hcall
  obtain ⟨r1, r2⟩ := hr
  have ht : s.top = s.sp.toNat / 2 := rfl
  have e0 : s.mem (s.top - 0) = opnd s 0 := rfl
  have e1 : s.mem (s.top - 1) = opnd s 1 := rfl
  have e2 : s.mem (s.top - 2) = opnd s 2 := rfl
  have e3 : s.mem (s.top - 3) = opnd s 3 := rfl
  have e4 : s.mem (s.top - 4) = opnd s 4 := rfl
  have hsz := (opnd s 4).isLt
  have hnl : n < 65536 := by rw [hn]; exact BitVec.isLt _
  have hbnd := readable_bound hinv hsrc
  unfold Apart at hap
  have tp : (s.sp - 4#16).toNat / 2 = s.top - 2 := Str.topK s 2 4#16 rfl (by omega) s.mem
  have tp0 : ({ s with sp := s.sp - 4#16 } : VM).top = s.top - 2 := tp
  have tpm : ∀ m f, ({ s with sp := s.sp - 4#16, mem := m, freeChunks := f } : VM).top = s.top - 2 :=
    fun _ _ => tp
  rw [strlib_exec hlib hi]
  simp only [Str.strOps, show (0xf#16).toNat = 15 from rfl, Str.copySubStr]
  rw [Str.pop0 s r2, Res.ok_bind, Str.pop1 s (by omega) r2, Res.ok_bind]
  simp only
  rw [VM.tos_eq _ (by rw [tp0]; show _ < s.words; omega) (by omega), Res.ok_bind,
    VM.tos_eq _ (by rw [tp0]; show _ < s.words; omega) (by omega), Res.ok_bind,
    VM.tos_eq _ (by rw [tp0]; show _ < s.words; omega) (by omega), Res.ok_bind, tp0]
  simp only [show s.top - 2 - 0 = s.top - 2 by omega, show s.top - 2 - 1 = s.top - 3 by omega,
    show s.top - 2 - 2 = s.top - 4 by omega, e0, e1, e2, e3, e4]
  rw [← hp, ← hn, Str.capacity, mask_toNat]
  have hinv2 : HeapInv live { s with sp := s.sp - 4#16 } := by
    obtain ⟨h, t, e, l, i⟩ := hinv
    exact ⟨h, t, e, l, Inv.regs i s.pc (s.sp - 4#16)⟩
  generalize hcp : (opnd s 2).toNat % 4096 = cap at *
  rcases tmp_alloc hinv2 hcap0 (by omega) with ha | ⟨a, m, f, ha, a0, a1, a2, a3, a4, a5, a6⟩
  · rw [ha, Res.ok_bind]
    simp only [if_true, Res.pure_eq, Res.ok_bind]
    exact ⟨_, .inl rfl⟩
  · rw [ha, Res.ok_bind]
    simp only
    rw [if_neg a0]
    have apt := readable_apart hsrc a3 a4
    unfold Apart at apt
    have hpb : s.hpb.toNat ≤ a := a3.1
    rw [VM.setTos_eq _ _ (by rw [tpm]; show _ < s.words; omega) (by omega), Res.ok_bind,
      VM.setTos_eq _ _ (by rw [tpm]; show _ < s.words; omega) (by rw [tpm]; omega), Res.ok_bind,
      VM.setTos_eq _ _ (by rw [tpm]; show _ < s.words; omega) (by rw [tpm]; omega), Res.ok_bind]
    simp only [tpm, show s.top - 2 - 0 = s.top - 2 by omega,
      show s.top - 2 - 1 = s.top - 3 by omega, show s.top - 2 - 2 = s.top - 4 by omega]
    -- memory with the description of the (still empty) temporary
    generalize hm' : updW (updW (updW m (s.top - 2) (BitVec.ofNat 16 (cap + 0x8000))) (s.top - 3)
      (BitVec.ofNat 16 a)) (s.top - 4) 0#16 = m'
    have d0 : m' (s.top - 2) = BitVec.ofNat 16 (cap + 0x8000) := by
      rw [← hm', updW_other _ _ (by omega), updW_other _ _ (by omega), updW_same]
    have d1 : m' (s.top - 3) = BitVec.ofNat 16 a := by
      rw [← hm', updW_other _ _ (by omega), updW_same]
    have d2 : m' (s.top - 4) = 0#16 := by rw [← hm', updW_same]
    have d3 : ∀ i, (i < s.top - 4 ∨ s.top - 2 < i) → m' i = m i := fun i hi => by
      rw [← hm', updW_other _ _ (by omega), updW_other _ _ (by omega), updW_other _ _ (by omega)]
    have d4 : ∀ x, Readable live s x 1 → (x / 2 < s.top - 4 ∨ s.top - 2 < x / 2) →
        byte m' x = byte s.mem x := fun x x1 x2 => by
      unfold byte; rw [d3 _ x2, a5 _ (readable_word x1)]
    have hlen : str.length = (opnd s 4).toNat := by rw [hstr, Str.text_length]
    by_cases hc : pos ≥ 1 ∧ pos ≤ (opnd s 4).toNat ∧ n > 0
    · rw [if_pos hc]
      have hcnt : (if pos - 1 + (if n > (opnd s 2).toNat then (opnd s 2).toNat else n) >
            (opnd s 4).toNat then (opnd s 4).toNat - (pos - 1)
          else if n > (opnd s 2).toNat then (opnd s 2).toNat else n) =
          min n ((opnd s 4).toNat - (pos - 1)) := by
        have : (opnd s 4).toNat ≤ (opnd s 2).toNat := by omega
        split <;> split <;> (try split at *) <;> omega
      simp only [hcnt]
      obtain ⟨k, k1, k2, k3⟩ := Str.memcpy_ok
        (s := { s with sp := s.sp - 4#16, mem := m', freeChunks := f }) (d := a)
        (a := (opnd s 3).toNat + (pos - 1)) (n := min n ((opnd s 4).toNat - (pos - 1)))
        (by
          have : a + cap ≤ 2 * s.words := a2
          show _ ≤ 2 * s.words; omega)
        (by show _ ≤ 2 * s.words; omega) (by unfold Apart; omega)
      rw [k1, Res.ok_bind, VM.setTos_eq _ _ (by rw [tpm]; show _ < s.words; omega)
        (by rw [tpm]; omega), Res.ok_bind]
      simp only [tpm, Res.pure_eq, Res.ok_bind, show s.top - 2 - 2 = s.top - 4 by omega]
      have hkeep : ∀ j, j ≤ s.top → k j = m' j := fun j hj =>
        Str.word_of_bytes (k3 _ (.inl (by omega))) (k3 _ (.inl (by omega)))
      refine ⟨_, .inr ⟨rfl, rfl, rfl, ⟨a, cap⟩, ?_, ?_⟩⟩
      · obtain ⟨h, t, e, l, i⟩ := a6
        refine ⟨h, t, e, l, Inv.client i ⟨rfl, rfl, rfl, rfl, fun j hj ho => ?_⟩⟩
        have hj : s.hpb.toNat ≤ 2 * j + 1 := hj
        have : ¬(a ≤ 2 * j + 1 ∧ 2 * j < a + cap) := ho _ (List.mem_cons_self ..)
        show updW k (s.top - 4) _ j = m j
        rw [updW_other _ _ (by omega), ← d3 j (by omega)]
        exact Str.word_of_bytes (k3 _ (by omega)) (k3 _ (by omega))
      rw [if_neg (by omega)]
      have hl : ((str.drop (pos - 1)).take n).length = min n ((opnd s 4).toNat - (pos - 1)) := by
        rw [List.length_take, List.length_drop, hlen]
      refine ⟨?_, ?_, ?_, by rw [hl]; show _ ≤ cap; omega, a3, a4, ?_, ?_⟩
      · show (updW k (s.top - 4) _ ((s.sp - 4#16).toNat / 2 - 0)).toNat = _
        rw [tp, updW_other _ _ (by omega), hkeep _ (by omega), Nat.sub_zero, d0,
          BitVec.toNat_ofNat]
        show _ = cap + 32768
        omega
      · show (updW k (s.top - 4) _ ((s.sp - 4#16).toNat / 2 - 1)).toNat = _
        rw [tp, updW_other _ _ (by omega), hkeep _ (by omega),
          show s.top - 2 - 1 = s.top - 3 by omega, d1, BitVec.toNat_ofNat]
        show _ = a
        omega
      · show (updW k (s.top - 4) _ ((s.sp - 4#16).toNat / 2 - 2)).toNat = _
        rw [tp, show s.top - 2 - 2 = s.top - 4 by omega, updW_same, hl, BitVec.toNat_ofNat]
        omega
      · rw [hl, hstr, Str.text_drop, Str.text_take]
        apply Str.text_congr
        intro i hi
        show byte (updW k (s.top - 4) _) (a + i) = _
        rw [Str.byte_updW _ _ (by omega), k2 i hi]
        exact d4 _ (by
          have := readable_sub hsrc (i := pos - 1 + i) (k := 1) (by omega)
          rw [show (opnd s 3).toNat + (pos - 1 + i) = (opnd s 3).toNat + (pos - 1) + i by omega]
            at this
          exact this) (by omega)
      · intro x x1 x2
        have hx := readable_apart x1 a3 a4
        unfold Apart at hx
        have x2' : x / 2 + 2 < s.top - 2 ∨ s.top - 2 < x / 2 := by
          rw [← tp]; exact x2
        show byte (updW k (s.top - 4) _) x = _
        rw [Str.byte_updW _ _ (by omega), k3 x (by omega)]
        exact d4 x x1 (by omega)
    · rw [if_neg hc]
      simp only [Res.pure_eq, Res.ok_bind]
      have hem : (if pos = 0 then [] else (str.drop (pos - 1)).take n) = [] := by
        split
        · rfl
        · apply List.eq_nil_of_length_eq_zero
          rw [List.length_take, List.length_drop, hlen]
          omega
      refine ⟨_, .inr ⟨rfl, rfl, rfl, ⟨a, cap⟩, ?_, ?_⟩⟩
      · obtain ⟨h, t, e, l, i⟩ := a6
        refine ⟨h, t, e, l, Inv.client i ⟨rfl, rfl, rfl, rfl, fun j hj ho => ?_⟩⟩
        have hj : s.hpb.toNat ≤ 2 * j + 1 := hj
        have : ¬(a ≤ 2 * j + 1 ∧ 2 * j < a + cap) := ho _ (List.mem_cons_self ..)
        show m' j = m j
        exact d3 j (by omega)
      rw [hem]
      refine ⟨?_, ?_, ?_, Nat.zero_le _, a3, a4, rfl, ?_⟩
      · show (m' ((s.sp - 4#16).toNat / 2 - 0)).toNat = _
        rw [tp, Nat.sub_zero, d0, BitVec.toNat_ofNat]
        show _ = cap + 32768
        omega
      · show (m' ((s.sp - 4#16).toNat / 2 - 1)).toNat = _
        rw [tp, show s.top - 2 - 1 = s.top - 3 by omega, d1, BitVec.toNat_ofNat]
        show _ = a
        omega
      · show (m' ((s.sp - 4#16).toNat / 2 - 2)).toNat = _
        rw [tp, show s.top - 2 - 2 = s.top - 4 by omega, d2]; rfl
      · intro x x1 x2
        have x2' : x / 2 + 2 < s.top - 2 ∨ s.top - 2 < x / 2 := by
          rw [← tp]; exact x2
        exact d4 x x1 (by omega)

/-- A temporary is described on the stack after its characters have been stored. -/
theorem temp_described {live : List Block} {s : VM} {a cap : Nat} {m : Nat → Word} {f : Option Nat} {sp1 : Word}
    (ha : a < 65536) (hcap : cap ≤ 0xfff) (a3 : (Block.mk a cap).Inside s) (a4 : ∀ b ∈ live, (Block.mk a cap).Disjoint b)
    (a5 : ∀ j, (2 * j < s.hpb.toNat ∨ ∃ b ∈ live, b.Owns j) → m j = s.mem j)
    (a6 : HeapInv (⟨a, cap⟩ :: live) { s with sp := sp1, mem := m, freeChunks := f })
    {k : Nat → Word} (k3 : ∀ x, (x < a ∨ a + cap ≤ x) → byte k x = byte m x)
    {t : List Byte} (htl : t.length ≤ cap) (htx : text k a t.length = t)
    {q : Nat → Word} {sp' pc' : Word} {T : Nat} (hT : sp'.toNat / 2 = T) (hT2 : 2 * T + 2 ≤ s.hpb.toNat)
    (q0 : q T = BitVec.ofNat 16 (cap + 0x8000)) (q1 : q (T - 1) = BitVec.ofNat 16 a)
    (q2 : q (T - 2) = BitVec.ofNat 16 t.length) (q5 : ∀ i, (i + 2 < T ∨ T < i) → q i = k i) :
    HeapInv (⟨a, cap⟩ :: live) { s with sp := sp', pc := pc', mem := q, freeChunks := f } ∧
    NewTemp live s { s with sp := sp', pc := pc', mem := q, freeChunks := f } ⟨a, cap⟩ t := by
  have hpb : s.hpb.toNat ≤ a := a3.1
  have qb : ∀ x, (x / 2 + 2 < T ∨ T < x / 2) → byte q x = byte k x :=
    fun x hx => by unfold byte; rw [q5 _ hx]
  refine ⟨?_, ?_, ?_, ?_, htl, a3, a4, ?_, ?_⟩
  · obtain ⟨h, t, e, l, i⟩ := a6
    refine ⟨h, t, e, l, Inv.client i ⟨rfl, rfl, rfl, rfl, fun j hj ho => ?_⟩⟩
    have hj : s.hpb.toNat ≤ 2 * j + 1 := hj
    have : ¬(a ≤ 2 * j + 1 ∧ 2 * j < a + cap) := ho _ (List.mem_cons_self ..)
    show q j = m j
    rw [q5 j (by omega)]
    exact Str.word_of_bytes (k3 _ (by omega)) (k3 _ (by omega))
  · show (q (sp'.toNat / 2 - 0)).toNat = _
    rw [hT, Nat.sub_zero, q0, BitVec.toNat_ofNat]; show _ = cap + 32768; omega
  · show (q (sp'.toNat / 2 - 1)).toNat = _
    rw [hT, q1, BitVec.toNat_ofNat]; show _ = a; omega
  · show (q (sp'.toNat / 2 - 2)).toNat = _
    rw [hT, q2, BitVec.toNat_ofNat]; omega
  · conv => rhs; rw [← htx]
    apply Str.text_congr
    intro i hi
    exact qb _ (by show (a + i) / 2 + 2 < T ∨ T < (a + i) / 2; omega)
  · intro x x1 x2
    have x2' : x / 2 + 2 < T ∨ T < x / 2 := by rw [← hT]; exact x2
    have hx := readable_apart x1 a3 a4
    unfold Apart at hx
    show byte q x = _
    rw [qb _ x2', k3 x (by omega)]
    show BitVec.extractLsb' _ 8 (m _) = BitVec.extractLsb' _ 8 (s.mem _)
    rw [a5 _ (readable_word x1)]

/-- Three words are pushed. -/
theorem push3 {s : VM} (h1 : s.top + 3 < s.words) (h2 : s.top + 3 < 32768) (x y z : Word) :
    ∃ q, (do
      let s ← s.push x
      let s ← s.push y
      let s ← s.push z
      pure s : Res VM) = .ok { s with sp := s.sp + 6#16, mem := q } ∧
      q (s.top + 3) = z ∧ q (s.top + 2) = y ∧ q (s.top + 1) = x ∧
      (∀ i, (i + 2 < s.top + 3 ∨ s.top + 3 < i) → q i = s.mem i) ∧ (s.sp + 6#16).toNat / 2 = s.top + 3 := by
  have ht : s.top = s.sp.toNat / 2 := rfl
  have t1 : ∀ m, ({ s with sp := s.sp + 2#16, mem := m } : VM).top = s.top + 1 := fun _ => VM.add2_div _ (by omega)
  have t2 : ∀ m, ({ s with sp := s.sp + 2#16 + 2#16, mem := m } : VM).top = s.top + 2 := fun m => by
    have h1 : (s.sp + 2#16).toNat / 2 = s.top + 1 := t1 m
    show (s.sp + 2#16 + 2#16).toNat / 2 = s.top + 2
    rw [VM.add2_div _ (by omega), h1]
  rw [VM.push_eq s _ (by omega) (by omega), Res.ok_bind,
    VM.push_eq _ _ (by rw [t1]; show _ < s.words; omega) (by rw [t1]; omega), Res.ok_bind,
    VM.push_eq _ _ (by simp only [t1, t2]; omega) (by simp only [t1, t2]; omega)]
  simp only [t1, t2, Res.pure_eq, Res.ok_bind]
  refine ⟨updW (updW (updW s.mem (s.top + 1) x) (s.top + 2) y) (s.top + 3) z, ?_, updW_same _ _ _, ?_, ?_, ?_, ?_⟩
  · have : s.sp + 2#16 + 2#16 + 2#16 = s.sp + 6#16 := by rw [BitVec.add_assoc, BitVec.add_assoc]; rfl
    simp [this]
  · rw [updW_other _ _ (by omega), updW_same]
  · rw [updW_other _ _ (by omega), updW_other _ _ (by omega), updW_same]
  · intro i hi
    rw [updW_other _ _ (by omega), updW_other _ _ (by omega), updW_other _ _ (by omega)]
  · have h3 : s.sp.toNat / 2 + 3 < 32768 := h2
    have : (s.sp + 6#16).toNat = s.sp.toNat + 6 := by
      rw [BitVec.toNat_add]; simp; omega
    show _ = s.sp.toNat / 2 + 3
    omega

theorem empty_run {lib : Lib} {cfg : Str.Cfg} (hlib : lib.strOps = Str.strOps cfg)
    {code : List Byte} {maxpc : Word} {live : List Block} {s : VM} (hinv : HeapInv live s)
    (hb0 : 0 < cfg.bufSize) (hb1 : cfg.bufSize ≤ 0xfff) (hc : EmptyCall code maxpc s) :
    ∃ s', execute lib code maxpc s = .ok (Str.eNOMEMORY, s') ∨
      execute lib code maxpc s = .ok (eNOERROR, s') ∧ s'.sp = s.sp + 6#16 ∧ s'.pc = s.pc + 3#16 ∧
      ∃ b, HeapInv (b :: live) s' ∧ NewTemp live s s' b [] := by
  obtain ⟨hstk, hi⟩ := hc
  have ht : s.top = s.sp.toNat / 2 := rfl
  have hb := (heapInv_bounds hinv).1
  have hpl := s.hpb.isLt
  rw [strlib_exec hlib hi]
  simp only [Str.strOps, show (0x8#16).toNat = 8 from rfl]
  rcases tmp_alloc hinv hb0 hb1 with ha | ⟨a, m, f, ha, a0, a1, a2, a3, a4, a5, a6⟩
  · rw [ha, Res.ok_bind]
    simp only [if_true, Res.pure_eq, Res.ok_bind]
    exact ⟨_, .inl rfl⟩
  · rw [ha, Res.ok_bind]
    simp only
    rw [if_neg a0]
    obtain ⟨q, q1, q2, q3, q4, q5, q6⟩ := push3 (s := { s with mem := m, freeChunks := f })
      (by show s.sp.toNat / 2 + 3 < s.words; omega) (by show s.sp.toNat / 2 + 3 < 32768; omega) 0#16 (BitVec.ofNat 16 a)
      (BitVec.ofNat 16 (cfg.bufSize + 0x8000))
    have q1' := congrArg (fun r : Res VM => r >>= fun s => Res.ok (eNOERROR, { s with pc := s.pc + 3#16 })) q1
    simp only [bind_assoc, Res.pure_eq, Res.ok_bind] at q1' ⊢
    obtain ⟨p1, p2⟩ := temp_described (t := []) (pc' := s.pc + 3#16) a1 hb1 a3 a4 a5 a6 (k := m) (fun _ _ => rfl)
      (Nat.zero_le _) rfl q6 (by show 2 * (s.sp.toNat / 2 + 3) + 2 ≤ _; omega) q2 q3 q4 q5
    exact ⟨_, .inr ⟨q1', rfl, rfl, ⟨a, cfg.bufSize⟩, p1, p2⟩⟩

theorem char_run {lib : Lib} {cfg : Str.Cfg} (hlib : lib.strOps = Str.strOps cfg)
    {code : List Byte} {maxpc : Word} {live : List Block} {s : VM} (hinv : HeapInv live s)
    (hb0 : 0 < cfg.bufSize) (hb1 : cfg.bufSize ≤ 0xfff) (hc : CharCall code maxpc s) :
    ∃ s', execute lib code maxpc s = .ok (Str.eNOMEMORY, s') ∨
      execute lib code maxpc s = .ok (eNOERROR, s') ∧ s'.sp = s.sp + 4#16 ∧ s'.pc = s.pc + 3#16 ∧
      ∃ b, HeapInv (b :: live) s' ∧ NewTemp live s s' b [(opnd s 0).truncate 8] := by
  obtain ⟨⟨r1, r2⟩, hstk, hi⟩ := hc
  have ht : s.top = s.sp.toNat / 2 := rfl
  have e0 : s.mem (s.top - 0) = opnd s 0 := rfl
  have hb := (heapInv_bounds hinv).1
  have hpl := s.hpb.isLt
  rw [strlib_exec hlib hi]
  simp only [Str.strOps, show (0xa#16).toNat = 10 from rfl]
  rcases tmp_alloc hinv hb0 hb1 with ha | ⟨a, m, f, ha, a0, a1, a2, a3, a4, a5, a6⟩
  · rw [ha, Res.ok_bind]
    simp only [if_true, Res.pure_eq, Res.ok_bind]
    exact ⟨_, .inl rfl⟩
  · have hpb : s.hpb.toNat ≤ a := a3.1
    rw [ha, Res.ok_bind]
    simp only
    rw [if_neg a0, VM.tos_eq _ (by exact r2) (by omega), Res.ok_bind, Str.wrB_eq _ _ (by show a < 2 * s.words; omega),
      Res.ok_bind, VM.setTos_eq _ _ (by exact r2) (by omega), Res.ok_bind]
    have hm0 : m (s.top - 0) = opnd s 0 := a5 _ (.inl (by omega))
    have tp : ∀ k, ({ s with mem := k, freeChunks := f } : VM).top = s.top := fun _ => rfl
    have t1 : ∀ k, ({ s with sp := s.sp + 2#16, mem := k, freeChunks := f } : VM).top = s.top + 1 :=
      fun _ => VM.add2_div _ (by omega)
    simp only [tp, hm0]
    rw [VM.push_eq _ _ (by rw [tp]; show _ < s.words; omega) (by rw [tp]; omega), Res.ok_bind,
      VM.push_eq _ _ (by rw [tp, t1]; show _ < s.words; omega) (by rw [tp, t1]; omega), Res.ok_bind]
    simp only [tp, t1, Res.pure_eq, Res.ok_bind]
    have hsp : s.sp + 2#16 + 2#16 = s.sp + 4#16 := by rw [BitVec.add_assoc]; rfl
    have hT : (s.sp + 4#16).toNat / 2 = s.top + 2 := by
      have : (s.sp + 4#16).toNat = s.sp.toNat + 4 := by rw [BitVec.toNat_add]; simp; omega
      omega
    rw [hsp]
    obtain ⟨p1, p2⟩ := temp_described (t := [(opnd s 0).truncate 8]) (pc' := s.pc + 3#16)
      (q := updW (updW (updW (updB m a ((opnd s 0).truncate 8)) (s.top - 0) 1#16) (s.top + 1) (BitVec.ofNat 16 a))
        (s.top + 2) (BitVec.ofNat 16 (cfg.bufSize + 0x8000)))
      a1 hb1 a3 a4 a5 a6 (k := updB m a ((opnd s 0).truncate 8))
      (fun x hx => by rw [byte_updB, if_neg (by omega)])
      (by simp; omega)
      (by
        show text _ a (0 + 1) = _
        rw [Str.text_succ, Str.text_zero, byte_updB, if_pos rfl]) hT (by omega)
      (updW_same _ _ _)
      (by
        rw [show s.top + 2 - 1 = s.top + 1 by omega, updW_other _ _ (by omega), updW_same])
      (by
        rw [show s.top + 2 - 2 = s.top - 0 by omega, updW_other _ _ (by omega), updW_other _ _ (by omega), updW_same]; rfl)
      (fun i hi => by
        rw [updW_other _ _ (by omega), updW_other _ _ (by omega), updW_other _ _ (by omega)])
    exact ⟨_, .inr ⟨rfl, rfl, rfl, ⟨a, cfg.bufSize⟩, p1, p2⟩⟩

theorem strnlen_ok {s : VM} (n : Nat) : ∀ {a : Nat}, a + n ≤ 2 * s.words →
    Str.strnlen s a n = .ok ((text s.mem a n).takeWhile (· ≠ 0#8)).length := by
  induction n with
  | zero => intro a _; rfl
  | succ n ih =>
    intro a h
    rw [Str.strnlen, Str.rdB_eq s (by omega), Res.ok_bind, Str.text_succ]
    by_cases hz : byte s.mem a = 0#8
    · simp [hz]
    · rw [if_neg hz, ih (by omega)]
      simp [hz]

theorem takeWhile_take_self (p : Byte → Bool) (l : List Byte) : l.takeWhile p = l.take (l.takeWhile p).length := by
  induction l with
  | nil => rfl
  | cons a l ih =>
    by_cases h : p a
    · simp only [List.takeWhile_cons, h, if_true, List.length_cons, List.take_succ_cons]
      exact congrArg _ ih
    · simp [h]

theorem array_run {lib : Lib} {cfg : Str.Cfg} (hlib : lib.strOps = Str.strOps cfg)
    {code : List Byte} {maxpc : Word} {live : List Block} {s : VM} (hinv : HeapInv live s)
    (hb0 : 0 < cfg.bufSize) (hb1 : cfg.bufSize ≤ 0xfff) (hc : ArrayCall code maxpc live s) :
    ∃ s', execute lib code maxpc s = .ok (Str.eNOMEMORY, s') ∨
      execute lib code maxpc s = .ok (eNOERROR, s') ∧ s'.sp = s.sp + 2#16 ∧ s'.pc = s.pc + 3#16 ∧
      ∃ b, HeapInv (b :: live) s' ∧ NewTemp live s s' b
        (((text s.mem (opnd s 0).toNat (opnd s 1).toNat).takeWhile (· ≠ 0#8)).take cfg.bufSize) := by
  obtain ⟨⟨r1, r2⟩, hstk, hi, hsrc⟩ := hc
  have ht : s.top = s.sp.toNat / 2 := rfl
  have e0 : s.mem (s.top - 0) = opnd s 0 := rfl
  have e1 : s.mem (s.top - 1) = opnd s 1 := rfl
  have hb := (heapInv_bounds hinv).1
  have hbnd := readable_bound hinv hsrc
  have hpl := s.hpb.isLt
  have tp : (s.sp - 4#16).toNat / 2 = s.top - 2 := Str.topK s 2 4#16 rfl (by omega) s.mem
  rw [strlib_exec hlib hi]
  simp only [Str.strOps, show (0x4#16).toNat = 4 from rfl, Str.bstr2Str]
  rw [Str.pop0 s r2, Res.ok_bind, Str.pop1 s (by omega) r2, Res.ok_bind]
  simp only [e0, e1]
  rw [strnlen_ok _ (by exact hbnd), Res.ok_bind]
  have hinv2 : HeapInv live { s with sp := s.sp - 4#16 } := by
    obtain ⟨h, t, e, l, i⟩ := hinv
    exact ⟨h, t, e, l, Inv.regs i s.pc (s.sp - 4#16)⟩
  have hlen : ((text s.mem (opnd s 0).toNat (opnd s 1).toNat).takeWhile (· ≠ 0#8)).length ≤ (opnd s 1).toNat := by
    have := (List.takeWhile_sublist (fun x : Byte => decide (x ≠ 0#8))
      (l := text s.mem (opnd s 0).toNat (opnd s 1).toNat)).length_le
    rwa [Str.text_length] at this
  have htk := takeWhile_take_self (fun x : Byte => decide (x ≠ 0#8)) (text s.mem (opnd s 0).toNat (opnd s 1).toNat)
  generalize hL : ((text s.mem (opnd s 0).toNat (opnd s 1).toNat).takeWhile (· ≠ 0#8)) = L at *
  have hn : (if L.length > cfg.bufSize then cfg.bufSize else L.length) = min cfg.bufSize L.length := by split <;> omega
  rw [hn]
  rcases tmp_alloc hinv2 hb0 hb1 with ha | ⟨a, m, f, ha, a0, a1, a2, a3, a4, a5, a6⟩
  · rw [ha, Res.ok_bind]
    simp only [if_true, Res.pure_eq, Res.ok_bind]
    exact ⟨_, .inl rfl⟩
  · rw [ha, Res.ok_bind]
    simp only
    rw [if_neg a0]
    have hap := readable_apart hsrc a3 a4
    unfold Apart at hap
    have a2' : a + cfg.bufSize ≤ 2 * s.words := a2
    obtain ⟨k, k1, k2, k3⟩ := Str.memcpy_ok (s := { s with sp := s.sp - 4#16, mem := m, freeChunks := f }) (d := a)
      (a := (opnd s 0).toNat) (n := min cfg.bufSize L.length)
      (by show _ ≤ 2 * s.words; omega) (by show _ ≤ 2 * s.words; omega) (by unfold Apart; omega)
    rw [k1, Res.ok_bind]
    obtain ⟨q, q1, q2, q3, q4, q5, q6⟩ := push3 (s := { s with sp := s.sp - 4#16, mem := k, freeChunks := f })
      (by show (s.sp - 4#16).toNat / 2 + 3 < s.words; omega) (by show (s.sp - 4#16).toNat / 2 + 3 < 32768; omega)
      (BitVec.ofNat 16 (min cfg.bufSize L.length)) (BitVec.ofNat 16 a) (BitVec.ofNat 16 (cfg.bufSize + 0x8000))
    have q1' := congrArg (fun r : Res VM => r >>= fun s => Res.ok (eNOERROR, { s with pc := s.pc + 3#16 })) q1
    simp only [bind_assoc, Res.pure_eq, Res.ok_bind] at q1' ⊢
    have hTl : (L.take cfg.bufSize).length = min cfg.bufSize L.length := List.length_take
    have hsp : s.sp - 4#16 + 6#16 = s.sp + 2#16 := by
      rw [BitVec.sub_eq_add_neg, BitVec.add_assoc]; rfl
    obtain ⟨p1, p2⟩ := temp_described (s := s) (sp1 := s.sp - 4#16) (t := L.take cfg.bufSize) (pc' := s.pc + 3#16) a1 hb1 a3 a4 a5 a6 (k := k)
      (fun x hx => k3 x (by omega)) (by rw [hTl]; omega)
      (by
        rw [hTl]
        have : L.take cfg.bufSize = text s.mem (opnd s 0).toNat (min cfg.bufSize L.length) := by
          have h' := congrArg (List.take cfg.bufSize) htk
          rw [List.take_take, Str.text_take] at h'
          rw [h']
          congr 1
          omega
        rw [this]
        apply Str.text_congr
        intro i hi
        rw [k2 i hi]
        have := a5 _ (readable_word (readable_sub hsrc (i := i) (k := 1) (by omega)))
        show BitVec.extractLsb' _ 8 (m _) = BitVec.extractLsb' _ 8 (s.mem _)
        rw [this])
      q6 (by show 2 * ((s.sp - 4#16).toNat / 2 + 3) + 2 ≤ s.hpb.toNat; omega) q2 q3 (by rw [hTl]; exact q4) q5
    exact ⟨_, .inr ⟨q1', hsp, rfl, ⟨a, cfg.bufSize⟩, p1, p2⟩⟩

theorem assign_temp_run {lib : Lib} {cfg : Str.Cfg} (hlib : lib.strOps = Str.strOps cfg)
    {code : List Byte} {maxpc : Word} {b : Block} {live : List Block} {s : VM}
    (hinv : HeapInv (b :: live) s) {v size : Word} {n : Nat}
    (hcall : TempAssign code maxpc b s v size n) :
    ∃ s', execute lib code maxpc s = .ok (eNOERROR, s') ∧
      s'.sp = s.sp - BitVec.ofNat 16 (2 * n) ∧ s'.pc = s.pc + 3#16 ∧
      strVal s'.mem v.toNat = (text s.mem b.addr size.toNat).take (strCap s.mem v.toNat) ∧
      HeapInv live s' ∧
      ∀ x, x < s.hpb.toNat → (x < v.toNat ∨ v.toNat + 2 ≤ x) →
        (x < strBuf s.mem v.toNat ∨ strBuf s.mem v.toNat + strCap s.mem v.toNat ≤ x) →
        byte s'.mem x = byte s.mem x := by
  obtain ⟨⟨sub, src, alloc, hc, hi, htmp, hsrc⟩, hr, hv, hsz, heven, hvar, hbuf⟩ := hcall
  rw [← hsrc]
  obtain ⟨b1, b2⟩ := heapInv_bounds hinv
  have hb := b2 b (List.mem_cons_self ..)
  have hb8 : s.hpb.toNat + 8 ≤ b.addr := by
    obtain ⟨h, t, e, l, i⟩ := hinv
    have := i.used.mem b (List.mem_cons_self ..)
    have := i.hs
    omega
  obtain ⟨d, off, hd, he⟩ := copy_exec hlib hc hr hi
  subst hd
  generalize hV : (d + off).toNat = w at *
  obtain ⟨m, h1, h2, h3, h4, h5⟩ := Str.strCpy_ok
    (s := { s with sp := s.sp - BitVec.ofNat 16 (2 * n) }) (src := src) (size := size)
    (d := d) (off := off)
    (by rw [hV]; exact ⟨hv.1, hv.2, hv.3, hv.4⟩) (by show _ ≤ 2 * s.words; omega)
    (by rw [hV]; show _ ≠ strBuf s.mem w; omega)
    (by rw [hV]; left; show strBuf s.mem w + strCap s.mem w ≤ _; omega)
  rw [hV] at h2 h3 h4 h5
  have hlow : ∀ j, s.hpb.toNat ≤ 2 * j + 1 → m j = s.mem j := fun j hj =>
    Str.word_of_bytes
      (h5 _ (by omega) (.inr (by show strBuf s.mem w + strCap s.mem w ≤ _; omega)))
      (h5 _ (by omega) (.inr (by show strBuf s.mem w + strCap s.mem w ≤ _; omega)))
  obtain ⟨h, t, e, l, i⟩ := hinv
  have i2 : Inv { s with sp := s.sp - BitVec.ofNat 16 (2 * n), mem := m } h t e l (b :: live) :=
    Inv.client i ⟨rfl, rfl, rfl, rfl, fun j hj _ => hlow j hj⟩
  obtain ⟨q, f, e', z, f1, f2, f3, f4⟩ := free_ok i2
  have hfree : Str.freeTmp { s with sp := s.sp - BitVec.ofNat 16 (2 * n), mem := m } src alloc =
      .ok { s with sp := s.sp - BitVec.ofNat 16 (2 * n), mem := q, freeChunks := f } := by
    have := alloc.isLt
    unfold Temp at htmp
    rw [Str.freeTmp, Heap.freeTmpString, if_pos (by omega), hsrc, f1]; rfl
  rw [he, h1, Res.ok_bind, hfree, Res.ok_bind]
  have hq : ∀ x, x < s.hpb.toNat → byte q x = byte m x := fun x hx => by
    unfold byte; rw [f4 (x / 2) (by omega)]
  have hw2 : w % 2 = 0 := hv.1
  have fld : ∀ k < 3, q (w / 2 + k) = m (w / 2 + k) := fun k hk =>
    f4 _ (by omega)
  refine ⟨_, rfl, rfl, rfl, ?_, ⟨h, t, e', z, Inv.regs f2 (s.pc + 3#16) _⟩, ?_⟩
  · rw [← h2]
    · have hl : (strVal m w).length = min (strCap s.mem w) size.toNat := by
        rw [h2, List.length_take, Str.text_length]
      rw [strVal, Str.text_length] at hl
      show text q (strBuf q w) (strLen q w) = text m (strBuf m w) (strLen m w)
      have hb : strBuf q w = strBuf m w := congrArg BitVec.toNat (fld 1 (by omega))
      have hl' : strLen q w = strLen m w := congrArg BitVec.toNat (fld 0 (by omega))
      rw [hb, hl']
      apply Str.text_congr
      intro j hj
      have : strBuf m w = strBuf s.mem w := h3
      exact hq _ (by omega)
  · intro x x1 x2 x3
    show byte q x = _
    rw [hq x x1]
    exact h5 x x2 x3

theorem tempHist_inv {lib : Lib} {cfg : Str.Cfg} (hlib : lib.strOps = Str.strOps cfg)
    {other : VM → Byte → Res (Nat × VM)} (hos : lib.osOps = osOps other)
    (hb0 : 0 < cfg.bufSize) (hb1 : cfg.bufSize ≤ 0xfff)
    {code : List Byte} {maxpc : Word} {live : List Block} {s : VM}
    (h : TempHist lib code maxpc live s) : HeapInv live s := by
  have key : ∀ {s' : VM} {b : Block} {live : List Block} {s0 : VM} {t : List Byte},
      HeapInv (b :: live) s' → NewTemp live s0 s' b t →
      HeapInv (⟨(opnd s' 1).toNat, (opnd s' 0).toNat - 32768⟩ :: live) s' := by
    intro s' b live s0 t h1 h2
    rw [h2.addr, h2.alloc, Nat.add_sub_cancel]; exact h1
  induction h with
  | heap h => exact hist_inv hos h
  | other _ step ih =>
    obtain ⟨h, t, e, l, i⟩ := ih
    exact ⟨h, t, e, l, Inv.client i step⟩
  | dup _ call run ih =>
    obtain ⟨s1, h1 | ⟨h1, _, _, b, h2, h3⟩⟩ := dup_run hlib ih hb0 hb1 call
    · rw [h1] at run
      simp only [Res.ok.injEq, Prod.mk.injEq] at run
      exact absurd run.1 (by decide)
    · rw [h1] at run
      simp only [Res.ok.injEq, Prod.mk.injEq, true_and] at run
      subst run
      exact key h2 h3
  | substr _ call run ih =>
    obtain ⟨s1, h1 | ⟨h1, _, _, b, h2, h3⟩⟩ := substr_run hlib ih call rfl rfl rfl
    · rw [h1] at run
      simp only [Res.ok.injEq, Prod.mk.injEq] at run
      exact absurd run.1 (by decide)
    · rw [h1] at run
      simp only [Res.ok.injEq, Prod.mk.injEq, true_and] at run
      subst run
      exact key h2 h3
  | empty _ call run ih =>
    obtain ⟨s1, h1 | ⟨h1, _, _, b, h2, h3⟩⟩ := empty_run hlib ih hb0 hb1 call
    · rw [h1] at run
      simp only [Res.ok.injEq, Prod.mk.injEq] at run
      exact absurd run.1 (by decide)
    · rw [h1] at run
      simp only [Res.ok.injEq, Prod.mk.injEq, true_and] at run
      subst run
      exact key h2 h3
  | char _ call run ih =>
    obtain ⟨s1, h1 | ⟨h1, _, _, b, h2, h3⟩⟩ := char_run hlib ih hb0 hb1 call
    · rw [h1] at run
      simp only [Res.ok.injEq, Prod.mk.injEq] at run
      exact absurd run.1 (by decide)
    · rw [h1] at run
      simp only [Res.ok.injEq, Prod.mk.injEq, true_and] at run
      subst run
      exact key h2 h3
  | array _ call run ih =>
    obtain ⟨s1, h1 | ⟨h1, _, _, b, h2, h3⟩⟩ := array_run hlib ih hb0 hb1 call
    · rw [h1] at run
      simp only [Res.ok.injEq, Prod.mk.injEq] at run
      exact absurd run.1 (by decide)
    · rw [h1] at run
      simp only [Res.ok.injEq, Prod.mk.injEq, true_and] at run
      subst run
      exact key h2 h3
  | assign _ call run ih =>
    obtain ⟨s1, h1, _, _, _, h2, _⟩ := assign_temp_run hlib ih call
    rw [h1] at run
    simp only [Res.ok.injEq, Prod.mk.injEq, true_and] at run
    subst run
    exact h2

/-- **C25** (partial): duplicating a string (done before anything is appended to it) yields a
temporary with the same characters, cut off at the standard buffer size, in a heap block of its
own; the original and all other strings stay as they are.  If the heap has no room, the error
"no memory" is reported.  Partial: stack-like heap histories (compare `C19_blocks_partial`) and a
source that is not itself a temporary. -/
theorem C25_dup_partial (lib : Lib) (cfg : Str.Cfg) (hlib : lib.strOps = Str.strOps cfg)
    (other : VM → Byte → Res (Nat × VM)) (hos : lib.osOps = osOps other)
    (hb0 : 0 < cfg.bufSize) (hb1 : cfg.bufSize ≤ 0xfff)
    (code : List Byte) (maxpc : Word) (live : List Block) (s : VM)
    (hist : TempHist lib code maxpc live s) (call : DupCall code maxpc live s) :
    ∃ s', execute lib code maxpc s = .ok (Str.eNOMEMORY, s') ∨
      execute lib code maxpc s = .ok (eNOERROR, s') ∧ s'.sp = s.sp ∧ s'.pc = s.pc + 3#16 ∧
      ∃ b, NewTemp live s s' b
        ((text s.mem (opnd s 1).toNat (opnd s 2).toNat).take cfg.bufSize) := by
  obtain ⟨s', h | ⟨h1, h2, h3, b, _, h4⟩⟩ :=
    dup_run hlib (tempHist_inv hlib hos hb0 hb1 hist) hb0 hb1 call
  · exact ⟨s', .inl h⟩
  · exact ⟨s', .inr ⟨h1, h2, h3, b, h4⟩⟩

/-- **C25** (partial): `Copy(str, pos, n)` yields a temporary with the (at most `n`) characters of
`str` from position `pos` on, in a heap block of its own; the original and all other strings stay
as they are.  Partial: stack-like heap histories, and a string not longer than its buffer. -/
theorem C25_copy_partial (lib : Lib) (cfg : Str.Cfg) (hlib : lib.strOps = Str.strOps cfg)
    (other : VM → Byte → Res (Nat × VM)) (hos : lib.osOps = osOps other)
    (hb0 : 0 < cfg.bufSize) (hb1 : cfg.bufSize ≤ 0xfff)
    (code : List Byte) (maxpc : Word) (live : List Block) (s : VM)
    (hist : TempHist lib code maxpc live s) (call : SubstrCall code maxpc live s)
    (pos n : Nat) (hp : pos = (opnd s 1).toNat) (hn : n = (opnd s 0).toNat) (str : List Byte)
    (hstr : str = text s.mem (opnd s 3).toNat (opnd s 4).toNat) :
    ∃ s', execute lib code maxpc s = .ok (Str.eNOMEMORY, s') ∨
      execute lib code maxpc s = .ok (eNOERROR, s') ∧ s'.sp = s.sp - 4#16 ∧
      s'.pc = s.pc + 3#16 ∧
      ∃ b, NewTemp live s s' b (if pos = 0 then [] else (str.drop (pos - 1)).take n) := by
  obtain ⟨s', h | ⟨h1, h2, h3, b, _, h4⟩⟩ :=
    substr_run hlib (tempHist_inv hlib hos hb0 hb1 hist) call hp hn hstr
  · exact ⟨s', .inl h⟩
  · exact ⟨s', .inr ⟨h1, h2, h3, b, h4⟩⟩

/-- **C22** (partial): assigning a temporary string (the youngest heap block) to a variable below
the heap stores its first characters, as many as fit, and changes nothing else below the heap;
the temporary's block is given back.  Partial: stack-like heap histories. -/
theorem C22_assign_temp_partial (lib : Lib) (cfg : Str.Cfg) (hlib : lib.strOps = Str.strOps cfg)
    (other : VM → Byte → Res (Nat × VM)) (hos : lib.osOps = osOps other)
    (hb0 : 0 < cfg.bufSize) (hb1 : cfg.bufSize ≤ 0xfff)
    (code : List Byte) (maxpc : Word) (b : Block) (live : List Block) (s : VM)
    (hist : TempHist lib code maxpc (b :: live) s) (v size : Word) (n : Nat)
    (call : TempAssign code maxpc b s v size n) :
    ∃ s', execute lib code maxpc s = .ok (eNOERROR, s') ∧
      s'.sp = s.sp - BitVec.ofNat 16 (2 * n) ∧ s'.pc = s.pc + 3#16 ∧
      strVal s'.mem v.toNat = (text s.mem b.addr size.toNat).take (strCap s.mem v.toNat) ∧
      TempHist lib code maxpc live s' ∧
      ∀ x, x < s.hpb.toNat → (x < v.toNat ∨ v.toNat + 2 ≤ x) →
        (x < strBuf s.mem v.toNat ∨ strBuf s.mem v.toNat + strCap s.mem v.toNat ≤ x) →
        byte s'.mem x = byte s.mem x := by
  obtain ⟨s', h1, h2, h3, h4, _, h5⟩ :=
    assign_temp_run hlib (tempHist_inv hlib hos hb0 hb1 hist) call
  exact ⟨s', h1, h2, h3, h4, .assign hist call h1, h5⟩

end Pas
